/-
Model of the sorting functions of `sort.c`.

The three quicksorts of the file are the same code for different items: integers compared by `<`, indices of
an array compared by the array items, indices of matrix rows compared by `MTXR_LT`.  The model is the code
with the comparison `lt`.  The array is a function `ℤ → α` (pointers relative to its start are integers);
`n` is its length and each access is checked: the result is nothing for an access out of the bounds, for the
overflow of the stack of postponed intervals, and if the bound of the number of loop passes is reached.
-/
import Mathlib.Logic.Function.Basic
import Mathlib.Data.Int.Notation
import Mathlib.Data.Nat.Notation

namespace Verif.Sort

/-- `*p` of an array of the length `n`. -/
def rd {α : Type} (n : ℤ) (a : ℤ → α) (p : ℤ) : Option α := if 0 ≤ p ∧ p < n then some (a p) else none

/-- `*p = v` of an array of the length `n`. -/
def wr {α : Type} (n : ℤ) (a : ℤ → α) (p : ℤ) (v : α) : Option (ℤ → α) :=
  if 0 ≤ p ∧ p < n then some (Function.update a p v) else none

/-- `SWAP(*p, *q)` (sfepy/discrete/common/extmods/sort.c:26). -/
def swp {α : Type} (n : ℤ) (a : ℤ → α) (p q : ℤ) : Option (ℤ → α) := do
  let temp ← rd n a q
  let x ← rd n a p
  let a ← wr n a q x
  wr n a p temp

/-- `if (LT(*p, *q)) SWAP(*p, *q)` (sfepy/discrete/common/extmods/sort.c:136-138). -/
def cswp {α : Type} (lt : α → α → Bool) (n : ℤ) (a : ℤ → α) (p q : ℤ) : Option (ℤ → α) := do
  let x ← rd n a p
  let y ← rd n a q
  if lt x y then swp n a p q else pure a

/-- `do ++pi; while (LT(*pi, vp))` (sfepy/discrete/common/extmods/sort.c:144). -/
def scanUp {α : Type} (lt : α → α → Bool) (n : ℤ) (a : ℤ → α) (vp : α) : ℕ → ℤ → Option ℤ
  | 0, _ => none
  | fuel + 1, pi => do
    let x ← rd n a (pi + 1)
    if lt x vp then scanUp lt n a vp fuel (pi + 1) else pure (pi + 1)

/-- `do --pj; while (LT(vp, *pj))` (sfepy/discrete/common/extmods/sort.c:145). -/
def scanDown {α : Type} (lt : α → α → Bool) (n : ℤ) (a : ℤ → α) (vp : α) : ℕ → ℤ → Option ℤ
  | 0, _ => none
  | fuel + 1, pj => do
    let x ← rd n a (pj - 1)
    if lt vp x then scanDown lt n a vp fuel (pj - 1) else pure (pj - 1)

/-- The partition loop (sfepy/discrete/common/extmods/sort.c:143-148): the array and `pi`. -/
def partLoop {α : Type} (lt : α → α → Bool) (n : ℤ) (vp : α) (scanFuel : ℕ) :
    ℕ → (ℤ → α) → ℤ → ℤ → Option ((ℤ → α) × ℤ)
  | 0, _, _, _ => none
  | fuel + 1, a, pi, pj => do
    let pi ← scanUp lt n a vp scanFuel pi
    let pj ← scanDown lt n a vp scanFuel pj
    if pi ≥ pj then pure (a, pi)
    else
      let a ← swp n a pi pj
      partLoop lt n vp scanFuel fuel a pi pj

/-- The quicksort partition of `pl, ..., pr` (sfepy/discrete/common/extmods/sort.c:134-149): the array and
the position of the pivot. -/
def partition {α : Type} (lt : α → α → Bool) (n : ℤ) (fuel : ℕ) (a : ℤ → α) (pl pr : ℤ) :
    Option ((ℤ → α) × ℤ) := do
  let pm := pl + (pr - pl) / 2
  let a ← cswp lt n a pm pl
  let a ← cswp lt n a pr pm
  let a ← cswp lt n a pm pl
  let vp ← rd n a pm
  let a ← swp n a pm (pr - 1)
  let r ← partLoop lt n vp fuel fuel a pl (pr - 1)
  let a ← swp n r.1 r.2 (pr - 1)
  pure (a, r.2)

/-- The inner loop of the insertion sort (sfepy/discrete/common/extmods/sort.c:164-168) from
`pj = pl + m`, `pt = pj - 1`, with the final `*pj = vp`. -/
def insInner {α : Type} (lt : α → α → Bool) (n pl : ℤ) (vp : α) : ℕ → (ℤ → α) → Option (ℤ → α)
  | 0, a => wr n a pl vp
  | m + 1, a => do
    let t ← rd n a (pl + m)
    if lt vp t then
      let a ← wr n a (pl + m + 1) t
      insInner lt n pl vp m a
    else wr n a (pl + m + 1) vp

/-- The insertion sort of `pl, ..., pr` (sfepy/discrete/common/extmods/sort.c:161-169). -/
def insertion {α : Type} (lt : α → α → Bool) (n : ℤ) (a : ℤ → α) (pl pr : ℤ) : Option (ℤ → α) :=
  (List.range (pr - pl).toNat).foldlM (fun a k => do
    let vp ← rd n a (pl + (k + 1 : ℕ))
    insInner lt n pl vp (k + 1) a) a

/-- The main loop (sfepy/discrete/common/extmods/sort.c:132-173) with `SMALL_QUICKSORT` 15; the stack has
`PYA_QS_STACK` (100) pointers, i.e. 50 intervals. -/
def mainLoop {α : Type} (lt : α → α → Bool) (n : ℤ) (fuel : ℕ) :
    ℕ → (ℤ → α) → ℤ → ℤ → List (ℤ × ℤ) → Option (ℤ → α)
  | 0, _, _, _, _ => none
  | k + 1, a, pl, pr, stack => do
    if pr - pl > 15 then
      let r ← partition lt n fuel a pl pr
      let pi := r.2
      if stack.length ≥ 50 then none
      else if pi - pl < pr - pi then mainLoop lt n fuel k r.1 pl (pi - 1) ((pi + 1, pr) :: stack)
      else mainLoop lt n fuel k r.1 (pi + 1) pr ((pl, pi - 1) :: stack)
    else
      let a ← insertion lt n a pl pr
      match stack with
      | [] => pure a
      | (pl, pr) :: stack => mainLoop lt n fuel k a pl pr stack

/-- A quicksort of `sort.c` of an array of the length `n`; `fuel` bounds the numbers of passes of the
loops. -/
def quicksort {α : Type} (lt : α → α → Bool) (n : ℕ) (fuel : ℕ) (a : ℤ → α) : Option (ℤ → α) :=
  mainLoop lt n fuel fuel a 0 ((n : ℤ) - 1) []

/-- `int32_quicksort()` (sfepy/discrete/common/extmods/sort.c:125-175). -/
def int32Quicksort (n fuel : ℕ) (a : ℤ → ℤ) : Option (ℤ → ℤ) :=
  quicksort (fun x y => decide (x < y)) n fuel a

/-- `int32_aquicksort()` (sfepy/discrete/common/extmods/sort.c:181-235): the values `v` are only read (at
the indices `tosort`). -/
def int32Aquicksort (v : ℤ → ℤ) (n fuel : ℕ) (tosort : ℤ → ℤ) : Option (ℤ → ℤ) :=
  quicksort (fun x y => decide (v x < v y)) n fuel tosort

/-- `MTXR_LT` (sfepy/discrete/common/extmods/sort.c:29-39) for the columns `ic`. -/
def mtxrLt (rowA rowB : ℕ → ℤ) : List ℕ → Bool
  | [] => false
  | c :: ic => if rowA c < rowB c then true else if rowA c > rowB c then false else mtxrLt rowA rowB ic

/-- `int32_mtx_aquicksort()` (sfepy/discrete/common/extmods/sort.c:242-317): `v` are the matrix rows. -/
def mtxAquicksort (v : ℤ → ℕ → ℤ) (ic : List ℕ) (n fuel : ℕ) (tosort : ℤ → ℤ) : Option (ℤ → ℤ) :=
  quicksort (fun x y => mtxrLt (v x) (v y) ic) n fuel tosort

/-- The variables of the loop permuting rows in `int32_sort_rows()`. -/
structure RowState (R : Type) where
  array : ℤ → R
  perm : ℤ → ℤ

/-- The inner loop (sfepy/discrete/common/extmods/sort.c:99-108) with the row stored in `SWAP_temp` and the
final stores (sfepy/discrete/common/extmods/sort.c:109-110). -/
def chain {R : Type} (n : ℤ) (permI : ℤ → ℤ) (inew : ℤ) : ℕ → RowState R → R → ℤ → Option (RowState R)
  | 0, _, _, _ => none
  | fuel + 1, s, temp, ichain => do
    if inew ≠ ichain then
      let arr ← wr n s.array inew temp
      let temp ← rd n arr ichain
      let x ← rd n arr inew
      let arr ← wr n arr ichain x
      let perm ← wr n s.perm ichain ichain
      let ichain ← rd n permI ichain
      chain n permI inew fuel { array := arr, perm := perm } temp ichain
    else
      let arr ← wr n s.array inew temp
      let perm ← wr n s.perm inew inew
      pure { array := arr, perm := perm }

/-- The body of the loop swapping the rows (sfepy/discrete/common/extmods/sort.c:90-110). -/
def rowStep {R : Type} (n : ℤ) (fuel : ℕ) (permI : ℤ → ℤ) (s : RowState R) (ii : ℤ) :
    Option (RowState R) := do
  let p ← rd n s.perm ii
  if ii = p then pure s
  else
    let temp ← rd n s.array ii
    let x ← rd n s.array p
    let arr ← wr n s.array ii x
    let perm ← wr n s.perm ii ii
    let ichain ← rd n permI ii
    chain n permI p fuel { array := arr, perm := perm } temp ichain

/-- `int32_sort_rows()` (sfepy/discrete/common/extmods/sort.c:62-119). -/
def sortRows (n fuel : ℕ) (array : ℤ → ℕ → ℤ) (ic : List ℕ) : Option (ℤ → ℕ → ℤ) := do
  let perm ← mtxAquicksort array ic n fuel fun i => i
  let permI ← (List.range n).foldlM (fun permI (ii : ℕ) => do
    let p ← rd n perm ii
    wr n permI p (ii : ℤ)) fun _ => 0
  let s ← (List.range n).foldlM (fun s (ii : ℕ) => rowStep n fuel permI s (ii : ℤ)) { array := array, perm := perm }
  pure s.array

end Verif.Sort
