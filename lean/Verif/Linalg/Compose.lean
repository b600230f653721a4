/-
Model of `compose_sparse()`.  Sparse blocks are lists of COO entries; nothing (`none`) is an exception.
-/
import Mathlib.Algebra.BigOperators.Group.List.Basic
import Mathlib.Algebra.Group.Nat.Defs

namespace Verif.Linalg

/-- A sparse matrix in the COO format: the shape and the entries `(row, col, value)` (duplicates are
summed). -/
structure Coo (K : Type) where
  m : ℤ
  n : ℤ
  ents : List (ℤ × ℤ × K)

/-- The value at `(i, j)`. -/
def Coo.dense {K : Type} [AddCommMonoid K] (b : Coo K) (i j : ℤ) : K :=
  ((b.ents.filter fun e => e.1 == i && e.2.1 == j).map fun e => e.2.2).sum

/-- SciPy sparse matrices have the entries inside of the shape. -/
def Coo.WF {K : Type} (b : Coo K) : Prop :=
  0 ≤ b.m ∧ 0 ≤ b.n ∧ ∀ e ∈ b.ents, 0 ≤ e.1 ∧ e.1 < b.m ∧ 0 ≤ e.2.1 ∧ e.2.1 < b.n

/-- An item of `row_sizes`, `col_sizes`: an integer or a slice. -/
inductive Size
  | int (n : ℤ)
  | slice (start stop : ℤ)
  deriving DecidableEq

/-- The size given by an item (sfepy/linalg/sparse.py:66-72). -/
def Size.size : Size → ℤ
  | .int n => n
  | .slice a b => b - a

/-- `isinstance(size, slice)` (sfepy/linalg/sparse.py:66). -/
def Size.isSlice : Size → Bool
  | .int _ => false
  | .slice _ _ => true

/-- `slice.start` (sfepy/linalg/sparse.py:169). -/
def Size.start : Size → ℤ
  | .int _ => 0
  | .slice a _ => a

/-- `slice.stop` (sfepy/linalg/sparse.py:168). -/
def Size.stop : Size → ℤ
  | .int _ => 0
  | .slice _ b => b

/-- `_normalize_sizes()` (sfepy/linalg/sparse.py:58-85). -/
def normalizeSizes (sizes : List Size) : Option (List ℤ × Bool) :=
  let ns := (sizes.filter Size.isSlice).length
  if ns ≠ 0 then
    if ns ≠ sizes.length then none else some (sizes.map Size.size, true)
  else some (sizes.map Size.size, false)

/-- `if xs[i] == -1: xs[i] = n, elif xs[i] != n: raise` (sfepy/linalg/sparse.py:147-161). -/
def setSize (xs : List ℤ) (i : ℕ) (n : ℤ) : Option (List ℤ) :=
  if xs.getD i 0 = -1 then some (xs.set i n)
  else if xs.getD i 0 ≠ n then none else some xs

/-- The body of the loop checking the sizes (sfepy/linalg/sparse.py:141-161): the block at
`(ir, ic)`. -/
def checkBlk {K : Type} (ncs ir : ℕ) (s : List ℤ × List ℤ) (p : Option (Coo K) × ℕ) :
    Option (List ℤ × List ℤ) :=
  match p.1 with
  | none => some s
  | some mtx => do
    if p.2 ≥ ncs then none
    else
      let rs ← setSize s.1 ir mtx.m
      let cs ← setSize s.2 p.2 mtx.n
      pure (rs, cs)

/-- The loops checking the sizes (sfepy/linalg/sparse.py:139-161). -/
def checkAll {K : Type} (ncs : ℕ) (blocks : List (List (Option (Coo K)))) (s : List ℤ × List ℤ) :
    Option (List ℤ × List ℤ) :=
  blocks.zipIdx.foldlM (fun s row => row.1.zipIdx.foldlM (checkBlk ncs row.2) s) s

/-- `nm.cumsum(nm.r_[0, xs])`. -/
def cumsum0 (xs : List ℤ) : List ℤ := xs.scanl (· + ·) 0

/-- The block offsets with the total size (sfepy/linalg/sparse.py:167-182). -/
def offsets (isSlice : Bool) (sizes : List Size) (xs : List ℤ) : List ℤ × ℤ :=
  if isSlice then
    let n := (sizes.getLastD (.int 0)).stop
    (sizes.map Size.start ++ [n], n)
  else
    let o := cumsum0 xs
    (o, o.getLastD 0)

/-- The entries of a block moved to its place (sfepy/linalg/sparse.py:187-196). -/
def placed {K : Type} (ro co : List ℤ) (ir : ℕ) (p : Option (Coo K) × ℕ) : List (List (ℤ × ℤ × K)) :=
  match p.1 with
  | none => []
  | some mtx => [mtx.ents.map fun e => (e.1 + ro.getD ir 0, e.2.1 + co.getD p.2 0, e.2.2)]

/-- `compose_sparse()` (sfepy/linalg/sparse.py:87-204).  The conditions `nm.any(rs == -1)`,
`nm.any(cs == -1)` (sfepy/linalg/sparse.py:162-166) compare a list with an integer, so they never
hold.  `nm.concatenate()` of no arrays raises; the constructor of `coo_array` checks the indices and the
shape. -/
def composeSparse {K : Type} (blocks : List (List (Option (Coo K)))) (rowSizes colSizes : Option (List Size)) :
    Option (Coo K) := do
  if blocks = [] then none
  else
    let rsz := rowSizes.getD (List.replicate blocks.length (.int (-1)))
    let csz := colSizes.getD (List.replicate (blocks.headD []).length (.int (-1)))
    if rsz.length ≠ blocks.length ∨ csz.length ≠ (blocks.headD []).length then none
    else
      let r ← normalizeSizes rsz
      let c ← normalizeSizes csz
      let s ← checkAll csz.length blocks (r.1, c.1)
      let ro := offsets r.2 rsz s.1
      let co := offsets c.2 csz s.2
      let parts := blocks.zipIdx.flatMap fun row => row.1.zipIdx.flatMap (placed ro.1 co.1 row.2)
      if parts = [] then none
      else
        let ents := parts.flatten
        if 0 ≤ ro.2 ∧ 0 ≤ co.2 ∧
            ents.all (fun e => 0 ≤ e.1 && e.1 < ro.2 && 0 ≤ e.2.1 && e.2.1 < co.2) then
          some { m := ro.2, n := co.2, ents := ents }
        else none

end Verif.Linalg
