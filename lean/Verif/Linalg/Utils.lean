/-
Model of the array helpers of `sfepy/linalg/utils.py`.  Arrays are lists.
-/
import Mathlib.Data.List.Sort
import Mathlib.Algebra.BigOperators.Group.List.Basic
import Mathlib.LinearAlgebra.Matrix.Determinant.Basic

namespace Verif.Linalg

/-! ### `cycle()` -/

/-- `itertools.product(*pools)`: the loop given in its documentation. -/
def product (pools : List (List ℕ)) : List (List ℕ) :=
  pools.foldl (fun result pool => result.flatMap fun x => pool.map fun y => x ++ [y]) [[]]

/-- `cycle()` (sfepy/linalg/utils.py:231-247). -/
def cycle (bounds : List ℕ) : List (List ℕ) := product (bounds.map List.range)

/-! ### `assemble1d()` -/

/-- `aux.tocsr().tocoo()` of a matrix with one column given by `(indx, ar_in)`: the increasing row
numbers of the entries and the sums of the values of the duplicates (SciPy). -/
def sumDuplicates {K : Type} [AddCommMonoid K] (ents : List (ℕ × K)) : List (ℕ × K) :=
  ((ents.map Prod.fst).dedup.insertionSort (· ≤ ·)).map fun i =>
    (i, ((ents.filter fun e => e.1 == i).map Prod.snd).sum)

/-- `ar[rows] += data` of NumPy: the items are read, added and stored; nothing is an `IndexError`. -/
def fancyAdd {K : Type} [AddCommMonoid K] (ar : List K) (upd : List (ℕ × K)) : Option (List K) :=
  if upd.all fun e => e.1 < ar.length then
    let new := upd.map fun e => (e.1, ar.getD e.1 0 + e.2)
    some (new.foldl (fun a e => a.set e.1 e.2) ar)
  else none

/-- `assemble1d()` (sfepy/linalg/utils.py:249-259); the lengths of `indx` and `ar_in` must agree. -/
def assemble1d {K : Type} [AddCommMonoid K] (arOut : List K) (indx : List ℕ) (arIn : List K) :
    Option (List K) :=
  if indx.length > 0 then
    if indx.length ≠ arIn.length then none
    else fancyAdd arOut (sumDuplicates (indx.zip arIn))
  else some arOut

/-! ### `argsort_rows()`, `map_permutations()` -/

/-- One stage of `nm.lexsort()`: the indices are reordered by a stable sort by the key. -/
def lexStage {α : Type} [LinearOrder α] (idx : List ℕ) (key : ℕ → α) : List ℕ :=
  idx.insertionSort fun i j => key i ≤ key j

/-- `nm.lexsort(keys)`: the last key is the primary one. -/
def lexsort {α : Type} [LinearOrder α] (n : ℕ) (keys : List (ℕ → α)) : List ℕ :=
  keys.foldl lexStage (List.range n)

/-- `argsort_rows()` of a two-dimensional array with `nc` columns (sfepy/linalg/utils.py:290-302). -/
def argsortRows {α : Type} [LinearOrder α] [Inhabited α] (nc : ℕ) (seq : List (List α)) : List ℕ :=
  lexsort seq.length ((List.range nc).map fun c i => (seq.getD i []).getD c default).reverse

/-- `map_permutations()` (sfepy/linalg/utils.py:304-329) with the given implementation of
`argsort_rows()` of items and of `nm.argsort()` of indices; nothing is an `AssertionError`. -/
def mapPermutations {α : Type} [DecidableEq α] [Inhabited α] (argsortItems : List α → List ℕ)
    (argsort : List ℕ → List ℕ) (checkSame : Bool) (seq1 seq2 : List α) : Option (List ℕ) :=
  if seq1.length ≠ seq2.length then none
  else
    let i1 := argsortItems seq1
    let i2 := argsortItems seq2
    if checkSame && i1.map (fun i => seq1.getD i default) != i2.map (fun i => seq2.getD i default) then none
    else
      let ii := argsort i2
      some (ii.map fun k => i1.getD k 0)

/-! ### `chunk_arrays()` -/

/-- The loop of `chunk_arrays()` (sfepy/linalg/utils.py:354-358): the first argument bounds the number of
passes, the result is nothing if it is reached. -/
def chunkLoop {α : Type} (arrs : List (List α)) (size : ℕ) : ℕ → ℕ → Option (List (List (List α)))
  | 0, _ => none
  | fuel + 1, ii =>
    if ii < (arrs.headD []).length then
      (chunkLoop arrs size fuel (ii + size)).map fun rest =>
        (arrs.map fun arr => (arr.drop ii).take size) :: rest
    else some []

/-! ### `invs_fast()` -/

/-- `invs_fast()` (sfepy/linalg/utils.py:95-145) of one 3x3 matrix and its determinant. -/
def inv3 {K : Type} [Field K] (a : Matrix (Fin 3) (Fin 3) K) (det : K) : Matrix (Fin 3) (Fin 3) K :=
  fun i j => !![-a 1 2 * a 2 1 + a 1 1 * a 2 2, a 0 2 * a 2 1 - a 0 1 * a 2 2,
      -a 0 2 * a 1 1 + a 0 1 * a 1 2;
    a 1 2 * a 2 0 - a 1 0 * a 2 2, -a 0 2 * a 2 0 + a 0 0 * a 2 2, a 0 2 * a 1 0 - a 0 0 * a 1 2;
    -a 1 1 * a 2 0 + a 1 0 * a 2 1, a 0 1 * a 2 0 - a 0 0 * a 2 1, -a 0 1 * a 1 0 + a 0 0 * a 1 1] i j / det

/-- `invs_fast()` (sfepy/linalg/utils.py:133-138) of one 2x2 matrix and its determinant. -/
def inv2 {K : Type} [Field K] (a : Matrix (Fin 2) (Fin 2) K) (det : K) : Matrix (Fin 2) (Fin 2) K :=
  fun i j => !![a 1 1, -a 0 1; -a 1 0, a 0 0] i j / det

/-- `invs_fast()` (sfepy/linalg/utils.py:138-140) of one 1x1 matrix and its determinant. -/
def inv1 {K : Type} [Field K] (_a : Matrix (Fin 1) (Fin 1) K) (det : K) : Matrix (Fin 1) (Fin 1) K :=
  fun _ _ => 1 / det

end Verif.Linalg
