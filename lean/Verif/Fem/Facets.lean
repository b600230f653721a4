/-
Model of `sfepy/discrete/fem/facets.py`: the permutations of the facet DOFs.

Python iterators are the lists of the items they yield; 2D arrays indexed by `(ir, ic)` are functions.
-/
import Mathlib.Data.Nat.Notation
import Mathlib.Logic.Function.Basic

namespace Verif.Fem

/-- `iter0()` (sfepy/discrete/fem/facets.py:139-141). -/
def iter0 (num : ℕ) : List ℕ := (List.range num).reverse

/-- `iter1()` (sfepy/discrete/fem/facets.py:143-145). -/
def iter1 (num : ℕ) : List ℕ := List.range num

/-- `ori_line_to_iter` (sfepy/discrete/fem/facets.py:147-150). -/
def oriLineToIter : List (ℕ × (ℕ → List ℕ)) := [(0, iter0), (1, iter1)]

/-- `make_line_matrix()` (sfepy/discrete/fem/facets.py:152-159): `nm.arange(order - 1)`. -/
def makeLineMatrix (order : ℕ) : List ℕ := if order < 2 then [] else List.range (order - 1)

/-- `range(a, b - 1, -1)` for `b ≤ a + 1`: `a, a - 1, ..., b`. -/
def downRange (n b : ℕ) : List ℕ := (List.range' b (n - b)).reverse

/-- `iter01()` (sfepy/discrete/fem/facets.py:161-164). -/
def iter01 (num : ℕ) : List (ℕ × ℕ) :=
  (downRange num 0).flatMap fun ir => (List.range (ir + 1)).map fun ic => (ir, ic)

/-- `iter10()` (sfepy/discrete/fem/facets.py:166-169). -/
def iter10 (num : ℕ) : List (ℕ × ℕ) :=
  (downRange num 0).flatMap fun ir => (downRange (ir + 1) 0).map fun ic => (ir, ic)

/-- `iter02()` (sfepy/discrete/fem/facets.py:171-174). -/
def iter02 (num : ℕ) : List (ℕ × ℕ) :=
  (List.range num).flatMap fun ic => (downRange num ic).map fun ir => (ir, ic)

/-- `iter20()` (sfepy/discrete/fem/facets.py:176-179). -/
def iter20 (num : ℕ) : List (ℕ × ℕ) :=
  (List.range num).flatMap fun ic => (List.range' ic (num - ic)).map fun ir => (ir, ic)

/-- `iter12()` (sfepy/discrete/fem/facets.py:181-185); `nm.diag_indices(n)` are `0, ..., n - 1` twice. -/
def iter12 (num : ℕ) : List (ℕ × ℕ) :=
  (List.range num).flatMap fun idiag => (downRange (num - idiag) 0).map fun ii => (ii + idiag, ii)

/-- `iter21()` (sfepy/discrete/fem/facets.py:187-191). -/
def iter21 (num : ℕ) : List (ℕ × ℕ) :=
  (List.range num).flatMap fun idiag => (List.range (num - idiag)).map fun ii => (ii + idiag, ii)

/-- `ori_triangle_to_iter` (sfepy/discrete/fem/facets.py:193-200). -/
def oriTriangleToIter : List (ℕ × (ℕ → List (ℕ × ℕ))) :=
  [(0, iter21), (1, iter12), (3, iter02), (4, iter20), (6, iter10), (7, iter01)]

/-- `make_triangle_matrix()` (sfepy/discrete/fem/facets.py:202-211). -/
def makeTriangleMatrix (order : ℕ) : ℕ × ℕ → ℕ :=
  (iter01 (order - 2)).zipIdx.foldl (fun mtx p => Function.update mtx p.1 p.2) fun _ => 0

/-- `iter01x01y()` (sfepy/discrete/fem/facets.py:213-216). -/
def iter01x01y (num : ℕ) : List (ℕ × ℕ) :=
  (List.range num).flatMap fun ir => (List.range num).map fun ic => (ir, ic)

/-- `iter01y01x()` (sfepy/discrete/fem/facets.py:218-220). -/
def iter01y01x (num : ℕ) : List (ℕ × ℕ) := (iter01x01y num).map fun p => (p.2, p.1)

/-- `iter10x01y()` (sfepy/discrete/fem/facets.py:222-225). -/
def iter10x01y (num : ℕ) : List (ℕ × ℕ) :=
  (downRange num 0).flatMap fun ir => (List.range num).map fun ic => (ir, ic)

/-- `iter10y01x()` (sfepy/discrete/fem/facets.py:227-229). -/
def iter10y01x (num : ℕ) : List (ℕ × ℕ) := (iter10x01y num).map fun p => (p.2, p.1)

/-- `iter01x10y()` (sfepy/discrete/fem/facets.py:231-234). -/
def iter01x10y (num : ℕ) : List (ℕ × ℕ) :=
  (List.range num).flatMap fun ir => (downRange num 0).map fun ic => (ir, ic)

/-- `iter01y10x()` (sfepy/discrete/fem/facets.py:236-238). -/
def iter01y10x (num : ℕ) : List (ℕ × ℕ) := (iter01x10y num).map fun p => (p.2, p.1)

/-- `iter10x10y()` (sfepy/discrete/fem/facets.py:240-243). -/
def iter10x10y (num : ℕ) : List (ℕ × ℕ) :=
  (downRange num 0).flatMap fun ir => (downRange num 0).map fun ic => (ir, ic)

/-- `iter10y10x()` (sfepy/discrete/fem/facets.py:245-247). -/
def iter10y10x (num : ℕ) : List (ℕ × ℕ) := (iter10x10y num).map fun p => (p.2, p.1)

/-- `ori_square_to_iter` (sfepy/discrete/fem/facets.py:249-258). -/
def oriSquareToIter : List (ℕ × (ℕ → List (ℕ × ℕ))) :=
  [(0, iter10x01y), (7, iter10y01x), (11, iter01y01x), (30, iter01x10y), (33, iter10x10y),
    (52, iter01y10x), (56, iter10y10x), (63, iter01x01y)]

/-- `_quad_ori_groups` (sfepy/discrete/fem/facets.py:82-107). -/
def quadOriGroups : List (ℕ × ℕ) :=
  [(0, 0), (1, 0), (3, 7), (4, 0), (6, 7), (7, 7), (11, 11), (15, 11), (20, 52), (22, 30), (30, 30),
    (31, 63), (32, 33), (33, 33), (41, 33), (43, 11), (48, 56), (52, 52), (56, 56), (57, 56), (59, 63),
    (60, 52), (62, 30), (63, 63)]

/-- `make_square_matrix()` (sfepy/discrete/fem/facets.py:260-268): `nm.arange(oo * oo)` reshaped. -/
def makeSquareMatrix (order : ℕ) : ℕ × ℕ → ℕ := fun p => p.1 * (order - 1) + p.2

/-- `get_facet_dof_permutations()` (sfepy/discrete/fem/facets.py:270-304): the row `key` of the array made by
`dict_to_array()` (sfepy/base/base.py:1444-1462); nothing is a `ValueError` or a key that is not in
the dictionary (the rows of such keys contain `-1`). -/
def facetDofPermutation (nFp order key : ℕ) : Option (List ℕ) :=
  if nFp = 2 then
    (oriLineToIter.lookup key).map fun itfun =>
      (itfun (order - 1)).map fun ii => (makeLineMatrix order).getD ii 0
  else if nFp = 3 then
    (oriTriangleToIter.lookup key).map fun itfun => (itfun (order - 2)).map (makeTriangleMatrix order)
  else if nFp = 4 then
    (quadOriGroups.lookup key).bind fun val =>
      (oriSquareToIter.lookup val).map fun itfun => (itfun (order - 1)).map (makeSquareMatrix order)
  else none

end Verif.Fem
