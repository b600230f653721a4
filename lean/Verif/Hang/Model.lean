import Verif.Fem.Lagrange
import Verif.Mesh.Refine
import Mathlib.Algebra.BigOperators.Group.Finset.Basic
import Mathlib.Algebra.Field.Basic
import Mathlib.Algebra.Order.BigOperators.Group.Finset

/-!
# Local refinement with hanging nodes

Models `/repo/sfepy/discrete/fem/refine_hanging.py` (numbering of the refined mesh, facet substitutions)
and the substitution of DOFs and the basis transformation for quadrilaterals in
`/repo/sfepy/discrete/fem/fields_nodal.py:165-182,269-331`,
`/repo/sfepy/discrete/fem/fields_base.py:658-733`.

Simplifications.  A local node of a quadrilateral of the order `o` is named by its position `(a, b)` in
the grid `0..o x 0..o` instead of its number (the numbering of the nodes and of the nodes on edges is that
of `Verif/Fem`, C55).  DOF connectivities and transformation matrices are functions.  Exact arithmetic.
-/

namespace Verif.Hang

open Verif.Fem Verif.Mesh

/-! ## Refined mesh: numbering of cells -/

/-- `nm.where(refine_flag[cells], a[:, :1], a[:, 1:])` for one facet: its two cells `cells` and their
items `a` (local indices of the facet, or the cells) - `/repo/sfepy/discrete/fem/refine_hanging.py:92-93`. -/
def orderPair {α : Type*} (flag : ℕ → Bool) (cells : ℕ × ℕ) (a : α × α) : α × α :=
  (if flag cells.1 then a.1 else a.2, if flag cells.2 then a.1 else a.2)

/-- `sub_cells` of the `ii`-th refined cell - `/repo/sfepy/discrete/fem/refine_hanging.py:217-221`:
the first sub-cell takes the place of the refined cell, the others are appended. -/
def subCells (nEl nSub : ℕ) (ref : List ℕ) (ii : ℕ) : List ℕ :=
  ref.getD ii 0 :: (List.range (nSub - 1)).map fun k => nEl + (ii * (nSub - 1) + k)

/-- `_interleave_refined(c0, c1)` - `/repo/sfepy/discrete/fem/refine_hanging.py:229-243`: `c0` are the
rows of the original mesh, `c1` those of the refined part (`nSub` rows for each refined cell); the row
`i` of the result.  `out[coarse] = c0[coarse]`, `out[ref] = c1[::nSub]`,
`out[n_el:] = c1.reshape(-1, nSub * n_col)[:, n_col:].reshape(-1, n_col)`. -/
def interleave {α : Type*} (d : α) (nEl nSub : ℕ) (ref : List ℕ) (c0 c1 : List α) (i : ℕ) : α :=
  if i < nEl then
    if i ∈ ref then c1.getD (nSub * ref.idxOf i) d
    else c0.getD i d
  else c1.getD (nSub * ((i - nEl) / (nSub - 1)) + (1 + (i - nEl) % (nSub - 1))) d

/-! ## Facet substitutions -/

/-- `refine_edges_2_4` - `/repo/sfepy/discrete/fem/refine_hanging.py:16-19`. -/
def refineEdges24 : List (List (ℕ × ℕ)) :=
  [[(0, 0), (1, 3)], [(1, 0), (2, 3)], [(2, 0), (3, 3)], [(3, 0), (0, 3)]]

/-- `refine_faces_3_8` - `/repo/sfepy/discrete/fem/refine_hanging.py:21-26`. -/
def refineFaces38 : List (List (ℕ × ℕ)) :=
  [[(0, 0), (1, 0), (2, 0), (3, 0)],
   [(0, 1), (3, 2), (4, 2), (7, 1)],
   [(0, 2), (1, 1), (4, 1), (5, 2)],
   [(4, 0), (5, 0), (6, 0), (7, 0)],
   [(1, 2), (2, 1), (5, 1), (6, 2)],
   [(2, 2), (3, 1), (6, 1), (7, 2)]]

/-- `refine_edges_3_8` - `/repo/sfepy/discrete/fem/refine_hanging.py:28-39`. -/
def refineEdges38 : List (List (ℕ × ℕ)) :=
  [[(0, 0), (1, 3)], [(1, 0), (2, 3)], [(2, 0), (3, 3)], [(3, 0), (0, 3)],
   [(4, 3), (5, 0)], [(5, 3), (6, 0)], [(6, 3), (7, 0)], [(7, 3), (4, 0)],
   [(0, 8), (4, 8)], [(1, 8), (5, 8)], [(2, 8), (6, 8)], [(3, 8), (7, 8)]]

/-- `nm.searchsorted(sub_cells[:, 0], fine)` - `/repo/sfepy/discrete/fem/refine_hanging.py:265`. -/
def searchsorted (a : List ℕ) (x : ℕ) : ℕ := a.countP fun y => decide (y < x)

/-- One row of `find_facet_substitutions()`: the coarse cell and its facet, then the fine cells and their
facets - `/repo/sfepy/discrete/fem/refine_hanging.py:253-279`. -/
def findSub (nEl nSub : ℕ) (ref : List ℕ) (table : List (List (ℕ × ℕ))) (fine coarse : ℕ)
    (facFine facCoarse : ℕ) : (ℕ × ℕ) × List (ℕ × ℕ) :=
  ((coarse, facCoarse), (table.getD facFine []).map fun r =>
    ((subCells nEl nSub ref (searchsorted ref fine)).getD r.1 0, r.2))

/-! ## Quadrilaterals: substitution of DOFs -/

/-- A local node by its position in the grid. -/
abbrev Nd := ℕ × ℕ

/-- `efaces`: the nodes of an edge - its two vertices, then its inner nodes from the first to the second
vertex - `/repo/sfepy/discrete/fem/fields_nodal.py:172` (the node lists of `Verif/Fem/Nodes`). -/
def efaces (o : ℕ) : ℕ → List Nd
  | 0 => (0, 0) :: (o, 0) :: (List.range (o - 1)).map fun i => (i + 1, 0)
  | 1 => (o, 0) :: (o, o) :: (List.range (o - 1)).map fun i => (o, i + 1)
  | 2 => (o, o) :: (0, o) :: (List.range (o - 1)).map fun i => (o - (i + 1), o)
  | _ => (0, o) :: (0, 0) :: (List.range (o - 1)).map fun i => (0, o - (i + 1))

/-- `ee[0], ee[1] = ee[1], ee[0]; ee[2:] = ee[-1:1:-1]` -
`/repo/sfepy/discrete/fem/fields_nodal.py:176-178`. -/
def swapEdge {α : Type*} : List α → List α
  | a :: b :: r => b :: a :: r.reverse
  | l => l

/-- A row of `subs`: coarse cell and facet, two fine cells and facets. -/
structure Sub where
  c : ℕ
  fc : ℕ
  f1 : ℕ
  k1 : ℕ
  f2 : ℕ
  k2 : ℕ

/-- `self.econn[cell, nodes] = vals` - `/repo/sfepy/discrete/fem/fields_nodal.py:181-182`. -/
def setRow (e : ℕ → Nd → ℕ) (cell : ℕ) (pairs : List (Nd × ℕ)) : ℕ → Nd → ℕ :=
  pairs.foldl (fun e p => fun c n => if c = cell ∧ n = p.1 then p.2 else e c n) e

/-- One pass of `_substitute_dofs()` - `/repo/sfepy/discrete/fem/fields_nodal.py:174-182`. -/
def applySub (o : ℕ) (e : ℕ → Nd → ℕ) (s : Sub) : ℕ → Nd → ℕ :=
  let master := (swapEdge (efaces o s.fc)).map (e s.c)
  setRow (setRow e s.f1 ((efaces o s.k1).zip master)) s.f2 ((efaces o s.k2).zip master)

/-- `_substitute_dofs()` for `2_4` - `/repo/sfepy/discrete/fem/fields_nodal.py:165-182`. -/
def substitute (o : ℕ) (e : ℕ → Nd → ℕ) (subs : List Sub) : ℕ → Nd → ℕ := subs.foldl (applySub o) e

/-! ## Quadrilaterals: transformed basis -/

section
variable {K : Type} [Field K]

/-- The Lagrange basis function of the node `n` in the point `(x, y)` of the reference cell, by
`tenVal` of `Verif/Fem` - `/repo/sfepy/discrete/fem/extmods/lagrange.c:558-573`. -/
def qVal (o : ℕ) (x y : K) (n : Nd) : K :=
  tenVal 2 o (fun d i => if d = 0 then (if i = 0 then 1 - x else x) else (if i = 0 then 1 - y else y))
    (fun k => if k = 0 then o - n.1 else if k = 1 then n.1 else if k = 2 then o - n.2 else n.2)

/-- `bf[iy, 0, ix]`: the basis function `j` of the coarse reference cell in the node `i` of the cell 0 of
the refined reference cell - `/repo/sfepy/discrete/fem/fields_nodal.py:301-316`. -/
def halfVal (o : ℕ) (j i : Nd) : K := qVal o ((i.1 : K) / o / 2) ((i.2 : K) / o / 2) j

/-- `mtx[ix, iy] = cbf` for the nodes of one facet of one fine cell -
`/repo/sfepy/discrete/fem/fields_nodal.py:298-309`. -/
def assignBlock (o : ℕ) (T : ℕ → Nd → Nd → K) (cell k : ℕ) : ℕ → Nd → Nd → K := fun c j i =>
  if c = cell ∧ j ∈ efaces o k ∧ i ∈ efaces o k then halfVal o j i else T c j i

/-- `_eval_basis_transform()` for `2_4` - `/repo/sfepy/discrete/fem/fields_nodal.py:275-331`. -/
def transform (o : ℕ) (subs : List Sub) : ℕ → Nd → Nd → K :=
  subs.foldl (fun T s => assignBlock o (assignBlock o T s.f1 s.k1) s.f2 s.k2)
    fun _ j i => if j = i then 1 else 0

/-- The nodes of a cell. -/
def grid (o : ℕ) : Finset Nd := Finset.range (o + 1) ×ˢ Finset.range (o + 1)

/-- The field in the point `(x, y)` of the cell `c`: `transform_basis()` (`einsum 'cij,qdj->cqdi'`), then
the sum with the DOFs - `/repo/sfepy/discrete/common/poly_spaces.py:6-24`. -/
def evalField (o : ℕ) (e : ℕ → Nd → ℕ) (T : ℕ → Nd → Nd → K) (u : ℕ → K) (c : ℕ) (x y : K) : K :=
  ∑ j ∈ grid o, u (e c j) * ∑ i ∈ grid o, T c j i * qVal o x y i

/-- `restore_substituted()`: the nodal value (`einsum 'cji,cjk->cik'`) -
`/repo/sfepy/discrete/fem/fields_base.py:721-735`. -/
def restored (o : ℕ) (e : ℕ → Nd → ℕ) (T : ℕ → Nd → Nd → K) (u : ℕ → K) (c : ℕ) (i : Nd) : K :=
  ∑ j ∈ grid o, T c j i * u (e c j)

end

end Verif.Hang
