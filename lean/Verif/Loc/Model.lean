/-
Model of the location of points in cells: `find_ref_coors()` and the planar facets part of `find_ref_coors_convex()`
(sfepy/discrete/common/extmods/refcoors.c), `get_xi_dist()`, `get_xi_simplex()`, `get_xi_tensor()`
(sfepy/discrete/fem/extmods/lagrange.c), `get_potential_cells()`, `get_ref_coors_general()`
(sfepy/discrete/common/global_interp.py) and `evaluate_in_rc()` (sfepy/discrete/common/extmods/crefcoors.pyx).

The floating point numbers are the elements of a linearly ordered field, `sqrt` is a parameter.  One point is located at
a time (the loops over the points are independent).  Arrays are functions of the indices.  The k-d trees are modelled by
what they return: all the points in a closed ball, and a closest point.
-/
import Verif.Fem.Lagrange
import Mathlib.Algebra.Order.Field.Basic

namespace Verif.Loc

open Verif.Fem

variable {K : Type} [Field K] [LinearOrder K]

/-- `if (fabs(idet) < eps) det = 0.0; else det = 1.0 / idet;`
(sfepy/discrete/common/extmods/geommech.c:38-42, 59-63). -/
def recip (idet : K) : K := if |idet| < 1 / 10 ^ 55 then 0 else 1 / idet

/-- `geme_invert3x3()`, `dim == 2` (sfepy/discrete/common/extmods/geommech.c:36-47). -/
def inv2 (j : ℕ → ℕ → K) (r c : ℕ) : K :=
  let det := recip (j 0 0 * j 1 1 - j 0 1 * j 1 0)
  match r, c with
  | 0, 0 => j 1 1 * det
  | 0, _ => -j 0 1 * det
  | _, 0 => -j 1 0 * det
  | _, _ => j 0 0 * det

/-- The cofactors in `geme_invert3x3()`, `dim == 3` (sfepy/discrete/common/extmods/geommech.c:48-57). -/
def cof3 (j : ℕ → ℕ → K) (r c : ℕ) : K :=
  match r, c with
  | 0, 0 => j 1 1 * j 2 2 - j 2 1 * j 1 2
  | 0, 1 => -(j 0 1 * j 2 2 - j 0 2 * j 2 1)
  | 0, _ => j 0 1 * j 1 2 - j 0 2 * j 1 1
  | 1, 0 => -(j 1 0 * j 2 2 - j 1 2 * j 2 0)
  | 1, 1 => j 0 0 * j 2 2 - j 0 2 * j 2 0
  | 1, _ => -(j 0 0 * j 1 2 - j 0 2 * j 1 0)
  | _, 0 => j 1 0 * j 2 1 - j 1 1 * j 2 0
  | _, 1 => -(j 0 0 * j 2 1 - j 0 1 * j 2 0)
  | _, _ => j 0 0 * j 1 1 - j 0 1 * j 1 0

/-- `geme_invert3x3()`, `dim == 3` (sfepy/discrete/common/extmods/geommech.c:48-67). -/
def inv3 (j : ℕ → ℕ → K) (r c : ℕ) : K :=
  cof3 j r c * recip (j 0 0 * cof3 j 0 0 + j 0 1 * cof3 j 1 0 + j 0 2 * cof3 j 2 0)

/-- `buf` in `geme_invert4x4()` (sfepy/discrete/common/extmods/geommech.c:88-119): `pm[4*r+c]` is `m r c`. -/
def cof4 (m : ℕ → ℕ → K) (r c : ℕ) : K :=
  let pm : ℕ → K := fun i => m (i / 4) (i % 4)
  match r, c with
  | 0, 0 => pm 5*pm 10*pm 15 - pm 5*pm 11*pm 14 - pm 9*pm 6*pm 15 + pm 9*pm 7*pm 14 + pm 13*pm 6*pm 11 - pm 13*pm 7*pm 10
  | 1, 0 => -pm 4*pm 10*pm 15 + pm 4*pm 11*pm 14 + pm 8*pm 6*pm 15 - pm 8*pm 7*pm 14 - pm 12*pm 6*pm 11 + pm 12*pm 7*pm 10
  | 2, 0 => pm 4*pm 9*pm 15 - pm 4*pm 11*pm 13 - pm 8*pm 5*pm 15 + pm 8*pm 7*pm 13 + pm 12*pm 5*pm 11 - pm 12*pm 7*pm 9
  | _, 0 => -pm 4*pm 9*pm 14 + pm 4*pm 10*pm 13 + pm 8*pm 5*pm 14 - pm 8*pm 6*pm 13 - pm 12*pm 5*pm 10 + pm 12*pm 6*pm 9
  | 0, 1 => -pm 1*pm 10*pm 15 + pm 1*pm 11*pm 14 + pm 9*pm 2*pm 15 - pm 9*pm 3*pm 14 - pm 13*pm 2*pm 11 + pm 13*pm 3*pm 10
  | 1, 1 => pm 0*pm 10*pm 15 - pm 0*pm 11*pm 14 - pm 8*pm 2*pm 15 + pm 8*pm 3*pm 14 + pm 12*pm 2*pm 11 - pm 12*pm 3*pm 10
  | 2, 1 => -pm 0*pm 9*pm 15 + pm 0*pm 11*pm 13 + pm 8*pm 1*pm 15 - pm 8*pm 3*pm 13 - pm 12*pm 1*pm 11 + pm 12*pm 3*pm 9
  | _, 1 => pm 0*pm 9*pm 14 - pm 0*pm 10*pm 13 - pm 8*pm 1*pm 14 + pm 8*pm 2*pm 13 + pm 12*pm 1*pm 10 - pm 12*pm 2*pm 9
  | 0, 2 => pm 1*pm 6*pm 15 - pm 1*pm 7*pm 14 - pm 5*pm 2*pm 15 + pm 5*pm 3*pm 14 + pm 13*pm 2*pm 7 - pm 13*pm 3*pm 6
  | 1, 2 => -pm 0*pm 6*pm 15 + pm 0*pm 7*pm 14 + pm 4*pm 2*pm 15 - pm 4*pm 3*pm 14 - pm 12*pm 2*pm 7 + pm 12*pm 3*pm 6
  | 2, 2 => pm 0*pm 5*pm 15 - pm 0*pm 7*pm 13 - pm 4*pm 1*pm 15 + pm 4*pm 3*pm 13 + pm 12*pm 1*pm 7 - pm 12*pm 3*pm 5
  | _, 2 => -pm 0*pm 5*pm 14 + pm 0*pm 6*pm 13 + pm 4*pm 1*pm 14 - pm 4*pm 2*pm 13 - pm 12*pm 1*pm 6 + pm 12*pm 2*pm 5
  | 0, _ => -pm 1*pm 6*pm 11 + pm 1*pm 7*pm 10 + pm 5*pm 2*pm 11 - pm 5*pm 3*pm 10 - pm 9*pm 2*pm 7 + pm 9*pm 3*pm 6
  | 1, _ => pm 0*pm 6*pm 11 - pm 0*pm 7*pm 10 - pm 4*pm 2*pm 11 + pm 4*pm 3*pm 10 + pm 8*pm 2*pm 7 - pm 8*pm 3*pm 6
  | 2, _ => -pm 0*pm 5*pm 11 + pm 0*pm 7*pm 9 + pm 4*pm 1*pm 11 - pm 4*pm 3*pm 9 - pm 8*pm 1*pm 7 + pm 8*pm 3*pm 5
  | _, _ => pm 0*pm 5*pm 10 - pm 0*pm 6*pm 9 - pm 4*pm 1*pm 10 + pm 4*pm 2*pm 9 + pm 8*pm 1*pm 6 - pm 8*pm 2*pm 5

/-- `geme_invert4x4()` (sfepy/discrete/common/extmods/geommech.c:78-133): the determinant is not checked, the division
by zero gives here zeros. -/
def inv4 (m : ℕ → ℕ → K) (r c : ℕ) : K :=
  cof4 m r c * (1 / (m 0 0 * cof4 m 0 0 + m 0 1 * cof4 m 1 0 + m 0 2 * cof4 m 2 0 + m 0 3 * cof4 m 3 0))

/-- `mtx` in `get_xi_simplex()` (sfepy/discrete/fem/extmods/lagrange.c:212-222): the columns are the vertices and ones. -/
def simplexMtx (dim : ℕ) (e : ℕ → ℕ → K) (r i : ℕ) : K := if r < dim then e i r else 1

/-- The inversion in `get_xi_simplex()` (sfepy/discrete/fem/extmods/lagrange.c:223-227): `geme_invert3x3()` of a matrix
of the order `dim + 1` for the dimensions 1, 2. -/
def simplexInv (dim : ℕ) (m : ℕ → ℕ → K) : ℕ → ℕ → K :=
  if dim = 3 then inv4 m else if dim = 2 then inv3 m else inv2 m

/-- `bc` in `get_xi_simplex()` (sfepy/discrete/fem/extmods/lagrange.c:215, 221, 229). -/
def simplexBc (dim : ℕ) (P : ℕ → K) (e : ℕ → ℕ → K) (i : ℕ) : K :=
  (List.range (dim + 1)).foldl (fun s (k : ℕ) =>
    s + (if k < dim then P k else 1) * simplexInv dim (simplexMtx dim e) i k) 0

/-- The vertices of the reference simplex: `geometry.coors` (sfepy/discrete/fem/geometry_element.py:108-165). -/
def refSimplex (i r : ℕ) : K := if i = r + 1 then 1 else 0

/-- `get_xi_simplex()` (sfepy/discrete/fem/extmods/lagrange.c:196-233). -/
def xiSimplex (dim : ℕ) (P : ℕ → K) (e : ℕ → ℕ → K) (r : ℕ) : K :=
  (List.range (dim + 1)).foldl (fun s (i : ℕ) => s + simplexBc dim P e i * refSimplex i r) 0

/-- `Min(Max(v, 0.0), 100.0)` squared (sfepy/discrete/fem/extmods/lagrange.c:162-166, 176-179). -/
def pen (v : K) : K := min (max v 0) 100 * min (max v 0) 100

/-- What `get_xi_dist()` returns. -/
structure XiDist (K : Type) where
  xi : ℕ → K
  dist : K
  ok : Bool

/-- `get_xi_dist()` of a simplex, `vmin` is 0 and `vmax` is 1 (sfepy/discrete/fem/extmods/lagrange.c:154-167). -/
def xiDistSimplex (dim : ℕ) (P : ℕ → K) (e : ℕ → ℕ → K) : XiDist K :=
  let xi := xiSimplex dim P e
  let s := (List.range dim).foldl (fun (s : K × K) (ii : ℕ) => (s.1 + xi ii, s.2 + pen (0 - xi ii))) (0, 0)
  { xi := xi, dist := s.2 + pen (s.1 - 1), ok := true }

/-- `X(xi)`: the bilinear or trilinear functions times the vertices
(sfepy/discrete/fem/extmods/lagrange.c:273-283): `node k` is the row of the first order node table. -/
def tensorX (dim : ℕ) (node : ℕ → ℕ → ℕ) (e : ℕ → ℕ → K) (xi : ℕ → K) (r : ℕ) : K :=
  (List.range (2 ^ dim)).foldl (fun s (k : ℕ) =>
    s + tenVal dim 1 (fun d i => if i = 1 then (xi d - 0) / (1 - 0) else 1 - (xi d - 0) / (1 - 0)) (node k) * e k r) 0

/-- `mtx`: the gradients times the vertices (sfepy/discrete/fem/extmods/lagrange.c:298-300); `mtxI` is the matrix of the
1D reference element. -/
def tensorMtx (dim : ℕ) (mtxI : ℕ → ℕ → K) (node : ℕ → ℕ → ℕ) (e : ℕ → ℕ → K) (xi : ℕ → K) (r c : ℕ) : K :=
  (List.range (2 ^ dim)).foldl (fun s (k : ℕ) =>
    s + tenGrad dim 1 mtxI (fun d i => if i = 1 then (xi d - 0) / (1 - 0) else 1 - (xi d - 0) / (1 - 0)) (node k) r
      * e k c) 0

/-- `geme_invert3x3()` of the order `dim` (sfepy/discrete/fem/extmods/lagrange.c:302). -/
def tensorInv (dim : ℕ) (m : ℕ → ℕ → K) : ℕ → ℕ → K := if dim = 3 then inv3 m else inv2 m

/-- The Newton loop of `get_xi_tensor()` (sfepy/discrete/fem/extmods/lagrange.c:271-309): `n` is `i_max - ii`; nothing
is returned, if it did not converge. -/
def newtonXi (sqrt : K → K) (newtonEps : K) (dim : ℕ) (mtxI : ℕ → ℕ → K) (node : ℕ → ℕ → ℕ) (P : ℕ → K)
    (e : ℕ → ℕ → K) : ℕ → (ℕ → K) → Option (ℕ → K)
  | 0, _ => none
  | n + 1, xi =>
    let res : ℕ → K := fun r => P r - tensorX dim node e xi r
    let err := sqrt ((List.range dim).foldl (fun s (r : ℕ) => s + res r * res r) 0)
    if err < newtonEps then some xi
    else
      let imtx := tensorInv dim (tensorMtx dim mtxI node e xi)
      newtonXi sqrt newtonEps dim mtxI node P e n fun c =>
        xi c + (List.range dim).foldl (fun s (r : ℕ) => s + res r * imtx r c) 0

/-- `get_xi_dist()` of a tensor product element (sfepy/discrete/fem/extmods/lagrange.c:169-189, 270, 309-314): the
centre, if the Newton iteration did not converge. -/
def xiDistTensor (sqrt : K → K) (newtonEps : K) (iMax dim : ℕ) (mtxI : ℕ → ℕ → K) (node : ℕ → ℕ → ℕ) (P : ℕ → K)
    (e : ℕ → ℕ → K) : XiDist K :=
  match newtonXi sqrt newtonEps dim mtxI node P e iMax fun _ => 1 / 5 * (0 + 1) with
  | some xi =>
    { xi := xi, ok := true, dist := (List.range dim).foldl (fun s (ii : ℕ) => s + pen (xi ii - 1) + pen (0 - xi ii)) 0 }
  | none => { xi := fun _ => 1 / 2 * (0 + 1), dist := 10 ^ 10, ok := false }

/-! ### The general strategy -/

/-- The result for one point. -/
structure Found (K : Type) where
  cell : ℕ
  status : ℕ
  xi : ℕ → K

/-- The variables of the loop over the candidates (sfepy/discrete/common/extmods/refcoors.c:426-428). -/
structure Search (K : Type) where
  ok : Bool
  imin : ℕ
  dmin : K
  xi : ℕ → K
  xiOk : Bool

/-- The loop over the candidates of a point (sfepy/discrete/common/extmods/refcoors.c:430-454): `xd c` is
`get_xi_dist()` of the point and the cell `c`. -/
def searchLoop (qpEps : K) (xd : ℕ → XiDist K) : List ℕ → Search K → Search K
  | [], s => s
  | c :: cs, s =>
    let r := xd c
    if r.ok then
      if r.dist < qpEps then { ok := true, imin := c, dmin := s.dmin, xi := r.xi, xiOk := r.ok }
      else if r.dist < s.dmin then
        searchLoop qpEps xd cs { ok := s.ok, imin := c, dmin := r.dist, xi := r.xi, xiOk := r.ok }
      else searchLoop qpEps xd cs { ok := s.ok, imin := s.imin, dmin := s.dmin, xi := r.xi, xiOk := r.ok }
    else if r.dist < s.dmin then
      searchLoop qpEps xd cs { ok := s.ok, imin := c, dmin := r.dist, xi := r.xi, xiOk := r.ok }
    else searchLoop qpEps xd cs { ok := s.ok, imin := s.imin, dmin := s.dmin, xi := r.xi, xiOk := r.ok }

/-- The status of a point (sfepy/discrete/common/extmods/refcoors.c:350-365, 459-474). -/
def statusOf (sqrt : K → K) (extrapolate : Bool) (closeLimit : K) (ok xiOk : Bool) (dmin : K) : ℕ :=
  if ok then 0
  else if !xiOk then 4
  else if extrapolate then (if sqrt dmin < closeLimit then 1 else 2)
  else 3

/-- `refc_find_ref_coors()` for one point (sfepy/discrete/common/extmods/refcoors.c:414-479): `xi0` is the content of
the buffer of the coordinates, overwritten by the first candidate. -/
def findRefCoors (sqrt : K → K) (extrapolate : Bool) (qpEps closeLimit : K) (xd : ℕ → XiDist K) (xi0 : ℕ → K)
    (cands : List ℕ) : Found K :=
  match cands with
  | [] => { cell := 0, status := 5, xi := fun _ => 0 }
  | c0 :: _ =>
    let s := searchLoop qpEps xd cands { ok := false, imin := c0, dmin := 10 ^ 10, xi := xi0, xiOk := false }
    { cell := s.imin, status := statusOf sqrt extrapolate closeLimit s.ok s.xiOk s.dmin, xi := s.xi }

/-- `nm.linalg.norm(v, ord=nm.inf)` of a vector of the dimension `dim`. -/
def normInf (dim : ℕ) (v : ℕ → K) : K := (List.range dim).foldl (fun m (r : ℕ) => max m |v r|) 0

/-- `radii` of a cell (sfepy/discrete/common/global_interp.py:158-159). -/
def radius (dim nV : ℕ) (e : ℕ → ℕ → K) (centroid : ℕ → K) : K :=
  (List.range nV).foldl (fun m (i : ℕ) => max m (normInf dim fun r => e i r - centroid r)) 0

/-- `get_potential_cells()` for one point (sfepy/discrete/common/global_interp.py:147-192): the cells whose balls around
the centroids contain the point, in the order of the cells; if there is none and `extrapolate`, the cells `incident`
with a closest vertex. -/
def potentialCells (dim nV nEl : ℕ) (e : ℕ → ℕ → ℕ → K) (centroid : ℕ → ℕ → K) (extrapolate : Bool)
    (incident : List ℕ) (P : ℕ → K) : List ℕ :=
  let l := (List.range nEl).filter fun ic =>
    decide (normInf dim (fun r => P r - centroid ic r) ≤ radius dim nV (e ic) (centroid ic))
  if extrapolate && l.isEmpty then incident else l

/-! ### The evaluation -/

/-- `evaluate_in_rc()` without `diff` for one point and one component
(sfepy/discrete/common/extmods/crefcoors.pyx:206-238): `basis xi` are the values of the basis functions. -/
def evaluateInRc (basis : (ℕ → K) → ℕ → K) (econn : ℕ × ℕ → ℤ) (u : ℤ → K) (nNod : ℕ) (f : Found K) : K :=
  if f.status ≤ 1 then (List.range nNod).foldl (fun aux (ik : ℕ) => aux + basis f.xi ik * u (econn (f.cell, ik))) 0
  else 0

/-! ### The convex strategy -/

/-- `_intersect_line_plane()` (sfepy/discrete/common/extmods/refcoors.c:18-48). -/
def linePlane (dim : ℕ) (p00 p01 pp pn : ℕ → K) : K :=
  let v0 : ℕ → K := fun r => p01 r + (-1) * p00 r
  if (List.range dim).foldl (fun s (r : ℕ) => s + |v0 r|) 0 < 1 / 10 ^ 10 then 0
  else
    let dot1 := (List.range dim).foldl (fun s (r : ℕ) => s + pn r * v0 r) 0
    if |dot1| ≤ 1 / 10 ^ 10 then 10 ^ 10
    else -((List.range dim).foldl (fun s (r : ℕ) => s + pn r * (p00 r + (-1) * pp r)) 0) / dot1

/-- The mesh data of the search: for each cell its facets, given by a point and a normal, and the neighbour over each
facet. -/
structure Walk (K : Type) where
  nFacet : ℕ → ℕ
  centroid : ℕ → ℕ → K
  facetPoint : ℕ → ℕ → ℕ → K
  normal : ℕ → ℕ → ℕ → K
  neighbour : ℕ → ℕ → Option ℕ

/-- The loop over the planar facets of a cell: `imin`, `tmin` (sfepy/discrete/common/extmods/refcoors.c:217-228). -/
def exitFacet (dim : ℕ) (qpEps : K) (w : Walk K) (P : ℕ → K) (cell imin : ℕ) : ℕ × K :=
  (List.range (w.nFacet cell)).foldl (fun (s : ℕ × K) (ii : ℕ) =>
    let tt := linePlane dim (w.centroid cell) P (w.facetPoint cell ii) (w.normal cell ii)
    if -qpEps ≤ tt ∧ tt < s.2 + qpEps then (ii, tt) else s) (imin, 10 ^ 10)

/-- The walk from cell to cell for cells with planar facets (sfepy/discrete/common/extmods/refcoors.c:198-343): `n` is
the number of the remaining passes, 10001 at the beginning; nothing is the error "cannot find containing cell!".  The
hexahedra (bilinear faces) are not modelled. -/
def walkLoop (dim : ℕ) (qpEps : K) (w : Walk K) (xd : ℕ → XiDist K) (P : ℕ → K) :
    ℕ → ℕ → ℕ → K → Option (Search K)
  | 0, _, _, _ => none
  | n + 1, cell, imin, dmin =>
    let f := exitFacet dim qpEps w P cell imin
    if 1 - qpEps ≤ f.2 then
      let r := xd cell
      some { ok := r.ok && decide (r.dist < qpEps), imin := cell, dmin := min r.dist dmin, xi := r.xi, xiOk := r.ok }
    else
      match w.neighbour cell f.1 with
      | some c => walkLoop dim qpEps w xd P n c f.1 dmin
      | none =>
        let r := xd cell
        some { ok := r.ok && decide (r.dist < qpEps), imin := cell, dmin := min r.dist dmin, xi := r.xi, xiOk := r.ok }

/-- `refc_find_ref_coors_convex()` for one point and planar facets
(sfepy/discrete/common/extmods/refcoors.c:190-371): `cell0` is the first cell of a closest vertex. -/
def findRefCoorsConvex (sqrt : K → K) (extrapolate : Bool) (dim : ℕ) (qpEps closeLimit : K) (w : Walk K)
    (xd : ℕ → XiDist K) (P : ℕ → K) (cell0 : ℕ) : Option (Found K) :=
  (walkLoop dim qpEps w xd P 10001 cell0 0 (10 ^ 10)).map fun s =>
    { cell := s.imin, status := statusOf sqrt extrapolate closeLimit s.ok s.xiOk s.dmin, xi := s.xi }

end Verif.Loc
