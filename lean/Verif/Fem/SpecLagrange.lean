/-
What is said about the Lagrange bases: the reference element, the points, the nodes.
-/
import Verif.Fem.Lagrange
import Mathlib.Algebra.BigOperators.Group.Finset.Basic
import Mathlib.Algebra.Order.Ring.Defs
import Mathlib.Algebra.BigOperators.Ring.Finset

namespace Verif.Fem

open Finset

variable {K : Type} [Field K]

/-- `mtx_i` is the inverse of the matrix `mtx` with the columns `(coors[j], 1)`:
`nla.inv(mtx)` in `LagrangeSimplexPolySpace.__init__()` (sfepy/discrete/fem/poly_spaces.py:296-300).
`mtx_i @ mtx = 1` and `mtx @ mtx_i = 1`, where the last row of `mtx` are ones. -/
structure IsRefInv (nV : ℕ) (coors mtxI : ℕ → ℕ → K) : Prop where
  pos : 1 ≤ nV
  left : ∀ i j, i < nV → j < nV →
    ∑ r ∈ range (nV - 1), mtxI i r * coors j r + mtxI i (nV - 1) = if i = j then 1 else 0
  coor : ∀ r s, r < nV - 1 → s < nV → ∑ i ∈ range nV, coors i r * mtxI i s = if r = s then 1 else 0
  ones : ∀ s < nV, ∑ i ∈ range nV, mtxI i s = if s = nV - 1 then 1 else 0

/-- `node_coors` of a node of a simplex: `nm.dot(nodes, geometry.coors) / order`
(sfepy/discrete/fem/poly_spaces.py:375-376). -/
def simplexNodeCoor (nV order : ℕ) (coors : ℕ → ℕ → K) (row : ℕ → ℕ) (r : ℕ) : K :=
  (∑ i ∈ range nV, (row i : K) * coors i r) / order

/-- `node_coors` of the bubble node: `nm.dot(tmp, self.geometry.coors) / n_v` with `tmp` of ones
(sfepy/discrete/fem/poly_spaces.py:466-470). -/
def centerCoor (nV : ℕ) (coors : ℕ → ℕ → K) (r : ℕ) : K := (∑ i ∈ range nV, coors i r) / nV

/-- `node_coors` of a node of a tensor product element (sfepy/discrete/fem/poly_spaces.py:586-591). -/
def tensorNodeCoor (order : ℕ) (cMin cMax : K) (row : ℕ → ℕ) (d : ℕ) : K :=
  ((row (2 * d) : K) * cMin + row (2 * d + 1) * cMax) / order

/-- The point is not moved by the snapping and not refused: each barycentric coordinate is in `[0, 1]`, or,
when the errors are not checked, outside of `(- eps, 1 + eps)`. -/
def Clean [LinearOrder K] (nV : ℕ) (mtxI : ℕ → ℕ → K) (eps : K) (checkErrors : Bool) (x : ℕ → K) : Prop :=
  ∀ i < nV, (0 ≤ baryVal nV mtxI x i ∧ baryVal nV mtxI x i ≤ 1) ∨
    (checkErrors = false ∧ (baryVal nV mtxI x i ≤ -eps ∨ 1 + eps ≤ baryVal nV mtxI x i))

/-- The coordinates of the ends of the reference segment: `self.bbox[:, 0]`
(sfepy/discrete/fem/poly_spaces.py:499-501). -/
def ends (cMin cMax : K) (i _r : ℕ) : K := if i = 0 then cMin else cMax

/-- The same for a tensor product element: in each direction. -/
def CleanT [LinearOrder K] (dim : ℕ) (mtxI : ℕ → ℕ → K) (eps : K) (checkErrors : Bool) (x : ℕ → K) : Prop :=
  ∀ d < dim, Clean 2 mtxI eps checkErrors fun _ => x d

end Verif.Fem
