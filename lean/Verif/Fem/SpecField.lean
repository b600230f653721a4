/-
What is said about the functions of a finite element field: the value in a point of a cell and the same
point of two cells.
-/
import Verif.Fem.Spec
import Verif.Fem.Lagrange

namespace Verif.Fem

open Finset

variable {K : Type} [Field K]

/-- The value of the field with the DOFs `u` in the cell number `el`: the sum of the basis functions in the given
point times the DOFs given by the connectivity, as in `evaluate_in_rc()`
(sfepy/discrete/common/extmods/crefcoors.pyx:210-225). -/
def fieldValue (econn : ℕ × ℕ → ℤ) (u : ℤ → K) (φ : ℕ → K) (nNod el : ℕ) : K :=
  ∑ k ∈ range nNod, φ k * u (econn (el, k))

/-- The weight of the mesh vertex `v` in a point of a cell with the vertices `conn`, where the local vertices
have the weights `w`.  The coordinates of the point are the sum of the weights times the vertex coordinates.  The
points on the common part of the boundaries of two cells have the same weights from both the cells. -/
def meshWeight (nV : ℕ) (conn : ℕ → ℕ) (w : ℕ → K) (v : ℕ) : K :=
  ∑ i ∈ range nV, if conn i = v then w i else 0

/-- The weights of the vertices of a tensor product element in the point with the barycentric coordinates
`bc d 0`, `bc d 1` in the directions `d`. -/
def tensorWeight (dim : ℕ) (bc : ℕ → ℕ → K) (i : ℕ) : K := ∏ d ∈ range dim, bc d (vertexMap dim i d)

end Verif.Fem
