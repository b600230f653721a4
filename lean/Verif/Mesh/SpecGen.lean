/-
Specification of block meshes and of their subdivision to simplices.
-/
import Mathlib.Algebra.Order.Field.Basic
import Mathlib.Algebra.BigOperators.Fin
import Mathlib.Algebra.Module.Defs
import Mathlib.Data.Set.Defs

namespace Verif.Mesh

/-- Coordinates of the vertices of the reference quadrilateral (geometry_element.py, '2_4'). -/
def quadRef : List (ℕ × ℕ) := [(0, 0), (1, 0), (1, 1), (0, 1)]

/-- Coordinates of the vertices of the reference hexahedron (geometry_element.py, '3_8'). -/
def hexRef : List (ℕ × ℕ × ℕ) :=
  [(0, 0, 0), (1, 0, 0), (1, 1, 0), (0, 1, 0), (0, 0, 1), (1, 0, 1), (1, 1, 1), (0, 1, 1)]

/-- The simplex with the given vertices: convex combinations of the vertices. -/
def Simplex {K V : Type} [Field K] [LinearOrder K] [AddCommGroup V] [Module K V] {n : ℕ}
    (x : Fin n → V) : Set V :=
  {p | ∃ w : Fin n → K, (∀ i, 0 ≤ w i) ∧ ∑ i, w i = 1 ∧ p = ∑ i, w i • x i}

/-- The inside of a simplex: positive weights. -/
def SimplexInt {K V : Type} [Field K] [LinearOrder K] [AddCommGroup V] [Module K V] {n : ℕ}
    (x : Fin n → V) : Set V :=
  {p | ∃ w : Fin n → K, (∀ i, 0 < w i) ∧ ∑ i, w i = 1 ∧ p = ∑ i, w i • x i}

/-- The regular grid on `[c - d / 2, c + d / 2]` with `n` nodes: node `i` divides the segment in the
ratio `i : n - 1 - i`. -/
def gridNode {K : Type} [Field K] (d c : K) (n i : ℕ) : K :=
  (c - d / 2) * (((n : K) - 1 - i) / ((n : K) - 1)) + (c + d / 2) * ((i : K) / ((n : K) - 1))

end Verif.Mesh
