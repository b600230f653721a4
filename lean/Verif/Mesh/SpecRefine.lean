/-
Specification of the uniform refinement: reference cells, incidence relations of a mesh, subdivision of
the reference cell.
-/
import Verif.Mesh.SpecGen
import Verif.Mesh.Refine

namespace Verif.Mesh

/-- The edges of the reference cells (geometry_element.py:123-125, 137-140, 156-161, 206-217). -/
def edges23 : List (List ℕ) := [[0, 1], [1, 2], [2, 0]]
def edges24 : List (List ℕ) := [[0, 1], [1, 2], [2, 3], [3, 0]]
def edges34 : List (List ℕ) := [[0, 1], [1, 2], [2, 0], [0, 3], [1, 3], [2, 3]]
def edges38 : List (List ℕ) :=
  [[0, 1], [1, 2], [2, 3], [3, 0], [4, 5], [5, 6], [6, 7], [7, 4], [0, 4], [1, 5], [2, 6], [3, 7]]

/-- The faces of the reference cells (geometry_element.py:152-155, 200-205). -/
def faces34 : List (List ℕ) := [[0, 2, 1], [0, 3, 2], [0, 1, 3], [1, 2, 3]]
def faces38 : List (List ℕ) :=
  [[0, 3, 2, 1], [0, 4, 7, 3], [0, 1, 5, 4], [4, 5, 6, 7], [1, 2, 6, 5], [3, 7, 6, 2]]

/-- The rows `ents` of vertices and the incidence `cellEnts` belong to the entities of the cells given
by the local table `tab`: entity `j` of cell `i` has the vertices `tab[j]` of the cell, in some
order, and entities with the same vertices have the same number. -/
structure Incidence (tab conn ents cellEnts : List (List ℕ)) : Prop where
  mem : ∀ (i j : ℕ) (row loc : List ℕ), conn[i]? = some row → tab[j]? = some loc →
    ∃ (ids : List ℕ) (g : ℕ) (er : List ℕ), cellEnts[i]? = some ids ∧ ids[j]? = some g ∧
      ents[g]? = some er ∧ er.Perm (loc.map fun v => row.getD v 0)
  uniq : ∀ (g g' : ℕ) (r r' : List ℕ), ents[g]? = some r → ents[g']? = some r' → r.Perm r' → g = g'

/-- A mesh of cells with `nv` vertices with right incidence relations. -/
structure Topo (nv : ℕ) (eTab fTab : List (List ℕ)) {V : Type} (m : RMesh V) : Prop where
  len : ∀ row ∈ m.conn, row.length = nv
  lt : ∀ row ∈ m.conn, ∀ v ∈ row, v < m.coors.length
  edges : Incidence eTab m.conn m.edges m.cellEdges
  faces : Incidence fTab m.conn m.faces m.cellFaces
  groups : m.groups.length = m.conn.length

/-- The coordinates of vertex `v` of the cell with the row `row`. -/
def vtx {V : Type} [Zero V] (coors : List V) (row : List ℕ) (v : ℕ) : V := coors.getD (row.getD v 0) 0

/-- The vertices of a cell. -/
def vtxs {V : Type} [Zero V] (coors : List V) (row : List ℕ) (n : ℕ) : Fin n → V :=
  fun v => vtx coors row v

section

variable {K V : Type} [Field K] [LinearOrder K] [AddCommGroup V] [Module K V]

/-- The vertices are affinely independent. -/
def AffIndep (K : Type) [Field K] [Module K V] {n : ℕ} (x : Fin n → V) : Prop :=
  ∀ w w' : Fin n → K, ∑ i, w i = 1 → ∑ i, w' i = 1 → ∑ i, w i • x i = ∑ i, w' i • x i → w = w'

/-- Twice the signed area of a triangle. -/
def triArea2 (x : Fin 3 → Fin 2 → K) : K :=
  (x 1 0 - x 0 0) * (x 2 1 - x 0 1) - (x 1 1 - x 0 1) * (x 2 0 - x 0 0)

/-- The determinant of three vectors. -/
def det3v (a b c : Fin 3 → K) : K :=
  a 0 * (b 1 * c 2 - b 2 * c 1) - a 1 * (b 0 * c 2 - b 2 * c 0) + a 2 * (b 0 * c 1 - b 1 * c 0)

/-- Six times the signed volume of a tetrahedron. -/
def tetVol6 (x : Fin 4 → Fin 3 → K) : K := det3v (x 1 - x 0) (x 2 - x 0) (x 3 - x 0)

/-- The bilinear map of the reference square to the quadrilateral with the vertices `x`. -/
def bilinear (x : Fin 4 → V) (s t : K) : V :=
  ((1 - s) * (1 - t)) • x 0 + (s * (1 - t)) • x 1 + (s * t) • x 2 + ((1 - s) * t) • x 3

/-- The trilinear map of the reference cube to the hexahedron with the vertices `x`. -/
def trilinear (x : Fin 8 → V) (s t u : K) : V :=
  ((1 - s) * (1 - t) * (1 - u)) • x 0 + (s * (1 - t) * (1 - u)) • x 1 +
  (s * t * (1 - u)) • x 2 + ((1 - s) * t * (1 - u)) • x 3 +
  ((1 - s) * (1 - t) * u) • x 4 + (s * (1 - t) * u) • x 5 +
  (s * t * u) • x 6 + ((1 - s) * t * u) • x 7

/-- `n` affine maps with the determinant `1 / n`, whose images of the unit square tile the unit
square. -/
structure SquareTiling (n : ℕ) (o a b : ℕ → K × K) : Prop where
  det : ∀ k < n, (a k).1 * (b k).2 - (a k).2 * (b k).1 = 1 / n
  inside : ∀ k < n, ∀ s t : K, 0 ≤ s → s ≤ 1 → 0 ≤ t → t ≤ 1 →
    (0 ≤ (o k + s • a k + t • b k).1 ∧ (o k + s • a k + t • b k).1 ≤ 1) ∧
    (0 ≤ (o k + s • a k + t • b k).2 ∧ (o k + s • a k + t • b k).2 ≤ 1)
  cover : ∀ p q : K, 0 ≤ p → p ≤ 1 → 0 ≤ q → q ≤ 1 → ∃ k < n, ∃ s t : K,
    0 ≤ s ∧ s ≤ 1 ∧ 0 ≤ t ∧ t ≤ 1 ∧ o k + s • a k + t • b k = (p, q)
  disjoint : ∀ k < n, ∀ l < n, ∀ s t s' t' : K, 0 < s → s < 1 → 0 < t → t < 1 →
    0 < s' → s' < 1 → 0 < t' → t' < 1 →
    o k + s • a k + t • b k = o l + s' • a l + t' • b l → k = l

/-- The same in 3D. -/
structure CubeTiling (n : ℕ) (o a b c : ℕ → K × K × K) : Prop where
  det : ∀ k < n, (a k).1 * ((b k).2.1 * (c k).2.2 - (b k).2.2 * (c k).2.1)
    - (a k).2.1 * ((b k).1 * (c k).2.2 - (b k).2.2 * (c k).1)
    + (a k).2.2 * ((b k).1 * (c k).2.1 - (b k).2.1 * (c k).1) = 1 / n
  inside : ∀ k < n, ∀ s t u : K, 0 ≤ s → s ≤ 1 → 0 ≤ t → t ≤ 1 → 0 ≤ u → u ≤ 1 →
    (0 ≤ (o k + s • a k + t • b k + u • c k).1 ∧ (o k + s • a k + t • b k + u • c k).1 ≤ 1) ∧
    (0 ≤ (o k + s • a k + t • b k + u • c k).2.1 ∧ (o k + s • a k + t • b k + u • c k).2.1 ≤ 1) ∧
    (0 ≤ (o k + s • a k + t • b k + u • c k).2.2 ∧ (o k + s • a k + t • b k + u • c k).2.2 ≤ 1)
  cover : ∀ p q r : K, 0 ≤ p → p ≤ 1 → 0 ≤ q → q ≤ 1 → 0 ≤ r → r ≤ 1 → ∃ k < n, ∃ s t u : K,
    0 ≤ s ∧ s ≤ 1 ∧ 0 ≤ t ∧ t ≤ 1 ∧ 0 ≤ u ∧ u ≤ 1 ∧
    o k + s • a k + t • b k + u • c k = (p, q, r)
  disjoint : ∀ k < n, ∀ l < n, ∀ s t u s' t' u' : K, 0 < s → s < 1 → 0 < t → t < 1 → 0 < u → u < 1 →
    0 < s' → s' < 1 → 0 < t' → t' < 1 → 0 < u' → u' < 1 →
    o k + s • a k + t • b k + u • c k = o l + s' • a l + t' • b l + u' • c l → k = l

end

end Verif.Mesh
