/-
C66: examples.
-/
import Verif.Mesh.PropsQ2T

namespace Verif.Mesh

/-- A block of two cells. -/
example : tensorConn3 3 2 2 = [[0, 4, 6, 2, 1, 5, 7, 3], [4, 8, 10, 6, 5, 9, 11, 7]] := by decide

example : tensorConn2 3 2 = [[0, 2, 3, 1], [2, 4, 5, 3]] := by decide

example : blockCoors2 ((4 : ℚ), (2 : ℚ)) (1, 1) 3 2 = [(-1, 0), (-1, 2), (1, 0), (1, 2), (3, 0), (3, 2)] := by
  simp [blockCoors2, axisCoor, List.range_succ]
  norm_num

/-- The hypotheses of the tiling hold for a block in rational numbers. -/
example : (blockCoors3 ((1 : ℚ), (2 : ℚ), (3 : ℚ)) (0, 0, 0) 3 4 5).Nodup :=
  (C66_tiling3 _ _ ⟨by norm_num, by norm_num, by norm_num⟩ (by norm_num) (by norm_num)
    (by norm_num)).2.2

/-- The unit cube is a parallelepiped. -/
def unitCube (v : ℕ) : Fin 3 → ℚ :=
  let r := hexRef.getD v (0, 0, 0)
  ![(r.1 : ℚ), (r.2.1 : ℚ), (r.2.2 : ℚ)]

theorem unitCube_par : IsPar (K := ℚ) unitCube 0 ![1, 0, 0] ![0, 1, 0] ![0, 0, 1] := by
  intro v a b c h
  unfold unitCube
  rw [List.getD_eq_getElem?_getD, h]
  ext i
  fin_cases i <;> simp

example : vol6 (corner unitCube [0, 5, 6, 4] 4) = 1 := by
  rw [C66_q2t_hex_volume unitCube_par (by decide)]
  simp [Matrix.det_fin_three]

/-- The diagonals of the unit square cross. -/
example (x : ℕ → Fin 2 → ℚ) (h0 : x 0 = ![0, 0]) (h1 : x 1 = ![1, 0]) (h2 : x 2 = ![1, 1])
    (h3 : x 3 = ![0, 1]) :
    ((1 : ℚ) / 2) • x 0 + (1 - (1 : ℚ) / 2) • x 2 = ((1 : ℚ) / 2) • x 1 + (1 - (1 : ℚ) / 2) • x 3 := by
  rw [h0, h1, h2, h3]
  ext i
  fin_cases i <;> norm_num

/-- The hypotheses of conformity: the facet 1-5-6 of the first cell of a block is in the second. -/
example : [1, 5, 6] ∈ facets [1, 5, 6, 0] ∧
    ∀ v ∈ [1, 5, 6], ([0, 4, 6, 2, 1, 5, 7, 3] : List ℕ).getD v 0 ∈ [4, 8, 10, 6, 5, 9, 11, 7] := by
  decide

/-- **Outside of block meshes the division need not be conforming**: two hexahedrons with a common face,
the numbering of the second is turned by a quarter around the normal of the face; the facet 1-5-6 of
the first is in the second one, but no tetrahedron of the second has it. -/
theorem C66_q2t_nonconforming :
    let row := [0, 1, 2, 3, 4, 5, 6, 7]
    let row' := [2, 8, 9, 6, 1, 10, 11, 5]
    [1, 5, 6] ∈ facets [1, 5, 6, 0] ∧ (∀ v ∈ [1, 5, 6], row.getD v 0 ∈ row') ∧
    ¬ ∃ tet' ∈ q2tHex, ∀ v ∈ [1, 5, 6], row.getD v 0 ∈ tet'.map fun v' => row'.getD v' 0 := by
  decide

end Verif.Mesh
