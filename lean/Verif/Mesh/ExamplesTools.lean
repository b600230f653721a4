/-
Concrete cases of C70.
-/
import Verif.Mesh.PropsExtrude

namespace Verif.Mesh

/-- Two triangles, an unused node (2) and a segment. -/
def toolMesh : KMesh ℤ :=
  { coors := [0, 10, 20, 30, 40]
    vgroups := [1, 1, 2, 1, 3]
    blocks := [{ dim := 2, nv := 3, conn := [[0, 1, 3], [4, 3, 1]], mats := [5, 6] },
               { dim := 1, nv := 2, conn := [[0, 3]], mats := [5] }] }

theorem toolMesh_ok : MeshOk toolMesh := ⟨by decide, by decide, by decide⟩

example : cellVerticesOnly toolMesh =
    { coors := [0, 10, 30, 40], vgroups := [1, 1, 1, 3]
      blocks := [{ dim := 2, nv := 3, conn := [[0, 1, 2], [3, 2, 1]], mats := [5, 6] },
                 { dim := 1, nv := 2, conn := [[0, 2]], mats := [5] }] } := by decide

example : ∃ N, Restricts toolMesh (cellVerticesOnly toolMesh)
    (fun v => ∃ b ∈ toolMesh.blocks, ∃ row ∈ b.conn, v ∈ row) N ∧
    (cellVerticesOnly toolMesh).blocks = toolMesh.blocks.map (Block.renumber N) :=
  C70_cell_vertices_only toolMesh_ok

example : (meshByCgroup (.one 6) toolMesh).blocks = [{ dim := 2, nv := 3, conn := [[4, 3, 1]], mats := [6] }] := by decide

example : (meshByCgroup (.range 5 9) toolMesh).blocks = toolMesh.blocks := by decide

example : meshByNgroup (.many [1, 2]) toolMesh =
    { coors := [0, 10, 20, 30], vgroups := [1, 1, 2, 1]
      blocks := [{ dim := 2, nv := 3, conn := [[0, 1, 3]], mats := [5] },
                 { dim := 1, nv := 2, conn := [[0, 3]], mats := [5] }] } := by decide

example : ∃ P : List ℕ × ℕ → Bool, (∀ c, P c = true ↔ c.2 ∈ [6]) ∧
    (meshByCgroup (.many [6]) toolMesh).blocks.map (fun b => (b.dim, b.nv, b.cells)) = selectCells P toolMesh.blocks :=
  (C70_by_cgroup toolMesh_ok (.many [6])).2.2

/-! ### Merging -/

/-- Four points of the line, the first and the third one near. -/
def mergeMesh4 : KMesh (Fin 1 → ℚ) :=
  { coors := [![0], ![1], ![1 / 100], ![2]], vgroups := [1, 2, 3, 4]
    blocks := [{ dim := 1, nv := 2, conn := [[0, 1], [2, 3]], mats := [7, 8] }] }

theorem mergeMesh4_ok : MeshOk mergeMesh4 := ⟨by decide, by decide, by decide⟩

theorem mergeMesh4_pairs : IsPairs (1 / 10 : ℚ) mergeMesh4.coors [(0, 2)] := by
  refine ⟨by decide, ?_⟩
  intro i j
  constructor
  · intro h
    simp only [List.mem_singleton, Prod.mk.injEq] at h
    obtain ⟨rfl, rfl⟩ := h
    refine ⟨by omega, _, _, rfl, rfl, ?_⟩
    simp [Near, dist2]; norm_num
  · rintro ⟨hlt, a, b, ha, hb, hn⟩
    have hj : j < 4 := (List.getElem?_eq_some_iff.1 hb).1
    unfold Near dist2 at hn
    interval_cases j <;> interval_cases i <;> simp [mergeMesh4] at ha hb <;> subst ha <;> subst hb <;>
      simp at hn ⊢ <;> norm_num at hn

theorem mergeMesh4_labels : IsComponents 4 [(0, 2)] [1, 0, 1, 2] := by
  have key : ∀ i j, Relation.EqvGen (fun i j => (i, j) ∈ [(0, 2)]) i j ↔ (i = j ∨ (i = 0 ∧ j = 2) ∨ (i = 2 ∧ j = 0)) := by
    intro i j
    constructor
    · intro h
      induction h with
      | rel a b h => simp at h; omega
      | refl => simp
      | symm a b _ ih => omega
      | trans a b c _ _ h1 h2 => omega
    · rintro (rfl | ⟨rfl, rfl⟩ | ⟨rfl, rfl⟩)
      · exact .refl _
      · exact .rel _ _ (by simp)
      · exact .symm _ _ (.rel _ _ (by simp))
  refine ⟨rfl, ?_, by decide⟩
  intro i j a b hi hj
  rw [key]
  have h1 : i < 4 := (List.getElem?_eq_some_iff.1 hi).1
  have h2 : j < 4 := (List.getElem?_eq_some_iff.1 hj).1
  interval_cases i <;> interval_cases j <;> simp at hi hj <;> omega

example : ∃ M, NodesMerged (1 / 10 : ℚ) mergeMesh4 (mergeNodes (uniqueCoorMap [(0, 2)] [1, 0, 1, 2]) mergeMesh4) M :=
  C70_merge_nodes mergeMesh4_ok mergeMesh4_pairs mergeMesh4_labels

example : (mergeNodes (uniqueCoorMap [(0, 2)] [1, 0, 1, 2]) mergeMesh4).blocks =
    [{ dim := 1, nv := 2, conn := [[1, 0], [1, 2]], mats := [7, 8] }] := by decide

/-! ### Mirroring -/

/-- A tetrahedron with three vertices in the plane `x = 0`. -/
noncomputable def mirrorTet : KMesh (Fin 3 → ℝ) :=
  { coors := [![0, 0, 0], ![1, 0, 0], ![0, 1, 0], ![0, 0, 1]], vgroups := [0, 0, 0, 0]
    blocks := [{ dim := 3, nv := 4, conn := [[0, 1, 2, 3]], mats := [9] }] }

theorem mirrorTet_ok : MeshOk mirrorTet := by
  refine ⟨rfl, ?_, ?_⟩
  · intro b hb
    simp only [mirrorTet, List.mem_singleton] at hb
    subst hb; rfl
  · intro b hb
    simp only [mirrorTet, List.mem_singleton] at hb
    subst hb
    intro row hr
    simp only [List.mem_singleton] at hr
    subst hr
    exact ⟨rfl, by decide⟩

example : ∃ r, mirrorRaw 0 ![2, 0, 0] mirrorTet = some r ∧
    r.blocks = [{ dim := 3, nv := 4, conn := [[0, 1, 2, 3], [5, 4, 6, 7]], mats := [9, 9] }] := by
  refine ⟨_, rfl, rfl⟩

example : mirrorPt 0 ![2, 0, 0] ![3, 4, 5] = ![-3, 4, 5] := by
  rw [mirrorPt_eq]
  have : Real.sqrt (dot3 ![2, 0, 0] ![2, 0, 0]) = 2 := by
    rw [show dot3 ![2, 0, 0] ![2, 0, 0] = 2 ^ 2 by simp [dot3]; norm_num, Real.sqrt_sq (by norm_num)]
  have hu : unitV ![2, 0, 0] = ![1, 0, 0] := by
    funext i
    simp only [unitV, this]
    fin_cases i <;> simp
  rw [hu]
  funext i
  fin_cases i <;> simp [dot3]
  norm_num

/-- A mirrored cell. -/
example (p v : Fin 3 → ℝ) (x : Fin 4 → Fin 3 → ℝ) : mirrorCell p v [1, 0, 2, 3] x
    ![mirrorPt p v (x 1), mirrorPt p v (x 0), mirrorPt p v (x 2), mirrorPt p v (x 3)] := by
  intro k j h
  fin_cases k <;> simp at h
  · have : j = 1 := Fin.ext h.symm
    subst this; rfl
  · have : j = 0 := Fin.ext h.symm
    subst this; rfl
  · have : j = 2 := Fin.ext h.symm
    subst this; rfl
  · have : j = 3 := Fin.ext h.symm
    subst this; rfl

/-! ### Expanding -/

/-- Two triangles of a square. -/
noncomputable def flatTri : KMesh (Fin 2 → ℝ) :=
  { coors := [![0, 0], ![1, 0], ![0, 1], ![1, 1]], vgroups := [0, 0, 0, 0]
    blocks := [{ dim := 2, nv := 3, conn := [[0, 1, 2], [2, 1, 3]], mats := [7, 8] }] }

theorem flatTri_ok : MeshOk flatTri := by
  refine ⟨rfl, ?_, ?_⟩
  · intro b hb
    simp only [flatTri, List.mem_singleton] at hb
    subst hb; rfl
  · intro b hb
    simp only [flatTri, List.mem_singleton] at hb
    subst hb
    intro row hr
    have : row ∈ [[0, 1, 2], [2, 1, 3]] := hr
    refine ⟨?_, ?_⟩
    · revert row; decide
    · exact (show ∀ row ∈ [[0, 1, 2], [2, 1, 3]], ∀ v ∈ row, v < 4 by decide) row this

example : ∃ b' : Block, (expand2d 2 3 [(3, 4)] flatTri).blocks = [b'] ∧ b'.conn.length = 18 := by
  obtain ⟨b', h1, _, _, h4, _⟩ := C70_expand_triangles (dz := 2) (by norm_num) 3 flatTri_ok rfl rfl
  exact ⟨b', h1, h4⟩

/-- The two triangles have the opposite order of the vertices of the common edge: the mesh does not
conform. -/
example : [1, 2, 6] ∈ wedgeFacets 4 0 [0, 1, 2] ∧
    ¬ ∃ g ∈ wedgeFacets 4 0 [2, 1, 3], [1, 2, 6].Perm g := by
  refine ⟨by decide, ?_⟩
  exact (C70_expand_conforming (n := 4) (k := 0) (r := [0, 1, 2]) (r' := [2, 1, 3]) rfl (by decide) (by decide) rfl
    (by decide) (by decide) (i := 1) (j := 2) (i' := 0) (j' := 1) (by decide) (by decide) (by decide)
    (by decide)).2 ⟨rfl, rfl⟩ [1, 2, 6] (by unfold OnSide; decide) ⟨[1, 2, 6], by decide, .refl _⟩

/-- A quadrilateral. -/
noncomputable def flatQuad : KMesh (Fin 2 → ℝ) :=
  { coors := [![0, 0], ![1, 0], ![1, 1], ![0, 1]], vgroups := [0, 0, 0, 0]
    blocks := [{ dim := 2, nv := 4, conn := [[0, 1, 2, 3]], mats := [7] }] }

theorem flatQuad_ok : MeshOk flatQuad := by
  refine ⟨rfl, ?_, ?_⟩
  · intro b hb
    simp only [flatQuad, List.mem_singleton] at hb
    subst hb; rfl
  · intro b hb
    simp only [flatQuad, List.mem_singleton] at hb
    subst hb
    intro row hr
    simp only [List.mem_singleton] at hr
    subst hr
    exact ⟨rfl, by decide⟩

example : ∃ b' : Block, (expand2d 2 3 [(3, 8)] flatQuad).blocks = [b'] ∧ b'.conn.length = 3 := by
  obtain ⟨b', h1, _, _, h4, _⟩ := C70_expand_quads (dz := 2) (by norm_num) 3 flatQuad_ok rfl rfl
  exact ⟨b', h1, h4⟩

end Verif.Mesh
