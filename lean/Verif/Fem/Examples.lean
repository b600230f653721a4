/-
The facets computed by the mesh library meet the requirements of the conformity; concrete meshes.
-/
import Verif.Fem.PropsDofs

namespace Verif.Fem

open Verif.CMesh (oriKey UniqueFacets BState)

/-- The unique facets computed by the mesh library (C36) for cells of one type, with the given reference
entities, are numbered by their vertices and have the orientations of their vertices, as required in
`MeshOk`. -/
theorem C55_facets_of_mesh (nD : ℕ) (ents : List (List ℕ)) (conn : ℕ → ℕ → ℕ) (s : BState) (facets : List (List ℕ))
    (ids : List ℕ) (hU : UniqueFacets nD (fun c => ents.map fun l => l.map (conn c)) s facets ids) :
    (∀ c < nD, ∀ c' < nD, ∀ e < ents.length, ∀ e' < ents.length,
      ((s.cDd.row c).getD e 0 = (s.cDd.row c').getD e' 0 ↔
        ((ents.getD e []).map (conn c)).Perm ((ents.getD e' []).map (conn c')))) ∧
    ∀ c < nD, ∀ e < ents.length, s.oris (s.cDd.offsets c + e) = oriKey ((ents.getD e []).map (conn c)) := by
  have hr : ∀ c < nD, (s.cDd.row c).length = ents.length := fun c hc => by rw [hU.rows c hc]; simp
  have hidx : ∀ c < nD, ∀ e < ents.length, c * ents.length + e < nD * ents.length := fun c hc e he => by
    calc c * ents.length + e < (c + 1) * ents.length := by rw [Nat.succ_mul]; omega
      _ ≤ _ := Nat.mul_le_mul_right _ hc
  have hlen : facets.length = nD * ents.length := by
    rw [hU.facets_eq]; exact length_blocks _ _ _ fun i _ => by simp
  have hlen' : ids.length = nD * ents.length := by
    rw [hU.ids_eq]; exact length_blocks _ _ _ hr
  have hf : ∀ c < nD, ∀ e < ents.length, facets[c * ents.length + e]? = some ((ents.getD e []).map (conn c)) := by
    intro c hc e he
    rw [hU.facets_eq, getElem?_blocks nD ents.length _ (fun i _ => by simp) c e hc he, List.getElem?_map,
      List.getElem?_eq_getElem he, List.getD_eq_getElem _ _ he]
    rfl
  have hi : ∀ c < nD, ∀ e < ents.length, ids[c * ents.length + e]? = some ((s.cDd.row c).getD e 0) := by
    intro c hc e he
    rw [hU.ids_eq, getElem?_blocks nD ents.length _ hr c e hc he,
      List.getElem?_eq_getElem (by rw [hr c hc]; exact he), List.getD_eq_getElem _ _ (by rw [hr c hc]; exact he)]
  have hoff : ∀ c ≤ nD, s.cDd.offsets c = c * ents.length := by
    intro c
    induction c with
    | zero => intro _; rw [hU.wfDd.zero, Nat.zero_mul]
    | succ c ih =>
      intro hc
      have h1 := hr c (by omega)
      rw [Verif.CMesh.Conn.row_length] at h1
      have h2 := hU.wfDd.mono c (by rw [hU.numDd]; omega)
      rw [ih (by omega)] at h1 h2
      rw [Nat.succ_mul]; omega
  refine ⟨fun c hc c' hc' e he e' he' => ?_, fun c hc e he => ?_⟩
  · have i1 := hidx c hc e he
    have i2 := hidx c' hc' e' he'
    have := hU.same _ _ (hlen' ▸ i1) (hlen' ▸ i2)
    have a := hi c hc e he; have a' := hi c' hc' e' he'; have b := hf c hc e he; have b' := hf c' hc' e' he'
    rw [List.getElem?_eq_getElem (hlen' ▸ i1), Option.some_inj] at a
    rw [List.getElem?_eq_getElem (hlen' ▸ i2), Option.some_inj] at a'
    rw [List.getElem?_eq_getElem (hlen ▸ i1), Option.some_inj] at b
    rw [List.getElem?_eq_getElem (hlen ▸ i2), Option.some_inj] at b'
    rw [a, a', b, b'] at this
    exact this
  · have i1 := hidx c hc e he
    have b := hf c hc e he
    rw [List.getElem?_eq_getElem (hlen ▸ i1), Option.some_inj] at b
    rw [hoff c hc.le, hU.oris _ (hlen ▸ i1), b]

/-! ### Two triangles -/

/-- The triangles (0, 1, 2), (2, 1, 3). -/
def triD : FieldData where
  conn := fun c i => ([[0, 1, 2], [2, 1, 3]].getD c []).getD i 0
  edgeId := fun c i => ([[0, 1, 2], [1, 3, 4]].getD c []).getD i 0
  faceId := fun _ _ => 0
  edgeOri := fun c i => ([[1, 1, 0], [0, 1, 0]].getD c []).getD i 0
  faceOri := fun _ _ => 0
  verts := [0, 1, 2, 3]
  edges := [0, 1, 2, 3, 4]
  faces := []
  cells := [0, 1]

theorem triD_ok : MeshOk gel23 triD where
  verts_nodup := by decide
  edges_nodup := by decide
  faces_nodup := by decide
  verts := by decide
  edges := by decide
  faces := by decide
  inj := by decide
  cell := fun el hel el' hel' h => by
    have hel : el < 2 := hel
    have hel' : el' < 2 := hel'
    have h0 := h 0
    interval_cases el <;> interval_cases el' <;> first | rfl | (revert h0; decide)
  edge_eq := by decide
  face_eq := by decide
  quad := fun c hc c' hc' f hf => by simp [gel23] at hf
  edgeOri := by decide
  faceOri := by decide

theorem triD_covered : Covered gel23 triD := ⟨by decide, by decide, by decide⟩

/-- The connectivity of the field of the order three: the two nodes of the common edge are shared, in the
opposite orders. -/
example : ((List.range 2).map fun el => (List.range 10).map fun k =>
      (setupGlobalBasis gel23 (simplexNodes gel23 3) 3 triD).1 (el, k)) =
    [[0, 1, 2, 4, 5, 6, 7, 9, 8, 14], [2, 1, 3, 7, 6, 10, 11, 13, 12, 15]] ∧
    (setupGlobalBasis gel23 (simplexNodes gel23 3) 3 triD).2 = 16 := by
  decide +kernel

/-! ### Two tetrahedra -/

/-- The tetrahedra (0, 1, 2, 3), (2, 1, 4, 3). -/
def tetD : FieldData where
  conn := fun c i => ([[0, 1, 2, 3], [2, 1, 4, 3]].getD c []).getD i 0
  edgeId := fun c i => ([[0, 1, 2, 3, 4, 5], [1, 6, 7, 5, 4, 8]].getD c []).getD i 0
  faceId := fun c i => ([[0, 1, 2, 3], [4, 5, 3, 6]].getD c []).getD i 0
  edgeOri := fun c i => oriKey ((gel34.edges.getD i []).map fun k => ([[0, 1, 2, 3], [2, 1, 4, 3]].getD c []).getD k 0)
  faceOri := fun c i => oriKey ((gel34.faces.getD i []).map fun k => ([[0, 1, 2, 3], [2, 1, 4, 3]].getD c []).getD k 0)
  verts := [0, 1, 2, 3, 4]
  edges := [0, 1, 2, 3, 4, 5, 6, 7, 8]
  faces := [0, 1, 2, 3, 4, 5, 6]
  cells := [0, 1]

theorem tetD_ok : MeshOk gel34 tetD where
  verts_nodup := by decide
  edges_nodup := by decide
  faces_nodup := by decide
  verts := by decide
  edges := by decide
  faces := by decide
  inj := by decide
  cell := fun el hel el' hel' h => by
    have hel : el < 2 := hel
    have hel' : el' < 2 := hel'
    have h0 := h 0
    interval_cases el <;> interval_cases el' <;> first | rfl | (revert h0; decide)
  edge_eq := by decide +kernel
  face_eq := by decide +kernel
  quad := fun c hc c' hc' f hf f' hf' _ x y z w e => by
    have := congrArg List.length e
    have h3 := (gel34_faces f hf).1
    simp at this h3
    omega
  edgeOri := by decide
  faceOri := by decide

theorem tetD_covered : Covered gel34 tetD := ⟨by decide, by decide, by decide⟩

/-! ### Two hexahedra -/

/-- Two hexahedra with the common face (1, 2, 6, 5); the second cell is turned. -/
def hexD : FieldData where
  conn := fun c i => ([[0, 1, 2, 3, 4, 5, 6, 7], [5, 6, 2, 1, 8, 9, 10, 11]].getD c []).getD i 0
  edgeId := fun c i => ([[0, 1, 2, 3, 4, 5, 6, 7, 8, 9, 10, 11], [5, 10, 1, 9, 12, 13, 14, 15, 16, 17, 18, 19]].getD c
    []).getD i 0
  faceId := fun c i => ([[0, 1, 2, 3, 4, 5], [4, 6, 7, 8, 9, 10]].getD c []).getD i 0
  edgeOri := fun c i => oriKey ((gel38.edges.getD i []).map fun k =>
    ([[0, 1, 2, 3, 4, 5, 6, 7], [5, 6, 2, 1, 8, 9, 10, 11]].getD c []).getD k 0)
  faceOri := fun c i => oriKey ((gel38.faces.getD i []).map fun k =>
    ([[0, 1, 2, 3, 4, 5, 6, 7], [5, 6, 2, 1, 8, 9, 10, 11]].getD c []).getD k 0)
  verts := List.range 12
  edges := List.range 20
  faces := List.range 11
  cells := [0, 1]

theorem hexD_quad : ∀ c ∈ hexD.cells, ∀ c' ∈ hexD.cells, ∀ f < gel38.faces.length, ∀ f' < gel38.faces.length,
    hexD.faceId c f = hexD.faceId c' f' →
      (gel38.faces.getD f' []).map (hexD.conn c') ∈ around (((gel38.faces.getD f []).map (hexD.conn c)).getD 0 0)
        (((gel38.faces.getD f []).map (hexD.conn c)).getD 1 0) (((gel38.faces.getD f []).map (hexD.conn c)).getD 2 0)
        (((gel38.faces.getD f []).map (hexD.conn c)).getD 3 0) := by
  decide +kernel

theorem hexD_ok : MeshOk gel38 hexD where
  verts_nodup := by decide
  edges_nodup := by decide
  faces_nodup := by decide
  verts := by decide
  edges := by decide
  faces := by decide
  inj := by decide +kernel
  cell := fun el hel el' hel' h => by
    have hel : el < 2 := hel
    have hel' : el' < 2 := hel'
    have h0 := h 0
    interval_cases el <;> interval_cases el' <;> first | rfl | (revert h0; decide)
  edge_eq := by decide +kernel
  face_eq := by decide +kernel
  quad := fun c hc c' hc' f hf f' hf' h x y z w e => by
    have := hexD_quad c hc c' hc' f hf f' hf' h
    rw [e] at this
    exact this
  edgeOri := by decide +kernel
  faceOri := by decide +kernel

theorem hexD_covered : Covered gel38 hexD := ⟨by decide +kernel, by decide +kernel, by decide +kernel⟩

/-- The conclusions for the order five. -/
example (k k' : ℕ) (hk : k < 216) (hk' : k' < 216) :
    (setupGlobalBasis gel38 (tensorNodes gel38 5) 5 hexD).1 (0, k) =
      (setupGlobalBasis gel38 (tensorNodes gel38 5) 5 hexD).1 (1, k') ↔
    ∀ v, tensorLoc 3 8 (hexD.conn 0) (rowAt (tensorNodes gel38 5) k) v =
      tensorLoc 3 8 (hexD.conn 1) (rowAt (tensorNodes gel38 5) k') v := by
  have h := C55_count_tensor gel38 (by simp) 5 (by omega)
  exact C55_conforming_tensor gel38 (by simp) 5 (by omega) hexD hexD_ok 0 1 k k' (by decide) (by decide)
    (by rw [h]; exact hk) (by rw [h]; exact hk')

/-- Two cells with the vertices of a common quadrilateral face in different cyclic orders (a twisted cell) do not
get common DOFs in the same places: the requirement on the cyclic order is needed. -/
theorem C55_twisted_counterexample :
    facetDofPermutation 4 3 (oriKey [0, 1, 2, 3]) ≠ none ∧ [0, 2, 1, 3].Perm [0, 1, 2, 3] ∧
    (∃ j < 4, ∃ j' < 4, permItem 4 3 4 (oriKey [0, 1, 2, 3]) j = permItem 4 3 4 (oriKey [0, 2, 1, 3]) j' ∧
      faceW 3 [0, 1, 2, 3] j 1 ≠ faceW 3 [0, 2, 1, 3] j' 1) := by
  decide +kernel

end Verif.Fem
