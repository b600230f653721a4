/-
C52 (continued): the connectivities exist for every conforming mesh and mean what `mesh.h` says.
-/
import Verif.CMesh.PropsTopo
import Verif.CMesh.PropsPipeline

namespace Verif.CMesh

/-! ### The connectivities as functions of the cell vertices -/

/-- `transpose` of valid data. -/
def trD (n1 n2 : ℕ) (c : Conn) : Conn := (transpose n1 n2 c).getD emptyConn

/-- The connectivity `D -> D`. -/
def tgtDD (nV nD : ℕ) (cD0 : Conn) : Conn :=
  (intersect nD cD0 (trD nV nD cD0) none).getD emptyConn

/-- The facets of the dimension `d`. -/
def tgtS (r : Ref) (nV nD : ℕ) (cD0 : Conn) (d : ℕ) : BState :=
  (meshBuild nD (if d = 1 then 2 else 4) (r.locs d) r.cellTypes (tgtDD nV nD cD0) cD0).getD
    { id := 0, cDd := emptyConn, cd0 := emptyConn, oris := fun _ => 0 }

/-- The numbers of entities. -/
def tgtN (r : Ref) (D nV nD : ℕ) (cD0 : Conn) (d : ℕ) : ℕ :=
  if d = 0 then nV else if d = D then nD else (tgtS r nV nD cD0 d).id

/-- `d -> 0`, `d > 0`. -/
def tgtV (r : Ref) (D nV nD : ℕ) (cD0 : Conn) (d : ℕ) : Conn :=
  if d = D then cD0 else (tgtS r nV nD cD0 d).cd0

/-- `0 -> d`, `d > 0`. -/
def tgtW (r : Ref) (D nV nD : ℕ) (cD0 : Conn) (d : ℕ) : Conn :=
  trD nV (tgtN r D nV nD cD0 d) (tgtV r D nV nD cD0 d)

/-- `d1 -> d2`, `d1 > d2 > 0`. -/
def tgtDown (r : Ref) (D nV nD : ℕ) (cD0 : Conn) (d1 d2 : ℕ) : Conn :=
  if d1 = D then (tgtS r nV nD cD0 d2).cDd
  else (intersect (tgtN r D nV nD cD0 d1) (tgtV r D nV nD cD0 d1) (tgtW r D nV nD cD0 d2)
    (some (tgtV r D nV nD cD0 d1, tgtV r D nV nD cD0 d2))).getD emptyConn

/-- All the connectivities of the mesh with the cell vertices `cD0`. -/
def tgt (r : Ref) (D nV nD : ℕ) (cD0 : Conn) (d1 d2 : ℕ) : Conn :=
  if d1 = 0 ∧ d2 = 0 then
    (intersect nV (tgtW r D nV nD cD0 D) (tgtV r D nV nD cD0 D) none).getD emptyConn
  else if d1 = 0 then tgtW r D nV nD cD0 d2
  else if d2 = 0 then tgtV r D nV nD cD0 d1
  else if d1 = d2 then
    (intersect (tgtN r D nV nD cD0 d1) (tgtV r D nV nD cD0 d1) (tgtW r D nV nD cD0 d1) none).getD
      emptyConn
  else if d2 < d1 then tgtDown r D nV nD cD0 d1 d2
  else trD (tgtN r D nV nD cD0 d1) (tgtN r D nV nD cD0 d2) (tgtDown r D nV nD cD0 d2 d1)

/-- Specification: what is required of a mesh of `nD > 0` cells with `nV` vertices: the local facets
of all the dimensions, given by the reference elements, are conforming (see `Conforming`). -/
structure MeshReq (r : Ref) (D nV nD : ℕ) (cD0 : Conn) : Prop where
  Dpos : 0 < D
  Vpos : 0 < nV
  Cpos : 0 < nD
  V32 : nV ≤ u32None
  C32 : nD ≤ u32None
  wf : cD0.WF
  num : cD0.num = nD
  verts : ∀ c < nD, ∀ v ∈ cD0.row c, v < nV
  conf : ∀ d, 0 < d → d < D → Conforming nD cD0 (cellFacets (r.locs d) r.cellTypes cD0)
  size : ∀ d, 0 < d → d < D → ∀ c < nD, ∀ g ∈ cellFacets (r.locs d) r.cellTypes cD0 c,
    g.length ≤ if d = 1 then 2 else 4
  some : ∀ d, 0 < d → d < D → cellFacets (r.locs d) r.cellTypes cD0 0 ≠ []
  F32 : ∀ d, 0 < d → d < D →
    ((List.range nD).flatMap (cellFacets (r.locs d) r.cellTypes cD0)).length ≤ u32None

variable {r : Ref} {D nV nD : ℕ} {cD0 : Conn}

theorem trD_spec {n1 n2 : ℕ} {c21 : Conn} (hwf : c21.WF) (hn : c21.num = n2)
    (hval : ∀ j < n2, ∀ i ∈ c21.row j, i < n1) (hn2 : n2 ≤ u32None) :
    transpose n1 n2 c21 = some (trD n1 n2 c21) ∧ (trD n1 n2 c21).WF ∧ (trD n1 n2 c21).num = n1 ∧
      ∀ i < n1, ∀ j, j ∈ (trD n1 n2 c21).row i ↔ j < n2 ∧ i ∈ c21.row j := by
  obtain ⟨c, e, w, en, hc, hv, -⟩ := C34_transpose n1 n2 c21 hwf hn hval hn2
  have : trD n1 n2 c21 = c := by simp [trD, e]
  rw [this]
  refine ⟨e, w, en, fun i hi j => ⟨fun hj => ?_, fun ⟨hj, hm⟩ => ?_⟩⟩
  · have hj' := hv i hi j hj
    refine ⟨hj', ?_⟩
    rw [← List.count_pos_iff, ← hc i hi j hj', List.count_pos_iff]
    exact hj
  · rw [← List.count_pos_iff, hc i hi j hj, List.count_pos_iff]
    exact hm

theorem meshBuild_id {nD nVMax : ℕ} {locs : ℕ → Conn} {ct : ℕ → ℕ} {cDD cD0 : Conn} {s : BState}
    (h : meshBuild nD nVMax locs ct cDD cD0 = some s) : s.cd0.num = s.id := by
  unfold meshBuild at h
  simp only [Option.bind_eq_bind, Option.bind_eq_some_iff] at h
  obtain ⟨s', -, h⟩ := h
  obtain rfl := Option.some.inj h
  rfl

theorem UniqueFacets.row_eq {nD : ℕ} {F : ℕ → List (List ℕ)} {s : BState} {facets : List (List ℕ)}
    {ids : List ℕ} (h : UniqueFacets nD F s facets ids) (f : ℕ) (hf : f < s.cd0.num) :
    ∃ i, ∃ hi : i < ids.length, ids[i] = f ∧ s.cd0.row f = facets[i]'(h.len ▸ hi) := by
  have hex : ∃ i, ∃ hi : i < ids.length, ids[i] = f := by
    obtain ⟨i, hi, e⟩ := List.getElem_of_mem (h.all f hf)
    exact ⟨i, hi, e⟩
  classical
  obtain ⟨hi, e⟩ := Nat.find_spec hex
  refine ⟨Nat.find hex, hi, e, ?_⟩
  have := h.verts (Nat.find hex) hi (fun j hj hc => Nat.find_min hex hj ⟨by omega, by rw [hc, e]⟩)
  rw [e] at this
  exact this

theorem UniqueFacets.num_le {nD : ℕ} {F : ℕ → List (List ℕ)} {s : BState} {facets : List (List ℕ)}
    {ids : List ℕ} (h : UniqueFacets nD F s facets ids) : s.cd0.num ≤ facets.length := by
  rw [← h.len]
  have hsub : List.range s.cd0.num ⊆ ids := fun f hf => h.all f (List.mem_range.1 hf)
  have := (List.nodup_range (n := s.cd0.num)).subperm hsub
  simpa using this.length_le

/-- The flat index of the local facets of the cells. -/
theorem flat_index {nD : ℕ} {F : ℕ → List (List ℕ)} {s : BState} {facets : List (List ℕ)}
    {ids : List ℕ} (h : UniqueFacets nD F s facets ids) {c : ℕ} (hc : c < nD) {t : ℕ}
    (ht : t < (F c).length) : ∃ k, ∃ hk : k < ids.length,
      ids[k] = (s.cDd.row c)[t]'(by rw [h.rows c hc]; exact ht) ∧
      facets[k]'(h.len ▸ hk) = (F c)[t] := by
  have hsplit : List.range nD = List.range c ++ c :: List.range' (c + 1) (nD - (c + 1)) := by
    rw [List.range_eq_range', List.range_eq_range']
    have h1 : nD = c + (1 + (nD - (c + 1))) := by omega
    conv_lhs => rw [h1]
    rw [← List.range'_append, ← List.range'_append]
    simp
  have hpl : ((List.range c).flatMap s.cDd.row).length = ((List.range c).flatMap F).length := by
    simp only [List.length_flatMap]
    congr 1
    apply List.map_congr_left
    intro c' hc'
    exact h.rows c' (by have := List.mem_range.1 hc'; omega)
  have e1 : ids = (List.range c).flatMap s.cDd.row ++ (s.cDd.row c ++
      (List.range' (c + 1) (nD - (c + 1))).flatMap s.cDd.row) := by
    rw [h.ids_eq]
    conv_lhs => rw [hsplit]
    rw [List.flatMap_append, List.flatMap_cons]
  have e2 : facets = (List.range c).flatMap F ++ (F c ++
      (List.range' (c + 1) (nD - (c + 1))).flatMap F) := by
    rw [h.facets_eq]
    conv_lhs => rw [hsplit]
    rw [List.flatMap_append, List.flatMap_cons]
  have hr := h.rows c hc
  have g1 : ids[((List.range c).flatMap F).length + t]? = some ((s.cDd.row c)[t]'(by omega)) := by
    rw [e1, ← hpl, List.getElem?_append_right (by omega), Nat.add_sub_cancel_left,
      List.getElem?_append_left (by omega), List.getElem?_eq_getElem]
  have g2 : facets[((List.range c).flatMap F).length + t]? = some (F c)[t] := by
    rw [e2, List.getElem?_append_right (by omega), Nat.add_sub_cancel_left,
      List.getElem?_append_left ht, List.getElem?_eq_getElem]
  rw [List.getElem?_eq_some_iff] at g1 g2
  obtain ⟨k1, k2⟩ := g1
  obtain ⟨k3, k4⟩ := g2
  exact ⟨_, k1, k2, k4⟩

/-- A facet is listed for a cell iff its vertices are those of a local facet of the cell. -/
theorem UniqueFacets.mem_row {nD : ℕ} {F : ℕ → List (List ℕ)} {s : BState} {facets : List (List ℕ)}
    {ids : List ℕ} (h : UniqueFacets nD F s facets ids) {c : ℕ} (hc : c < nD) (f : ℕ) :
    f ∈ s.cDd.row c ↔ f < s.cd0.num ∧ ∃ g ∈ F c, g.Perm (s.cd0.row f) := by
  constructor
  · intro hm
    obtain ⟨t, ht, rfl⟩ := List.getElem_of_mem hm
    have ht' : t < (F c).length := by rw [← h.rows c hc]; exact ht
    obtain ⟨k, hk, e1, e2⟩ := flat_index h hc ht'
    have hlt : (s.cDd.row c)[t] < s.cd0.num := by rw [← e1]; exact h.lt _ (List.getElem_mem hk)
    refine ⟨hlt, (F c)[t], List.getElem_mem ht', ?_⟩
    obtain ⟨i, hi, e3, e4⟩ := h.row_eq _ hlt
    rw [e4, ← e2]
    exact (h.same k i hk hi).1 (by rw [e1, e3])
  · rintro ⟨hf, g, hg, hp⟩
    obtain ⟨t, ht, rfl⟩ := List.getElem_of_mem hg
    obtain ⟨k, hk, e1, e2⟩ := flat_index h hc ht
    obtain ⟨i, hi, e3, e4⟩ := h.row_eq f hf
    have : ids[k] = ids[i] := (h.same k i hk hi).2 (by rw [e2, ← e4]; exact hp)
    rw [← e3, ← this, e1]
    exact List.getElem_mem _

theorem tgtDD_spec (hM : MeshReq r D nV nD cD0) :
    intersect nD cD0 (trD nV nD cD0) none = some (tgtDD nV nD cD0) ∧ (tgtDD nV nD cD0).WF ∧
      (tgtDD nV nD cD0).num = nD ∧ ∀ c < nD, ∀ c', c' ∈ (tgtDD nV nD cD0).row c ↔
        c' < nD ∧ c' ≠ c ∧ ∃ v, v ∈ cD0.row c ∧ v ∈ cD0.row c' := by
  obtain ⟨e, -⟩ := trD_spec hM.wf hM.num hM.verts hM.C32
  obtain ⟨cDD, e2, w, en, hr⟩ := C35_neighbours nD nV cD0 _ hM.wf hM.num hM.verts hM.C32 e
  have : tgtDD nV nD cD0 = cDD := by simp [tgtDD, e2]
  rw [this]
  exact ⟨e2, w, en, fun c hc => (hr c hc).2⟩

/-- The facets of the dimension `d`, `0 < d < D`. -/
theorem tgtS_spec (hM : MeshReq r D nV nD cD0) {d : ℕ} (h0 : 0 < d) (hd : d < D) :
    ∃ facets ids, meshBuild nD (if d = 1 then 2 else 4) (r.locs d) r.cellTypes (tgtDD nV nD cD0) cD0
        = some (tgtS r nV nD cD0 d) ∧
      UniqueFacets nD (cellFacets (r.locs d) r.cellTypes cD0) (tgtS r nV nD cD0 d) facets ids := by
  obtain ⟨-, w, en, hr⟩ := tgtDD_spec hM
  obtain ⟨s, facets, ids, e, hU, -⟩ := C36_build nD (if d = 1 then 2 else 4) (r.locs d) r.cellTypes
    (tgtDD nV nD cD0) cD0 (hM.conf d h0 hd) w en hr (hM.size d h0 hd) (hM.F32 d h0 hd)
  have : tgtS r nV nD cD0 d = s := by simp [tgtS, e]
  rw [this]
  exact ⟨facets, ids, e, hU⟩

/-- `d -> 0`, with its meaning. -/
theorem tgtV_spec (hM : MeshReq r D nV nD cD0) {d : ℕ} (h0 : 0 < d) (hd : d ≤ D) :
    (tgtV r D nV nD cD0 d).WF ∧ (tgtV r D nV nD cD0 d).num = tgtN r D nV nD cD0 d ∧
      0 < tgtN r D nV nD cD0 d ∧ tgtN r D nV nD cD0 d ≤ u32None ∧
      ∀ i < tgtN r D nV nD cD0 d, ∀ v ∈ (tgtV r D nV nD cD0 d).row i, v < nV := by
  unfold tgtV tgtN
  rw [if_neg (by omega : ¬ d = 0)]
  by_cases h : d = D
  · rw [if_pos h, if_pos h]
    exact ⟨hM.wf, hM.num, hM.Cpos, hM.C32, hM.verts⟩
  · rw [if_neg h, if_neg h]
    obtain ⟨facets, ids, e, hU⟩ := tgtS_spec hM h0 (by omega : d < D)
    have hid := meshBuild_id e
    rw [← hid]
    refine ⟨hU.wfd0, rfl, ?_, ?_, ?_⟩
    · have hs := hM.some d h0 (by omega)
      obtain ⟨g, hg⟩ := List.exists_mem_of_ne_nil _ hs
      obtain ⟨t, ht, -⟩ := List.getElem_of_mem hg
      obtain ⟨k, hk, -, -⟩ := flat_index hU hM.Cpos ht
      have := hU.lt _ (List.getElem_mem hk)
      omega
    · refine hU.num_le.trans ?_
      rw [hU.facets_eq]
      exact hM.F32 d h0 (by omega)
    · intro f hf v hv
      obtain ⟨i, hi, -, e4⟩ := hU.row_eq f hf
      rw [e4] at hv
      have hm : facets[i]'(hU.len ▸ hi) ∈ (List.range nD).flatMap
          (cellFacets (r.locs d) r.cellTypes cD0) := by
        have := List.getElem_mem (hU.len ▸ hi : i < facets.length)
        exact (congrArg (fun l => facets[i]'(hU.len ▸ hi) ∈ l) hU.facets_eq).mp this
      rw [List.mem_flatMap] at hm
      obtain ⟨c, hc, hg⟩ := hm
      have hc' := List.mem_range.1 hc
      exact hM.verts c hc' v ((hM.conf d h0 (by omega)).sub c hc' _ hg v hv)

theorem tgtW_spec (hM : MeshReq r D nV nD cD0) {d : ℕ} (h0 : 0 < d) (hd : d ≤ D) :
    transpose nV (tgtN r D nV nD cD0 d) (tgtV r D nV nD cD0 d) = some (tgtW r D nV nD cD0 d) ∧
      (tgtW r D nV nD cD0 d).WF ∧ (tgtW r D nV nD cD0 d).num = nV ∧
      ∀ v < nV, ∀ i, i ∈ (tgtW r D nV nD cD0 d).row v ↔
        i < tgtN r D nV nD cD0 d ∧ v ∈ (tgtV r D nV nD cD0 d).row i := by
  obtain ⟨w, en, -, hle, hv⟩ := tgtV_spec hM h0 hd
  exact trD_spec w en hv hle

/-- `d1 -> d2`, `d1 > d2 > 0`, with its meaning. -/
theorem tgtDown_spec (hM : MeshReq r D nV nD cD0) {d1 d2 : ℕ} (h0 : 0 < d2) (h21 : d2 < d1)
    (hd : d1 ≤ D) :
    (d1 < D → intersect (tgtN r D nV nD cD0 d1) (tgtV r D nV nD cD0 d1) (tgtW r D nV nD cD0 d2)
      (some (tgtV r D nV nD cD0 d1, tgtV r D nV nD cD0 d2)) = some (tgtDown r D nV nD cD0 d1 d2)) ∧
      (tgtDown r D nV nD cD0 d1 d2).WF ∧
      (tgtDown r D nV nD cD0 d1 d2).num = tgtN r D nV nD cD0 d1 ∧
      ∀ i < tgtN r D nV nD cD0 d1, ∀ j, j ∈ (tgtDown r D nV nD cD0 d1 d2).row i ↔
        j < tgtN r D nV nD cD0 d2 ∧
        if d1 = D then ∃ g ∈ cellFacets (r.locs d2) r.cellTypes cD0 i,
          g.Perm ((tgtV r D nV nD cD0 d2).row j)
        else ∀ v ∈ (tgtV r D nV nD cD0 d2).row j, v ∈ (tgtV r D nV nD cD0 d1).row i := by
  unfold tgtDown
  by_cases h : d1 = D
  · simp only [if_pos h]
    subst h
    obtain ⟨facets, ids, e, hU⟩ := tgtS_spec hM h0 h21
    have hN1 : tgtN r d1 nV nD cD0 d1 = nD := by
      unfold tgtN; rw [if_neg (by omega), if_pos rfl]
    have hN2 : tgtN r d1 nV nD cD0 d2 = (tgtS r nV nD cD0 d2).cd0.num := by
      unfold tgtN; rw [if_neg (by omega), if_neg (by omega), meshBuild_id e]
    have hV2 : tgtV r d1 nV nD cD0 d2 = (tgtS r nV nD cD0 d2).cd0 := by
      unfold tgtV; rw [if_neg (by omega)]
    rw [hN1, hN2, hV2]
    exact ⟨fun hh => absurd hh (lt_irrefl _), hU.wfDd, hU.numDd, fun i hi j => hU.mem_row hi j⟩
  · simp only [if_neg h]
    obtain ⟨w1, en1, p1, le1, v1⟩ := tgtV_spec hM (by omega : 0 < d1) hd
    obtain ⟨w2, en2, p2, le2, v2⟩ := tgtV_spec hM h0 (by omega : d2 ≤ D)
    obtain ⟨e3, w3, en3, hr3⟩ := tgtW_spec hM h0 (by omega : d2 ≤ D)
    obtain ⟨c12, e, w, en, hr⟩ := C35_intersect (tgtN r D nV nD cD0 d1) (tgtN r D nV nD cD0 d2)
      (tgtV r D nV nD cD0 d1) (tgtW r D nV nD cD0 d2)
      (some (tgtV r D nV nD cD0 d1, tgtV r D nV nD cD0 d2)) w1 en1 w3
      (by rw [en3]; exact v1) (by rw [en3]; intro v hv j hj; exact ((hr3 v hv j).1 hj).1) le2
    rw [e, Option.getD_some]
    refine ⟨fun _ => rfl, w, en, fun i hi j => ?_⟩
    rw [(hr i hi).2]
    simp only
    constructor
    · rintro ⟨⟨k, hk, hj⟩, hc⟩
      exact ⟨((hr3 k (v1 i hi k hk) j).1 hj).1, hc⟩
    · rintro ⟨hj, hc⟩
      refine ⟨?_, hc⟩
      -- A facet has a vertex.
      have hne : ∃ v, v ∈ (tgtV r D nV nD cD0 d2).row j := by
        obtain ⟨facets, ids, e', hU⟩ := tgtS_spec hM h0 (by omega : d2 < D)
        have hN2 : tgtN r D nV nD cD0 d2 = (tgtS r nV nD cD0 d2).cd0.num := by
          unfold tgtN; rw [if_neg (by omega), if_neg (by omega), meshBuild_id e']
        have hV2 : tgtV r D nV nD cD0 d2 = (tgtS r nV nD cD0 d2).cd0 := by
          unfold tgtV; rw [if_neg (by omega)]
        rw [hV2]
        obtain ⟨i', hi', -, e4⟩ := hU.row_eq j (by omega)
        rw [e4]
        have hm : facets[i']'(hU.len ▸ hi') ∈ (List.range nD).flatMap
            (cellFacets (r.locs d2) r.cellTypes cD0) := by
          have := List.getElem_mem (hU.len ▸ hi' : i' < facets.length)
          exact (congrArg (fun l => facets[i']'(hU.len ▸ hi') ∈ l) hU.facets_eq).mp this
        rw [List.mem_flatMap] at hm
        obtain ⟨c, hc, hg⟩ := hm
        have := ((hM.conf d2 h0 (by omega)).size c (List.mem_range.1 hc) _ hg).1
        exact List.exists_mem_of_length_pos (by omega)
      obtain ⟨v, hv⟩ := hne
      exact ⟨v, hc v hv, (hr3 v (v2 j hj v hv) j).2 ⟨hj, hv⟩⟩

/-- `d -> d`, `d > 0`. -/
theorem tgtdd_spec (hM : MeshReq r D nV nD cD0) {d : ℕ} (h0 : 0 < d) (hd : d ≤ D) :
    ∃ c, intersect (tgtN r D nV nD cD0 d) (tgtV r D nV nD cD0 d) (tgtW r D nV nD cD0 d) none = some c ∧
      c.WF ∧ c.num = tgtN r D nV nD cD0 d ∧ ∀ i < tgtN r D nV nD cD0 d, ∀ j, j ∈ c.row i ↔
        j < tgtN r D nV nD cD0 d ∧ j ≠ i ∧
          ∃ v, v ∈ (tgtV r D nV nD cD0 d).row i ∧ v ∈ (tgtV r D nV nD cD0 d).row j := by
  obtain ⟨w, en, -, hle, hv⟩ := tgtV_spec hM h0 hd
  obtain ⟨e, -⟩ := tgtW_spec hM h0 hd
  obtain ⟨c, e2, w2, en2, hr⟩ := C35_neighbours _ nV _ _ w en hv hle e
  exact ⟨c, e2, w2, en2, fun i hi => (hr i hi).2⟩

/-- `0 -> 0`. -/
theorem tgt00_spec (hM : MeshReq r D nV nD cD0) :
    ∃ c, intersect nV (tgtW r D nV nD cD0 D) (tgtV r D nV nD cD0 D) none = some c ∧
      c.WF ∧ c.num = nV ∧ ∀ i < nV, ∀ j, j ∈ c.row i ↔
        j < nV ∧ j ≠ i ∧ ∃ k < nD, i ∈ cD0.row k ∧ j ∈ cD0.row k := by
  have hN : tgtN r D nV nD cD0 D = nD := by
    have := hM.Dpos
    unfold tgtN; rw [if_neg (by omega), if_pos rfl]
  have hV : tgtV r D nV nD cD0 D = cD0 := by unfold tgtV; rw [if_pos rfl]
  obtain ⟨e, w, en, hr⟩ := tgtW_spec hM hM.Dpos le_rfl
  rw [hN, hV] at hr
  rw [hV]
  obtain ⟨c, e2, w2, en2, hr2⟩ := C35_intersect nV nV (tgtW r D nV nD cD0 D) cD0 none w en hM.wf
    (by rw [hM.num]; intro v hv i hi; exact ((hr v hv i).1 hi).1)
    (by rw [hM.num]; exact hM.verts) hM.V32
  refine ⟨c, e2, w2, en2, fun i hi j => ?_⟩
  rw [(hr2 i hi).2]
  simp only
  constructor
  · rintro ⟨⟨k, hk, hj⟩, hne⟩
    obtain ⟨hk1, hk2⟩ := (hr i hi k).1 hk
    exact ⟨hM.verts k hk1 j hj, fun h => hne h.symm, k, hk1, hk2, hj⟩
  · rintro ⟨hj, hne, k, hk1, hk2, hk3⟩
    exact ⟨⟨k, (hr i hi k).2 ⟨hk1, hk2⟩, hk3⟩, fun h => hne h.symm⟩

section
variable (r D nV nD cD0)

theorem tgt_00 : tgt r D nV nD cD0 0 0
    = (intersect nV (tgtW r D nV nD cD0 D) (tgtV r D nV nD cD0 D) none).getD emptyConn := by
  unfold tgt; rw [if_pos ⟨rfl, rfl⟩]

theorem tgt_0d {d : ℕ} (h : 0 < d) : tgt r D nV nD cD0 0 d = tgtW r D nV nD cD0 d := by
  unfold tgt; rw [if_neg (by omega), if_pos rfl]

theorem tgt_d0 {d : ℕ} (h : 0 < d) : tgt r D nV nD cD0 d 0 = tgtV r D nV nD cD0 d := by
  unfold tgt; rw [if_neg (by omega), if_neg (by omega), if_pos rfl]

theorem tgt_dd {d : ℕ} (h : 0 < d) : tgt r D nV nD cD0 d d
    = (intersect (tgtN r D nV nD cD0 d) (tgtV r D nV nD cD0 d) (tgtW r D nV nD cD0 d) none).getD
      emptyConn := by
  unfold tgt; rw [if_neg (by omega), if_neg (by omega), if_neg (by omega), if_pos rfl]

theorem tgt_down {d1 d2 : ℕ} (h0 : 0 < d2) (h : d2 < d1) :
    tgt r D nV nD cD0 d1 d2 = tgtDown r D nV nD cD0 d1 d2 := by
  unfold tgt
  rw [if_neg (by omega), if_neg (by omega), if_neg (by omega), if_neg (by omega), if_pos h]

theorem tgt_up {d1 d2 : ℕ} (h0 : 0 < d1) (h : d1 < d2) :
    tgt r D nV nD cD0 d1 d2
      = trD (tgtN r D nV nD cD0 d1) (tgtN r D nV nD cD0 d2) (tgtDown r D nV nD cD0 d2 d1) := by
  unfold tgt
  rw [if_neg (by omega), if_neg (by omega), if_neg (by omega), if_neg (by omega), if_neg (by omega)]

end

theorem tgtUp_spec (hM : MeshReq r D nV nD cD0) {d1 d2 : ℕ} (h0 : 0 < d1) (h : d1 < d2) (hd : d2 ≤ D) :
    transpose (tgtN r D nV nD cD0 d1) (tgtN r D nV nD cD0 d2) (tgtDown r D nV nD cD0 d2 d1)
        = some (tgt r D nV nD cD0 d1 d2) ∧ (tgt r D nV nD cD0 d1 d2).WF ∧
      (tgt r D nV nD cD0 d1 d2).num = tgtN r D nV nD cD0 d1 ∧
      ∀ i < tgtN r D nV nD cD0 d1, ∀ j, j ∈ (tgt r D nV nD cD0 d1 d2).row i ↔
        j < tgtN r D nV nD cD0 d2 ∧ i ∈ (tgtDown r D nV nD cD0 d2 d1).row j := by
  obtain ⟨-, w, en, hr⟩ := tgtDown_spec hM h0 h hd
  obtain ⟨-, -, -, hle, -⟩ := tgtV_spec hM (by omega : 0 < d2) hd
  rw [tgt_up r D nV nD cD0 h0 h]
  exact trD_spec w en (fun j hj i hi => ((hr j hj i).1 hi).1) hle

/-- C52: for every conforming mesh all the connectivities exist. -/
theorem C52_targets (hM : MeshReq r D nV nD cD0) :
    Targets r D (tgtN r D nV nD cD0) (tgt r D nV nD cD0) := by
  have hDp := hM.Dpos
  have hN0 : tgtN r D nV nD cD0 0 = nV := by unfold tgtN; rw [if_pos rfl]
  have hND : tgtN r D nV nD cD0 D = nD := by unfold tgtN; rw [if_neg (by omega), if_pos rfl]
  have hVD : tgtV r D nV nD cD0 D = cD0 := by unfold tgtV; rw [if_pos rfl]
  have hWD : tgtW r D nV nD cD0 D = trD nV nD cD0 := by unfold tgtW; rw [hND, hVD]
  have hdd : ∀ d, 0 < d → d ≤ D → intersect (tgtN r D nV nD cD0 d) (tgtV r D nV nD cD0 d)
      (tgtW r D nV nD cD0 d) none = some (tgt r D nV nD cD0 d d) := by
    intro d h0 hd
    obtain ⟨c, e, -⟩ := tgtdd_spec hM h0 hd
    rw [tgt_dd r D nV nD cD0 h0, e]
    rfl
  have hDD : tgt r D nV nD cD0 D D = tgtDD nV nD cD0 := by
    rw [tgt_dd r D nV nD cD0 hDp, hND, hVD, hWD]
    rfl
  refine ⟨hDp, ?_, ?_, ?_, ?_, ?_, ?_, ?_⟩
  · intro d hd
    rcases Nat.eq_zero_or_pos d with rfl | h0
    · rw [hN0]; exact hM.Vpos
    · exact (tgtV_spec hM h0 hd).2.2.1
  · intro d1 h1 d2 h2
    rcases Nat.eq_zero_or_pos d1 with rfl | p1
    · rw [hN0]
      rcases Nat.eq_zero_or_pos d2 with rfl | p2
      · obtain ⟨c, e, -, en, -⟩ := tgt00_spec hM
        rw [tgt_00, e]
        exact en
      · rw [tgt_0d r D nV nD cD0 p2]
        exact (tgtW_spec hM p2 h2).2.2.1
    · rcases Nat.eq_zero_or_pos d2 with rfl | p2
      · rw [tgt_d0 r D nV nD cD0 p1]
        exact (tgtV_spec hM p1 h1).2.1
      · rcases Nat.lt_trichotomy d1 d2 with h | h | h
        · exact (tgtUp_spec hM p1 h h2).2.2.1
        · subst h
          obtain ⟨c, e, -, en, -⟩ := tgtdd_spec hM p1 h1
          rw [tgt_dd r D nV nD cD0 p1, e]
          exact en
        · rw [tgt_down r D nV nD cD0 p2 h]
          exact (tgtDown_spec hM p2 h h1).2.2.1
  · intro d1 d2 h hd
    rcases Nat.eq_zero_or_pos d1 with rfl | p1
    · rw [hN0, tgt_d0 r D nV nD cD0 h, tgt_0d r D nV nD cD0 h]
      exact (tgtW_spec hM h hd).1
    · rw [tgt_down r D nV nD cD0 p1 h]
      exact (tgtUp_spec hM p1 h hd).1
  · obtain ⟨c, e, -⟩ := tgt00_spec hM
    rw [hN0, tgt_0d r D nV nD cD0 hDp, tgt_d0 r D nV nD cD0 hDp, tgt_00, e]
    rfl
  · intro d h0 hd
    rw [tgt_d0 r D nV nD cD0 h0, tgt_0d r D nV nD cD0 h0]
    exact hdd d h0 hd
  · intro d1 d2 h0 h hd
    rw [tgt_d0 r D nV nD cD0 (by omega : 0 < d1), tgt_d0 r D nV nD cD0 h0, tgt_0d r D nV nD cD0 h0,
      tgt_down r D nV nD cD0 h0 h]
    exact (tgtDown_spec hM h0 h hd.le).1 hd
  · intro d h0 hd
    obtain ⟨facets, ids, e, hU⟩ := tgtS_spec hM h0 hd
    refine ⟨tgtS r nV nD cD0 d, ?_, ?_, ?_, ?_⟩
    · rw [hND, hDD, tgt_d0 r D nV nD cD0 hDp, hVD]
      exact e
    · rw [tgt_down r D nV nD cD0 h0 hd]
      unfold tgtDown
      rw [if_pos rfl]
    · rw [tgt_d0 r D nV nD cD0 h0]
      unfold tgtV
      rw [if_neg (by omega)]
    · unfold tgtN
      rw [if_neg (by omega), if_neg (by omega)]

/-- The incidence relation documented in `mesh.h`
(sfepy/discrete/common/extmods/mesh.h:53-67), for the vertices `V d i` of the entities: `F d c` are
the vertices of the local facets of the cell `c`. -/
def Incident (D nD : ℕ) (F : ℕ → ℕ → List (List ℕ)) (V : ℕ → ℕ → List ℕ) (d1 i d2 j : ℕ) : Prop :=
  if d2 < d1 then
    if d2 = 0 then j ∈ V d1 i
    else if d1 = D then ∃ g ∈ F d2 i, g.Perm (V d2 j)
    else ∀ v ∈ V d2 j, v ∈ V d1 i
  else if d1 < d2 then
    if d1 = 0 then i ∈ V d2 j
    else if d2 = D then ∃ g ∈ F d1 j, g.Perm (V d1 i)
    else ∀ v ∈ V d1 i, v ∈ V d2 j
  else if d1 = 0 then j ≠ i ∧ ∃ k < nD, i ∈ V D k ∧ j ∈ V D k
  else j ≠ i ∧ ∃ v, v ∈ V d1 i ∧ v ∈ V d1 j

/-- C52: what any sequence of requests and freeing gives for the last requested connectivity
`d1 -> d2` of a conforming mesh: for each entity exactly the incident entities, in the sense of
`mesh.h`. -/
theorem C52_requested (hM : MeshReq r D nV nD cD0) (n : ℕ) (ops : List TopoOp)
    (hok : ∀ o ∈ ops, o.ok D) {d1 d2 : ℕ} (h1 : d1 ≤ D) (h2 : d2 ≤ D) :
    ∃ t t', ops.foldlM (TopoOp.run r (n + 4)) (initTopo D nV nD cD0) = some t ∧
      setupConn r (n + 4) t d1 d2 = some t' ∧ (t'.conn d1 d2).WF ∧
      (t'.conn d1 d2).num = tgtN r D nV nD cD0 d1 ∧ t'.num d1 = tgtN r D nV nD cD0 d1 ∧
      t'.num d2 = tgtN r D nV nD cD0 d2 ∧
      (∀ i < tgtN r D nV nD cD0 d1, ∀ j, j ∈ (t'.conn d1 d2).row i ↔ j < tgtN r D nV nD cD0 d2 ∧
        Incident D nD (fun d => cellFacets (r.locs d) r.cellTypes cD0)
          (fun d => (tgt r D nV nD cD0 d 0).row) d1 i d2 j) ∧
      ∀ e1 ≤ D, ∀ e2 ≤ D, (t'.conn e1 e2).num = 0 ∨ t'.conn e1 e2 = tgt r D nV nD cD0 e1 e2 := by
  have hDp := hM.Dpos
  have hT := C52_targets hM
  have hN0 : tgtN r D nV nD cD0 0 = nV := by unfold tgtN; rw [if_pos rfl]
  have hND : tgtN r D nV nD cD0 D = nD := by unfold tgtN; rw [if_neg (by omega), if_pos rfl]
  have hVD : tgt r D nV nD cD0 D 0 = cD0 := by
    rw [tgt_d0 r D nV nD cD0 hDp]; unfold tgtV; rw [if_pos rfl]
  obtain ⟨t, e1, -, hG⟩ := C52_history hT n ops hok
  rw [hN0, hND, hVD] at e1
  obtain ⟨t', e2, hG', -, hc⟩ := C52_setup hT n hG h1 h2
  have hnum := hT.num d1 h1 d2 h2
  -- The entities of both the dimensions are available.
  have hcnum : (t'.conn d1 d2).num ≠ 0 := by rw [hc, hnum]; exact (hT.Npos d1 h1).ne'
  have havail : ∀ d, d ≤ D → (d = d1 ∨ d = d2) → t'.num d = tgtN r D nV nD cD0 d := by
    have hne : t'.num d1 ≠ 0 ∧ t'.num d2 ≠ 0 := by
      -- After the request, a repeated request builds nothing: by the specification of the builds.
      have := C52_setup_num hT n hG h1 h2
      obtain ⟨t'', e3, k1, k2⟩ := this
      rw [e2] at e3
      obtain rfl := Option.some.inj e3
      exact ⟨k1, k2⟩
    rintro d hd (rfl | rfl)
    · exact (hG'.num_ne hT hd).1 hne.1
    · exact (hG'.num_ne hT hd).1 hne.2
  have hwf : (tgt r D nV nD cD0 d1 d2).WF ∧ ∀ i < tgtN r D nV nD cD0 d1, ∀ j,
      j ∈ (tgt r D nV nD cD0 d1 d2).row i ↔ j < tgtN r D nV nD cD0 d2 ∧
        Incident D nD (fun d => cellFacets (r.locs d) r.cellTypes cD0)
          (fun d => (tgt r D nV nD cD0 d 0).row) d1 i d2 j := by
    unfold Incident
    beta_reduce
    rcases Nat.eq_zero_or_pos d1 with rfl | p1
    · rcases Nat.eq_zero_or_pos d2 with rfl | p2
      · obtain ⟨c, e, w, en, hr⟩ := tgt00_spec hM
        have : tgt r D nV nD cD0 0 0 = c := by rw [tgt_00, e]; rfl
        rw [this]
        refine ⟨w, fun i hi j => ?_⟩
        rw [if_neg (lt_irrefl _), if_neg (lt_irrefl _), if_pos rfl, hVD, hN0]
        exact hr i (by rw [hN0] at hi; exact hi) j
      · rw [tgt_0d r D nV nD cD0 p2]
        obtain ⟨-, w, en, hr⟩ := tgtW_spec hM p2 h2
        refine ⟨w, fun i hi j => ?_⟩
        rw [if_neg (by omega), if_pos p2, if_pos rfl, tgt_d0 r D nV nD cD0 p2]
        exact hr i (by rw [hN0] at hi; exact hi) j
    · rcases Nat.eq_zero_or_pos d2 with rfl | p2
      · obtain ⟨w, en, -, -, hv⟩ := tgtV_spec hM p1 h1
        rw [tgt_d0 r D nV nD cD0 p1]
        refine ⟨w, fun i hi j => ?_⟩
        rw [if_pos p1, if_pos rfl, hN0]
        exact ⟨fun h => ⟨hv i hi j h, h⟩, fun h => h.2⟩
      · rcases Nat.lt_trichotomy d1 d2 with h | h | h
        · obtain ⟨-, w, en, hr⟩ := tgtUp_spec hM p1 h h2
          obtain ⟨-, -, -, hd⟩ := tgtDown_spec hM p1 h h2
          refine ⟨w, fun i hi j => ?_⟩
          rw [hr i hi, if_neg (by omega), if_pos h, if_neg (by omega), tgt_d0 r D nV nD cD0 p1,
            tgt_d0 r D nV nD cD0 p2]
          constructor
          · rintro ⟨hj, hm⟩
            exact ⟨hj, ((hd j hj i).1 hm).2⟩
          · rintro ⟨hj, hm⟩
            exact ⟨hj, (hd j hj i).2 ⟨hi, hm⟩⟩
        · subst h
          obtain ⟨c, e, w, en, hr⟩ := tgtdd_spec hM p1 h1
          have : tgt r D nV nD cD0 d1 d1 = c := by rw [tgt_dd r D nV nD cD0 p1, e]; rfl
          rw [this]
          refine ⟨w, fun i hi j => ?_⟩
          rw [if_neg (lt_irrefl _), if_neg (lt_irrefl _), if_neg (by omega), tgt_d0 r D nV nD cD0 p1]
          exact hr i hi j
        · obtain ⟨-, w, en, hr⟩ := tgtDown_spec hM p2 h h1
          rw [tgt_down r D nV nD cD0 p2 h]
          refine ⟨w, fun i hi j => ?_⟩
          rw [if_pos h, if_neg (by omega), tgt_d0 r D nV nD cD0 p1, tgt_d0 r D nV nD cD0 p2]
          exact hr i hi j
  refine ⟨t, t', e1, e2, ?_, ?_, havail d1 h1 (Or.inl rfl), havail d2 h2 (Or.inr rfl), ?_, hG'.conn⟩
  · rw [hc]; exact hwf.1
  · rw [hc, hnum]
  · rw [hc]; exact hwf.2

/-- The hypotheses hold for a concrete mesh: two triangles with a common edge. -/
theorem C52_twoTriangles : MeshReq { locs := fun _ _ => triEdges, cellTypes := fun _ => 0 } 2 4 2
    (connOf [[0, 1, 2], [2, 1, 3]]) := by
  have hd : ∀ d, 0 < d → d < 2 → d = 1 := by omega
  refine ⟨by decide, by decide, by decide, by decide, by decide, ⟨by decide, by decide, by decide⟩, rfl,
    by decide, ?_, ?_, ?_, ?_⟩
  · intro d h0 h1
    obtain rfl := hd d h0 h1
    refine ⟨by decide, by decide, by decide, by decide⟩
  · intro d h0 h1
    obtain rfl := hd d h0 h1
    decide
  · intro d h0 h1
    obtain rfl := hd d h0 h1
    decide
  · intro d h0 h1
    obtain rfl := hd d h0 h1
    decide

/-- For that mesh, `C52_requested` gives the edges around each vertex after any history, e.g. after
requesting the cell neighbours of the cells and freeing the cell edges. -/
example : ∃ t t', [TopoOp.setup 2 2, TopoOp.setup 2 1, TopoOp.free 2 1].foldlM
      (TopoOp.run { locs := fun _ _ => triEdges, cellTypes := fun _ => 0 } 4)
      (initTopo 2 4 2 (connOf [[0, 1, 2], [2, 1, 3]])) = some t ∧
    setupConn { locs := fun _ _ => triEdges, cellTypes := fun _ => 0 } 4 t 0 1 = some t' := by
  obtain ⟨t, t', e1, e2, -⟩ := C52_requested C52_twoTriangles 0
    [TopoOp.setup 2 2, TopoOp.setup 2 1, TopoOp.free 2 1]
    (by simp [TopoOp.ok]) (d1 := 0) (d2 := 1) (by decide) (by decide)
  exact ⟨t, t', e1, e2⟩

end Verif.CMesh
