import Verif.Par.Assemble

/-!
# C74: the distributed system is the serial one in the new numbering

For every mesh, field, partitioning and number of tasks, for every order in which the tasks put
their values into the global PETSc objects.
-/

namespace Par

open Verif.Np

variable {K : Type*}

/-- The tasks are `0, …, size - 1`, each having a cell and an interface, and there are at least two
of them. -/
structure Tasks (m : FEMesh) (ct : ℕ → ℕ) (size : ℕ) : Prop where
  range : ∀ t, t < size ↔ ∃ c < m.nCell, ct c = t
  touch : TasksTouch m ct
  pos : 0 < m.nCell

theorem Tasks.h2 {m : FEMesh} {ct : ℕ → ℕ} {size : ℕ} (h : Tasks m ct size) :
    ∃ k f, InterOf m ct k f := ⟨_, h.touch 0 h.pos⟩

theorem Tasks.keys {m : FEMesh} {ct : ℕ → ℕ} {size : ℕ} (hm : Conforming m) (h : Tasks m ct size)
    (t : ℕ) : (∃ f, InterOf m ct t f) ↔ t < size := by
  rw [h.range]
  constructor
  · rintro ⟨f, hfl, a, b, hab, -, hk⟩
    rcases hk with hk | hk
    · exact ⟨a, hm.cells f hfl a (by rw [hab]; simp), hk⟩
    · exact ⟨b, hm.cells f hfl b (by rw [hab]; simp), hk⟩
  · rintro ⟨c, hc, rfl⟩
    exact h.touch c hc

theorem sorted_eq_range {l : List ℕ} (hs : l.Pairwise (· < ·)) {n : ℕ} (h : ∀ t, t ∈ l ↔ t < n) :
    l = List.range n := by
  refine List.Perm.eq_of_pairwise (le := (· < ·)) (fun a b _ _ h h' => absurd h (Nat.lt_asymm h'))
    hs List.pairwise_lt_range ?_
  rw [List.perm_ext_iff_of_nodup (hs.imp fun h => h.ne) List.nodup_range]
  intro t; rw [h, List.mem_range]

section

variable {ov : Bool} {m : FEMesh} {ct : ℕ → ℕ} {nc size : ℕ} {D : Dist}

theorem keys_eq_range (hm : Conforming m) (hT : Tasks m ct size)
    (hD : createMaps ov m ct nc (interFacets m ct) = some D) : dkeys D.maps = List.range size := by
  obtain ⟨hnk, hnod, hk, -⟩ := Dist.facts hm hT.h2 hD
  obtain ⟨s, done, hinv, -, -, -, hM, -⟩ := createMaps_spec hm hT.h2 hD
  apply sorted_eq_range
  · unfold dkeys
    rw [hM, withOff_keys]
    exact ditems_sorted hinv.keys
  · intro t
    rw [hk, hT.keys hm]

theorem parts_get (hm : Conforming m) (hT : Tasks m ct size)
    (hD : createMaps ov m ct nc (interFacets m ct) = some D) {t : ℕ} (ht : t < size) :
    D.parts[t]? = some (taskCells m ct t) := by
  obtain ⟨s, done, hinv, -, -, -, hM, -, hP, -⟩ := createMaps_spec hm hT.h2 hD
  obtain ⟨hnd, -⟩ := nodup_interFacets m ct
  have hk : (ditems (interFacets m ct)).map Prod.fst = List.range size := by
    apply sorted_eq_range (ditems_sorted hnd)
    intro t
    rw [((ditems_perm _).map Prod.fst).mem_iff]
    show t ∈ dkeys _ ↔ _
    rw [mem_keys_iff m ct hm.fc, hT.keys hm]
  have e : (ditems (interFacets m ct)).map (fun p => taskCells m ct p.1)
      = ((ditems (interFacets m ct)).map Prod.fst).map (taskCells m ct) := by
    rw [List.map_map]; rfl
  rw [hP, e, hk, List.getElem?_map, List.getElem?_eq_getElem (by simpa using ht)]
  simp

/-- Every overlap cell is a cell around a vertex, and there are none without overlaps. -/
theorem overlap_forall (Q : ℕ → Prop) (hov : ov = true → ∀ v, ∀ c ∈ m.vcells v, Q c)
    (hm : Conforming m) (hD : createMaps ov m ct nc (interFacets m ct) = some D) (t : ℕ) :
    ∀ c ∈ D.overlap.getD t [], Q c := by
  have key : ∀ (s : St), (∀ k v, dget s.maps k = some v → ∀ c ∈ v.ovl.flatten, Q c) →
      ∀ t fs, (∀ k v, dget (claim ov m nc s t fs).maps k = some v →
        ∀ c ∈ v.ovl.flatten, Q c) := by
    intro s h t fs k v hv c hc
    unfold claim at hv
    simp only at hv
    split at hv
    · exact h k v hv c hc
    · rcases dget_dupd_cases hv with ⟨rfl, rfl⟩ | ⟨_, hv⟩
      · have h0 : ∀ c ∈ ((dget s.maps k).getD DMap.empty).ovl.flatten, Q c := by
          rcases dget_getD_cases s.maps k DMap.empty with ⟨w, hw, e⟩ | ⟨_, e⟩
          · rw [e]; exact h k w hw
          · rw [e]; simp [DMap.empty]
        cases ov
        · exact h0 c (by simpa using hc)
        · simp only [if_true, List.flatten_append, List.mem_append, List.flatten_cons,
            List.flatten_nil, List.append_nil] at hc
          rcases hc with hc | hc
          · exact h0 c hc
          · simp only [incidentCells, List.mem_flatMap] at hc
            obtain ⟨x, -, hx⟩ := hc
            exact hov rfl x c hx
      · exact h k v hv c hc
  have kens : ∀ (s : St), (∀ k v, dget s.maps k = some v → ∀ c ∈ v.ovl.flatten, Q c) →
      ∀ t, (∀ k v, dget (ensure s t).maps k = some v → ∀ c ∈ v.ovl.flatten, Q c) := by
    intro s h t k v hv c hc
    rcases dget_dupd_cases hv with ⟨rfl, rfl⟩ | ⟨_, hv⟩
    · rcases dget_getD_cases s.maps k DMap.empty with ⟨w, hw, e⟩ | ⟨_, e⟩
      · rw [e] at hc; exact h k w hw c hc
      · rw [e] at hc; simp [DMap.empty] at hc
    · exact h k v hv c hc
  have kpairs : ∀ (l : List (ℕ × List ℕ)) (ir : ℕ) (s : St),
      (∀ k v, dget s.maps k = some v → ∀ c ∈ v.ovl.flatten, Q c) →
      (∀ k v, dget (l.foldl (pairStep ov m nc ir) s).maps k = some v →
        ∀ c ∈ v.ovl.flatten, Q c) := by
    intro l
    induction l with
    | nil => intro ir s h; exact h
    | cons p r ih =>
      intro ir s h
      exact ih ir _ (key _ (key _ (kens _ h _) _ _) _ _)
  have ktask : ∀ (s : St) p s', taskStep ov m ct nc s p = some s' →
      (∀ k v, dget s.maps k = some v → ∀ c ∈ v.ovl.flatten, Q c) →
      (∀ k v, dget s'.maps k = some v → ∀ c ∈ v.ovl.flatten, Q c) := by
    intro s p s' hs h
    unfold taskStep at hs
    simp only at hs
    split at hs
    · have hs := Option.some.inj hs
      subst hs
      intro k v hv c hc
      have hb := kpairs (ditems p.2) p.1 _ (kens { s with parts := s.parts ++ [taskCells m ct p.1] } h p.1)
      rcases dget_dupd_cases hv with ⟨rfl, rfl⟩ | ⟨_, hv⟩
      · rcases dget_getD_cases ((ditems p.2).foldl (pairStep ov m nc p.1)
          (ensure { s with parts := s.parts ++ [taskCells m ct p.1] } p.1)).maps p.1 DMap.empty
          with ⟨w, hw, e⟩ | ⟨_, e⟩
        · rw [e] at hc; exact hb _ w hw c hc
        · rw [e] at hc; simp [DMap.empty] at hc
      · exact hb k v hv c hc
    · exact absurd hs (by simp)
  have kloop : ∀ (l : List (ℕ × Dict (List ℕ))) (s s' : St), tasksLoop ov m ct nc l s = some s' →
      (∀ k v, dget s.maps k = some v → ∀ c ∈ v.ovl.flatten, Q c) →
      (∀ k v, dget s'.maps k = some v → ∀ c ∈ v.ovl.flatten, Q c) := by
    intro l
    induction l with
    | nil =>
      intro s s' hs h
      simp only [tasksLoop, Option.some.injEq] at hs
      subst hs; exact h
    | cons p r ih =>
      intro s s' hs h
      simp only [tasksLoop] at hs
      rcases hs1 : taskStep ov m ct nc s p with _ | s1
      · rw [hs1] at hs; simp at hs
      · rw [hs1] at hs
        exact ih s1 s' hs (ktask s p s1 hs1 h)
  have hD' := hD
  unfold createMaps at hD
  rcases hs : tasksLoop ov m ct nc (ditems (interFacets m ct)) ⟨fun _ => 0, [], []⟩ with _ | s
  · rw [hs] at hD; simp at hD
  have hb := kloop _ _ s hs (by simp [dget])
  rw [hs] at hD
  simp only [Option.bind_some] at hD
  rcases hnl : numberLoop (ditems s.maps) s.mark 0 with _ | res
  · rw [hnl] at hD; simp at hD
  rw [hnl] at hD
  simp only [Option.map_some, Option.some.injEq] at hD
  -- the overlap cells come from the maps
  have hres : ∀ (l : List (ℕ × DMap)) idm o res, numberLoop l idm o = some res →
      res.2.2 = l.map fun p => unique p.2.ovl.flatten := by
    intro l
    induction l with
    | nil => intro idm o res h; simp only [numberLoop, Option.some.injEq] at h; rw [← h]; rfl
    | cons p r ih =>
      intro idm o res h
      obtain ⟨k, v⟩ := p
      unfold numberLoop at h
      split at h
      · simp at h
      · simp only at h
        split at h
        · rcases hr : numberLoop r (numberTask idm _ v.own o).1 (o + v.n) with _ | q
          · rw [hr] at h; simp at h
          · rw [hr] at h
            simp only [Option.map_some, Option.some.injEq] at h
            rw [← h]
            simp only [List.map_cons, ih _ _ _ hr]
        · simp at h
  have hO : D.overlap = if res.2.2.length = 0 then [[]] else res.2.2 := by rw [← hD]
  rw [hres _ _ _ _ hnl] at hO
  intro c hc
  have hInv := hO
  rw [hO] at hc
  split at hc
  · rcases t with _ | t
    · simp at hc
    · simp at hc
  · rw [List.getD_eq_getElem?_getD, List.getElem?_map] at hc
    rcases hq : (ditems s.maps)[t]? with _ | q
    · rw [hq] at hc; simp at hc
    · rw [hq] at hc
      simp only [Option.map_some, Option.getD_some, mem_unique] at hc
      obtain ⟨⟨done, hinv, -⟩, -⟩ := tasksLoop_inv _ (initial_inv ov m ct nc)
        (fun p hp => interFacets_isInterfaces m ct hm.fc (mem_ditems.1 hp))
        (((ditems_perm _).map Prod.fst).nodup_iff.2 (nodup_interFacets m ct).1) (by simp) hs
      exact hb q.1 q.2 ((dget_eq_some hinv.keys).2 (mem_ditems.1 (List.mem_of_getElem? hq))) c hc

/-! ### One task -/

/-- The cells around the vertices are cells of the mesh. -/
def VertexCells (m : FEMesh) : Prop := ∀ v, ∀ c ∈ m.vcells v, c < m.nCell

theorem mem_rankCells (hm : Conforming m) (hT : Tasks m ct size)
    (hD : createMaps ov m ct nc (interFacets m ct) = some D) {t : ℕ} (ht : t < size) {c : ℕ} :
    c ∈ rankCells D t ↔ (c < m.nCell ∧ ct c = t) ∨ c ∈ D.overlap.getD t [] := by
  unfold rankCells
  rw [mem_unique, List.mem_append, List.getD_eq_getElem?_getD, parts_get hm hT hD ht]
  simp [taskCells]

theorem rankCells_bound (hv : VertexCells m) (hm : Conforming m) (hT : Tasks m ct size)
    (hD : createMaps ov m ct nc (interFacets m ct) = some D) {t : ℕ} (ht : t < size) :
    ∀ c ∈ rankCells D t, c < m.nCell := by
  intro c hc
  rcases (mem_rankCells hm hT hD ht).1 hc with h | h
  · exact h.1
  · exact overlap_forall (fun c => c < m.nCell) (fun _ v c hc => hv v c hc) hm hD t c h

theorem dofIn_lt (hv : VertexCells m) (hm : Conforming m) (hn : NodesCovered m)
    (hT : Tasks m ct size) (hD : createMaps ov m ct nc (interFacets m ct) = some D) {t : ℕ}
    (ht : t < size) {d : ℕ} (hd : DofIn m nc (rankCells D t) d) : d < nc * m.nNod := by
  obtain ⟨hnc, c, hc, hx⟩ := hd
  have := hn.bound c (rankCells_bound hv hm hT hD ht c hc) _ hx
  exact ((Nat.div_lt_iff_lt_mul hnc).1 this).trans_eq (Nat.mul_comm _ _)

/-- The owned range of a task contains exactly the numbers of the DOFs that it owns. -/
theorem mem_rankRange (hm : Conforming m) (hn : NodesCovered m) (hT : Tasks m ct size)
    (hnc : 0 < nc) (hD : createMaps ov m ct nc (interFacets m ct) = some D) {t : ℕ} (ht : t < size)
    {d : ℕ} (hd : d < nc * m.nNod) :
    ((rankRange D t).1 ≤ D.idMap d ∧ D.idMap d < (rankRange D t).2) ↔ d ∈ ownedBy D t := by
  obtain ⟨hmap, -, -, hbij⟩ := C73_numbering hm hn hT.touch hT.h2 hnc hD
  obtain ⟨hall, -, -⟩ := C73_every_dof_one_owner hm hn hT.touch hT.h2 hnc hD
  obtain ⟨hnk, -, hk, -, hDn, -, -⟩ := Dist.facts hm hT.h2 hD
  have htk : t ∈ dkeys D.maps := by rw [hk, hT.keys hm]; exact ht
  obtain ⟨v, hv⟩ := Option.isSome_iff_exists.1 (dget_isSome.2 htk)
  have hvn := hDn _ ((dget_eq_some hnk).1 hv)
  simp only at hvn
  have hr : rankRange D t = (offsetOf D t, offsetOf D t + (ownedBy D t).length) := by
    simp [rankRange, offsetOf, ownedBy, hv, hvn]
  have hmem : D.idMap d ∈ List.range' (offsetOf D t) (ownedBy D t).length ↔
      ((rankRange D t).1 ≤ D.idMap d ∧ D.idMap d < (rankRange D t).2) := by
    rw [hr, List.mem_range'_1]
  rw [← hmem, ← hmap t, List.mem_map]
  constructor
  · rintro ⟨e, he, hee⟩
    have := hbij.injOn ((hall e).2 ⟨t, he⟩) hd hee
    rwa [← this]
  · intro h; exact ⟨d, h, rfl⟩

theorem owned_dofIn (hm : Conforming m) (hT : Tasks m ct size)
    (hD : createMaps ov m ct nc (interFacets m ct) = some D) {t : ℕ} (ht : t < size) {d : ℕ}
    (hd : d ∈ ownedBy D t) : DofIn m nc (rankCells D t) d := by
  obtain ⟨hnc, c, hc, hct, hx⟩ := owned_bound hm hT.h2 hD hd
  exact ⟨hnc, c, (mem_rankCells hm hT hD ht).2 (Or.inl ⟨hc, hct⟩), hx⟩

/-- The cells of an owned DOF are cells of the task (with overlaps). -/
theorem owned_cells (hm : Conforming m) (hf : FacetConnected m) (hT : Tasks m ct size)
    (hD : createMaps true m ct nc (interFacets m ct) = some D) {t : ℕ} (ht : t < size) {d : ℕ}
    (hd : d ∈ ownedBy D t) {c : ℕ} (hc : c < m.nCell) (hx : d / nc ∈ m.econn c) :
    c ∈ rankCells D t := by
  have hk : (dkeys D.maps)[t]? = some t := by
    rw [keys_eq_range hm hT hD, List.getElem?_eq_getElem (by simpa using ht)]; simp
  obtain ⟨part, ovl, hp, ho, h⟩ := C73_overlap_complete hm hf hT.h2 hD t t hk d hd c hc hx
  unfold rankCells
  rw [mem_unique, List.mem_append, List.getD_eq_getElem?_getD, List.getD_eq_getElem?_getD, hp, ho]
  simpa using h

variable (re : ℕ → ℕ → K) (ke : ℕ → ℕ → ℕ → K)

/-- The local numbers of the local DOFs. -/
theorem rank_pd [AddCommMonoid K] {t : ℕ} (L : LocalField m (rankCells D t)) (junk : ℕ → ℕ)
    (stored : List (ℕ × ℕ)) {d : ℕ} (hd : DofIn m nc (rankCells D t) d) :
    (rankOf m nc D re ke t L junk stored).pd (L.locD nc d) = D.idMap d :=
  localOrdering_eq L nc D.idMap junk hd

theorem owned_vec [AddCommMonoid K] (hv : VertexCells m) (hm : Conforming m)
    (hf : FacetConnected m) (hT : Tasks m ct size)
    (hD : createMaps true m ct nc (interFacets m ct) = some D) {t : ℕ} (ht : t < size) {d : ℕ}
    (hd : d ∈ ownedBy D t) :
    assembledVec (rankCells D t) (fun c => expandDofs nc (m.econn c)) re d = serialVec m nc re d := by
  unfold assembledVec serialVec assembledVec
  apply sum_cells_eq (nodup_unique _) (rankCells_bound hv hm hT hD ht)
  intro c hc hnot
  apply elemVec_zero
  intro hmem
  exact hnot (owned_cells hm hf hT hD ht hd hc (mem_row.1 hmem).2)

theorem owned_mat [AddCommMonoid K] (hv : VertexCells m) (hm : Conforming m)
    (hf : FacetConnected m) (hT : Tasks m ct size)
    (hD : createMaps true m ct nc (interFacets m ct) = some D) {t : ℕ} (ht : t < size) {d : ℕ}
    (hd : d ∈ ownedBy D t) (e : ℕ) :
    assembledMat (rankCells D t) (fun c => expandDofs nc (m.econn c)) ke d e
      = serialMat m nc ke d e := by
  unfold assembledMat serialMat assembledMat
  apply sum_cells_eq (nodup_unique _) (rankCells_bound hv hm hT hD ht)
  intro c hc hnot
  apply elemMat_zero_row
  intro hmem
  exact hnot (owned_cells hm hf hT hD ht hd hc (mem_row.1 hmem).2)

/-- One task sets exactly the entries of its owned DOFs, to the serial values. -/
theorem setRhs_eq [AddCommMonoid K] (hv : VertexCells m) (hm : Conforming m) (hf : FacetConnected m)
    (hn : NodesCovered m) (hT : Tasks m ct size) (hnc : 0 < nc)
    (hD : createMaps true m ct nc (interFacets m ct) = some D) {t : ℕ} (ht : t < size)
    (L : LocalField m (rankCells D t)) (junk : ℕ → ℕ) (stored : List (ℕ × ℕ)) (v : ℕ → K)
    {d : ℕ} (hd : d < nc * m.nNod) :
    (rankOf m nc D re ke t L junk stored).setRhs v (D.idMap d)
      = if d ∈ ownedBy D t then serialVec m nc re d else v (D.idMap d) := by
  obtain ⟨-, -, -, hbij⟩ := C73_numbering hm hn hT.touch hT.h2 hnc hD
  unfold Rank.setRhs
  rw [insertVec_eq]
  set R := rankOf m nc D re ke t L junk stored with hR
  -- the entries set by the task
  have hset : ∀ l < R.n, 0 ≤ rdof R.pd R.dr l → ∃ e, e ∈ ownedBy D t ∧ l = L.locD nc e ∧
      (rdof R.pd R.dr l).toNat = D.idMap e := by
    intro l hl h0
    obtain ⟨e, he, rfl⟩ := L.locD_surj l hl
    have hpd : R.pd (L.locD nc e) = D.idMap e := rank_pd re ke L junk stored he
    have heN := dofIn_lt hv hm hn hT hD ht he
    unfold rdof at h0 ⊢
    rw [hpd] at h0 ⊢
    split at h0
    · simp at h0
    · next h =>
      rw [if_neg h]
      push Not at h
      exact ⟨e, (mem_rankRange hm hn hT hnc hD ht heN).1 h, rfl, by simp⟩
  by_cases ho : d ∈ ownedBy D t
  · rw [if_pos ho]
    have hdi := owned_dofIn hm hT hD ht ho
    have hpd : R.pd (L.locD nc d) = D.idMap d := rank_pd re ke L junk stored hdi
    have hrd : rdof R.pd R.dr (L.locD nc d) = (D.idMap d : ℤ) := by
      unfold rdof
      rw [hpd, if_neg]
      push Not
      exact (mem_rankRange hm hn hT hnc hD ht hd).2 ho
    apply scatter_eq
    · refine ⟨_, List.mem_map.2 ⟨L.locD nc d, List.mem_filter.2 ⟨List.mem_range.2
        (L.locD_lt hdi), ?_⟩, rfl⟩, ?_⟩
      · rw [hrd]; simp
      · simp only [hrd]; simp
    · intro p hp he
      obtain ⟨l, hl, rfl⟩ := List.mem_map.1 hp
      obtain ⟨hl, h0⟩ := List.mem_filter.1 hl
      obtain ⟨e, heo, rfl, hee⟩ := hset l (List.mem_range.1 hl) (by simpa using h0)
      simp only at he ⊢
      rw [hee] at he
      have hdie := owned_dofIn hm hT hD ht heo
      have : e = d := hbij.injOn (dofIn_lt hv hm hn hT hD ht hdie) hd he
      subst this
      show assembledVec _ _ re _ = _
      rw [assembledVec_local L hdie, owned_vec re hv hm hf hT hD ht heo]
  · rw [if_neg ho]
    apply scatter_of_not_mem
    intro p hp he
    obtain ⟨l, hl, rfl⟩ := List.mem_map.1 hp
    obtain ⟨hl, h0⟩ := List.mem_filter.1 hl
    obtain ⟨e, heo, rfl, hee⟩ := hset l (List.mem_range.1 hl) (by simpa using h0)
    simp only at he
    rw [hee] at he
    have := hbij.injOn (dofIn_lt hv hm hn hT hD ht (owned_dofIn hm hT hD ht heo)) hd he
    exact ho (this ▸ heo)

/-- One task changes exactly the nonzero entries of the rows of its owned DOFs. -/
theorem setMtx_eq [AddCommMonoid K] [DecidableEq K] (hv : VertexCells m) (hm : Conforming m)
    (hf : FacetConnected m) (hn : NodesCovered m) (hT : Tasks m ct size) (hnc : 0 < nc)
    (hD : createMaps true m ct nc (interFacets m ct) = some D) {t : ℕ} (ht : t < size)
    (L : LocalField m (rankCells D t)) (junk : ℕ → ℕ) (stored : List (ℕ × ℕ))
    (hsb : ∀ e ∈ stored, e.1 < nc * L.nLoc ∧ e.2 < nc * L.nLoc)
    (hst : ∀ i < nc * L.nLoc, ∀ j < nc * L.nLoc,
      (rankOf m nc D re ke t L junk stored).mat i j ≠ 0 → (i, j) ∈ stored)
    (p : ℕ → ℕ → K) {d e : ℕ} (hd : d < nc * m.nNod) (he : e < nc * m.nNod) :
    (rankOf m nc D re ke t L junk stored).setMtx p (D.idMap d) (D.idMap e)
      = if d ∈ ownedBy D t ∧ serialMat m nc ke d e ≠ 0 then serialMat m nc ke d e
        else p (D.idMap d) (D.idMap e) := by
  obtain ⟨-, -, -, hbij⟩ := C73_numbering hm hn hT.touch hT.h2 hnc hD
  set R := rankOf m nc D re ke t L junk stored with hR
  have hRst : R.stored = stored := rfl
  unfold Rank.setMtx
  simp only
  have hmask : ∀ x y, DofIn m nc (rankCells D t) x → DofIn m nc (rankCells D t) y →
      (if R.pd (L.locD nc x) < R.dr.1 ∨ R.dr.2 ≤ R.pd (L.locD nc x) then 0
        else R.mat (L.locD nc x) (L.locD nc y))
      = if x ∈ ownedBy D t then serialMat m nc ke x y else 0 := by
    intro x y hx hy
    have hpd : R.pd (L.locD nc x) = D.idMap x := rank_pd re ke L junk stored hx
    have hxN := dofIn_lt hv hm hn hT hD ht hx
    have hmr := mem_rankRange hm hn hT hnc hD ht hxN
    rw [hpd]
    by_cases ho : x ∈ ownedBy D t
    · rw [if_neg (by push Not; exact hmr.2 ho), if_pos ho]
      show assembledMat _ _ ke _ _ = _
      rw [assembledMat_local L hx hy, owned_mat ke hv hm hf hT hD ht ho]
    · rw [if_neg ho, if_pos]
      by_contra hcon
      push Not at hcon
      exact ho (hmr.1 hcon)
  by_cases h : d ∈ ownedBy D t ∧ serialMat m nc ke d e ≠ 0
  · rw [if_pos h]
    have hdi := owned_dofIn hm hT hD ht h.1
    -- `e` is a DOF of a cell of the task, as the entry is nonzero
    have hei : DofIn m nc (rankCells D t) e := by
      by_contra hcon
      apply h.2
      rw [← owned_mat ke hv hm hf hT hD ht h.1 e]
      unfold assembledMat
      apply List.sum_eq_zero
      intro x hx
      obtain ⟨c, hc, rfl⟩ := List.mem_map.1 hx
      apply elemMat_zero_col
      intro hmem
      exact hcon ⟨hnc, c, hc, (mem_row.1 hmem).2⟩
    have hval := hmask d e hdi hei
    rw [if_pos h.1] at hval
    apply foldl_upd2_mem
    · refine ⟨(L.locD nc d, L.locD nc e), List.mem_filter.2 ⟨?_, ?_⟩, rank_pd re ke L junk stored hdi,
        rank_pd re ke L junk stored hei⟩
      · apply hst _ (L.locD_lt hdi) _ (L.locD_lt hei)
        show assembledMat _ _ ke _ _ ≠ 0
        rw [assembledMat_local L hdi hei, owned_mat ke hv hm hf hT hD ht h.1]
        exact h.2
      · simp only [decide_eq_true_eq]
        rw [hval]; exact h.2
    · intro q hq hq1 hq2
      obtain ⟨hq, -⟩ := List.mem_filter.1 hq
      obtain ⟨b1, b2⟩ := hsb q hq
      obtain ⟨x, hx, e1⟩ := L.locD_surj q.1 b1
      obtain ⟨y, hy, e2⟩ := L.locD_surj q.2 b2
      rw [← e1] at hq1
      rw [← e2] at hq2
      have hq1' : D.idMap x = D.idMap d := (rank_pd re ke L junk stored hx).symm.trans hq1
      have hq2' : D.idMap y = D.idMap e := (rank_pd re ke L junk stored hy).symm.trans hq2
      have hxd := hbij.injOn (dofIn_lt hv hm hn hT hD ht hx) hd hq1'
      have hye := hbij.injOn (dofIn_lt hv hm hn hT hD ht hy) he hq2'
      subst hxd; subst hye
      rw [← e1, ← e2]; exact hval
  · rw [if_neg h]
    apply foldl_upd2_notMem
    rintro q hq ⟨hq1, hq2⟩
    obtain ⟨hq, hnz⟩ := List.mem_filter.1 hq
    obtain ⟨b1, b2⟩ := hsb q hq
    obtain ⟨x, hx, e1⟩ := L.locD_surj q.1 b1
    obtain ⟨y, hy, e2⟩ := L.locD_surj q.2 b2
    rw [← e1] at hq1
    rw [← e2] at hq2
    have hq1' : D.idMap x = D.idMap d := (rank_pd re ke L junk stored hx).symm.trans hq1
    have hq2' : D.idMap y = D.idMap e := (rank_pd re ke L junk stored hy).symm.trans hq2
    have hxd := hbij.injOn (dofIn_lt hv hm hn hT hD ht hx) hd hq1'
    have hye := hbij.injOn (dofIn_lt hv hm hn hT hD ht hy) he hq2'
    subst hxd; subst hye
    simp only [decide_eq_true_eq] at hnz
    rw [← e1, ← e2, hmask x y hx hy] at hnz
    by_cases ho : x ∈ ownedBy D t
    · rw [if_pos ho] at hnz; exact h ⟨ho, hnz⟩
    · rw [if_neg ho] at hnz; exact hnz rfl

/-! ### All tasks -/

/-- The local problems of the tasks: a local field, the uninitialised memory and the stored
positions of the local matrix, which include all its nonzeros. -/
structure Locals (K : Type*) [AddCommMonoid K] (m : FEMesh) (nc : ℕ) (D : Dist)
    (ke : ℕ → ℕ → ℕ → K) where
  L : ∀ t, LocalField m (rankCells D t)
  junk : ℕ → ℕ → ℕ
  stored : ℕ → List (ℕ × ℕ)
  nodup : ∀ t, (stored t).Nodup
  bound : ∀ t, ∀ e ∈ stored t, e.1 < nc * (L t).nLoc ∧ e.2 < nc * (L t).nLoc
  complete : ∀ t, ∀ i < nc * (L t).nLoc, ∀ j < nc * (L t).nLoc,
    assembledMat (rankCells D t) (fun c => expandDofs nc ((L t).lconn c)) ke i j ≠ 0 →
      (i, j) ∈ stored t

/-- The task `t`. -/
def Locals.rank [AddCommMonoid K] {m : FEMesh} {nc : ℕ} {D : Dist} {ke : ℕ → ℕ → ℕ → K}
    (S : Locals K m nc D ke) (re : ℕ → ℕ → K) (t : ℕ) : Rank K :=
  rankOf m nc D re ke t (S.L t) (S.junk t) (S.stored t)

/-- **C74.** With overlaps: in whatever order the tasks set their values, and whatever the vector
contained before, the distributed right-hand side is the serial one in the new numbering. -/
theorem C74_rhs_overlap [AddCommMonoid K] (hv : VertexCells m) (hm : Conforming m)
    (hf : FacetConnected m) (hn : NodesCovered m) (hT : Tasks m ct size) (hnc : 0 < nc)
    (hD : createMaps true m ct nc (interFacets m ct) = some D) (S : Locals K m nc D ke)
    (order : List ℕ) (hord : ∀ t, t ∈ order ↔ t < size) (v : ℕ → K)
    (d : ℕ) (hd : d < nc * m.nNod) :
    order.foldl (fun v t => (S.rank re t).setRhs v) v (D.idMap d) = serialVec m nc re d := by
  have main : ∀ (order : List ℕ), (∀ t ∈ order, t < size) → ∀ v : ℕ → K,
      order.foldl (fun v t => (S.rank re t).setRhs v) v (D.idMap d)
        = if ∃ t ∈ order, d ∈ ownedBy D t then serialVec m nc re d else v (D.idMap d) := by
    intro order
    induction order with
    | nil => intro _ v; simp
    | cons t r ih =>
      intro hb v
      rw [List.foldl_cons, ih (fun s hs => hb s (List.mem_cons_of_mem _ hs))]
      have := setRhs_eq re ke hv hm hf hn hT hnc hD (hb t List.mem_cons_self) (S.L t) (S.junk t)
        (S.stored t) v hd
      unfold Locals.rank
      rw [this]
      by_cases h1 : ∃ s ∈ r, d ∈ ownedBy D s
      · rw [if_pos h1, if_pos]
        obtain ⟨s, hs, hd⟩ := h1
        exact ⟨s, List.mem_cons_of_mem _ hs, hd⟩
      · rw [if_neg h1]
        by_cases h2 : d ∈ ownedBy D t
        · rw [if_pos h2, if_pos ⟨t, List.mem_cons_self, h2⟩]
        · rw [if_neg h2, if_neg]
          rintro ⟨s, hs, hds⟩
          rcases List.mem_cons.1 hs with rfl | hs
          · exact h2 hds
          · exact h1 ⟨s, hs, hds⟩
  rw [main order (fun t ht => (hord t).1 ht) v, if_pos]
  obtain ⟨hall, -, -⟩ := C73_every_dof_one_owner hm hn hT.touch hT.h2 hnc hD
  obtain ⟨t, ht⟩ := (hall d).1 hd
  obtain ⟨-, c, hc, hct, -⟩ := owned_bound hm hT.h2 hD ht
  exact ⟨t, (hord t).2 ((hT.range t).2 ⟨c, hc, hct⟩), ht⟩

/-- **C74.** With overlaps, in whatever order the tasks set their values: the entries of the
distributed matrix that are nonzero in the serial matrix get the serial values; the others keep
the values that the PETSc matrix had before. -/
theorem C74_matrix_overlap [AddCommMonoid K] [DecidableEq K] (hv : VertexCells m)
    (hm : Conforming m) (hf : FacetConnected m) (hn : NodesCovered m) (hT : Tasks m ct size)
    (hnc : 0 < nc) (hD : createMaps true m ct nc (interFacets m ct) = some D)
    (S : Locals K m nc D ke) (order : List ℕ) (hord : ∀ t, t ∈ order ↔ t < size)
    (p : ℕ → ℕ → K) (d e : ℕ) (hd : d < nc * m.nNod) (he : e < nc * m.nNod) :
    order.foldl (fun p t => (S.rank re t).setMtx p) p (D.idMap d) (D.idMap e)
      = if serialMat m nc ke d e ≠ 0 then serialMat m nc ke d e
        else p (D.idMap d) (D.idMap e) := by
  have main : ∀ (order : List ℕ), (∀ t ∈ order, t < size) → ∀ p : ℕ → ℕ → K,
      order.foldl (fun p t => (S.rank re t).setMtx p) p (D.idMap d) (D.idMap e)
        = if (∃ t ∈ order, d ∈ ownedBy D t) ∧ serialMat m nc ke d e ≠ 0 then serialMat m nc ke d e
          else p (D.idMap d) (D.idMap e) := by
    intro order
    induction order with
    | nil => intro _ v; simp
    | cons t r ih =>
      intro hb p
      rw [List.foldl_cons, ih (fun s hs => hb s (List.mem_cons_of_mem _ hs))]
      have := setMtx_eq re ke hv hm hf hn hT hnc hD (hb t List.mem_cons_self) (S.L t) (S.junk t)
        (S.stored t) (S.bound t) (S.complete t) p hd he
      unfold Locals.rank
      rw [this]
      by_cases h0 : serialMat m nc ke d e = 0
      · simp [h0]
      · by_cases h1 : ∃ s ∈ r, d ∈ ownedBy D s
        · rw [if_pos ⟨h1, h0⟩, if_pos]
          obtain ⟨s, hs, hd⟩ := h1
          exact ⟨⟨s, List.mem_cons_of_mem _ hs, hd⟩, h0⟩
        · rw [if_neg (fun h => h1 h.1)]
          by_cases h2 : d ∈ ownedBy D t
          · rw [if_pos ⟨h2, h0⟩, if_pos ⟨⟨t, List.mem_cons_self, h2⟩, h0⟩]
          · rw [if_neg (fun h => h2 h.1), if_neg]
            rintro ⟨⟨s, hs, hds⟩, -⟩
            rcases List.mem_cons.1 hs with rfl | hs
            · exact h2 hds
            · exact h1 ⟨s, hs, hds⟩
  rw [main order (fun t ht => (hord t).1 ht) p]
  obtain ⟨hall, -, -⟩ := C73_every_dof_one_owner hm hn hT.touch hT.h2 hnc hD
  obtain ⟨t, ht⟩ := (hall d).1 hd
  obtain ⟨-, c, hc, hct, -⟩ := owned_bound hm hT.h2 hD ht
  have : ∃ t ∈ order, d ∈ ownedBy D t := ⟨t, (hord t).2 ((hT.range t).2 ⟨c, hc, hct⟩), ht⟩
  simp only [this, true_and]

/-- **C74.** The first assembling, into a zero matrix, gives the serial matrix. -/
theorem C74_matrix_overlap_zero [AddCommMonoid K] [DecidableEq K] (hv : VertexCells m)
    (hm : Conforming m) (hf : FacetConnected m) (hn : NodesCovered m) (hT : Tasks m ct size)
    (hnc : 0 < nc) (hD : createMaps true m ct nc (interFacets m ct) = some D)
    (S : Locals K m nc D ke) (order : List ℕ) (hord : ∀ t, t ∈ order ↔ t < size)
    (d e : ℕ) (hd : d < nc * m.nNod) (he : e < nc * m.nNod) :
    order.foldl (fun p t => (S.rank re t).setMtx p) (fun _ _ => 0) (D.idMap d) (D.idMap e)
      = serialMat m nc ke d e := by
  rw [C74_matrix_overlap re ke hv hm hf hn hT hnc hD S order hord _ d e hd he]
  split
  · rfl
  · next h => push Not at h; exact h.symm

end

end Par
