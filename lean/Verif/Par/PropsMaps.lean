import Verif.Par.LemmasTasks
import Mathlib.Data.Set.Function
import Mathlib.Data.Finset.Card

/-!
# C73: the DOFs are distributed among the tasks

The DOF `nc * x + k` is the component `k` of the node `x` (with `use_expand_dofs`; otherwise
`nc = 1` and DOFs are nodes).
-/

namespace Par

open Verif.Np

/-- The DOFs owned by a task. -/
def ownedBy (D : Dist) (t : ℕ) : List ℕ := ((dget D.maps t).map DMap.owned).getD []

/-- The offset of a task. -/
def offsetOf (D : Dist) (t : ℕ) : ℕ := ((dget D.maps t).map DMap.off).getD 0

/-- The nodes of the cells are exactly `0, …, nNod - 1`. -/
structure NodesCovered (m : FEMesh) : Prop where
  bound : ∀ c < m.nCell, ∀ x ∈ m.econn c, x < m.nNod
  cover : ∀ x < m.nNod, ∃ c < m.nCell, x ∈ m.econn c

/-- Every task that has a cell has an interface with another task. -/
def TasksTouch (m : FEMesh) (ct : ℕ → ℕ) : Prop :=
  ∀ c < m.nCell, ∃ f, InterOf m ct (ct c) f

/-! ### The numbering loop -/

theorem assignRange_append (idm : ℕ → ℕ) (a b : List ℕ) (i : ℕ) :
    assignRange (assignRange idm a i) b (i + a.length) = assignRange idm (a ++ b) i := by
  unfold assignRange
  have h : List.range' i (a.length + b.length) = List.range' i a.length ++
      List.range' (i + a.length) b.length := by
    rw [← List.range'_append_1]
  rw [List.length_append, h, List.zip_append (by simp), scatter_append]

theorem assignRange_nil (idm : ℕ → ℕ) (i : ℕ) : assignRange idm [] i = idm := rfl

theorem numberTask_eq (idm : ℕ → ℕ) (inner : List ℕ) (own : List (List ℕ)) (offset : ℕ) :
    numberTask idm inner own offset
      = (assignRange idm (inner ++ own.flatten) offset, (inner ++ own.flatten).length) := by
  unfold numberTask
  have : ∀ (own : List (List ℕ)) (pre : List ℕ),
      own.foldl (fun (q : (ℕ → ℕ) × ℕ) aux =>
        (assignRange q.1 aux (offset + q.2), q.2 + aux.length))
        (assignRange idm pre offset, pre.length)
      = (assignRange idm (pre ++ own.flatten) offset, (pre ++ own.flatten).length) := by
    intro own
    induction own with
    | nil => intro pre; simp
    | cons a r ih =>
      intro pre
      rw [List.foldl_cons]
      simp only
      rw [assignRange_append, ← List.length_append, ih (pre ++ a), List.flatten_cons,
        List.append_assoc]
  exact this own inner

/-- The offsets set by the second loop. -/
def withOff : List (ℕ × DMap) → ℕ → List (ℕ × DMap)
  | [], _ => []
  | (k, v) :: r, o => (k, { v with off := o }) :: withOff r (o + v.n)

theorem numberLoop_eq (l : List (ℕ × DMap)) (idm : ℕ → ℕ) (offset : ℕ)
    (h : ∀ p ∈ l, p.2.inner.isSome ∧ p.2.n = p.2.owned.length) :
    numberLoop l idm offset = some (withOff l offset,
      assignRange idm (l.flatMap fun p => p.2.owned) offset,
      l.map fun p => unique p.2.ovl.flatten) := by
  induction l generalizing idm offset with
  | nil => simp [numberLoop, withOff, assignRange_nil]
  | cons p r ih =>
    obtain ⟨k, v⟩ := p
    obtain ⟨h1, h2⟩ := h (k, v) List.mem_cons_self
    simp only at h1 h2
    obtain ⟨inner, hin⟩ := Option.isSome_iff_exists.1 h1
    have how : v.owned = inner ++ v.own.flatten := by simp [DMap.owned, hin]
    unfold numberLoop
    rw [hin]
    simp only
    rw [numberTask_eq]
    simp only
    rw [if_pos (by rw [h2, how]), ih _ _ (fun q hq => h q (List.mem_cons_of_mem _ hq))]
    simp only [Option.map_some, withOff, List.map_cons, List.flatMap_cons, Option.some.injEq,
      Prod.mk.injEq, and_true]
    rw [h2, ← how, assignRange_append, ← hin]
    exact ⟨rfl, rfl⟩

theorem withOff_keys (l : List (ℕ × DMap)) (o : ℕ) : (withOff l o).map Prod.fst = l.map Prod.fst := by
  induction l generalizing o with
  | nil => rfl
  | cons p r ih => obtain ⟨k, v⟩ := p; simp [withOff, ih]

theorem withOff_owned (l : List (ℕ × DMap)) (o : ℕ) :
    (withOff l o).flatMap (fun p => p.2.owned) = l.flatMap fun p => p.2.owned := by
  induction l generalizing o with
  | nil => rfl
  | cons p r ih => obtain ⟨k, v⟩ := p; simp [withOff, ih]; rfl

theorem withOff_length (l : List (ℕ × DMap)) (o : ℕ) : (withOff l o).length = l.length := by
  rw [← List.length_map (f := Prod.fst), withOff_keys, List.length_map]

theorem mem_withOff {l : List (ℕ × DMap)} {o : ℕ} {p : ℕ × DMap} (h : p ∈ withOff l o) :
    ∃ v, (p.1, v) ∈ l ∧ p.2 = { v with off := p.2.off } := by
  induction l generalizing o with
  | nil => simp [withOff] at h
  | cons q r ih =>
    obtain ⟨k, v⟩ := q
    simp only [withOff, List.mem_cons] at h
    rcases h with rfl | h
    · exact ⟨v, List.mem_cons_self, rfl⟩
    · obtain ⟨w, hw, e⟩ := ih h
      exact ⟨w, List.mem_cons_of_mem _ hw, e⟩

theorem withOff_ranges (l : List (ℕ × DMap)) (o : ℕ)
    (h : ∀ p ∈ l, p.2.n = p.2.owned.length) :
    (withOff l o).flatMap (fun p => List.range' p.2.off p.2.n)
      = List.range' o (l.flatMap fun p => p.2.owned).length := by
  induction l generalizing o with
  | nil => rfl
  | cons p r ih =>
    obtain ⟨k, v⟩ := p
    have hv : v.n = v.owned.length := h (k, v) List.mem_cons_self
    simp only [withOff, List.flatMap_cons, List.length_append]
    rw [ih _ (fun q hq => h q (List.mem_cons_of_mem _ hq)), hv, List.range'_append_1]

/-- Position of the DOFs of an item in the concatenated list. -/
theorem withOff_position (l : List (ℕ × DMap)) (o : ℕ)
    (h : ∀ p ∈ l, p.2.n = p.2.owned.length) {p : ℕ × DMap} (hp : p ∈ withOff l o) :
    ∃ i, p.2.off = o + i ∧ i + p.2.owned.length ≤ (l.flatMap fun p => p.2.owned).length ∧
      ∀ j, j < p.2.owned.length →
        (l.flatMap fun p => p.2.owned)[i + j]? = p.2.owned[j]? := by
  induction l generalizing o with
  | nil => simp [withOff] at hp
  | cons q r ih =>
    obtain ⟨k, v⟩ := q
    have hv : v.n = v.owned.length := h (k, v) List.mem_cons_self
    simp only [withOff, List.mem_cons] at hp
    rcases hp with rfl | hp
    · refine ⟨0, by simp, ?_, ?_⟩
      · simp only [List.flatMap_cons, List.length_append]
        show 0 + v.owned.length ≤ _
        omega
      · intro j hj
        simp only [List.flatMap_cons]
        change (v.owned ++ _)[0 + j]? = v.owned[j]?
        have hj' : j < v.owned.length := hj
        rw [Nat.zero_add, List.getElem?_append_left hj']
    · obtain ⟨i, h1, h2, h3⟩ := ih (o + v.n) (fun q hq => h q (List.mem_cons_of_mem _ hq)) hp
      refine ⟨v.owned.length + i, by omega, ?_, ?_⟩
      · simp only [List.flatMap_cons, List.length_append]; omega
      · intro j hj
        simp only [List.flatMap_cons]
        rw [List.getElem?_append_right (by omega), ← h3 j hj]
        congr 1; omega

theorem assignRange_get (idm : ℕ → ℕ) (L : List ℕ) (o : ℕ) (hn : L.Nodup) (j d : ℕ)
    (hj : L[j]? = some d) : assignRange idm L o d = o + j := by
  unfold assignRange
  have hjl : j < L.length := by
    by_contra h
    rw [List.getElem?_eq_none (by omega)] at hj; simp at hj
  have hd : L[j] = d := by
    rw [List.getElem?_eq_getElem hjl] at hj; exact Option.some.inj hj
  apply scatter_eq
  · refine ⟨(d, o + j), ?_, rfl⟩
    rw [List.mem_iff_getElem]
    exact ⟨j, by simpa using hjl, by simp [hd]⟩
  · intro p hp hpd
    obtain ⟨i, hi, rfl⟩ := List.mem_iff_getElem.1 hp
    simp only [List.length_zip, List.length_range', min_self] at hi
    simp only [List.getElem_zip, List.getElem_range', one_mul] at hpd ⊢
    have : i = j := (List.Nodup.getElem_inj_iff hn).1 (hpd.trans hd.symm)
    omega

/-! ### The whole function -/

theorem initial_inv (ov : Bool) (m : FEMesh) (ct : ℕ → ℕ) (nc : ℕ) :
    Inv ov m ct nc [] ⟨fun _ => 0, [], []⟩ := by
  refine ⟨?_, ?_, ?_, ?_, ?_, ?_, ?_⟩ <;> simp [dkeys, allOwned, dget]

theorem interFacets_isInterfaces (m : FEMesh) (ct : ℕ → ℕ)
    (hfc : ∀ f < m.nFacet, (m.fc f).length = 1 ∨ (m.fc f).length = 2) {p : ℕ × Dict (List ℕ)}
    (hp : p ∈ interFacets m ct) : IsInterfaces m ct p.1 p.2 := by
  obtain ⟨hnd, hnd2⟩ := nodup_interFacets m ct
  have hget : dget (interFacets m ct) p.1 = some p.2 := (dget_eq_some hnd).2 hp
  have hof : ∀ j, facetsOf (interFacets m ct) p.1 j = (dget p.2 j).getD [] := by
    intro j; simp [facetsOf, hget]
  constructor
  · intro q hq f hf
    have hq' : dget p.2 q.1 = some q.2 := (dget_eq_some (hnd2 p hp)).2 hq
    have : f ∈ facetsOf (interFacets m ct) p.1 q.1 := by rw [hof, hq']; exact hf
    obtain ⟨hfl, hne, a, b, hab, h⟩ := ((C73_inter_facets m ct hfc p.1 q.1).2 f).1 this
    have hab' : ct a ≠ ct b := by
      rcases h with ⟨e1, e2⟩ | ⟨e1, e2⟩
      · rw [e1, e2]; exact hne
      · rw [e1, e2]; exact hne.symm
    rcases h with ⟨e1, e2⟩ | ⟨e1, e2⟩
    · exact ⟨⟨hfl, a, b, hab, hab', Or.inl e1⟩, ⟨hfl, a, b, hab, hab', Or.inr e2⟩⟩
    · exact ⟨⟨hfl, a, b, hab, hab', Or.inr e2⟩, ⟨hfl, a, b, hab, hab', Or.inl e1⟩⟩
  · intro f ⟨hfl, a, b, hab, hne, h⟩
    obtain ⟨j, hj⟩ : ∃ j, f ∈ facetsOf (interFacets m ct) p.1 j := by
      rcases h with h | h
      · exact ⟨ct b, ((C73_inter_facets m ct hfc p.1 (ct b)).2 f).2
          ⟨hfl, by rw [← h]; exact hne, a, b, hab, Or.inl ⟨h, rfl⟩⟩⟩
      · exact ⟨ct a, ((C73_inter_facets m ct hfc p.1 (ct a)).2 f).2
          ⟨hfl, by rw [← h]; exact hne.symm, a, b, hab, Or.inr ⟨rfl, h⟩⟩⟩
    rw [hof] at hj
    rcases hd : dget p.2 j with _ | fs
    · rw [hd] at hj; simp at hj
    · rw [hd] at hj
      exact ⟨(j, fs), (dget_eq_some (hnd2 p hp)).1 hd, hj⟩

theorem mem_keys_iff (m : FEMesh) (ct : ℕ → ℕ)
    (hfc : ∀ f < m.nFacet, (m.fc f).length = 1 ∨ (m.fc f).length = 2) (k : ℕ) :
    k ∈ dkeys (interFacets m ct) ↔ ∃ f, InterOf m ct k f := by
  rw [mem_keys_interFacets]
  constructor
  · rintro ⟨f, hf, hk⟩
    obtain ⟨hfl, h1, h2⟩ := mem_interList.1 hf
    rcases hfc f hfl with h | h
    · exact absurd h h1
    · obtain ⟨a, b, hab⟩ := List.length_eq_two.1 h
      simp only [facetTasks, hab, List.getD_cons_zero, List.getD_cons_succ] at h2 hk
      exact ⟨f, hfl, a, b, hab, h2, hk.imp Eq.symm Eq.symm⟩
  · rintro ⟨f, hfl, a, b, hab, hne, hk⟩
    refine ⟨f, mem_interList.2 ⟨hfl, by simp [hab], ?_⟩, ?_⟩
    · simpa [facetTasks, hab] using hne
    · simpa [facetTasks, hab] using hk.imp Eq.symm Eq.symm

/-- What is known about the result when there are at least two tasks. -/
theorem createMaps_spec {ov : Bool} {m : FEMesh} {ct : ℕ → ℕ} {nc : ℕ} {D : Dist}
    (hm : Conforming m) (h2 : ∃ k f, InterOf m ct k f)
    (hD : createMaps ov m ct nc (interFacets m ct) = some D) :
    ∃ s done, Inv ov m ct nc done s ∧
      (∀ k, k ∈ done ↔ ∃ f, InterOf m ct k f) ∧
      (∀ k, k ∈ dkeys s.maps ↔ ∃ f, InterOf m ct k f) ∧
      (∀ d, 0 < nc → (∃ c < m.nCell, (∃ f, InterOf m ct (ct c) f) ∧ d / nc ∈ m.econn c) →
        d ∈ allOwned s.maps) ∧
      D.maps = withOff (ditems s.maps) 0 ∧
      D.idMap = assignRange s.mark ((ditems s.maps).flatMap fun p => p.2.owned) 0 ∧
      D.parts = (ditems (interFacets m ct)).map (fun p => taskCells m ct p.1) ∧
      D.overlap = (ditems s.maps).map fun p => unique p.2.ovl.flatten := by
  unfold createMaps at hD
  rcases hs : tasksLoop ov m ct nc (ditems (interFacets m ct)) ⟨fun _ => 0, [], []⟩ with _ | s
  · rw [hs] at hD; simp at hD
  obtain ⟨hnd, hnd2⟩ := nodup_interFacets m ct
  have hkeys : ∀ k, k ∈ (ditems (interFacets m ct)).map Prod.fst ↔ ∃ f, InterOf m ct k f := by
    intro k
    rw [((ditems_perm _).map Prod.fst).mem_iff]
    exact mem_keys_iff m ct hm.fc k
  obtain ⟨⟨done, hinv, hdone⟩, -, hcov, hk, hparts⟩ := tasksLoop_inv (ditems (interFacets m ct))
    (initial_inv ov m ct nc) (fun p hp => interFacets_isInterfaces m ct hm.fc (mem_ditems.1 hp))
    (((ditems_perm _).map Prod.fst).nodup_iff.2 hnd) (by simp) hs
  have hdone' : ∀ k, k ∈ done ↔ ∃ f, InterOf m ct k f := by
    intro k; rw [hdone, hkeys]; simp
  have hmk : ∀ k, k ∈ dkeys s.maps ↔ ∃ f, InterOf m ct k f := by
    intro k
    constructor
    · intro hkm
      rcases hk k hkm with h | ⟨p, hp, q, hq, h⟩ | h
      · exact (hkeys k).1 h
      · obtain ⟨hsd, -⟩ := interFacets_isInterfaces m ct hm.fc (mem_ditems.1 hp)
        subst h
        have hne : facetsOf (interFacets m ct) p.1 q.1 ≠ [] := by
          rw [← mem_inner_keys, (dget_eq_some hnd).2 (mem_ditems.1 hp)]
          exact List.mem_map.2 ⟨q, hq, rfl⟩
        obtain ⟨f, hf⟩ := List.exists_mem_of_ne_nil _ hne
        have hqf : f ∈ q.2 := by
          rw [facetsOf, (dget_eq_some hnd).2 (mem_ditems.1 hp)] at hf
          have : dget p.2 q.1 = some q.2 := (dget_eq_some (hnd2 p (mem_ditems.1 hp))).2 hq
          simpa [this] using hf
        exact ⟨f, (hsd q hq f hqf).2⟩
      · simp [dkeys] at h
    · intro h
      obtain ⟨v, hv, -⟩ := (hinv.done k).1 ((hdone' k).2 h)
      rw [← dget_isSome, hv]; rfl
  have hall : ∀ p ∈ ditems s.maps, p.2.inner.isSome ∧ p.2.n = p.2.owned.length := by
    intro p hp
    have hg : dget s.maps p.1 = some p.2 := (dget_eq_some hinv.keys).2 (mem_ditems.1 hp)
    refine ⟨?_, hinv.count p.1 p.2 hg⟩
    have : p.1 ∈ done := (hdone' _).2 ((hmk _).1 (by rw [← dget_isSome, hg]; rfl))
    obtain ⟨v, hv, hi⟩ := (hinv.done _).1 this
    rw [hg] at hv
    rw [Option.some.inj hv]; exact hi
  rw [hs] at hD
  simp only [Option.bind_some, numberLoop_eq _ _ _ hall, Option.map_some, Option.some.injEq] at hD
  obtain ⟨k0, hk0⟩ := h2
  have hk0' : k0 ∈ dkeys s.maps := (hmk k0).2 hk0
  have hlen : (ditems s.maps).length ≠ 0 := by
    rw [(ditems_perm _).length_eq]
    intro h
    rw [List.length_eq_zero_iff.1 h] at hk0'
    simp [dkeys] at hk0'
  have hplen : (ditems (interFacets m ct)).length ≠ 0 := by
    intro h
    have := (hkeys k0).2 hk0
    rw [List.length_eq_zero_iff.1 h] at this
    simp at this
  refine ⟨s, done, hinv, hdone', hmk, ?_, ?_, ?_, ?_, ?_⟩
  · rintro d hnc ⟨c, hc, hf, hd⟩
    obtain ⟨p, hp, hpc⟩ := List.mem_map.1 ((hkeys (ct c)).2 hf)
    exact hinv.marked_iff.1 (hcov p hp d hnc ⟨c, hc, hpc.symm, hd⟩)
  · rw [← hD]; simp only [withOff_length, hlen, if_false]
  · rw [← hD]; simp only [withOff_length, hlen, if_false]
  · rw [← hD, hparts]
    simp only [List.nil_append, List.length_map, hplen, if_false]
  · rw [← hD]; simp only [List.length_map, hlen, if_false]

/-- The parts of the specification in terms of the returned values. -/
theorem Dist.facts {ov : Bool} {m : FEMesh} {ct : ℕ → ℕ} {nc : ℕ} {D : Dist}
    (hm : Conforming m) (h2 : ∃ k f, InterOf m ct k f)
    (hD : createMaps ov m ct nc (interFacets m ct) = some D) :
    (dkeys D.maps).Nodup ∧ (allOwned D.maps).Nodup ∧
    (∀ k, k ∈ dkeys D.maps ↔ ∃ f, InterOf m ct k f) ∧
    (∀ d, 0 < nc → (∃ c < m.nCell, (∃ f, InterOf m ct (ct c) f) ∧ d / nc ∈ m.econn c) →
      d ∈ allOwned D.maps) ∧
    (∀ p ∈ D.maps, p.2.n = p.2.owned.length) ∧
    (D.maps.flatMap (fun p => List.range' p.2.off p.2.n) = List.range (allOwned D.maps).length) ∧
    (∀ p ∈ D.maps, p.2.owned.map D.idMap = List.range' p.2.off p.2.n) := by
  obtain ⟨s, done, hinv, hdone, hk, hcov, hM, hI, -, -⟩ := createMaps_spec hm h2 hD
  have hn : ∀ p ∈ ditems s.maps, p.2.n = p.2.owned.length := fun p hp =>
    hinv.count p.1 p.2 ((dget_eq_some hinv.keys).2 (mem_ditems.1 hp))
  have hao : allOwned D.maps = (ditems s.maps).flatMap fun p => p.2.owned := by
    rw [hM]; exact withOff_owned _ _
  have hperm : (allOwned D.maps).Perm (allOwned s.maps) := by
    rw [hao]; exact (ditems_perm s.maps).flatMap_right _
  have hdk : dkeys D.maps = (ditems s.maps).map Prod.fst := by
    rw [hM]; exact withOff_keys _ _
  have hdkp : (dkeys D.maps).Perm (dkeys s.maps) := by
    rw [hdk]; exact (ditems_perm _).map _
  have hnod : (allOwned D.maps).Nodup := hperm.nodup_iff.2 hinv.nodup
  have hDn : ∀ p ∈ D.maps, p.2.n = p.2.owned.length := by
    intro p hp
    rw [hM] at hp
    obtain ⟨v, hv, e⟩ := mem_withOff hp
    have := hn _ hv
    rw [e]; exact this
  refine ⟨hdkp.nodup_iff.2 hinv.keys, hnod, fun k => by rw [hdkp.mem_iff, hk],
    fun d hnc hd => hperm.mem_iff.2 (hcov d hnc hd), hDn, ?_, ?_⟩
  · rw [hao, hM, withOff_ranges _ _ hn, List.range_eq_range']
  · intro p hp
    have hp' := hp
    rw [hM] at hp
    obtain ⟨i, h1, h2, h3⟩ := withOff_position _ _ hn hp
    rw [hDn p hp']
    apply List.ext_getElem
    · simp
    · intro j hj hj'
      have hj : j < p.2.owned.length := by simpa using hj
      simp only [List.getElem_map, List.getElem_range', one_mul]
      have := assignRange_get s.mark _ 0 (hao ▸ hnod) (i + j) p.2.owned[j]
        (by rw [h3 j hj, List.getElem?_eq_getElem hj])
      rw [← hI] at this
      omega

theorem mem_ownedBy {D : Dist} (h : (dkeys D.maps).Nodup) {t d : ℕ} :
    d ∈ ownedBy D t ↔ ∃ p ∈ D.maps, p.1 = t ∧ d ∈ p.2.owned := by
  unfold ownedBy
  constructor
  · intro hd
    rcases hg : dget D.maps t with _ | v
    · rw [hg] at hd; simp at hd
    · rw [hg] at hd
      exact ⟨(t, v), (dget_eq_some h).1 hg, rfl, by simpa using hd⟩
  · rintro ⟨p, hp, rfl, hd⟩
    rw [(dget_eq_some h).2 hp]; simpa using hd

theorem mem_allOwned_iff {D : Dist} (h : (dkeys D.maps).Nodup) {d : ℕ} :
    d ∈ allOwned D.maps ↔ ∃ t, d ∈ ownedBy D t := by
  simp only [mem_ownedBy h, allOwned, List.mem_flatMap]
  constructor
  · rintro ⟨p, hp, hd⟩; exact ⟨p.1, p, hp, rfl, hd⟩
  · rintro ⟨t, p, hp, -, hd⟩; exact ⟨p, hp, hd⟩

/-- In a list of pairwise disjoint lists, a member determines its list. -/
theorem flatMap_unique {l : List (ℕ × DMap)} (h : (l.flatMap fun p => p.2.owned).Nodup)
    {p q : ℕ × DMap} (hp : p ∈ l) (hq : q ∈ l) {d : ℕ} (hdp : d ∈ p.2.owned)
    (hdq : d ∈ q.2.owned) : p = q := by
  induction l with
  | nil => simp at hp
  | cons a r ih =>
    rw [List.flatMap_cons, List.nodup_append] at h
    obtain ⟨-, h2, h3⟩ := h
    rcases List.mem_cons.1 hp with e | hp'
    · rcases List.mem_cons.1 hq with e' | hq'
      · rw [e, e']
      · exact absurd rfl (h3 d (e ▸ hdp) d (List.mem_flatMap.2 ⟨q, hq', hdq⟩))
    · rcases List.mem_cons.1 hq with e' | hq'
      · exact absurd rfl (h3 d (e' ▸ hdq) d (List.mem_flatMap.2 ⟨p, hp', hdp⟩))
      · exact ih h2 hp' hq'

/-- Only DOFs of the nodes of the cells are owned. -/
theorem owned_bound {ov : Bool} {m : FEMesh} {ct : ℕ → ℕ} {nc : ℕ} {D : Dist}
    (hm : Conforming m) (h2 : ∃ k f, InterOf m ct k f)
    (hD : createMaps ov m ct nc (interFacets m ct) = some D) {t d : ℕ} (hd : d ∈ ownedBy D t) :
    0 < nc ∧ ∃ c < m.nCell, ct c = t ∧ d / nc ∈ m.econn c := by
  obtain ⟨hnk, -⟩ := Dist.facts hm h2 hD
  obtain ⟨s, done, hinv, hdone, hk, hcov, hM, hI, -, -⟩ := createMaps_spec hm h2 hD
  obtain ⟨p, hp, rfl, hdp⟩ := (mem_ownedBy hnk).1 hd
  rw [hM] at hp
  obtain ⟨v, hv, e⟩ := mem_withOff hp
  have hg : dget s.maps p.1 = some v := (dget_eq_some hinv.keys).2 (mem_ditems.1 hv)
  have hdv : d ∈ v.owned := by rw [e] at hdp; exact hdp
  rcases List.mem_append.1 hdv with hd' | hd'
  · rcases hin : v.inner with _ | l
    · rw [hin] at hd'; simp at hd'
    · rw [hin] at hd'
      obtain ⟨h1, h2, -⟩ := hinv.inner _ v hg l hin d hd'
      exact ⟨h1, h2⟩
  · obtain ⟨f, ⟨hfl, a, b, hab, -, hk⟩, hnc, hdf, -⟩ := hinv.own _ v hg d hd'
    have ha : a ∈ m.fc f := by rw [hab]; simp
    have hb : b ∈ m.fc f := by rw [hab]; simp
    rcases hk with hk | hk
    · exact ⟨hnc, a, hm.cells f hfl a ha, hk, hm.sub f hfl a ha _ hdf⟩
    · exact ⟨hnc, b, hm.cells f hfl b hb, hk, hm.sub f hfl b hb _ hdf⟩

/-! ### Property theorems -/

/-- **C73.** With at least two tasks, each having an interface with another one, every DOF of the
field is owned by exactly one task, once, and only DOFs of the field are owned. -/
theorem C73_every_dof_one_owner {ov : Bool} {m : FEMesh} {ct : ℕ → ℕ} {nc : ℕ} {D : Dist}
    (hm : Conforming m) (hn : NodesCovered m) (ht : TasksTouch m ct) (h2 : ∃ k f, InterOf m ct k f)
    (hnc : 0 < nc) (hD : createMaps ov m ct nc (interFacets m ct) = some D) :
    (∀ d, d < nc * m.nNod ↔ ∃ t, d ∈ ownedBy D t) ∧
    (∀ d t t', d ∈ ownedBy D t → d ∈ ownedBy D t' → t = t') ∧
    (∀ t, (ownedBy D t).Nodup) := by
  obtain ⟨hnk, hnod, hk, hcov, hDn, hr, hmap⟩ := Dist.facts hm h2 hD
  refine ⟨fun d => ⟨fun hd => ?_, ?_⟩, ?_, ?_⟩
  · rw [← mem_allOwned_iff hnk]
    obtain ⟨c, hc, hx⟩ := hn.cover (d / nc) (Nat.div_lt_of_lt_mul hd)
    exact hcov d hnc ⟨c, hc, ht c hc, hx⟩
  · rintro ⟨t, hd⟩
    obtain ⟨_, c, hc, -, hx⟩ := owned_bound hm h2 hD hd
    have := hn.bound c hc _ hx
    exact (Nat.div_lt_iff_lt_mul hnc).1 this |>.trans_eq (Nat.mul_comm _ _)
  · intro d t t' hd hd'
    obtain ⟨p, hp, rfl, hdp⟩ := (mem_ownedBy hnk).1 hd
    obtain ⟨q, hq, rfl, hdq⟩ := (mem_ownedBy hnk).1 hd'
    rw [flatMap_unique hnod hp hq hdp hdq]
  · intro t
    unfold ownedBy
    rcases hg : dget D.maps t with _ | v
    · simp
    · have hp := (dget_eq_some hnk).1 hg
      have : (allOwned D.maps).Nodup := hnod
      unfold allOwned at this
      rw [List.nodup_flatMap] at this
      simpa using this.1 (t, v) hp

/-- **C73.** A task owns only DOFs of its own cells. -/
theorem C73_owned_in_own_cells {ov : Bool} {m : FEMesh} {ct : ℕ → ℕ} {nc : ℕ} {D : Dist}
    (hm : Conforming m) (h2 : ∃ k f, InterOf m ct k f)
    (hD : createMaps ov m ct nc (interFacets m ct) = some D) (t d : ℕ) (hd : d ∈ ownedBy D t) :
    ∃ c < m.nCell, ct c = t ∧ d / nc ∈ m.econn c :=
  (owned_bound hm h2 hD hd).2

/-- **C73.** The new numbering is a bijection of the DOFs onto `0, …, N - 1`; the DOFs of a task
get consecutive numbers from its offset on, in the order in which they are listed; and the ranges of
the tasks, in the order of the tasks, tile `0, …, N - 1`. -/
theorem C73_numbering {ov : Bool} {m : FEMesh} {ct : ℕ → ℕ} {nc : ℕ} {D : Dist}
    (hm : Conforming m) (hn : NodesCovered m) (ht : TasksTouch m ct) (h2 : ∃ k f, InterOf m ct k f)
    (hnc : 0 < nc) (hD : createMaps ov m ct nc (interFacets m ct) = some D) :
    (∀ t, (ownedBy D t).map D.idMap = List.range' (offsetOf D t) (ownedBy D t).length) ∧
    (dkeys D.maps).Pairwise (· < ·) ∧
    (dkeys D.maps).flatMap (fun t => List.range' (offsetOf D t) (ownedBy D t).length)
      = List.range (nc * m.nNod) ∧
    Set.BijOn D.idMap (Set.Iio (nc * m.nNod)) (Set.Iio (nc * m.nNod)) := by
  obtain ⟨hnk, hnod, hk, hcov, hDn, hr, hmap⟩ := Dist.facts hm h2 hD
  obtain ⟨hall, -, -⟩ := C73_every_dof_one_owner hm hn ht h2 hnc hD
  have hperm : (allOwned D.maps).Perm (List.range (nc * m.nNod)) := by
    rw [List.perm_ext_iff_of_nodup hnod List.nodup_range]
    intro d
    rw [mem_allOwned_iff hnk, List.mem_range, hall d]
  have hlen : (allOwned D.maps).length = nc * m.nNod := by rw [hperm.length_eq]; simp
  have hg : ∀ p ∈ D.maps, offsetOf D p.1 = p.2.off ∧ ownedBy D p.1 = p.2.owned := by
    intro p hp
    have := (dget_eq_some hnk).2 hp
    simp [offsetOf, ownedBy, this]
  have hmapall : (allOwned D.maps).map D.idMap = List.range (nc * m.nNod) := by
    rw [← hlen, ← hr]
    unfold allOwned
    rw [List.map_flatMap]
    exact List.flatMap_congr fun p hp => hmap p hp
  refine ⟨?_, ?_, ?_, ?_⟩
  · intro t
    rcases hgt : dget D.maps t with _ | v
    · simp [ownedBy, hgt]
    · have hp := (dget_eq_some hnk).1 hgt
      have := hg _ hp
      simp only at this
      rw [this.1, this.2, hmap _ hp, hDn _ hp]
  · obtain ⟨s, done, hinv, -, -, -, hM, -⟩ := createMaps_spec hm h2 hD
    unfold dkeys
    rw [hM, withOff_keys]
    exact ditems_sorted hinv.keys
  · rw [← hlen, ← hr]
    unfold dkeys
    rw [List.flatMap_map]
    refine List.flatMap_congr fun p hp => ?_
    have := hg p hp
    rw [this.1, this.2, hDn p hp]
  · have hinj : ((allOwned D.maps).map D.idMap).Nodup := by rw [hmapall]; exact List.nodup_range
    refine ⟨?_, ?_, ?_⟩
    · intro d hd
      have : D.idMap d ∈ (allOwned D.maps).map D.idMap :=
        List.mem_map.2 ⟨d, hperm.mem_iff.2 (List.mem_range.2 hd), rfl⟩
      rw [hmapall] at this
      exact List.mem_range.1 this
    · intro a ha b hb hab
      exact List.inj_on_of_nodup_map hinj (hperm.mem_iff.2 (List.mem_range.2 ha))
        (hperm.mem_iff.2 (List.mem_range.2 hb)) hab
    · intro e he
      have : e ∈ (allOwned D.maps).map D.idMap := by rw [hmapall]; exact List.mem_range.2 he
      obtain ⟨d, hd, rfl⟩ := List.mem_map.1 this
      exact ⟨d, List.mem_range.1 (hperm.mem_iff.1 hd), rfl⟩

/-- **C73.** With overlaps on a mesh whose cells around every node are connected by facets, the
cells of a task together with its overlap cells contain all the cells of every DOF that the task
owns: the rows of the owned DOFs can be assembled by the task alone. -/
theorem C73_overlap_complete {m : FEMesh} {ct : ℕ → ℕ} {nc : ℕ} {D : Dist}
    (hm : Conforming m) (hf : FacetConnected m) (h2 : ∃ k f, InterOf m ct k f)
    (hD : createMaps true m ct nc (interFacets m ct) = some D)
    (i t : ℕ) (hi : (dkeys D.maps)[i]? = some t) (d : ℕ) (hd : d ∈ ownedBy D t)
    (c : ℕ) (hc : c < m.nCell) (hx : d / nc ∈ m.econn c) :
    ∃ part ovl, D.parts[i]? = some part ∧ D.overlap[i]? = some ovl ∧
      (c ∈ part ∨ c ∈ ovl) := by
  obtain ⟨hnk, -⟩ := Dist.facts hm h2 hD
  obtain ⟨s, done, hinv, hdone, hk, hcov, hM, hI, hP, hO⟩ := createMaps_spec hm h2 hD
  obtain ⟨hnd, -⟩ := nodup_interFacets m ct
  -- the keys of both dictionaries agree, in order
  have hkeq : dkeys D.maps = (ditems (interFacets m ct)).map Prod.fst := by
    have e1 : dkeys D.maps = (ditems s.maps).map Prod.fst := by rw [hM]; exact withOff_keys _ _
    rw [e1]
    have p1 := ditems_sorted hinv.keys
    have p2 := ditems_sorted hnd
    refine List.Perm.eq_of_pairwise (le := (· < ·)) (fun a b _ _ h h' => absurd h (Nat.lt_asymm h'))
      p1 p2 ?_
    rw [List.perm_ext_iff_of_nodup (p1.imp fun h => h.ne) (p2.imp fun h => h.ne)]
    intro k
    rw [((ditems_perm s.maps).map Prod.fst).mem_iff, ((ditems_perm _).map Prod.fst).mem_iff]
    show k ∈ dkeys s.maps ↔ k ∈ dkeys _
    rw [hk, mem_keys_iff m ct hm.fc]
  have hil : i < (dkeys D.maps).length := by
    by_contra h
    rw [List.getElem?_eq_none (by omega)] at hi; simp at hi
  have hpart : D.parts[i]? = some (taskCells m ct t) := by
    rw [hP]
    rw [hkeq, List.getElem?_map] at hi
    rw [List.getElem?_map]
    rcases h : (ditems (interFacets m ct))[i]? with _ | q
    · rw [h] at hi; simp at hi
    · rw [h] at hi
      simp only [Option.map_some, Option.some.injEq] at hi ⊢
      rw [hi]
  have hls : i < (ditems s.maps).length := by
    have : (dkeys D.maps).length = (ditems s.maps).length := by
      rw [dkeys, List.length_map, hM, withOff_length]
    omega
  set q := (ditems s.maps)[i] with hq
  have hqt : q.1 = t := by
    have e1 : dkeys D.maps = (ditems s.maps).map Prod.fst := by rw [hM]; exact withOff_keys _ _
    rw [e1, List.getElem?_map, List.getElem?_eq_getElem hls] at hi
    simpa using hi
  have hovl : D.overlap[i]? = some (unique q.2.ovl.flatten) := by
    rw [hO, List.getElem?_map, List.getElem?_eq_getElem hls]; rfl
  refine ⟨_, _, hpart, hovl, ?_⟩
  have hg : dget s.maps t = some q.2 := by
    rw [← hqt]
    exact (dget_eq_some hinv.keys).2 (mem_ditems.1 (List.getElem_mem hls))
  -- the owned list of `t` is that of `q`
  have hdq : d ∈ q.2.owned := by
    obtain ⟨p, hp, hpt, hdp⟩ := (mem_ownedBy hnk).1 hd
    rw [hM] at hp
    obtain ⟨v, hv, e⟩ := mem_withOff hp
    have hg' : dget s.maps p.1 = some v := (dget_eq_some hinv.keys).2 (mem_ditems.1 hv)
    rw [hpt, hg] at hg'
    rw [Option.some.inj hg']
    rw [e] at hdp; exact hdp
  rcases List.mem_append.1 hdq with hd' | hd'
  · left
    rcases hin : q.2.inner with _ | l
    · rw [hin] at hd'; simp at hd'
    · rw [hin] at hd'
      obtain ⟨-, ⟨a, ha, hat, hda⟩, hno⟩ := hinv.inner t q.2 hg l hin d hd'
      have := inner_only (ct := ct) hf ha hc hda hx (by rw [hat]; exact hno)
      simp only [taskCells, List.mem_filter, List.mem_range, decide_eq_true_eq]
      exact ⟨hc, this.trans hat⟩
  · right
    obtain ⟨f, ⟨hfl, -⟩, -, hdf, hov⟩ := hinv.own t q.2 hg d hd'
    obtain ⟨v, hv, hcv⟩ := hm.star f hfl _ hdf c hc hx
    rw [mem_unique]
    exact hov rfl v hv c hcv

/-- **C73.** On a mesh whose cells around every node are connected by facets the function never
fails. -/
theorem C73_never_fails (ov : Bool) (m : FEMesh) (ct : ℕ → ℕ) (nc : ℕ) (hm : Conforming m)
    (hf : FacetConnected m) : ∃ D, createMaps ov m ct nc (interFacets m ct) = some D := by
  obtain ⟨hnd, hnd2⟩ := nodup_interFacets m ct
  have hi : ∀ p ∈ ditems (interFacets m ct), IsInterfaces m ct p.1 p.2 :=
    fun p hp => interFacets_isInterfaces m ct hm.fc (mem_ditems.1 hp)
  have hnd' : ((ditems (interFacets m ct)).map Prod.fst).Nodup :=
    ((ditems_perm _).map Prod.fst).nodup_iff.2 hnd
  obtain ⟨s, hs⟩ := tasksLoop_some hm hf (ditems (interFacets m ct)) (initial_inv ov m ct nc)
    hi hnd' (by simp)
  obtain ⟨⟨done, hinv, hdone⟩, -, -, hk, -⟩ := tasksLoop_inv _ (initial_inv ov m ct nc)
    hi hnd' (by simp) hs
  have hall : ∀ p ∈ ditems s.maps, p.2.inner.isSome ∧ p.2.n = p.2.owned.length := by
    intro p hp
    have hg : dget s.maps p.1 = some p.2 := (dget_eq_some hinv.keys).2 (mem_ditems.1 hp)
    refine ⟨?_, hinv.count p.1 p.2 hg⟩
    have hpk : p.1 ∈ dkeys s.maps := by rw [← dget_isSome, hg]; rfl
    have : p.1 ∈ done := by
      rw [hdone]
      right
      rcases hk _ hpk with h | ⟨a, ha, b, hb, e⟩ | h
      · exact h
      · rw [((ditems_perm _).map Prod.fst).mem_iff]
        show p.1 ∈ dkeys _
        rw [mem_keys_iff m ct hm.fc]
        have hne : facetsOf (interFacets m ct) a.1 b.1 ≠ [] := by
          rw [← mem_inner_keys, (dget_eq_some hnd).2 (mem_ditems.1 ha)]
          exact List.mem_map.2 ⟨b, hb, rfl⟩
        obtain ⟨f, hff⟩ := List.exists_mem_of_ne_nil _ hne
        have hbf : f ∈ b.2 := by
          rw [facetsOf, (dget_eq_some hnd).2 (mem_ditems.1 ha)] at hff
          have : dget a.2 b.1 = some b.2 := (dget_eq_some (hnd2 a (mem_ditems.1 ha))).2 hb
          simpa [this] using hff
        rw [e]
        exact ⟨f, ((hi a ha).sound b hb f hbf).2⟩
      · simp [dkeys] at h
    obtain ⟨v, hv, hi⟩ := (hinv.done _).1 this
    rw [hg] at hv
    rw [Option.some.inj hv]; exact hi
  unfold createMaps
  rw [hs]
  simp only [Option.bind_some, numberLoop_eq _ _ _ hall, Option.map_some]
  exact ⟨_, rfl⟩

/-- **C73.** With no interface facets (a single task) task zero owns everything, the numbering is
the identity and there is no overlap. -/
theorem C73_single_task (ov : Bool) (m : FEMesh) (ct : ℕ → ℕ) (nc : ℕ)
    (h : interFacets m ct = []) :
    ∃ D, createMaps ov m ct nc (interFacets m ct) = some D ∧
      D.maps = [(0, ⟨some (expandDofs nc (List.range m.nNod)), [], [], nc * m.nNod, 0⟩)] ∧
      (∀ d < nc * m.nNod, D.idMap d = d) ∧ D.parts = [List.range m.nCell] ∧ D.overlap = [[]] := by
  rw [h]
  refine ⟨_, rfl, ?_, ?_, rfl, rfl⟩
  · simp only [length_expandDofs, List.length_range, List.length_nil, if_true]
  · intro d hd
    have hl : (expandDofs nc (List.range m.nNod)).length = nc * m.nNod := by
      simp [length_expandDofs]
    show assignRange _ (List.range _) 0 d = d
    rw [assignRange_get _ _ 0 List.nodup_range d d]
    · simp
    · rw [hl, List.getElem?_eq_getElem (by simpa using hd)]; simp

end Par
