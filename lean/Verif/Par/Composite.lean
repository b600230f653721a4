import Verif.Par.Verify
import Mathlib.Algebra.BigOperators.Group.Finset.Sigma

/-!
# Several fields: interleaved PETSc numbering

/repo/sfepy/parallel/parallel.py:450-597
-/

namespace Par

open Verif.Np

/-- The loop variables: `offset`, the `id_map` of each field, the `coffsets` of each field. -/
structure CSt where
  offset : ℕ
  ids : ℕ → ℕ → ℕ
  coffs : ℕ → ℕ → ℕ

/-- The body of the two loops for the task `ir` and the field `ii`; `none` when the task is not in
`dof_maps` (a `KeyError`). `id_map[iown] += offset - off` is written as `+ offset - off`.
/repo/sfepy/parallel/parallel.py:491-500 -/
def interStep (Ds : ℕ → Dist) (s : CSt) (ir ii : ℕ) : Option CSt :=
  (dget (Ds ii).maps ir).map fun v =>
    { offset := s.offset + v.n
      ids := upd s.ids ii
        (scatter (s.ids ii) (v.owned.map fun d => (d, s.ids ii d + s.offset - v.off)))
      coffs := upd s.coffs ii (upd (s.coffs ii) ir s.offset) }

/-- The loops over the given (task, field) pairs. -/
def interLoop (Ds : ℕ → Dist) : List (ℕ × ℕ) → CSt → Option CSt
  | [], s => some s
  | p :: r, s => (interStep Ds s p.1 p.2).bind (interLoop Ds r)

/-- The pairs in the order of the loops. -/
def taskFields (size nF : ℕ) : List (ℕ × ℕ) :=
  (List.range size).flatMap fun ir => (List.range nF).map fun ii : ℕ => (ir, ii)

/-- The renumbering for several fields, and `coffsets`; a single field keeps its numbering.
`junk` are the uninitialised `coffsets`.
/repo/sfepy/parallel/parallel.py:485-506 -/
def interleave (Ds : ℕ → Dist) (size nF : ℕ) (junk : ℕ → ℕ → ℕ) : Option CSt :=
  if 1 < nF then interLoop Ds (taskFields size nF) ⟨0, fun i => (Ds i).idMap, junk⟩
  else some ⟨0, fun i => (Ds i).idMap,
    upd junk 0 fun ir => ((dget (Ds 0).maps ir).map DMap.off).getD 0⟩

/-- `petsc_dofs_range = (coffsets[it], coffsets[it] + dof_map[3])` of the field `ii`.
/repo/sfepy/parallel/parallel.py:379-381, 403-404 -/
def fieldRange (Ds : ℕ → Dist) (s : CSt) (t ii : ℕ) : ℕ × ℕ :=
  (s.coffs ii t, s.coffs ii t + ((dget (Ds ii).maps t).map DMap.n).getD 0)

/-- `get_sizes(petsc_dofs_range, n_dof, n_components)`: `((n_loc, n_all_dof), drange)`.
/repo/sfepy/parallel/parallel.py:543-552 -/
def getSizes (r : ℕ × ℕ) (nDof nc : ℕ) : (ℕ × ℕ) × (ℕ × ℕ) :=
  ((nc * r.2 - nc * r.1, nDof * nc), (nc * r.1, nc * r.2))

/-- `get_composite_sizes(lfds)` for a list of `(sizes, drange)`.
/repo/sfepy/parallel/parallel.py:554-563 -/
def compositeSizes (l : List ((ℕ × ℕ) × (ℕ × ℕ))) : (ℕ × ℕ) × (ℕ × ℕ) :=
  (((l.map fun x => x.1.1).sum, (l.map fun x => x.1.2).sum),
    ((l.head?.map fun x => x.2.1).getD 0, (l.getLast?.map fun x => x.2.2).getD 0))

/-- The sizes and the range returned by `setup_composite_dofs()` for the task `t`; `N ii` is the
number of the DOFs of the field.
/repo/sfepy/parallel/parallel.py:575-590 -/
def compositeOf (Ds : ℕ → Dist) (s : CSt) (N : ℕ → ℕ) (nF t : ℕ) : (ℕ × ℕ) × (ℕ × ℕ) :=
  compositeSizes ((List.range nF).map fun ii : ℕ => getSizes (fieldRange Ds s t ii) (N ii) 1)

/-! ### Specification -/

/-- The distributions of the fields `0, …, nF - 1` with `N i` DOFs: the tasks are `0, …, size - 1`,
every DOF has one owner, and the DOFs of a task are numbered consecutively. This is what C73 proves
of each field. -/
structure FieldsOK (Ds : ℕ → Dist) (N : ℕ → ℕ) (size nF : ℕ) : Prop where
  has : ∀ i < nF, ∀ t < size, ∃ v, dget (Ds i).maps t = some v ∧ v.n = v.owned.length ∧
    v.owned.map (Ds i).idMap = List.range' v.off v.n
  cover : ∀ i < nF, ∀ d, d < N i ↔ ∃ t < size, d ∈ ownedBy (Ds i) t
  one : ∀ i < nF, ∀ d t t', d ∈ ownedBy (Ds i) t → d ∈ ownedBy (Ds i) t' → t = t'
  nodup : ∀ i < nF, ∀ t, (ownedBy (Ds i) t).Nodup

/-- The field and the DOF of all the DOFs, block by block. -/
def blockDofs (Ds : ℕ → Dist) (l : List (ℕ × ℕ)) : List (ℕ × ℕ) :=
  l.flatMap fun p => (ownedBy (Ds p.2) p.1).map fun d => (p.2, d)

/-- The number of the DOFs that the task `t` owns in the field `i`. -/
def nOwned (Ds : ℕ → Dist) (t i : ℕ) : ℕ := (ownedBy (Ds i) t).length

/-- The first number of the task `t` in the field `i`: the DOFs of all the fields of the previous
tasks and of the previous fields of the task come before. -/
def blockStart (Ds : ℕ → Dist) (nF t i : ℕ) : ℕ :=
  ((List.range t).map fun s : ℕ => ((List.range nF).map fun j : ℕ => nOwned Ds s j).sum).sum
    + ((List.range i).map fun j : ℕ => nOwned Ds t j).sum

section

variable {Ds : ℕ → Dist} {N : ℕ → ℕ} {size nF : ℕ}

/-- The fields of C73 on one mesh: the facets and their cells are the same for all the fields. -/
theorem interFacets_congr {m m' : FEMesh} (ct : ℕ → ℕ) (h : m.nFacet = m'.nFacet)
    (h' : m.fc = m'.fc) : interFacets m ct = interFacets m' ct := by
  unfold interFacets interList innerFacets facetTasks
  rw [h, h']

/-- C73 gives `FieldsOK`: the fields of a conforming mesh, distributed with the interface facets of
the first field. -/
theorem fieldsOK_of_createMaps {ov : Bool} {m : ℕ → FEMesh} {ct : ℕ → ℕ} {nc : ℕ → ℕ}
    (hm : ∀ i < nF, Conforming (m i)) (hn : ∀ i < nF, NodesCovered (m i))
    (hT : ∀ i < nF, Tasks (m i) ct size) (hnc : ∀ i < nF, 0 < nc i)
    (hfc : ∀ i < nF, (m i).nFacet = (m 0).nFacet ∧ (m i).fc = (m 0).fc)
    (hD : ∀ i < nF, createMaps ov (m i) ct (nc i) (interFacets (m 0) ct) = some (Ds i)) :
    FieldsOK Ds (fun i => nc i * (m i).nNod) size nF := by
  have hD' : ∀ i < nF, createMaps ov (m i) ct (nc i) (interFacets (m i) ct) = some (Ds i) := by
    intro i hi
    rw [interFacets_congr ct (hfc i hi).1 (hfc i hi).2]
    exact hD i hi
  refine ⟨?_, ?_, ?_, ?_⟩
  · intro i hi t ht
    obtain ⟨hnk, -, -, -, hn, -, hmap⟩ := Dist.facts (hm i hi) (hT i hi).h2 (hD' i hi)
    have : t ∈ dkeys (Ds i).maps := by
      rw [keys_eq_range (hm i hi) (hT i hi) (hD' i hi)]; exact List.mem_range.2 ht
    obtain ⟨p, hp, rfl⟩ := List.mem_map.1 this
    exact ⟨p.2, (dget_eq_some hnk).2 hp, hn p hp, hmap p hp⟩
  · intro i hi d
    rw [(C73_every_dof_one_owner (hm i hi) (hn i hi) (hT i hi).touch (hT i hi).h2 (hnc i hi)
      (hD' i hi)).1]
    constructor
    · rintro ⟨t, h⟩
      refine ⟨t, ?_, h⟩
      obtain ⟨c, hc, e, -⟩ := C73_owned_in_own_cells (hm i hi) (hT i hi).h2 (hD' i hi) t d h
      exact ((hT i hi).range t).2 ⟨c, hc, e⟩
    · rintro ⟨t, -, h⟩; exact ⟨t, h⟩
  · intro i hi
    exact (C73_every_dof_one_owner (hm i hi) (hn i hi) (hT i hi).touch (hT i hi).h2 (hnc i hi)
      (hD' i hi)).2.1
  · intro i hi
    exact (C73_every_dof_one_owner (hm i hi) (hn i hi) (hT i hi).touch (hT i hi).h2 (hnc i hi)
      (hD' i hi)).2.2

/-! ### The loop -/

theorem mem_taskFields {p : ℕ × ℕ} : p ∈ taskFields size nF ↔ p.1 < size ∧ p.2 < nF := by
  obtain ⟨a, b⟩ := p
  simp [taskFields]

theorem nodup_taskFields : (taskFields size nF).Nodup := by
  unfold taskFields
  rw [List.nodup_flatMap]
  refine ⟨fun a _ => List.nodup_range.map fun x y h => by simpa using h, ?_⟩
  refine List.nodup_range.imp ?_
  intro a b hab x hx hx'
  obtain ⟨i, -, rfl⟩ := List.mem_map.1 hx
  obtain ⟨j, -, h⟩ := List.mem_map.1 hx'
  exact hab (by simpa using (congrArg Prod.fst h).symm)

theorem mem_blockDofs {l : List (ℕ × ℕ)} {q : ℕ × ℕ} :
    q ∈ blockDofs Ds l ↔ ∃ t, (t, q.1) ∈ l ∧ q.2 ∈ ownedBy (Ds q.1) t := by
  obtain ⟨i, d⟩ := q
  simp only [blockDofs, List.mem_flatMap, List.mem_map, Prod.mk.injEq, Prod.exists]
  constructor
  · rintro ⟨t, j, h, e, he, rfl, rfl⟩; exact ⟨t, h, he⟩
  · rintro ⟨t, h, he⟩; exact ⟨t, i, h, d, he, rfl, rfl⟩

theorem nodup_blockDofs (h : FieldsOK Ds N size nF) {l : List (ℕ × ℕ)} (hl : l.Nodup)
    (hb : ∀ p ∈ l, p.2 < nF) : (blockDofs Ds l).Nodup := by
  unfold blockDofs
  rw [List.nodup_flatMap]
  refine ⟨fun p hp => (h.nodup _ (hb p hp) _).map fun x y e => by simpa using e, ?_⟩
  refine hl.imp_of_mem ?_
  intro a b ha hb' hab x hx hx'
  obtain ⟨d, hd, rfl⟩ := List.mem_map.1 hx
  obtain ⟨e, he, h'⟩ := List.mem_map.1 hx'
  have h1 : b.2 = a.2 := congrArg Prod.fst h'
  have h2 : e = d := congrArg Prod.snd h'
  subst h2
  rw [h1] at he
  exact hab (Prod.ext (h.one _ (hb a ha) e _ _ hd he) h1.symm)

/-- The effect of one pass on a block that was not yet renumbered. -/
theorem interStep_eq (h : FieldsOK Ds N size nF) {s : CSt} {t i : ℕ} (ht : t < size) (hi : i < nF)
    (hs : ∀ d ∈ ownedBy (Ds i) t, s.ids i d = (Ds i).idMap d) :
    ∃ s', interStep Ds s t i = some s' ∧ s'.offset = s.offset + nOwned Ds t i ∧
      (ownedBy (Ds i) t).map (s'.ids i) = List.range' s.offset (nOwned Ds t i) ∧
      (∀ j d, (j ≠ i ∨ d ∉ ownedBy (Ds i) t) → s'.ids j d = s.ids j d) ∧
      s'.coffs i t = s.offset ∧
      (∀ j u, (j ≠ i ∨ u ≠ t) → s'.coffs j u = s.coffs j u) := by
  obtain ⟨v, hv, hn, hmap⟩ := h.has i hi t ht
  have hown : ownedBy (Ds i) t = v.owned := by simp [ownedBy, hv]
  have hlen : nOwned Ds t i = v.n := by rw [nOwned, hown, hn]
  have hnd : v.owned.Nodup := hown ▸ h.nodup i hi t
  rw [hown] at hs ⊢
  refine ⟨_, by rw [interStep, hv, Option.map_some], ?_, ?_, ?_, ?_, ?_⟩
  · simp [hlen]
  · simp only [upd_same]
    have e : ∀ d ∈ v.owned, scatter (s.ids i) (v.owned.map fun d =>
        (d, s.ids i d + s.offset - v.off)) d = (Ds i).idMap d + s.offset - v.off := by
      intro d hd
      apply scatter_eq
      · exact ⟨_, List.mem_map.2 ⟨d, hd, rfl⟩, rfl⟩
      · intro p hp he
        obtain ⟨x, hx, rfl⟩ := List.mem_map.1 hp
        simp only at he ⊢
        rw [he, hs d hd]
    rw [List.map_congr_left e]
    have : v.owned.map (fun d => (Ds i).idMap d + s.offset - v.off)
        = (v.owned.map (Ds i).idMap).map (fun x => x + s.offset - v.off) := by simp
    rw [this, hmap, hlen]
    apply List.ext_getElem
    · simp
    · intro j _ _
      simp only [List.getElem_map, List.getElem_range']
      omega
  · intro j d hjd
    simp only
    by_cases hj : j = i
    · subst hj
      rw [upd_same]
      apply scatter_of_not_mem
      intro p hp he
      obtain ⟨x, hx, rfl⟩ := List.mem_map.1 hp
      exact (hjd.resolve_left fun c => c rfl) (he ▸ hx)
    · rw [upd_ne _ _ hj]
  · simp
  · intro j u hju
    simp only
    by_cases hj : j = i
    · subst hj
      rw [upd_same, upd_ne _ _ (hju.resolve_left fun c => c rfl)]
    · rw [upd_ne _ _ hj]

/-- The number of the DOFs in the blocks. -/
def blockLen (Ds : ℕ → Dist) (l : List (ℕ × ℕ)) : ℕ := (l.map fun p => nOwned Ds p.1 p.2).sum

theorem interLoop_spec (h : FieldsOK Ds N size nF) (l : List (ℕ × ℕ)) (hl : l.Nodup)
    (hb : ∀ p ∈ l, p.1 < size ∧ p.2 < nF) (s : CSt)
    (hs : ∀ p ∈ l, ∀ d ∈ ownedBy (Ds p.2) p.1, s.ids p.2 d = (Ds p.2).idMap d) :
    ∃ s', interLoop Ds l s = some s' ∧ s'.offset = s.offset + blockLen Ds l ∧
      (∀ k p, l[k]? = some p → s'.coffs p.2 p.1 = s.offset + blockLen Ds (l.take k) ∧
        (ownedBy (Ds p.2) p.1).map (s'.ids p.2)
          = List.range' (s'.coffs p.2 p.1) (nOwned Ds p.1 p.2)) ∧
      (∀ j d, (∀ p ∈ l, j = p.2 → d ∉ ownedBy (Ds p.2) p.1) → s'.ids j d = s.ids j d) ∧
      (∀ j u, (u, j) ∉ l → s'.coffs j u = s.coffs j u) := by
  induction l generalizing s with
  | nil => exact ⟨s, rfl, by simp [blockLen], by simp, fun _ _ _ => rfl, fun _ _ _ => rfl⟩
  | cons p r ih =>
    obtain ⟨t, i⟩ := p
    rw [List.nodup_cons] at hl
    obtain ⟨ht, hi⟩ := hb (t, i) List.mem_cons_self
    obtain ⟨s1, e1, ho, hmap, hkeep, hc, hck⟩ :=
      interStep_eq h ht hi (hs (t, i) List.mem_cons_self)
    have hdisj : ∀ p ∈ r, i = p.2 → ∀ d ∈ ownedBy (Ds i) t, d ∉ ownedBy (Ds p.2) p.1 := by
      rintro ⟨u, j⟩ hp hj d hd hd'
      simp only at hj hd'
      subst hj
      exact hl.1 (h.one _ hi _ _ _ hd hd' ▸ hp)
    obtain ⟨s2, e2, ho2, hget, hkeep2, hck2⟩ := ih hl.2 (fun p hp => hb p (List.mem_cons_of_mem _ hp))
      s1 (by
        intro p hp d hd
        rw [hkeep]
        · exact hs p (List.mem_cons_of_mem _ hp) d hd
        · by_cases hpi : p.2 = i
          · exact Or.inr fun hd' => hdisj p hp hpi.symm d hd' hd
          · exact Or.inl hpi)
    refine ⟨s2, by rw [interLoop, e1, Option.bind_some, e2], ?_, ?_, ?_, ?_⟩
    · rw [ho2, ho]; simp [blockLen, Nat.add_assoc]
    · intro k p hp
      cases k with
      | zero =>
        simp only [List.getElem?_cons_zero, Option.some.injEq] at hp
        subst hp
        have hcc : s2.coffs i t = s.offset := by rw [hck2 _ _ hl.1, hc]
        refine ⟨by simp [hcc, blockLen], ?_⟩
        rw [hcc, ← hmap]
        refine List.map_congr_left fun d hd => ?_
        exact hkeep2 i d fun p hp hj => hdisj p hp hj d hd
      | succ k =>
        rw [List.getElem?_cons_succ] at hp
        obtain ⟨h1, h2⟩ := hget k p hp
        refine ⟨?_, h2⟩
        rw [h1, ho]
        simp [blockLen, Nat.add_assoc]
    · intro j d hd
      rw [hkeep2 j d fun p hp => hd p (List.mem_cons_of_mem _ hp), hkeep]
      by_cases hj : j = i
      · exact Or.inr (hd (t, i) List.mem_cons_self hj)
      · exact Or.inl hj
    · intro j u hju
      rw [List.mem_cons, not_or] at hju
      rw [hck2 _ _ hju.2, hck]
      by_cases hj : j = i
      · exact Or.inr fun hu => hju.1 (by rw [hu, hj])
      · exact Or.inl hj

theorem taskFields_get {t i : ℕ} (ht : t < size) (hi : i < nF) :
    (taskFields size nF)[nF * t + i]? = some (t, i) ∧
      blockLen Ds ((taskFields size nF).take (nF * t + i)) = blockStart Ds nF t i := by
  have hsplit : taskFields size nF
      = taskFields t nF ++ ((List.range nF).map fun ii : ℕ => (t, ii))
        ++ ((List.range (size - (t + 1))).flatMap fun k => (List.range nF).map fun ii : ℕ =>
          (t + 1 + k, ii)) := by
    unfold taskFields
    conv_lhs => rw [show size = (t + 1) + (size - (t + 1)) by omega, List.range_add,
      List.flatMap_append, List.range_succ, List.flatMap_append, List.flatMap_map]
    simp
  have hlen : (taskFields t nF).length = nF * t := by
    simp [taskFields, List.length_flatMap, Nat.mul_comm]
  have hsum : blockLen Ds (taskFields t nF)
      = ((List.range t).map fun s : ℕ => ((List.range nF).map fun j : ℕ => nOwned Ds s j).sum).sum := by
    clear hlen hsplit ht
    induction t with
    | zero => simp [blockLen, taskFields]
    | succ t ih =>
      unfold blockLen taskFields at ih ⊢
      rw [List.range_succ, List.flatMap_append, List.map_append, List.sum_append, ih,
        List.map_append, List.sum_append]
      simp [Function.comp_def]
  constructor
  · rw [hsplit, List.append_assoc, List.getElem?_append_right (by omega), hlen,
      Nat.add_sub_cancel_left, List.getElem?_append_left (by simpa using hi)]
    simp [hi]
  · rw [hsplit, List.append_assoc, List.take_append, List.take_of_length_le (by omega), hlen,
      Nat.add_sub_cancel_left, List.take_append_of_le_length (by simpa using hi.le),
      ← List.map_take, List.take_range, Nat.min_eq_left hi.le]
    unfold blockLen at hsum ⊢
    rw [List.map_append, List.sum_append, hsum, List.map_map]
    rfl

/-! ### Property theorems -/

/-- **C75.** The composite numbering exists, and the DOFs of the field `i` owned by the task `t` get
consecutive numbers, in the order in which they are listed, after all the DOFs of the previous tasks
and of the previous fields of the task. -/
theorem C75_interleaved (h : FieldsOK Ds N size nF) (hF : 1 < nF) (junk : ℕ → ℕ → ℕ) :
    ∃ s, interleave Ds size nF junk = some s ∧ ∀ t < size, ∀ i < nF,
      s.coffs i t = blockStart Ds nF t i ∧
      (ownedBy (Ds i) t).map (s.ids i) = List.range' (blockStart Ds nF t i) (nOwned Ds t i) := by
  obtain ⟨s, hs, -, hget, -⟩ := interLoop_spec h (taskFields size nF) nodup_taskFields
    (fun p hp => mem_taskFields.1 hp) ⟨0, fun i => (Ds i).idMap, junk⟩ (fun _ _ _ _ => rfl)
  refine ⟨s, by rw [interleave, if_pos hF, hs], ?_⟩
  intro t ht i hi
  obtain ⟨e1, e2⟩ := taskFields_get (Ds := Ds) ht hi
  obtain ⟨h1, h2⟩ := hget _ _ e1
  simp only [Nat.zero_add, e2] at h1 h2
  rw [h1] at h2
  exact ⟨h1, h2⟩

theorem blockStart_succ_field (t i : ℕ) :
    blockStart Ds nF t (i + 1) = blockStart Ds nF t i + nOwned Ds t i := by
  unfold blockStart
  rw [List.range_succ, List.map_append, List.sum_append]
  simp [Nat.add_assoc]

theorem blockStart_succ_task (t : ℕ) : blockStart Ds nF (t + 1) 0 = blockStart Ds nF t nF := by
  unfold blockStart
  rw [List.range_succ, List.map_append, List.sum_append]
  simp

theorem blockStart_mono_field (t : ℕ) {i j : ℕ} (hij : i ≤ j) :
    blockStart Ds nF t i ≤ blockStart Ds nF t j := by
  induction j, hij using Nat.le_induction with
  | base => exact le_rfl
  | succ j _ ih => rw [blockStart_succ_field]; omega

theorem blockStart_mono_task {t u : ℕ} (h : t ≤ u) :
    blockStart Ds nF t 0 ≤ blockStart Ds nF u 0 := by
  induction u, h using Nat.le_induction with
  | base => exact le_rfl
  | succ u _ ih =>
    rw [blockStart_succ_task]
    exact ih.trans (blockStart_mono_field _ (Nat.zero_le _))

/-- The blocks do not overlap. -/
theorem block_unique {t t' i i' x : ℕ} (hi : i < nF) (hi' : i' < nF)
    (h1 : blockStart Ds nF t i ≤ x) (h2 : x < blockStart Ds nF t (i + 1))
    (h1' : blockStart Ds nF t' i' ≤ x) (h2' : x < blockStart Ds nF t' (i' + 1)) :
    t = t' ∧ i = i' := by
  have key : ∀ {t t' i i'}, i < nF → i' < nF → blockStart Ds nF t' i' ≤ x →
      x < blockStart Ds nF t (i + 1) → t' ≤ t := by
    intro t t' i i' hi hi' h1' h2
    by_contra hc
    have a := blockStart_mono_field (Ds := Ds) (nF := nF) t (Nat.succ_le_of_lt hi)
    have b := blockStart_mono_task (Ds := Ds) (nF := nF) (show t + 1 ≤ t' by omega)
    rw [blockStart_succ_task] at b
    have c := blockStart_mono_field (Ds := Ds) (nF := nF) t' (Nat.zero_le i')
    simp only [Nat.succ_eq_add_one] at a
    omega
  have et : t = t' := Nat.le_antisymm (key hi' hi h1 h2') (key hi hi' h1' h2)
  subst et
  refine ⟨rfl, ?_⟩
  by_contra hne
  rcases Nat.lt_or_gt_of_ne hne with hlt | hlt
  · have := blockStart_mono_field (Ds := Ds) (nF := nF) t (show i + 1 ≤ i' by omega); omega
  · have := blockStart_mono_field (Ds := Ds) (nF := nF) t (show i' + 1 ≤ i by omega); omega

theorem block_exists (n : ℕ) {x : ℕ} (h : x < blockStart Ds nF n 0) :
    ∃ t < n, ∃ i < nF, blockStart Ds nF t i ≤ x ∧ x < blockStart Ds nF t (i + 1) := by
  induction n with
  | zero => simp [blockStart] at h
  | succ n ih =>
    by_cases hc : x < blockStart Ds nF n 0
    · obtain ⟨t, ht, r⟩ := ih hc
      exact ⟨t, by omega, r⟩
    · rw [blockStart_succ_task] at h
      have inner : ∀ k, k ≤ nF → x < blockStart Ds nF n k →
          ∃ i < k, blockStart Ds nF n i ≤ x ∧ x < blockStart Ds nF n (i + 1) := by
        intro k
        induction k with
        | zero => intro _ h; omega
        | succ k ihk =>
          intro hk h
          by_cases hck : x < blockStart Ds nF n k
          · obtain ⟨i, hi, r⟩ := ihk (by omega) hck
            exact ⟨i, by omega, r⟩
          · exact ⟨k, by omega, by omega, h⟩
      obtain ⟨i, hi, r⟩ := inner nF le_rfl h
      exact ⟨n, by omega, i, hi, r⟩

/-- The tasks together own all the DOFs of a field. -/
theorem sum_nOwned (h : FieldsOK Ds N size nF) {i : ℕ} (hi : i < nF) :
    ((List.range size).map fun t : ℕ => nOwned Ds t i).sum = N i := by
  have hnd : ((List.range size).flatMap fun t => ownedBy (Ds i) t).Nodup := by
    rw [List.nodup_flatMap]
    refine ⟨fun t _ => h.nodup i hi t, List.nodup_range.imp ?_⟩
    intro a b hab x hx hx'
    exact hab (h.one i hi x a b hx hx')
  have hperm : ((List.range size).flatMap fun t => ownedBy (Ds i) t).Perm (List.range (N i)) := by
    rw [List.perm_ext_iff_of_nodup hnd List.nodup_range]
    intro d
    rw [List.mem_flatMap, List.mem_range, h.cover i hi]
    simp
  have := hperm.length_eq
  rw [List.length_flatMap, List.length_range] at this
  exact this

theorem blockStart_total (h : FieldsOK Ds N size nF) :
    blockStart Ds nF size 0 = ((List.range nF).map fun i : ℕ => N i).sum := by
  have e : (List.range nF).map (fun i : ℕ => N i)
      = (List.range nF).map fun i : ℕ => ((List.range size).map fun t : ℕ => nOwned Ds t i).sum :=
    List.map_congr_left fun i hi => (sum_nOwned h (List.mem_range.1 hi)).symm
  rw [e]
  simp only [blockStart, List.range_zero, List.map_nil, List.sum_nil, Nat.add_zero]
  have swap : ∀ (F : ℕ → ℕ → ℕ) (a b : ℕ), ((List.range a).map fun s : ℕ =>
      ((List.range b).map fun j : ℕ => F s j).sum).sum
      = ((List.range b).map fun j : ℕ => ((List.range a).map fun s : ℕ => F s j).sum).sum := by
    intro F a b
    have conv : ∀ (G : ℕ → ℕ) (n : ℕ), ((List.range n).map G).sum = ∑ k ∈ Finset.range n, G k := by
      intro G n
      induction n with
      | zero => simp
      | succ n ih => rw [List.range_succ, List.map_append, List.sum_append, ih,
          Finset.sum_range_succ]; simp
    simp only [conv]
    exact Finset.sum_comm
  exact swap _ _ _

/-- The number of an owned DOF is in its block. -/
theorem ids_in_block {s : CSt} {t i : ℕ}
    (hmap : (ownedBy (Ds i) t).map (s.ids i)
      = List.range' (blockStart Ds nF t i) (nOwned Ds t i)) {d : ℕ} (hd : d ∈ ownedBy (Ds i) t) :
    blockStart Ds nF t i ≤ s.ids i d ∧ s.ids i d < blockStart Ds nF t (i + 1) := by
  have : s.ids i d ∈ (ownedBy (Ds i) t).map (s.ids i) := List.mem_map.2 ⟨d, hd, rfl⟩
  rw [hmap, List.mem_range'_1] at this
  rw [blockStart_succ_field]
  exact this

theorem block_lt_total {t i : ℕ} (ht : t < size) (hi : i < nF) :
    blockStart Ds nF t (i + 1) ≤ blockStart Ds nF size 0 := by
  refine (blockStart_mono_field t (Nat.succ_le_of_lt hi)).trans ?_
  rw [← blockStart_succ_task]
  exact blockStart_mono_task ht

/-- **C75.** The composite numbering of all the DOFs of all the fields is a bijection onto
`0, …, N - 1`, where `N` is the total number of the DOFs: different DOFs, of the same field or not,
have different numbers. -/
theorem C75_composite_bijection (h : FieldsOK Ds N size nF) (hF : 1 < nF) (junk : ℕ → ℕ → ℕ) (s : CSt)
    (hs : interleave Ds size nF junk = some s) :
    Set.BijOn (fun q : ℕ × ℕ => s.ids q.1 q.2) {q | q.1 < nF ∧ q.2 < N q.1}
      (Set.Iio ((List.range nF).map fun i : ℕ => N i).sum) := by
  obtain ⟨s', hs', hb⟩ := C75_interleaved h hF junk
  rw [hs] at hs'
  obtain rfl := Option.some.inj hs'
  rw [← blockStart_total h]
  refine ⟨?_, ?_, ?_⟩
  · rintro ⟨i, d⟩ ⟨hi, hd⟩
    simp only at hi hd
    obtain ⟨t, ht, hdt⟩ := (h.cover i hi d).1 hd
    have := ids_in_block (hb t ht i hi).2 hdt
    have := block_lt_total (Ds := Ds) ht hi
    simp only [Set.mem_Iio]
    omega
  · rintro ⟨i, d⟩ ⟨hi, hd⟩ ⟨j, e⟩ ⟨hj, he⟩ heq
    simp only at hi hd hj he heq
    obtain ⟨t, ht, hdt⟩ := (h.cover i hi d).1 hd
    obtain ⟨u, hu, heu⟩ := (h.cover j hj e).1 he
    obtain ⟨a1, a2⟩ := ids_in_block (hb t ht i hi).2 hdt
    obtain ⟨b1, b2⟩ := ids_in_block (hb u hu j hj).2 heu
    rw [← heq] at b1 b2
    obtain ⟨rfl, rfl⟩ := block_unique hi hj a1 a2 b1 b2
    have hnd : ((ownedBy (Ds i) t).map (s.ids i)).Nodup := by
      rw [(hb t ht i hi).2]; exact List.nodup_range'
    rw [List.inj_on_of_nodup_map hnd hdt heu heq]
  · intro x hx
    obtain ⟨t, ht, i, hi, h1, h2⟩ := block_exists size hx
    have : x ∈ (ownedBy (Ds i) t).map (s.ids i) := by
      rw [(hb t ht i hi).2, List.mem_range'_1]
      rw [blockStart_succ_field] at h2
      exact ⟨h1, h2⟩
    obtain ⟨d, hd, rfl⟩ := List.mem_map.1 this
    exact ⟨(i, d), ⟨hi, (h.cover i hi d).2 ⟨t, ht, hd⟩⟩, rfl⟩

/-- The range of a composite task. -/
theorem compositeOf_eq (h : FieldsOK Ds N size nF) (hF : 1 < nF) {s : CSt} {t : ℕ} (ht : t < size)
    (hb : ∀ i < nF, s.coffs i t = blockStart Ds nF t i) :
    compositeOf Ds s N nF t = ((((List.range nF).map fun i : ℕ => nOwned Ds t i).sum,
      ((List.range nF).map fun i : ℕ => N i).sum), (blockStart Ds nF t 0, blockStart Ds nF t nF)) := by
  have hr : ∀ i < nF, getSizes (fieldRange Ds s t i) (N i) 1
      = ((nOwned Ds t i, N i), (blockStart Ds nF t i, blockStart Ds nF t (i + 1))) := by
    intro i hi
    obtain ⟨v, hv, hn, -⟩ := h.has i hi t ht
    have hown : nOwned Ds t i = v.n := by simp [nOwned, ownedBy, hv, hn]
    rw [blockStart_succ_field, hown]
    simp [getSizes, fieldRange, hv, hb i hi]
  unfold compositeOf
  rw [List.map_congr_left fun i hi => hr i (List.mem_range.1 hi)]
  unfold compositeSizes
  obtain ⟨n, rfl⟩ : ∃ n, nF = n + 1 := ⟨nF - 1, by omega⟩
  have hl : (List.range (n + 1)).getLast? = some n := by rw [List.getLast?_range]; simp
  have hh : (List.range (n + 1)).head? = some 0 := by rw [List.head?_range]; simp
  simp [List.map_map, Function.comp_def, List.head?_map, List.getLast?_map, hl, hh]

/-- **C75.** The sizes and the range of a composite task: the range consists of the numbers of the
DOFs that the task owns, in any field, and the local size is its length; the total size is the
number of all the DOFs. -/
theorem C75_composite_sizes (h : FieldsOK Ds N size nF) (hF : 1 < nF) (junk : ℕ → ℕ → ℕ) (s : CSt)
    (hs : interleave Ds size nF junk = some s) (t : ℕ) (ht : t < size) :
    let c := compositeOf Ds s N nF t
    c.2.1 + c.1.1 = c.2.2 ∧ c.1.2 = ((List.range nF).map fun i : ℕ => N i).sum ∧
    ∀ i < nF, ∀ d < N i, (c.2.1 ≤ s.ids i d ∧ s.ids i d < c.2.2) ↔ d ∈ ownedBy (Ds i) t := by
  obtain ⟨s', hs', hb⟩ := C75_interleaved h hF junk
  rw [hs] at hs'
  obtain rfl := Option.some.inj hs'
  intro c
  have hc : c = _ := compositeOf_eq h hF ht fun i hi => (hb t ht i hi).1
  rw [hc]
  refine ⟨by simp [blockStart], rfl, ?_⟩
  intro i hi d hd
  obtain ⟨u, hu, hdu⟩ := (h.cover i hi d).1 hd
  obtain ⟨a1, a2⟩ := ids_in_block (hb u hu i hi).2 hdu
  constructor
  · rintro ⟨h1, h2⟩
    have m1 := blockStart_mono_field (Ds := Ds) (nF := nF) u (Nat.zero_le i)
    have m2 := blockStart_mono_field (Ds := Ds) (nF := nF) u (Nat.succ_le_of_lt hi)
    simp only [Nat.succ_eq_add_one] at m2
    have eq : u = t := by
      rcases Nat.lt_trichotomy u t with hlt | he | hlt
      · have := blockStart_mono_task (Ds := Ds) (nF := nF) (show u + 1 ≤ t from hlt)
        rw [blockStart_succ_task] at this
        simp only at h1; omega
      · exact he
      · have := blockStart_mono_task (Ds := Ds) (nF := nF) (show t + 1 ≤ u from hlt)
        rw [blockStart_succ_task] at this
        simp only at h2; omega
    exact eq ▸ hdu
  · intro hd'
    obtain rfl := h.one i hi d _ _ hdu hd'
    have m1 := blockStart_mono_field (Ds := Ds) (nF := nF) u (Nat.zero_le i)
    have m2 := blockStart_mono_field (Ds := Ds) (nF := nF) u (Nat.succ_le_of_lt hi)
    simp only [Nat.succ_eq_add_one] at m2
    exact ⟨m1.trans a1, a2.trans_le m2⟩

/-- **C75.** The ranges of the tasks follow each other, from zero to the total size. -/
theorem C75_composite_ranges (h : FieldsOK Ds N size nF) (hF : 1 < nF) (junk : ℕ → ℕ → ℕ) (s : CSt)
    (hs : interleave Ds size nF junk = some s) (hsize : 0 < size) :
    (compositeOf Ds s N nF 0).2.1 = 0 ∧
    (∀ t, t + 1 < size →
      (compositeOf Ds s N nF t).2.2 = (compositeOf Ds s N nF (t + 1)).2.1) ∧
    (compositeOf Ds s N nF (size - 1)).2.2 = ((List.range nF).map fun i : ℕ => N i).sum := by
  obtain ⟨s', hs', hb⟩ := C75_interleaved h hF junk
  rw [hs] at hs'
  obtain rfl := Option.some.inj hs'
  have hc := fun {t : ℕ} (ht : t < size) => compositeOf_eq h hF ht fun i hi => (hb t ht i hi).1
  refine ⟨?_, ?_, ?_⟩
  · rw [hc hsize]; simp [blockStart]
  · intro t ht
    rw [hc ht, hc (by omega : t < size)]
    exact (blockStart_succ_task t).symm
  · rw [hc (by omega : size - 1 < size), ← blockStart_total h, ← blockStart_succ_task]
    rw [show size - 1 + 1 = size by omega]

/-- **C75.** A single field keeps the numbering of C73, and its range is the one of its DOF map. -/
theorem C75_single_field (Ds : ℕ → Dist) (size : ℕ) (junk : ℕ → ℕ → ℕ) :
    ∃ s, interleave Ds size 1 junk = some s ∧ s.ids 0 = (Ds 0).idMap ∧
      ∀ t v, dget (Ds 0).maps t = some v → fieldRange Ds s t 0 = (v.off, v.off + v.n) := by
  refine ⟨_, by rw [interleave, if_neg (by omega)], rfl, ?_⟩
  intro t v hv
  simp [fieldRange, hv]

end

end Par
