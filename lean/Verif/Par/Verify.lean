import Verif.Par.PropsAssemble
import Mathlib.Data.List.Nodup

/-!
# Verification of the distribution

/repo/sfepy/parallel/parallel.py:298-361
-/

namespace Par

open Verif.Np

/-- The loop variables of `verify_task_dof_maps()`. -/
structure VSt where
  count : ℕ
  count2 : ℕ
  dofs : List ℕ
  vec : ℕ → ℕ

/-- The body of the loop for one list of DOFs.
/repo/sfepy/parallel/parallel.py:325-327, 331-334 (inner), 336-342 (interface) -/
def verifyList (ex : Bool) (idm : ℕ → ℕ) (lo hi ir : ℕ) (aux : List ℕ) (s : VSt) : Option VSt :=
  if ex = false ∧ ¬ aux.all (fun d => decide (lo ≤ idm d ∧ idm d < hi)) then none
  else some { s with
    count := s.count + aux.length
    dofs := s.dofs ++ aux
    vec := scatterConst s.vec aux ir }

/-- A loop with assertions. -/
def verifyLists (ex : Bool) (idm : ℕ → ℕ) (lo hi ir : ℕ) : List (List ℕ) → VSt → Option VSt
  | [], s => some s
  | aux :: r, s => (verifyList ex idm lo hi ir aux s).bind (verifyLists ex idm lo hi ir r)

/-- The loop over the tasks; inner DOFs that are `None` raise an error.
/repo/sfepy/parallel/parallel.py:317-342 -/
def verifyLoop (ex : Bool) (idm : ℕ → ℕ) : List (ℕ × DMap) → VSt → Option VSt
  | [], s => some s
  | (ir, v) :: r, s =>
    match v.inner with
    | none => none
    | some inner =>
      (verifyLists ex idm v.off (v.off + v.n) ir (inner :: v.own)
        { s with count2 := s.count2 + v.n }).bind (verifyLoop ex idm r)

/-- `verify_task_dof_maps(dof_maps, id_map, field, use_expand_dofs)`: the task of each DOF, `none`
when an assertion fails; `ex` is `use_expand_dofs`, `nDof` the length of `vec`, `nId` the length of
`id_map`, `junk` the uninitialised `vec`. The comparison of the sorted arrays on the line 349 is
under `if not expand_dofs`, where `expand_dofs` is a function, so that it is never executed.
/repo/sfepy/parallel/parallel.py:298-363 -/
def verify (ex : Bool) (maps : Dict DMap) (idm : ℕ → ℕ) (nId nDof : ℕ) (junk : ℕ → ℕ) :
    Option (ℕ → ℕ) :=
  (verifyLoop ex idm (ditems maps) ⟨0, 0, [], junk⟩).bind fun s =>
    if nDof = s.dofs.length ∧ nDof = (unique s.dofs).length ∧
        (unique s.dofs).getLast?.map (· + 1) = some nDof ∧ nDof = s.count ∧ nDof = s.count2 ∧
        nDof = nId ∧ nDof = (unique ((List.range nId).map idm)).length
    then some s.vec else none

/-! ### Lemmas -/

theorem scatterConst_append (v : ℕ → ℕ) (a b : List ℕ) (x : ℕ) :
    scatterConst v (a ++ b) x = scatterConst (scatterConst v a x) b x := by
  funext i
  simp only [scatterConst_apply, List.mem_append]
  by_cases hb : i ∈ b <;> by_cases ha : i ∈ a <;> simp [ha, hb]

theorem verifyLists_spec (ex : Bool) (idm : ℕ → ℕ) (lo hi ir : ℕ) (l : List (List ℕ)) (s s' : VSt) :
    verifyLists ex idm lo hi ir l s = some s' ↔
      (ex = false → ∀ d ∈ l.flatten, lo ≤ idm d ∧ idm d < hi) ∧
      s' = ⟨s.count + l.flatten.length, s.count2, s.dofs ++ l.flatten,
        scatterConst s.vec l.flatten ir⟩ := by
  induction l generalizing s with
  | nil =>
    simp only [verifyLists, Option.some.injEq, List.flatten_nil, List.not_mem_nil, false_imp_iff,
      implies_true, true_and, List.length_nil, Nat.add_zero, List.append_nil]
    rw [show scatterConst s.vec [] ir = s.vec by funext i; simp [scatterConst_apply]]
    exact eq_comm
  | cons a r ih =>
    rw [verifyLists]
    by_cases hc : ex = false ∧ ¬ a.all (fun d => decide (lo ≤ idm d ∧ idm d < hi))
    · rw [verifyList, if_pos hc]
      simp only [Option.bind_none, reduceCtorEq, false_iff, not_and]
      intro h
      exfalso
      apply hc.2
      rw [List.all_eq_true]
      intro d hd
      exact decide_eq_true (h hc.1 d (by simp [hd]))
    · rw [verifyList, if_neg hc, Option.bind_some, ih]
      simp only [List.flatten_cons, List.length_append, scatterConst_append, List.append_assoc,
        Nat.add_assoc, List.mem_append]
      have ha : ex = false → ∀ d ∈ a, lo ≤ idm d ∧ idm d < hi := by
        intro hex d hd
        by_contra hcon
        apply hc
        refine ⟨hex, fun hall => hcon ?_⟩
        exact of_decide_eq_true (List.all_eq_true.1 hall d hd)
      constructor
      · rintro ⟨h1, h2⟩
        exact ⟨fun hex d hd => hd.elim (ha hex d) (h1 hex d), h2⟩
      · rintro ⟨h1, h2⟩
        exact ⟨fun hex d hd => h1 hex d (Or.inr hd), h2⟩

/-- The task vector. -/
def taskVec (vec : ℕ → ℕ) (l : List (ℕ × DMap)) : ℕ → ℕ :=
  l.foldl (fun v p => scatterConst v p.2.owned p.1) vec

theorem verifyLoop_spec (ex : Bool) (idm : ℕ → ℕ) (l : List (ℕ × DMap)) (s s' : VSt) :
    verifyLoop ex idm l s = some s' ↔
      (∀ p ∈ l, p.2.inner.isSome ∧
        (ex = false → ∀ d ∈ p.2.owned, p.2.off ≤ idm d ∧ idm d < p.2.off + p.2.n)) ∧
      s' = ⟨s.count + (allOwned l).length, s.count2 + (l.map fun p => p.2.n).sum,
        s.dofs ++ allOwned l, taskVec s.vec l⟩ := by
  induction l generalizing s with
  | nil =>
    simp only [verifyLoop, allOwned, taskVec, Option.some.injEq, List.not_mem_nil, false_imp_iff,
      implies_true, true_and, List.flatMap_nil, List.length_nil, List.map_nil, List.sum_nil,
      Nat.add_zero, List.append_nil, List.foldl_nil]
    exact eq_comm
  | cons p r ih =>
    obtain ⟨k, v⟩ := p
    rw [verifyLoop]
    rcases hv : v.inner with _ | inner
    · simp [hv]
    · simp only
      have hown : (inner :: v.own).flatten = v.owned := by
        simp [DMap.owned, hv]
      rw [Option.bind_eq_some_iff]
      simp only [verifyLists_spec, hown, ih, List.forall_mem_cons, hv, Option.isSome_some, true_and]
      have e : allOwned ((k, v) :: r) = v.owned ++ allOwned r := by simp [allOwned]
      constructor
      · rintro ⟨a, ⟨h1, rfl⟩, h2, rfl⟩
        refine ⟨⟨h1, h2⟩, ?_⟩
        simp [e, taskVec, Nat.add_assoc]
      · rintro ⟨⟨h1, h2⟩, rfl⟩
        refine ⟨_, ⟨h1, rfl⟩, h2, ?_⟩
        simp [e, taskVec, Nat.add_assoc]

theorem taskVec_of_notMem (vec : ℕ → ℕ) (l : List (ℕ × DMap)) (d : ℕ) (h : d ∉ allOwned l) :
    taskVec vec l d = vec d := by
  induction l generalizing vec with
  | nil => rfl
  | cons p r ih =>
    have e : allOwned (p :: r) = p.2.owned ++ allOwned r := by simp [allOwned]
    rw [e, List.mem_append, not_or] at h
    show taskVec (scatterConst vec p.2.owned p.1) r d = _
    rw [ih _ h.2, scatterConst_apply, if_neg h.1]

theorem taskVec_get (vec : ℕ → ℕ) (l : List (ℕ × DMap)) (hn : (allOwned l).Nodup)
    (p : ℕ × DMap) (hp : p ∈ l) (d : ℕ) (hd : d ∈ p.2.owned) : taskVec vec l d = p.1 := by
  induction l generalizing vec with
  | nil => simp at hp
  | cons q r ih =>
    have e : allOwned (q :: r) = q.2.owned ++ allOwned r := by simp [allOwned]
    rw [e, List.nodup_append] at hn
    show taskVec (scatterConst vec q.2.owned q.1) r d = _
    rcases List.mem_cons.1 hp with rfl | hp
    · rw [taskVec_of_notMem _ _ _ (fun h => hn.2.2 d hd d h rfl), scatterConst_apply, if_pos hd]
    · exact ih _ hn.2.1 hp

theorem allOwned_perm (d : Dict DMap) : (allOwned (ditems d)).Perm (allOwned d) :=
  (ditems_perm d).flatMap_right _

theorem sorted_unique (l : List ℕ) : (unique l).Pairwise (· < ·) := by
  have hle : (unique l).Pairwise (· ≤ ·) := List.pairwise_insertionSort _ _
  exact (hle.and (nodup_unique l)).imp fun ⟨a, b⟩ => lt_of_le_of_ne a b

theorem unique_length_nodup {l : List ℕ} (h : l.length = (unique l).length) : l.Nodup := by
  have : (unique l).length = l.dedup.length := (List.perm_insertionSort _ _).length_eq
  rw [this] at h
  exact List.dedup_eq_self.1 ((List.dedup_sublist l).eq_of_length h.symm)

theorem unique_length_of_nodup {l : List ℕ} (h : l.Nodup) : (unique l).length = l.length := by
  have : (unique l).length = l.dedup.length := (List.perm_insertionSort _ _).length_eq
  rw [this, h.dedup]

/-- A sorted list of `N` distinct numbers that ends with `N - 1` is `0, …, N - 1`. -/
theorem sorted_last {l : List ℕ} (hs : l.Pairwise (· < ·)) {N : ℕ} (hl : l.length = N)
    (hlast : l.getLast?.map (· + 1) = some N) : l = List.range N := by
  have hb : ∀ x ∈ l, x < N := by
    intro x hx
    rcases List.eq_nil_or_concat l with rfl | ⟨r, y, rfl⟩
    · simp at hx
    · simp only [List.concat_eq_append, List.getLast?_append, List.getLast?_singleton,
        Option.some_or, Option.map_some, Option.some.injEq] at hlast
      rw [List.concat_eq_append] at hx hs
      rw [List.pairwise_append] at hs
      rcases List.mem_append.1 hx with h | h
      · have := hs.2.2 x h y (by simp); omega
      · simp at h; omega
  have hnd : l.Nodup := hs.imp fun h => Nat.ne_of_lt h
  apply sorted_eq_range hs
  intro t
  refine ⟨hb t, fun ht => ?_⟩
  have hsub : l.toFinset = Finset.range N := by
    apply Finset.eq_of_subset_of_card_le
    · intro x hx; exact Finset.mem_range.2 (hb x (List.mem_toFinset.1 hx))
    · rw [Finset.card_range, List.toFinset_card_of_nodup hnd, hl]
  rw [← List.mem_toFinset, hsub]
  exact Finset.mem_range.2 ht

/-! ### Property theorems -/

/-- **C75.** If the verification accepts, every DOF is owned by exactly one task, once, the
returned vector gives the task, and no two DOFs have the same PETSc number. -/
theorem C75_verify_sound {ex : Bool} {maps : Dict DMap} {idm : ℕ → ℕ} {nId N : ℕ} {junk : ℕ → ℕ}
    {vec : ℕ → ℕ} (hk : (dkeys maps).Nodup) (h : verify ex maps idm nId N junk = some vec) :
    (∀ d, d < N ↔ ∃ p ∈ maps, d ∈ p.2.owned) ∧
    (∀ p ∈ maps, p.2.owned.Nodup ∧ ∀ d ∈ p.2.owned, vec d = p.1) ∧
    (∀ p ∈ maps, ∀ q ∈ maps, ∀ d ∈ p.2.owned, d ∈ q.2.owned → p = q) ∧
    Set.InjOn idm (Set.Iio N) ∧
    (ex = false → ∀ p ∈ maps, ∀ d ∈ p.2.owned, p.2.off ≤ idm d ∧ idm d < p.2.off + p.2.n) := by
  unfold verify at h
  obtain ⟨s, hs, h⟩ := Option.bind_eq_some_iff.1 h
  rw [verifyLoop_spec] at hs
  obtain ⟨hall, rfl⟩ := hs
  simp only [List.nil_append, Nat.zero_add] at h
  split at h
  case isFalse => simp at h
  case isTrue hc =>
    obtain ⟨h1, h2, h3, -, -, h6, h7⟩ := hc
    have hvec := Option.some.inj h
    subst hvec
    have hnod : (allOwned (ditems maps)).Nodup := unique_length_nodup (h1.symm.trans h2)
    have hrange := sorted_last (sorted_unique _) h2.symm h3
    have hnod' : (allOwned maps).Nodup := (allOwned_perm maps).nodup_iff.1 hnod
    have hmem : ∀ d, d < N ↔ d ∈ allOwned maps := by
      intro d
      rw [← (allOwned_perm maps).mem_iff, ← mem_unique, hrange, List.mem_range]
    have huniq : ∀ p ∈ maps, ∀ q ∈ maps, ∀ d ∈ p.2.owned, d ∈ q.2.owned → p = q := by
      intro p hp q hq d hd hd'
      by_contra hne
      have hpk : p.1 ≠ q.1 := fun e => hne (List.inj_on_of_nodup_map hk hp hq e)
      have e1 := taskVec_get junk _ hnod p (mem_ditems.2 hp) d hd
      have e2 := taskVec_get junk _ hnod q (mem_ditems.2 hq) d hd'
      exact hpk (e1.symm.trans e2)
    refine ⟨?_, ?_, huniq, ?_, ?_⟩
    · intro d
      rw [hmem]
      unfold allOwned
      rw [List.mem_flatMap]
    · intro p hp
      refine ⟨?_, fun d hd => taskVec_get junk _ hnod p (mem_ditems.2 hp) d hd⟩
      unfold allOwned at hnod'
      exact (List.nodup_flatMap.1 hnod').1 p hp
    · have hn : ((List.range N).map idm).Nodup := by
        apply unique_length_nodup
        rw [h6] at h7 ⊢
        rw [← h7]
        simp
      intro a ha b hb hab
      exact List.inj_on_of_nodup_map hn (List.mem_range.2 ha) (List.mem_range.2 hb) hab
    · intro hex p hp
      exact (hall p (mem_ditems.2 hp)).2 hex

/-- **C75.** The verification accepts the distribution of a conforming mesh among at least two
tasks, and returns the owner of each DOF. -/
theorem C75_verify_complete {ov ex : Bool} {m : FEMesh} {ct : ℕ → ℕ} {nc : ℕ} {D : Dist}
    (hm : Conforming m) (hn : NodesCovered m) (ht : TasksTouch m ct) (h2 : ∃ k f, InterOf m ct k f)
    (hnc : 0 < nc) (hpos : 0 < m.nNod)
    (hD : createMaps ov m ct nc (interFacets m ct) = some D) (junk : ℕ → ℕ) :
    ∃ vec, verify ex D.maps D.idMap (nc * m.nNod) (nc * m.nNod) junk = some vec ∧
      ∀ t, ∀ d ∈ ownedBy D t, vec d = t := by
  obtain ⟨hnk, hnod, hk, hcov, hDn, hr, hmap⟩ := Dist.facts hm h2 hD
  obtain ⟨hall, -, -⟩ := C73_every_dof_one_owner hm hn ht h2 hnc hD
  obtain ⟨hnum, hsort, htile, hbij⟩ := C73_numbering hm hn ht h2 hnc hD
  have hnod' : (allOwned (ditems D.maps)).Nodup := (allOwned_perm _).nodup_iff.2 hnod
  have hmem : ∀ d, d ∈ allOwned (ditems D.maps) ↔ d < nc * m.nNod := by
    intro d
    rw [(allOwned_perm _).mem_iff, mem_allOwned_iff hnk, hall]
  have hu : unique (allOwned (ditems D.maps)) = List.range (nc * m.nNod) :=
    sorted_eq_range (sorted_unique _) fun t => by rw [mem_unique, hmem]
  have hlen : (allOwned (ditems D.maps)).length = nc * m.nNod := by
    rw [← unique_length_of_nodup hnod', hu, List.length_range]
  have hget : ∀ p ∈ D.maps, ownedBy D p.1 = p.2.owned ∧ offsetOf D p.1 = p.2.off := by
    intro p hp
    have : dget D.maps p.1 = some p.2 := (dget_eq_some hnk).2 hp
    simp [ownedBy, offsetOf, this]
  have hloop := (verifyLoop_spec ex D.idMap (ditems D.maps) ⟨0, 0, [], junk⟩ _).2 ⟨?_, rfl⟩
  · refine ⟨taskVec junk (ditems D.maps), ?_, ?_⟩
    · unfold verify
      rw [hloop]
      simp only [Option.bind_some, List.nil_append, Nat.zero_add]
      rw [if_pos]
      have hpos := Nat.mul_pos hnc hpos
      refine ⟨hlen.symm, by rw [hu, List.length_range], ?_, hlen.symm, ?_, trivial, ?_⟩
      · rw [hu, List.getLast?_range, if_neg (by omega)]
        simp; omega
      · rw [((ditems_perm D.maps).map _).sum_eq, ← hlen, (allOwned_perm _).length_eq]
        unfold allOwned
        rw [List.length_flatMap]
        congr 1
        exact List.map_congr_left fun p hp => (hDn p hp).symm
      · rw [unique_length_of_nodup, List.length_map, List.length_range]
        refine List.Nodup.map_on ?_ List.nodup_range
        intro a ha b hb
        exact hbij.injOn (List.mem_range.1 ha) (List.mem_range.1 hb)
    · intro t d hd
      obtain ⟨p, hp, rfl, hdp⟩ := (mem_ownedBy hnk).1 hd
      exact taskVec_get junk _ hnod' p (mem_ditems.2 hp) d hdp
  · intro p hp
    have hp := mem_ditems.1 hp
    constructor
    · obtain ⟨s, done, hinv, hdone, hk', -, hM, -⟩ := createMaps_spec hm h2 hD
      rw [hM] at hp
      obtain ⟨v, hv, e⟩ := mem_withOff hp
      have hg : dget s.maps p.1 = some v := (dget_eq_some hinv.keys).2 (mem_ditems.1 hv)
      have hd : p.1 ∈ done := (hdone _).2 ((hk' _).1 (List.mem_map.2 ⟨_, mem_ditems.1 hv, rfl⟩))
      obtain ⟨w, hw, hi⟩ := (hinv.done _).1 hd
      rw [hg] at hw
      rw [e, Option.some.inj hw]
      exact hi
    · intro _ d hd
      have hd' : D.idMap d ∈ p.2.owned.map D.idMap := List.mem_map.2 ⟨d, hd, rfl⟩
      rw [hmap p hp, List.mem_range'_1] at hd'
      exact hd'

end Par
