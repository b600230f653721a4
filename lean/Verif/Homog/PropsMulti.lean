/-
The serial and the parallel computation of the requirements and the coefficients.
-/
import Verif.Homog.PropsSort
import Mathlib.Data.List.Count

namespace Verif.Homog

section
variable {α V : Type} [DecidableEq α]

/-- The values are unique. -/
theorem C58_unique (reqs : Name α → Option (List (Name α))) (app : Name α → List (Name α × V) → Option V) (L : List (Name α))
    (hL : Ordered reqs L) (D D' : Name α → Option V) (h : Solution reqs app L D) (h' : Solution reqs app L D') :
    D = D' := by
  have key : ∀ l1 l2, L = l1 ++ l2 → ∀ n ∈ l1, D n = D' n := by
    intro l1
    induction l1 using List.reverseRecOn with
    | nil => intro l2 _ n hn; simp at hn
    | append_singleton l1 m ih =>
      intro l2 e n hn
      have ih := ih (m :: l2) (by rw [e]; simp)
      rcases List.mem_append.1 hn with hn | hn
      · exact ih n hn
      · rw [List.mem_singleton] at hn
        subst hn
        have hmem : n ∈ L := by rw [e]; simp
        obtain ⟨rs0, h0, hin⟩ := hL.2 l1 n l2 (by rw [e]; simp)
        obtain ⟨rs, vs, v, h1, h2, hv, h3⟩ := h.1 n hmem
        obtain ⟨rs', vs', v', h1', h2', hv', h3'⟩ := h'.1 n hmem
        have er : rs0 = rs := by rw [h0] at h1; exact Option.some.inj h1
        have er' : rs0 = rs' := by rw [h0] at h1'; exact Option.some.inj h1'
        subst er; subst er'
        have : vs = vs' := by
          clear h3 h3' h0 h1 h1' hv hv'
          induction h2 generalizing vs' with
          | nil => cases h2'; rfl
          | cons ha _ ihv =>
            cases h2' with
            | cons hb hbs =>
              rw [ih _ (hin _ (by simp)), hb] at ha
              rw [Option.some.inj ha, ihv (fun r hr => hin r (List.mem_cons_of_mem _ hr)) _ hbs]
        rw [h3, h3', ← hv, ← hv', this]
  funext n
  by_cases hn : n ∈ L
  · exact key L [] (by simp) n hn
  · rw [h.2 n hn, h'.2 n hn]

theorem depData_some {deps : Name α → Option V} {rs : List (Name α)} {vs : List V}
    (h : List.Forall₂ (fun r v => deps r = some v) rs vs) : depData deps rs = some (rs.zip vs) := by
  induction h with
  | nil => rfl
  | cons ha _ ih =>
    unfold depData at ih ⊢
    rw [List.mapM_cons, ih, ha]
    rfl

theorem exists_vals {deps : Name α → Option V} {rs : List (Name α)} (h : ∀ r ∈ rs, deps r ≠ none) :
    ∃ vs, List.Forall₂ (fun r v => deps r = some v) rs vs := by
  induction rs with
  | nil => exact ⟨[], List.Forall₂.nil⟩
  | cons r rs ih =>
    obtain ⟨v, hv⟩ := Option.ne_none_iff_exists'.1 (h r (by simp))
    obtain ⟨vs, hvs⟩ := ih fun r hr => h r (List.mem_cons_of_mem _ hr)
    exact ⟨v :: vs, List.Forall₂.cons hv hvs⟩

theorem foldlM_some_inv {σ τ : Type} {F : σ → τ → Option σ} {P : List τ → σ → Prop} (l : List τ)
    (hstep : ∀ pre t st suf, l = pre ++ t :: suf → P pre st → ∃ st', F st t = some st' ∧ P (pre ++ [t]) st')
    {s : σ} (h0 : P [] s) : ∃ s', l.foldlM F s = some s' ∧ P l s' := by
  suffices H : ∀ (suf pre : List τ) (s : σ), l = pre ++ suf → P pre s → ∃ s', suf.foldlM F s = some s' ∧ P l s' from
    H l [] s rfl h0
  intro suf
  induction suf with
  | nil =>
    intro pre s e hp
    rw [List.append_nil] at e
    exact ⟨s, rfl, by rw [e]; exact hp⟩
  | cons t suf ih =>
    intro pre s e hp
    obtain ⟨st', h1, h2⟩ := hstep pre t s suf e hp
    obtain ⟨s', h3, h4⟩ := ih (pre ++ [t]) st' (by rw [e]; simp) h2
    exact ⟨s', by rw [List.foldlM_cons, h1]; exact h3, h4⟩

/-- **C58**: the serial worker fails on a sorted list of names only when a mini application fails; it computes the
values of all the names. -/
theorem C58_serial {S : Type} (reqs : Name α → Option (List (Name α))) (app : Name α → List (Name α × V) → Option V)
    (L : List (Name α)) (hL : Ordered reqs L) (s : S) :
    (∀ D s', serial reqs (fun s n d => (app n d).map fun v => (v, s)) s L = some (D, s') →
      s' = s ∧ Solution reqs app L D) ∧
    ((∀ n ∈ L, ∀ d, app n d ≠ none) → serial reqs (fun s n d => (app n d).map fun v => (v, s)) s L ≠ none) ∧
    ∀ D, Solution reqs app L D → serial reqs (fun s n d => (app n d).map fun v => (v, s)) s L = some (D, s) := by
  set F := fun (st : (Name α → Option V) × S) name =>
      (calculateReq reqs (fun s n d => (app n d).map fun v => (v, s)) st.2 st.1 name).map fun r =>
        ((fun m => if m = name then some r.1 else st.1 m), r.2) with hF
  let P : List (Name α) → (Name α → Option V) × S → Prop := fun pre st =>
    (∀ n ∈ pre, ∃ rs vs v, reqs n = some rs ∧ List.Forall₂ (fun r v => st.1 r = some v) rs vs ∧
      app n (rs.zip vs) = some v ∧ st.1 n = some v) ∧ (∀ n, n ∉ pre → st.1 n = none) ∧ st.2 = s
  -- one name
  have step : ∀ pre n st suf, L = pre ++ n :: suf → P pre st → ∃ rs vs, reqs n = some rs ∧
      List.Forall₂ (fun r v => st.1 r = some v) rs vs ∧
      F st n = (app n (rs.zip vs)).map fun v => ((fun m => if m = n then some v else st.1 m), st.2) := by
    rintro pre n ⟨D, s0⟩ suf e ⟨p1, p2, p3⟩
    obtain ⟨rs, h1, h2⟩ := hL.2 pre n suf e
    obtain ⟨vs, hvs⟩ := exists_vals (deps := D) (rs := rs) fun r hr => by
      obtain ⟨_, _, _, -, -, -, h⟩ := p1 r (h2 r hr)
      simp only at h
      rw [h]; simp
    refine ⟨rs, vs, h1, hvs, ?_⟩
    simp only [hF, calculateReq, h1, depData_some hvs, Option.bind_some]
    cases app n (rs.zip vs) <;> rfl
  have next : ∀ pre n st suf v, L = pre ++ n :: suf → P pre st → ∀ rs vs, reqs n = some rs →
      List.Forall₂ (fun r v => st.1 r = some v) rs vs → app n (rs.zip vs) = some v →
      P (pre ++ [n]) ((fun m => if m = n then some v else st.1 m), st.2) := by
    rintro pre n ⟨D, s0⟩ suf v e ⟨p1, p2, p3⟩ rs vs h1 hvs hv
    have h2 : ∀ r ∈ rs, r ∈ pre := by
      obtain ⟨rs', h1', h2⟩ := hL.2 pre n suf e
      rw [h1] at h1'
      rw [Option.some.inj h1']; exact h2
    have hn : n ∉ pre := fun hc => by
      have := hL.1
      rw [e] at this
      exact (List.nodup_append.1 this).2.2 n hc n (by simp) rfl
    have keep : ∀ rs vs, (∀ r ∈ rs, r ∈ pre) → List.Forall₂ (fun r v => D r = some v) rs vs →
        List.Forall₂ (fun r w => (if r = n then some v else D r) = some w) rs vs := by
      intro rs vs hr hf
      clear * - hr hf hn
      induction hf with
      | nil => exact List.Forall₂.nil
      | cons ha _ ih =>
        refine List.Forall₂.cons ?_ (ih fun r h => hr r (List.mem_cons_of_mem _ h))
        rw [if_neg (fun hc => hn (hc ▸ hr _ (by simp)) : ¬ _ = n)]
        exact ha
    refine ⟨?_, ?_, p3⟩
    · intro m hm
      by_cases hmn : m = n
      · subst hmn
        exact ⟨rs, vs, v, h1, keep rs vs h2 hvs, hv, by simp⟩
      · have hm : m ∈ pre := by
          rcases List.mem_append.1 hm with h | h
          · exact h
          · exact absurd (List.mem_singleton.1 h) hmn
        obtain ⟨rs', vs', v', q1, q2, q3, q4⟩ := p1 m hm
        simp only at q2 q4
        refine ⟨rs', vs', v', q1, keep rs' vs' ?_ q2, q3, by simp only [if_neg hmn]; exact q4⟩
        obtain ⟨l1, l2, e'⟩ := List.append_of_mem hm
        obtain ⟨rs'', w1, w2⟩ := hL.2 l1 m (l2 ++ n :: suf) (by rw [e, e']; simp)
        have : rs'' = rs' := by rw [q1] at w1; exact (Option.some.inj w1).symm
        subst this
        exact fun r hr => by rw [e']; exact List.mem_append_left _ (w2 r hr)
    · intro m hm
      rw [List.mem_append, not_or, List.mem_singleton] at hm
      simp only [if_neg hm.2]
      exact p2 m hm.1
  have h0 : P [] (fun _ => none, s) := ⟨by simp, fun _ _ => rfl, rfl⟩
  have first : ∀ st, L.foldlM F (fun _ => none, s) = some st → P L st := by
    intro st hst
    suffices H : ∀ (suf pre : List (Name α)) st0, L = pre ++ suf → P pre st0 → suf.foldlM F st0 = some st → P L st from
      H L [] _ rfl h0 hst
    intro suf
    induction suf with
    | nil =>
      intro pre st0 e hp h
      rw [List.append_nil] at e
      cases h
      rw [e]; exact hp
    | cons n suf ih =>
      intro pre st0 e hp h
      obtain ⟨rs, vs, h1, h2, h3⟩ := step pre n st0 suf e hp
      rw [List.foldlM_cons, h3] at h
      cases ha : app n (rs.zip vs) with
      | none => rw [ha] at h; cases h
      | some v =>
        rw [ha] at h
        exact ih (pre ++ [n]) _ (by rw [e]; simp) (next pre n st0 suf v e hp rs vs h1 h2 ha) h
  have sol : ∀ D s', P L (D, s') → s' = s ∧ Solution reqs app L D := fun D s' h => ⟨h.2.2, h.1, h.2.1⟩
  refine ⟨fun D s' h => sol D s' (first _ h), fun htot => ?_, fun D hD => ?_⟩
  · obtain ⟨st, h1, -⟩ := foldlM_some_inv (F := F) (P := P) L (fun pre n st suf e hp => by
      obtain ⟨rs, vs, h1, h2, h3⟩ := step pre n st suf e hp
      obtain ⟨v, hv⟩ := Option.ne_none_iff_exists'.1 (htot n (by rw [e]; simp) (rs.zip vs))
      exact ⟨_, by rw [h3, hv]; rfl, next pre n st suf v e hp rs vs h1 h2 hv⟩) h0
    show L.foldlM F (fun _ => none, s) ≠ none
    rw [h1]; simp
  · obtain ⟨⟨D', s'⟩, h1, h2, h3⟩ := foldlM_some_inv (F := F)
      (P := fun pre st => P pre st ∧ ∀ m ∈ pre, st.1 m = D m) L (fun pre n st suf e hp => by
      obtain ⟨rs, vs, h1, h2, h3⟩ := step pre n st suf e hp.1
      have hn : n ∈ L := by rw [e]; simp
      obtain ⟨rs', vs', v, q1, q2, q3, q4⟩ := hD.1 n hn
      have er : rs' = rs := by rw [h1] at q1; exact (Option.some.inj q1).symm
      subst er
      have hin : ∀ r ∈ rs', r ∈ pre := by
        obtain ⟨rs'', w1, w2⟩ := hL.2 pre n suf e
        rw [h1] at w1
        rw [Option.some.inj w1]; exact w2
      have ev : vs' = vs := by
        have hp2 := hp.2
        clear * - hin hp2 q2 h2
        induction h2 generalizing vs' with
        | nil => cases q2; rfl
        | cons ha _ ihv =>
          cases q2 with
          | cons hb hbs =>
            rw [hp2 _ (hin _ (by simp)), hb] at ha
            rw [Option.some.inj ha, ihv _ hbs (fun r hr => hin r (List.mem_cons_of_mem _ hr))]
      subst ev
      refine ⟨_, by rw [h3, q3]; rfl, next pre n st suf v e hp.1 rs' vs' h1 h2 q3, fun m hm => ?_⟩
      by_cases hmn : m = n
      · subst hmn; simp [q4]
      · simp only [if_neg hmn]
        rcases List.mem_append.1 hm with h | h
        · exact hp.2 m h
        · exact absurd (List.mem_singleton.1 h) hmn) ⟨h0, by simp⟩
    show L.foldlM F (fun _ => none, s) = _
    rw [h1]
    have e1 : s' = s := h2.2.2
    have e2 : D' = D := by
      funext m
      by_cases hm : m ∈ L
      · exact h3 m hm
      · rw [hD.2 m hm]; exact h2.2.1 m hm
    rw [e1, e2]

/-! ### The parallel worker -/

theorem foldlM_decr (I : List (Name α)) (nd : List (Name α × ℤ)) (h : ∀ i ∈ I, i ∈ nd.map Prod.fst) :
    I.foldlM decr nd = some (nd.map fun p : Name α × ℤ => (p.1, p.2 - (I.count p.1 : ℤ))) := by
  induction I generalizing nd with
  | nil => simp
  | cons i I ih =>
    rw [List.foldlM_cons, decr, if_pos (h i (by simp))]
    have hk : (nd.map fun p => if p.1 = i then (p.1, p.2 - 1) else p).map Prod.fst = nd.map Prod.fst := by
      rw [List.map_map]
      refine List.map_congr_left fun p _ => ?_
      simp only [Function.comp]
      split_ifs <;> rfl
    show List.foldlM decr _ I = _
    rw [ih _ (by rw [hk]; exact fun j hj => h j (List.mem_cons_of_mem _ hj)), List.map_map]
    congr 1
    refine List.map_congr_left fun p _ => ?_
    simp only [Function.comp]
    rw [List.count_cons]
    by_cases hp : p.1 = i
    · rw [if_pos hp]; simp [hp]; omega
    · rw [if_neg hp]; simp [Ne.symm hp]

theorem count_inverse (rq : Name α → List (Name α)) (L : List (Name α)) (hL : L.Nodup) (t n : Name α) (hn : n ∈ L) :
    (inverseDeps rq L t).count n = (rq n).count t := by
  have one : ∀ m, ((rq m).filterMap fun r => if r = t then some m else none) = List.replicate ((rq m).count t) m := by
    intro m
    induction rq m with
    | nil => simp
    | cons r rs ih =>
      rw [List.filterMap_cons, List.count_cons]
      by_cases h : r = t
      · simp only [h, if_true, beq_self_eq_true]
        rw [ih]; rfl
      · simp only [if_neg h]
        rw [ih]; simp [h]
  unfold inverseDeps
  simp only [one]
  clear one
  induction L with
  | nil => simp at hn
  | cons m L ih =>
    rw [List.flatMap_cons, List.count_append, List.count_replicate]
    rw [List.nodup_cons] at hL
    by_cases h : m = n
    · subst h
      have : (L.flatMap fun m => List.replicate ((rq m).count t) m).count m = 0 := by
        rw [List.count_eq_zero]
        intro hc
        obtain ⟨x, hx, hmem⟩ := List.mem_flatMap.1 hc
        have := List.eq_of_mem_replicate hmem
        exact hL.1 (this ▸ hx)
      rw [this]; simp
    · rcases List.mem_cons.1 hn with e | hn
      · exact absurd e.symm h
      · rw [ih hL.2 hn]; simp [h]

theorem mem_inverse {rq : Name α → List (Name α)} {L : List (Name α)} {t n : Name α} (h : n ∈ inverseDeps rq L t) :
    n ∈ L ∧ t ∈ rq n := by
  unfold inverseDeps at h
  obtain ⟨m, hm, h⟩ := List.mem_flatMap.1 h
  obtain ⟨r, hr, h⟩ := List.mem_filterMap.1 h
  split_ifs at h with e
  cases h
  exact ⟨hm, e ▸ hr⟩

/-- The number of the requirements without values. -/
def missing (deps : Name α → Option V) (l : List (Name α)) : ℕ := l.countP fun r => (deps r).isNone

theorem missing_update (deps : Name α → Option V) (t : Name α) (v : V) (ht : deps t = none) (l : List (Name α)) :
    missing deps l = missing (fun m => if m = t then some v else deps m) l + l.count t := by
  unfold missing
  induction l with
  | nil => rfl
  | cons r l ih =>
    rw [List.countP_cons, List.countP_cons, List.count_cons, ih]
    by_cases h : r = t
    · subst h; simp [ht]; omega
    · simp [h]; omega

theorem missing_zero {deps : Name α → Option V} {l : List (Name α)} : missing deps l = 0 ↔ ∀ r ∈ l, deps r ≠ none := by
  unfold missing
  rw [List.countP_eq_zero]
  refine forall₂_congr fun r _ => ?_
  cases deps r <;> simp

/-- What holds in each state of the parallel worker. -/
structure MInv (rq : Name α → List (Name α)) (L : List (Name α)) (D : Name α → Option V) (s : MState α V) : Prop where
  ok : s.failed = false
  keys : (s.numdeps.map Prod.fst).Nodup
  num : ∀ p ∈ s.numdeps, p.1 ∈ L ∧ s.deps p.1 = none ∧ p.1 ∉ s.tasks.drop s.taken ∧ p.2 = missing s.deps (rq p.1)
  cover : ∀ n ∈ L, n ∈ s.numdeps.map Prod.fst ∨ s.deps n ≠ none ∨ n ∈ s.tasks.drop s.taken
  nodup : s.tasks.Nodup
  task : ∀ t ∈ s.tasks.drop s.taken, t ∈ L ∧ s.deps t = none ∧ missing s.deps (rq t) = 0
  deps : ∀ n v, s.deps n = some v → n ∈ L ∧ D n = some v
  closed : ∀ n, s.deps n ≠ none → missing s.deps (rq n) = 0
  results : ∀ t ∈ s.tasks.drop s.taken, ∀ v, s.results t = some v → D t = some v
  remaining : s.remaining = missing s.deps L
  taken : s.taken ≤ s.tasks.length

theorem mInit_inv (rq : Name α → List (Name α)) (L : List (Name α)) (hL : Ordered (fun n => some (rq n)) L)
    (D : Name α → Option V) : MInv rq L D (mInit rq L) where
  ok := rfl
  keys := by
    have : ((mInit rq L : MState α V).numdeps.map Prod.fst) = L := by simp [mInit, Function.comp_def]
    rw [this]; exact hL.1
  num := fun p hp => by
    obtain ⟨n, hn, rfl⟩ := List.mem_map.1 hp
    refine ⟨hn, rfl, by simp [mInit], ?_⟩
    have : missing (fun _ => (none : Option V)) (rq n) = (rq n).length := by
      unfold missing; rw [List.countP_eq_length]; simp
    show ((rq n).length : ℤ) = missing (fun _ => (none : Option V)) (rq n)
    rw [this]
  cover := fun n hn => Or.inl (by simp [mInit, hn])
  nodup := List.nodup_nil
  task := fun t ht => by simp [mInit] at ht
  deps := fun n v h => by cases h
  closed := fun n h => absurd rfl h
  results := fun t ht => by simp [mInit] at ht
  remaining := by
    have : missing (fun _ => (none : Option V)) L = L.length := by
      unfold missing; rw [List.countP_eq_length]; simp
    show (L.length : ℤ) = missing (fun _ => (none : Option V)) L
    rw [this]
  taken := le_refl _

/-- The work to be done: launching, running and taking of each name. -/
def todo (s : MState α V) : ℕ :=
  3 * s.numdeps.length + 2 * (s.tasks.drop s.taken).countP (fun t => (s.results t).isNone) +
    (s.tasks.drop s.taken).countP fun t => (s.results t).isSome

theorem all_done {rq : Name α → List (Name α)} {L : List (Name α)} {D : Name α → Option V} {s : MState α V}
    (I : MInv rq L D s) (hn : s.numdeps = []) (ht : s.taken = s.tasks.length) : s.remaining = 0 := by
  rw [I.remaining]
  have : missing s.deps L = 0 := by
    rw [missing_zero]
    intro n h
    rcases I.cover n h with h | h | h
    · simp [hn] at h
    · exact h
    · simp [ht] at h
  simp [this]

/-- There is always a name ready to be run. -/
theorem exists_ready {rq : Name α → List (Name α)} {L : List (Name α)} (hL : Ordered (fun n => some (rq n)) L)
    {deps : Name α → Option V} (h : missing deps L ≠ 0) : ∃ n ∈ L, deps n = none ∧ missing deps (rq n) = 0 := by
  suffices H : ∀ l2 l1, L = l1 ++ l2 → (∀ n ∈ l1, deps n ≠ none) → ∃ n ∈ L, deps n = none ∧ missing deps (rq n) = 0 from
    H L [] rfl (by simp)
  intro l2
  induction l2 with
  | nil =>
    intro l1 e h1
    rw [List.append_nil] at e
    exact absurd (missing_zero.2 (e ▸ h1)) h
  | cons n l2 ih =>
    intro l1 e h1
    by_cases hn : deps n = none
    · obtain ⟨rs, h2, h3⟩ := hL.2 l1 n l2 e
      have h2 : rq n = rs := Option.some.inj h2
      refine ⟨n, by rw [e]; simp, hn, missing_zero.2 fun r hr => h1 r (h3 r (h2 ▸ hr))⟩
    · refine ih (l1 ++ [n]) (by rw [e]; simp) fun m hm => ?_
      rcases List.mem_append.1 hm with hm | hm
      · exact h1 m hm
      · rw [List.mem_singleton.1 hm]; exact hn

theorem drop_taken {s : MState α V} {t : Name α} (h : s.tasks[s.taken]? = some t) :
    s.tasks.drop s.taken = t :: s.tasks.drop (s.taken + 1) := by
  obtain ⟨h1, h2⟩ := List.getElem?_eq_some_iff.1 h
  rw [List.drop_eq_getElem_cons h1, h2]

theorem mem_drop_of {l : List (Name α)} {k i : ℕ} {t : Name α} (hk : k ≤ i) (h : l[i]? = some t) : t ∈ l.drop k := by
  rw [List.mem_iff_getElem?]
  exact ⟨i - k, by rw [List.getElem?_drop]; rw [show k + (i - k) = i by omega]; exact h⟩

theorem countP_update (l : List (Name α)) (hl : l.Nodup) (f g : Name α → Bool) (t : Name α) (ht : t ∈ l)
    (hf : f t = true) (hg : g t = false) (h : ∀ m, m ≠ t → f m = g m) : l.countP f = l.countP g + 1 := by
  induction l with
  | nil => simp at ht
  | cons a l ih =>
    rw [List.nodup_cons] at hl
    rw [List.countP_cons, List.countP_cons]
    by_cases ha : a = t
    · subst ha
      have : l.countP f = l.countP g := by
        refine List.countP_congr fun x hx => ?_
        rw [h x fun e => hl.1 (e ▸ hx)]
      simp [this, hf, hg]
    · rcases List.mem_cons.1 ht with e | ht
      · exact absurd e.symm ha
      · rw [ih hl.2 ht, h a ha]; omega

theorem mStep_inv {rq : Name α → List (Name α)} {app : Name α → List (Name α × V) → Option V} {L : List (Name α)}
    (hL : Ordered (fun n => some (rq n)) L) {D : Name α → Option V} (hD : Solution (fun n => some (rq n)) app L D)
    {s s' : MState α V} (I : MInv rq L D s) (h : MStep rq app L s s') : MInv rq L D s' ∧ todo s' < todo s := by
  cases h with
  | start h0 h1 h2 =>
    have hne : s.numdeps ≠ [] := fun hn => by
      have := all_done I hn h1
      omega
    have hdrop : s.tasks.drop s.taken = [] := by rw [h1]; simp
    rw [mStart, if_pos hne]
    have hnn : ∀ p ∈ s.numdeps, 0 ≤ p.2 := fun p hp => by rw [(I.num p hp).2.2.2]; omega
    have htm : ∀ t, t ∈ (s.numdeps.filter fun p => p.2 = 0).map Prod.fst ↔ ∃ p ∈ s.numdeps, p.2 = 0 ∧ p.1 = t := by
      intro t
      simp only [List.mem_map, List.mem_filter, decide_eq_true_eq, and_assoc]
    have hkm : ∀ t, t ∈ (s.numdeps.filter fun p => 0 < p.2).map Prod.fst ↔ ∃ p ∈ s.numdeps, 0 < p.2 ∧ p.1 = t := by
      intro t
      simp only [List.mem_map, List.mem_filter, decide_eq_true_eq, and_assoc]
    have huniq : ∀ p ∈ s.numdeps, ∀ q ∈ s.numdeps, p.1 = q.1 → p = q := fun p hp q hq e =>
      List.inj_on_of_nodup_map I.keys hp hq e
    refine ⟨{ ok := I.ok
              keys := I.keys.sublist (List.Sublist.map _ List.filter_sublist)
              num := fun p hp => ?_
              cover := fun n hn => ?_
              nodup := I.keys.sublist (List.Sublist.map _ List.filter_sublist)
              task := fun t ht => ?_
              deps := I.deps
              closed := I.closed
              results := fun t _ v hv => by cases hv
              remaining := I.remaining
              taken := Nat.zero_le _ }, ?_⟩
    · have hp' := List.mem_filter.1 hp
      obtain ⟨q1, q2, -, q4⟩ := I.num p hp'.1
      refine ⟨q1, q2, ?_, q4⟩
      intro hc
      obtain ⟨q, hq, hq0, hqp⟩ := (htm _).1 (List.mem_of_mem_drop hc)
      have hpq := huniq q hq p hp'.1 hqp
      have := of_decide_eq_true hp'.2
      rw [hpq] at hq0
      omega
    · rcases I.cover n hn with h | h | h
      · obtain ⟨p, hp, rfl⟩ := List.mem_map.1 h
        rcases (hnn p hp).eq_or_lt with h0 | h0
        · exact Or.inr (Or.inr ((htm _).2 ⟨p, hp, h0.symm, rfl⟩))
        · exact Or.inl ((hkm _).2 ⟨p, hp, h0, rfl⟩)
      · exact Or.inr (Or.inl h)
      · rw [hdrop] at h; simp at h
    · obtain ⟨p, hp, hp0, rfl⟩ := (htm _).1 (List.mem_of_mem_drop ht)
      obtain ⟨q1, q2, -, q4⟩ := I.num p hp
      exact ⟨q1, q2, by rw [hp0] at q4; exact_mod_cast q4.symm⟩
    · -- at least one task is launched
      have hm : missing s.deps L ≠ 0 := fun hc => by
        have := I.remaining
        rw [hc] at this
        rw [this] at h2
        exact absurd h2 (by decide)
      obtain ⟨n, hn, hd, hr⟩ := exists_ready hL hm
      have hk : n ∈ s.numdeps.map Prod.fst := by
        rcases I.cover n hn with h | h | h
        · exact h
        · exact absurd hd h
        · rw [hdrop] at h; simp at h
      obtain ⟨p, hp, rfl⟩ := List.mem_map.1 hk
      have hp0 : p.2 = 0 := by rw [(I.num p hp).2.2.2, hr]; rfl
      have hpart : s.numdeps.length = (s.numdeps.filter fun p => p.2 = 0).length +
          (s.numdeps.filter fun p => 0 < p.2).length := by
        rw [← List.countP_eq_length_filter, ← List.countP_eq_length_filter,
          List.length_eq_countP_add_countP (fun p : Name α × ℤ => decide (p.2 = 0))]
        congr 1
        refine List.countP_congr fun q hq => ?_
        have := hnn q hq
        simp only [decide_eq_true_eq]
        omega
      have hpos : 0 < (s.numdeps.filter fun p => p.2 = 0).length :=
        List.length_pos_of_mem (List.mem_filter.2 ⟨hp, by simpa using hp0⟩)
      unfold todo
      simp only [hdrop, List.countP_nil, List.drop_zero, Option.isNone_none, Option.isSome_none, List.countP_true,
        List.countP_false, List.length_map, Function.const]
      omega
  | work i t h0 h1 h2 h3 =>
    have ht : t ∈ s.tasks.drop s.taken := mem_drop_of h1 h2
    obtain ⟨t1, t2, t3⟩ := I.task t ht
    obtain ⟨vs, hvs⟩ := exists_vals (missing_zero.1 t3)
    obtain ⟨v, happ, hval⟩ : ∃ v, app t ((rq t).zip vs) = some v ∧ D t = some v := by
      obtain ⟨rs, vs', v, e1, e2, e3, e4⟩ := hD.1 t t1
      have e1' : rq t = rs := Option.some.inj e1
      clear e1
      subst e1'
      have : vs' = vs := by
        clear e3 e4 ht t3 h1 h2 h3 t1 t2
        revert hvs
        generalize rq t = rs at *
        intro hvs
        induction hvs generalizing vs' with
        | nil => cases e2; rfl
        | cons ha _ ih =>
          cases e2 with
          | cons hb hbs =>
            rw [(I.deps _ _ ha).2] at hb
            rw [Option.some.inj hb, ih _ hbs]
      exact ⟨v, by rw [← this]; exact e3, e4⟩
    rw [mWork, depData_some hvs, Option.bind_some, happ]
    refine ⟨{ ok := I.ok, keys := I.keys, num := I.num, cover := I.cover, nodup := I.nodup, task := I.task
              deps := I.deps, closed := I.closed, results := fun t' ht' v' hv => ?_
              remaining := I.remaining, taken := I.taken }, ?_⟩
    · by_cases e : t' = t
      · subst e
        simp only [if_true] at hv
        rw [hval]; exact hv
      · simp only [if_neg e] at hv
        exact I.results t' ht' v' hv
    · unfold todo
      simp only
      have hnd := I.nodup.sublist (List.drop_sublist s.taken s.tasks)
      have c1 := countP_update _ hnd (fun m => (s.results m).isNone)
        (fun m => (if m = t then some v else s.results m).isNone) t ht (by simp [h3]) (by simp)
        fun m hm => by simp [hm]
      have c2 := countP_update _ hnd
        (fun m => (if m = t then some v else s.results m).isSome) (fun m => (s.results m).isSome)
        t ht (by simp) (by simp [h3]) fun m hm => by simp [hm]
      omega
  | take t v h0 h1 h2 =>
    have hdr := drop_taken h1
    have ht : t ∈ s.tasks.drop s.taken := by rw [hdr]; simp
    obtain ⟨t1, t2, t3⟩ := I.task t ht
    have hnd := I.nodup.sublist (List.drop_sublist s.taken s.tasks)
    rw [hdr, List.nodup_cons] at hnd
    have hkeys : ∀ i ∈ inverseDeps rq L t, i ∈ s.numdeps.map Prod.fst := by
      intro i hi
      obtain ⟨hi1, hi2⟩ := mem_inverse hi
      rcases I.cover i hi1 with h | h | h
      · exact h
      · exact absurd t2 (missing_zero.1 (I.closed i h) t hi2)
      · exact absurd t2 (missing_zero.1 (I.task i h).2.2 t hi2)
    rw [mTake, foldlM_decr _ _ hkeys]
    have hmu := missing_update s.deps t v t2
    have hzero : ∀ l, missing s.deps l = 0 → missing (fun m => if m = t then some v else s.deps m) l = 0 := fun l h => by
      have := hmu l
      omega
    have htk : t ∉ s.numdeps.map Prod.fst := fun hc => by
      obtain ⟨p, hp, e⟩ := List.mem_map.1 hc
      exact (I.num p hp).2.2.1 (e ▸ ht)
    refine ⟨{ ok := I.ok
              keys := by rw [List.map_map]; exact I.keys
              num := fun p hp => ?_
              cover := fun n hn => ?_
              nodup := I.nodup
              task := fun t' ht' => ?_
              deps := fun n w hw => ?_
              closed := fun n hn => ?_
              results := fun t' ht' => I.results t' (by rw [hdr]; exact List.mem_cons_of_mem _ ht')
              remaining := ?_
              taken := ?_ }, ?_⟩
    · obtain ⟨q, hq, rfl⟩ := List.mem_map.1 hp
      obtain ⟨q1, q2, q3, q4⟩ := I.num q hq
      have hqt : q.1 ≠ t := fun e => htk (e ▸ List.mem_map.2 ⟨q, hq, rfl⟩)
      refine ⟨q1, by simp only [if_neg hqt]; exact q2, fun hc => q3 (by rw [hdr]; exact List.mem_cons_of_mem _ hc), ?_⟩
      simp only
      rw [q4, count_inverse rq L hL.1 t q.1 q1, hmu (rq q.1)]
      push_cast; omega
    · rcases I.cover n hn with h | h | h
      · exact Or.inl (by rw [List.map_map]; exact h)
      · refine Or.inr (Or.inl ?_)
        by_cases e : n = t
        · simp [e]
        · simp only [if_neg e]; exact h
      · rw [hdr] at h
        rcases List.mem_cons.1 h with e | h
        · exact Or.inr (Or.inl (by simp [e]))
        · exact Or.inr (Or.inr h)
    · obtain ⟨q1, q2, q3⟩ := I.task t' (by rw [hdr]; exact List.mem_cons_of_mem _ ht')
      have : t' ≠ t := fun e => hnd.1 (e ▸ ht')
      exact ⟨q1, by simp only [if_neg this]; exact q2, hzero _ q3⟩
    · by_cases e : n = t
      · subst e
        simp only [if_true] at hw
        exact ⟨t1, by rw [I.results n ht v h2]; exact hw⟩
      · simp only [if_neg e] at hw
        exact I.deps n w hw
    · by_cases e : n = t
      · subst e; exact hzero _ t3
      · simp only [if_neg e] at hn
        exact hzero _ (I.closed n hn)
    · simp only
      have := hmu L
      rw [List.count_eq_one_of_mem hL.1 t1] at this
      rw [I.remaining, this]
      push_cast; omega
    · obtain ⟨h, -⟩ := List.getElem?_eq_some_iff.1 h1
      exact h
    · unfold todo
      simp only [List.length_map]
      rw [hdr, List.countP_cons, List.countP_cons]
      simp [h2]

/-- The number of steps of an execution. -/
inductive MExec (rq : Name α → List (Name α)) (app : Name α → List (Name α × V) → Option V) (L : List (Name α)) :
    ℕ → MState α V → Prop
  | init : MExec rq app L 0 (mInit rq L)
  | step {k : ℕ} {s s' : MState α V} : MExec rq app L k s → MStep rq app L s s' → MExec rq app L (k + 1) s'

theorem exec_inv {rq : Name α → List (Name α)} {app : Name α → List (Name α × V) → Option V} {L : List (Name α)}
    (hL : Ordered (fun n => some (rq n)) L) {D : Name α → Option V} (hD : Solution (fun n => some (rq n)) app L D)
    {k : ℕ} {s : MState α V} (h : MExec rq app L k s) : MInv rq L D s ∧ k + todo s ≤ 3 * L.length := by
  induction h with
  | init =>
    refine ⟨mInit_inv rq L hL D, ?_⟩
    simp [todo, mInit]
  | step _ hs ih =>
    obtain ⟨i1, i2⟩ := mStep_inv hL hD ih.1 hs
    exact ⟨i1, by omega⟩

theorem ordered_getD {reqs : Name α → Option (List (Name α))} {L : List (Name α)} (hL : Ordered reqs L) :
    Ordered (fun n => some ((reqs n).getD [])) L := by
  refine ⟨hL.1, fun l1 n l2 e => ?_⟩
  obtain ⟨rs, h1, h2⟩ := hL.2 l1 n l2 e
  exact ⟨rs, by simp only [h1]; rfl, h2⟩

theorem solution_getD {reqs : Name α → Option (List (Name α))} {app : Name α → List (Name α × V) → Option V}
    {L : List (Name α)} {D : Name α → Option V} (h : Solution reqs app L D) :
    Solution (fun n => some ((reqs n).getD [])) app L D := by
  refine ⟨fun n hn => ?_, h.2⟩
  obtain ⟨rs, vs, v, h1, h2, h3⟩ := h.1 n hn
  exact ⟨rs, vs, v, by simp only [h1]; rfl, h2, h3⟩

/-- **C58**: when the serial worker succeeds, then for any order of the events in the main and the worker processes, the
parallel computation raises no exception, makes at most `3 n` steps for `n` names, is never stuck before the end, and at the end the dictionary of the
results equals the one of the serial worker. -/
theorem C58_parallel {S : Type} (reqs : Name α → Option (List (Name α))) (app : Name α → List (Name α × V) → Option V)
    (L : List (Name α)) (hL : Ordered reqs L) (s0 s1 : S)
    (D : Name α → Option V) (hser : serial reqs (fun s n d => (app n d).map fun v => (v, s)) s0 L = some (D, s1))
    (k : ℕ) (s : MState α V) (h : MExec (fun n => (reqs n).getD []) app L k s) :
    s.failed = false ∧ k ≤ 3 * L.length ∧
    ((∃ s', MStep (fun n => (reqs n).getD []) app L s s') ∨
      s.remaining = 0 ∧ s.taken = s.tasks.length ∧ s.deps = D) ∧
    (s.remaining = 0 → ¬ ∃ s', MStep (fun n => (reqs n).getD []) app L s s') := by
  obtain ⟨-, hD⟩ := (C58_serial reqs app L hL s0).1 D s1 hser
  have hL' := ordered_getD hL
  obtain ⟨I, hk⟩ := exec_inv hL' (solution_getD hD) h
  have hdone : s.remaining = 0 → s.tasks.drop s.taken = [] ∧ s.deps = D := by
    intro h0
    have hm : missing s.deps L = 0 := by rw [I.remaining] at h0; exact_mod_cast h0
    constructor
    · by_contra hne
      obtain ⟨t, ht⟩ := List.exists_mem_of_ne_nil _ hne
      obtain ⟨t1, t2, -⟩ := I.task t ht
      exact missing_zero.1 hm t t1 t2
    · funext n
      by_cases hn : n ∈ L
      · obtain ⟨v, hv⟩ := Option.ne_none_iff_exists'.1 (missing_zero.1 hm n hn)
        rw [hv, (I.deps n v hv).2]
      · rw [hD.2 n hn]
        cases hv : s.deps n with
        | none => rfl
        | some v => exact absurd (I.deps n v hv).1 hn
  refine ⟨I.ok, by omega, ?_, ?_⟩
  · rcases I.taken.lt_or_eq with ht | ht
    · left
      have hg : s.tasks[s.taken]? = some s.tasks[s.taken] := List.getElem?_eq_getElem ht
      cases hr : s.results s.tasks[s.taken] with
      | none => exact ⟨_, MStep.work s s.taken _ I.ok (le_refl _) hg hr⟩
      | some v => exact ⟨_, MStep.take s _ v I.ok hg hr⟩
    · by_cases h0 : s.remaining = 0
      · right
        exact ⟨h0, ht, (hdone h0).2⟩
      · left
        have : 0 < s.remaining := by
          have := I.remaining
          omega
        exact ⟨_, MStep.start s I.ok ht this⟩
  · rintro h0 ⟨s', hs⟩
    obtain ⟨hd, -⟩ := hdone h0
    cases hs with
    | start _ _ h2 => omega
    | work i t _ h1 h2 _ => have := mem_drop_of h1 h2; rw [hd] at this; simp at this
    | take t v _ h1 _ => rw [drop_taken h1] at hd; cases hd

end

end Verif.Homog
