/-
C25: the evaluate cache.
-/
import Verif.History.Props

namespace Verif.History

set_option linter.unusedSectionVars false

variable {V M κ W H : Type} [DecidableEq M] [DecidableEq κ]

/-! ### Small specification -/

/-- State: the arrays, the variable and its evaluate cache. -/
structure CState (V M κ W : Type) where
  hp : Heap V
  x : Var
  c : Cache M κ W

/-- Operations: those on the data, and evaluations. -/
inductive COp (V M κ : Type) where
  | hop (o : HOp V)
  | evaluate (m : M) (step : Int) (k : κ)

/-- Effect of the operations on the whole state: `set_data` invalidates the cache of the current step,
and so does the code that changes the current vector in place (`Variables.fill_state`,
`apply_ebc`, `apply_ic`: variables.py:667-700). -/
def COp.run (E : Env M κ W H V) (p : H) (o : COp V M κ) (s : CState V M κ W) : CState V M κ W :=
  match o with
  | .hop o =>
    let r := o.run (s.hp, s.x)
    ⟨r.1, r.2, match o with
      | .newArray _ => s.c
      | .write q _ => if s.x.data.getD 0 none = some q then s.c.invalidate 0 else s.c
      | .set _ => s.c.invalidate 0
      | .advance _ => s.c.advance s.x.history⟩
  | .evaluate m step k => ⟨s.hp, s.x, (History.evaluate E s.hp s.x s.c m step k p).2⟩

/-- The cached steps of each mode follow one another. -/
def NoGap (c : Cache M κ W) : Prop :=
  ∀ m s, lookup s (c m) ≠ none →
    (∀ t, lookup t (c m) ≠ none → t ≤ s) ∨ lookup (s + 1) (c m) ≠ none

/-- When the operations are allowed: the steps are not in the future; before the first `advance` only
the current step is evaluated; there are no gaps in the cached steps at `advance`. -/
def COp.allowed (o : COp V M κ) (s : CState V M κ W) : Prop :=
  match o with
  | .hop o => o.allowed (s.hp, s.x) ∧ (match o with | .advance _ => NoGap s.c | _ => True)
  | .evaluate _ step _ => step ≤ 0 ∧ (s.x.step = 0 → step = 0)

def allAllowedC (E : Env M κ W H V) (p : H) : List (COp V M κ) → CState V M κ W → Prop
  | [], _ => True
  | o :: os, s => o.allowed s ∧ allAllowedC E p os (o.run E p s)

/-! ### Dictionaries -/

section dict
variable {α β : Type} [DecidableEq α]

theorem lookup_store (k t : α) (v : β) (l : List (α × β)) :
    lookup t (store k v l) = if t = k then some v else lookup t l := by
  induction l with
  | nil =>
    simp only [store, lookup]
    by_cases h : t = k
    · subst h; simp
    · rw [if_neg (Ne.symm h), if_neg h]
  | cons p l ih =>
    simp only [store]
    by_cases hp : p.1 = k
    · rw [if_pos hp]
      simp only [lookup]
      by_cases h : t = k
      · subst h; simp
      · rw [if_neg (Ne.symm h), if_neg h, if_neg (by rw [hp]; exact Ne.symm h)]
    · rw [if_neg hp]
      simp only [lookup]
      rw [ih]
      by_cases h : t = k
      · subst h; rw [if_neg hp]; simp
      · rw [if_neg h, if_neg h]

theorem lookup_erase (k t : α) (l : List (α × β)) :
    lookup t (erase k l) = if t = k then none else lookup t l := by
  induction l with
  | nil => simp [erase, lookup]
  | cons p l ih =>
    unfold erase at ih ⊢
    by_cases hp : p.1 = k
    · rw [List.filter_cons_of_neg (by simp [hp]), ih]
      simp only [lookup]
      by_cases h : t = k
      · rw [if_pos h, if_pos h]
      · rw [if_neg h, if_neg h, if_neg (by rw [hp]; exact Ne.symm h)]
    · rw [List.filter_cons_of_pos (by simp [hp])]
      simp only [lookup]
      rw [ih]
      by_cases h : t = k
      · subst h; rw [if_neg hp]; simp
      · rw [if_neg h, if_neg h]

theorem lookup_ne_none (k : α) (l : List (α × β)) : lookup k l ≠ none ↔ k ∈ l.map (·.1) := by
  induction l with
  | nil => simp [lookup]
  | cons p l ih =>
    simp only [lookup, List.map_cons, List.mem_cons]
    by_cases hp : p.1 = k
    · subst hp; simp
    · rw [if_neg hp, ih]
      constructor
      · exact .inr
      · rintro (h | h)
        · exact absurd h.symm hp
        · exact h

theorem store_keys (k : α) (v : β) (l : List (α × β)) :
    (store k v l).map (·.1) = if k ∈ l.map (·.1) then l.map (·.1) else l.map (·.1) ++ [k] := by
  induction l with
  | nil => simp [store]
  | cons p l ih =>
    simp only [store]
    by_cases hp : p.1 = k
    · subst hp; simp
    · rw [if_neg hp]
      simp only [List.map_cons, ih, List.mem_cons]
      by_cases hk : k ∈ l.map (·.1)
      · rw [if_pos hk, if_pos (.inr hk)]
      · rw [if_neg hk, if_neg (by rintro (h | h); exacts [hp h.symm, hk h])]
        rfl

theorem store_nodup (k : α) (v : β) (l : List (α × β)) (h : (l.map (·.1)).Nodup) :
    ((store k v l).map (·.1)).Nodup := by
  rw [store_keys]
  split
  · exact h
  · next hk => exact List.nodup_append.2 ⟨h, by simp, by
      intro a ha b hb e
      simp only [List.mem_singleton] at hb
      subst hb; subst e; exact hk ha⟩

theorem erase_nodup (k : α) (l : List (α × β)) (h : (l.map (·.1)).Nodup) :
    ((erase k l).map (·.1)).Nodup :=
  h.sublist (List.Sublist.map _ List.filter_sublist)

end dict

/-! ### `advance` of the cache -/

theorem mem_insertSorted (s t : Int) (l : List Int) : t ∈ insertSorted s l ↔ t = s ∨ t ∈ l := by
  induction l with
  | nil => simp [insertSorted]
  | cons a l ih =>
    simp only [insertSorted]
    split
    · simp
    · simp only [List.mem_cons, ih]; tauto

theorem sorted_insertSorted (s : Int) (l : List Int) (h : l.Pairwise (· < ·)) (hs : s ∉ l) :
    (insertSorted s l).Pairwise (· < ·) := by
  induction l with
  | nil => simp [insertSorted]
  | cons a l ih =>
    simp only [List.mem_cons, not_or] at hs
    simp only [insertSorted]
    obtain ⟨h1, h2⟩ := List.pairwise_cons.1 h
    split
    · next hle =>
      refine List.pairwise_cons.2 ⟨?_, h⟩
      intro b hb
      have hlt : s < a := by omega
      rcases List.mem_cons.1 hb with rfl | hb
      · exact hlt
      · exact lt_trans hlt (h1 b hb)
    · refine List.pairwise_cons.2 ⟨?_, ih h2 hs.2⟩
      intro b hb
      rcases (mem_insertSorted s b l).1 hb with rfl | hb
      · omega
      · exact h1 b hb

theorem sortedKeys_spec (d : List (Int × List (κ × W))) (h : (d.map (·.1)).Nodup) :
    (sortedKeys d).Pairwise (· < ·) ∧ ∀ s, s ∈ sortedKeys d ↔ s ∈ d.map (·.1) := by
  unfold sortedKeys
  generalize d.map (·.1) = l at h
  induction l with
  | nil => simp
  | cons a l ih =>
    obtain ⟨h1, h2⟩ := List.nodup_cons.1 h
    obtain ⟨i1, i2⟩ := ih h2
    rw [List.foldr_cons]
    refine ⟨sorted_insertSorted _ _ i1 (fun e => h1 ((i2 a).1 e)), fun s => ?_⟩
    rw [mem_insertSorted, i2, List.mem_cons]

theorem shiftCache_spec (h : Nat) : ∀ (steps : List Int) (d : List (Int × List (κ × W))),
    steps.Pairwise (· < ·) → (∀ s ∈ steps, lookup s d ≠ none) →
    (∀ s, lookup s (shiftCache h steps d) =
      if s + 1 ∈ steps ∧ -(s + 1) < h then lookup (s + 1) d else lookup s d) ∧
    ((d.map (·.1)).Nodup → ((shiftCache h steps d).map (·.1)).Nodup) := by
  intro steps
  induction steps with
  | nil => intro d _ _; exact ⟨fun s => by simp [shiftCache], fun h => h⟩
  | cons a ss ih =>
    intro d hs hd
    obtain ⟨h1, h2⟩ := List.pairwise_cons.1 hs
    unfold shiftCache
    obtain ⟨inner, hinner⟩ := Option.ne_none_iff_exists'.1 (hd a (by simp))
    rw [hinner, Option.getD_some]
    by_cases hg : -a < h
    · rw [if_pos hg]
      obtain ⟨i1, i2⟩ := ih (store (a - 1) inner d) h2 (by
        intro s hs'
        rw [lookup_store]
        split
        · simp
        · exact hd s (by simp [hs']))
      refine ⟨fun s => ?_, fun hn => i2 (store_nodup _ _ _ hn)⟩
      rw [i1]
      by_cases hsa : s + 1 = a
      · subst hsa
        rw [if_neg (by rintro ⟨e, _⟩; have := h1 _ e; omega), if_pos ⟨by simp, hg⟩, lookup_store,
          if_pos (by omega), hinner]
      · by_cases hm : s + 1 ∈ ss ∧ -(s + 1) < h
        · have := h1 _ hm.1
          rw [if_pos hm, if_pos ⟨by simp [hm.1], hm.2⟩, lookup_store, if_neg (by omega)]
        · rw [if_neg hm, if_neg (by
            rintro ⟨e, f⟩
            rcases List.mem_cons.1 e with e | e
            · exact hsa e
            · exact hm ⟨e, f⟩), lookup_store, if_neg (by omega)]
    · rw [if_neg hg]
      obtain ⟨i1, i2⟩ := ih d h2 (fun s hs' => hd s (by simp [hs']))
      refine ⟨fun s => ?_, i2⟩
      rw [i1]
      by_cases hm : s + 1 ∈ ss ∧ -(s + 1) < h
      · rw [if_pos hm, if_pos ⟨by simp [hm.1], hm.2⟩]
      · rw [if_neg hm, if_neg (by
          rintro ⟨e, f⟩
          rcases List.mem_cons.1 e with e | e
          · subst e; exact hg f
          · exact hm ⟨e, f⟩)]

/-- After `advance`, what is cached for a step was cached for the following one. -/
theorem advanceCache_spec (h : Nat) (d : List (Int × List (κ × W))) (hn : (d.map (·.1)).Nodup)
    (hgap : ∀ s, lookup s d ≠ none → (∀ t, lookup t d ≠ none → t ≤ s) ∨ lookup (s + 1) d ≠ none) :
    ((advanceCache h d).map (·.1)).Nodup ∧
    ∀ s inner, lookup s (advanceCache h d) = some inner →
      (-(s + 1) < h ∧ lookup (s + 1) d = some inner) ∨ (-(s + 1) ≥ h ∧ lookup s d = some inner) := by
  obtain ⟨s1, s2⟩ := sortedKeys_spec d hn
  unfold advanceCache
  simp only
  cases hl : (sortedKeys d).getLast? with
  | none =>
    simp only
    refine ⟨hn, fun s inner he => ?_⟩
    rw [List.getLast?_eq_none_iff] at hl
    have := (lookup_ne_none s d).1 (by rw [he]; simp)
    rw [← s2, hl] at this
    simp at this
  | some last =>
    simp only
    obtain ⟨i1, i2⟩ := shiftCache_spec h (sortedKeys d) d s1 (fun s hs => by
      rw [lookup_ne_none, ← s2]; exact hs)
    refine ⟨erase_nodup _ _ (i2 hn), fun s inner he => ?_⟩
    rw [lookup_erase] at he
    split at he
    · cases he
    · next hne =>
      rw [i1] at he
      have hmax : ∀ t, lookup t d ≠ none → t ≤ last := by
        intro t ht
        rw [lookup_ne_none, ← s2] at ht
        obtain ⟨ys, hys⟩ := List.getLast?_eq_some_iff.1 hl
        rw [hys] at ht s1
        rcases List.mem_append.1 ht with ht | ht
        · have := (List.pairwise_append.1 s1).2.2 t ht last (by simp)
          omega
        · simp only [List.mem_singleton] at ht; omega
      have hlast : lookup last d ≠ none := by
        rw [lookup_ne_none, ← s2]
        exact List.mem_of_getLast? hl
      split at he
      · next hm => exact .inl ⟨hm.2, he⟩
      · next hm =>
        by_cases hlt : -(s + 1) < h
        · exfalso
          have hs0 : lookup s d ≠ none := by rw [he]; simp
          rcases hgap s hs0 with hg | hg
          · have h1 := hg last hlast
            have h2 := hmax s hs0
            exact hne (by omega)
          · rw [lookup_ne_none, ← s2] at hg
            exact hm ⟨hg, hlt⟩
        · exact .inr ⟨by omega, he⟩

/-! ### Invariant -/

structure CInv (E : Env M κ W H V) (p : H) (s : CState V M κ W) (h : Nat) : Prop where
  nodup : ∀ m, ((s.c m).map (·.1)).Nodup
  nonpos : ∀ m t, lookup t (s.c m) ≠ none → t ≤ 0
  valid : ∀ m t inner k w, lookup t (s.c m) = some inner → lookup k inner = some w →
    (∃ v, callD E s.hp s.x k p t = .ok v ∧ w = E.val m k p v) ∨
      (E.isDt k = true ∧ t = -(h : Int) ∧ s.x.step ≠ 0)
  start : s.x.step = 0 → ∀ m t inner k w, lookup t (s.c m) = some inner → lookup k inner = some w →
    t = 0

theorem call_out {s : Heap V × Var} {h lo hi : Nat} {past : List (List V)}
    (t : Tracks s h lo hi past) {step : Int} (h1 : step < -(h : Int)) (h2 : s.2.step ≠ 0) (v : List V) :
    s.2.call s.1 step ≠ .ok v := by
  unfold Var.call
  rw [if_neg (by rintro ⟨e, _⟩; exact h2 e)]
  have : pyIndex s.2.data.length (-step) = none := by
    unfold pyIndex
    rw [t.len, if_pos (by omega), if_neg (by omega)]
  rw [this]
  simp

/-- The shift of the history. -/
theorem call_shift {s s' : Heap V × Var} {h lo hi ts : Nat} {past : List (List V)}
    (t : Tracks s h lo hi past) (e : s.2.advance s.1 ts = .ok s') {step : Int} {v : List V}
    (h0 : step ≤ 0) (h1 : -(h : Int) < step) (hv : s.2.call s.1 step = .ok v) :
    s'.2.call s'.1 (step - 1) = .ok v := by
  obtain ⟨s2, e2, t', c', _⟩ := tracks_advance t ts
  rw [e] at e2
  cases e2
  obtain ⟨j, rfl⟩ : ∃ j : Nat, step = -(j : Int) := ⟨step.natAbs, by omega⟩
  have e3 := call_back t' (j + 1) (by omega) (by omega)
  rw [show (-((j : Int)) - 1) = -((j + 1 : Nat) : Int) by omega, e3, if_neg (by simp)]
  congr 1
  by_cases hj : j = 0
  · subst hj
    obtain ⟨r, c1, _⟩ := t.cur
    rw [show (-((0 : Nat) : Int)) = 0 from rfl, call_zero t c1] at hv
    have : current s = v := by
      unfold current; rw [call_zero t c1]; exact Except.ok.inj hv
    simp [back, this]
  · rw [call_back t j (by omega) (by omega)] at hv
    by_cases hp : past = []
    · subst hp
      rw [if_pos rfl] at hv
      split at hv
      · have := Except.ok.inj hv
        simp [back, this]
      · cases hv
    · rw [if_neg hp] at hv
      have hl : 0 < past.length := List.length_pos_iff.2 hp
      rw [← Except.ok.inj hv]
      simp only [back, List.length_cons]
      have : min (j + 1 - 1) (past.length + 1 - 1) = min (j - 1) (past.length - 1) + 1 := by omega
      rw [this, List.getD_cons_succ]

/-- Changes of the current data do not influence what is read for the previous steps. -/
theorem call_keep {s : Heap V × Var} {h lo hi : Nat} {past : List (List V)}
    (t : Tracks s h lo hi past) (o : HOp V) (ho : o.allowed s) (hna : ∀ ts, o ≠ .advance ts)
    {step : Int} (h0 : step < 0) (hs : s.2.step ≠ 0) :
    ((o.run s).2.step = s.2.step) ∧
    ∀ v, s.2.call s.1 step = .ok v → (o.run s).2.call (o.run s).1 step = .ok v := by
  have hp : past ≠ [] := fun e => hs (t.start e).1
  have hstep : (o.run s).2.step = s.2.step := by
    cases o with
    | newArray v => rfl
    | write r v => rfl
    | set r =>
      simp only [HOp.run]
      split
      · next x e =>
        unfold Var.setData at e
        split at e
        · cases e
        · simp only at e
          split at e
          · cases e
          · split at e
            · cases e
            · split at e
              · cases e
              · cases e; rfl
      · rfl
    | advance ts => exact absurd rfl (hna ts)
  refine ⟨hstep, fun v hv => ?_⟩
  have t' := tracks_step t o ho
  have hrec : o.recorded s past = past := by
    cases o with
    | advance ts => exact absurd rfl (hna ts)
    | _ => rfl
  rw [hrec] at t'
  obtain ⟨j, rfl⟩ : ∃ j : Nat, step = -(j : Int) := ⟨step.natAbs, by omega⟩
  by_cases hj : j ≤ h
  · rw [call_back t j (by omega) hj, if_neg hp] at hv
    rw [call_back t' j (by omega) hj, if_neg hp]
    exact hv
  · exact absurd hv (call_out t (by omega) hs v)

theorem callD_keep (E : Env M κ W H V) (p : H) {s s' : Heap V × Var} (hh : s'.2.history = s.2.history)
    (k : κ) (t t' : Int)
    (h1 : ∀ v, s.2.call s.1 t = .ok v → s'.2.call s'.1 t' = .ok v)
    (h2 : E.isDt k = true → ∀ v, s.2.call s.1 (t - 1) = .ok v → s'.2.call s'.1 (t' - 1) = .ok v) (v : List V)
    (hv : callD E s.1 s.2 k p t = .ok v) : callD E s'.1 s'.2 k p t' = .ok v := by
  unfold callD at hv ⊢
  rw [hh]
  by_cases hk : E.isDt k = true
  · rw [if_pos hk] at hv ⊢
    split at hv
    · cases hv
    · split at hv
      · next a b ha hb => rw [h1 _ ha, h2 hk _ hb]; exact hv
      · cases hv
      · cases hv
  · rw [if_neg hk] at hv ⊢
    exact h1 _ hv

theorem callD_dt_prev (E : Env M κ W H V) (p : H) {hp : Heap V} {x : Var} {k : κ} {t : Int}
    {v : List V} (hk : E.isDt k = true) (hv : callD E hp x k p t = .ok v) :
    ∃ a b, x.call hp t = .ok a ∧ x.call hp (t - 1) = .ok b := by
  unfold callD at hv
  rw [if_pos hk] at hv
  split at hv
  · cases hv
  · split at hv
    · next a b ha hb => exact ⟨a, b, ha, hb⟩
    · cases hv
    · cases hv

theorem callD_call (E : Env M κ W H V) (p : H) {hp : Heap V} {x : Var} {k : κ} {t : Int}
    {v : List V} (hv : callD E hp x k p t = .ok v) : ∃ a, x.call hp t = .ok a := by
  by_cases hk : E.isDt k = true
  · obtain ⟨a, _, h, _⟩ := callD_dt_prev E p hk hv
    exact ⟨a, h⟩
  · unfold callD at hv
    rw [if_neg hk] at hv
    exact ⟨v, hv⟩

/-- Invalidation of the current step together with a change of the current data. -/
theorem cinv_change (E : Env M κ W H V) (p : H) {s : CState V M κ W} {h lo hi : Nat}
    {past : List (List V)} (t : Tracks (s.hp, s.x) h lo hi past) (ci : CInv E p s h) (o : HOp V)
    (ho : o.allowed (s.hp, s.x)) (hna : ∀ ts, o ≠ .advance ts)
    (hh : (o.run (s.hp, s.x)).2.history = s.x.history) :
    CInv E p ⟨(o.run (s.hp, s.x)).1, (o.run (s.hp, s.x)).2, s.c.invalidate 0⟩ h := by
  have hstep : (o.run (s.hp, s.x)).2.step = 0 ∨ s.x.step ≠ 0 := by
    by_cases h0 : s.x.step = 0
    · left
      have hp : past = [] := by
        by_contra hp
        exact (t.old hp).1 h0
      have t' := tracks_step t o ho
      have hrec : o.recorded (s.hp, s.x) past = past := by
        cases o with
        | advance ts => exact absurd rfl (hna ts)
        | _ => rfl
      rw [hrec] at t'
      exact (t'.start hp).1
    · exact .inr h0
  refine ⟨fun m => erase_nodup _ _ (ci.nodup m), fun m a ha => ?_, fun m a inner k w h1 h2 => ?_,
    fun h0 m a inner k w h1 h2 => ?_⟩
  · simp only [Cache.invalidate] at ha
    rw [lookup_erase] at ha
    split at ha
    · omega
    · exact ci.nonpos m a ha
  · simp only [Cache.invalidate] at h1
    rw [lookup_erase] at h1
    split at h1
    · cases h1
    · next hne =>
      have hle := ci.nonpos m a (by rw [h1]; simp)
      have hs0 : s.x.step ≠ 0 := fun e => hne (ci.start e m a inner k w h1 h2)
      rcases ci.valid m a inner k w h1 h2 with ⟨v, hv, hw⟩ | hv
      · left
        refine ⟨v, ?_, hw⟩
        have k1 := (call_keep t o ho hna (step := a) (by omega) hs0).2
        have k2 := (call_keep t o ho hna (step := a - 1) (by omega) hs0).2
        exact callD_keep E p (s := (s.hp, s.x)) (s' := o.run (s.hp, s.x)) hh k a a k1 (fun _ => k2) v hv
      · right
        refine ⟨hv.1, hv.2.1, ?_⟩
        have := (call_keep t o ho hna (step := -1) (by omega) hs0).1
        simp only at this ⊢
        rw [this]; exact hs0
  · simp only [Cache.invalidate] at h1
    rw [lookup_erase] at h1
    split at h1
    · next e => exact e
    · next hne =>
      exfalso
      have hs0 : s.x.step ≠ 0 := fun e => hne (ci.start e m a inner k w h1 h2)
      have hle := ci.nonpos m a (by rw [h1]; simp)
      have := (call_keep t o ho hna (step := a) (by omega) hs0).1
      simp only at h0 this
      omega

theorem run_history (o : HOp V) (s : Heap V × Var) (h lo hi : Nat) (past : List (List V))
    (t : Tracks s h lo hi past) (ho : o.allowed s) : (o.run s).2.history = s.2.history := by
  rw [(tracks_step t o ho).hist, t.hist]

theorem cinv_step (E : Env M κ W H V) (p : H) {s : CState V M κ W} {h lo hi : Nat}
    {past : List (List V)} (t : Tracks (s.hp, s.x) h lo hi past) (ci : CInv E p s h)
    (o : COp V M κ) (ho : o.allowed s) :
    CInv E p (o.run E p s) h ∧
    ∃ past', Tracks ((o.run E p s).hp, (o.run E p s).x) h lo hi past' := by
  cases o with
  | hop o =>
    have hoo : o.allowed (s.hp, s.x) := ho.1
    refine ⟨?_, _, tracks_step t o hoo⟩
    have hh := run_history o _ h lo hi past t hoo
    cases o with
    | newArray v =>
      -- nothing read changes
      refine ⟨ci.nodup, ci.nonpos, fun m a inner k w h1 h2 => ?_, ci.start⟩
      rcases ci.valid m a inner k w h1 h2 with ⟨u, hv, hw⟩ | hv
      · left
        refine ⟨u, ?_, hw⟩
        have tk : ∀ st u, s.x.call s.hp st = .ok u → s.x.call (s.hp ++ [v]) st = .ok u := by
          intro st u hu
          unfold Var.call at hu ⊢
          have hget : ∀ i r, s.x.data.getD i none = some r → Heap.get (s.hp ++ [v]) r = s.hp.get r := by
            intro i r hr
            apply get_append_left
            by_cases hi0 : i = 0
            · subst hi0
              obtain ⟨r', c1, c2, _⟩ := t.cur
              simp only at c1 c2
              rw [c1] at hr; cases hr; exact c2
            · by_cases hp : past = []
              · have := (t.start hp).2 i (by omega)
                simp only at this
                rw [this] at hr; cases hr
              · by_cases hih : i ≤ h
                · obtain ⟨r', d1, d2, _⟩ := (t.old hp).2 i (by omega) hih
                  simp only at d1 d2
                  rw [d1] at hr; cases hr; exact d2
                · have hlen := t.len
                  simp only at hlen
                  rw [List.getD_eq_getElem?_getD, List.getElem?_eq_none (by omega)] at hr
                  cases hr
          split
          · next hc =>
            rw [if_pos hc] at hu
            cases hd : s.x.data.getD 0 none with
            | none => rw [hd] at hu; cases hu
            | some r => rw [hd] at hu; simp only at hu ⊢; rw [hget 0 r hd]; exact hu
          · next hc =>
            rw [if_neg hc] at hu
            split at hu
            · cases hu
            · next i hi =>
              cases hd : s.x.data.getD i none with
              | none => rw [hd] at hu; cases hu
              | some r => rw [hd] at hu; simp only at hu ⊢; rw [hget i r hd]; exact hu
        exact callD_keep E p (s := (s.hp, s.x)) (s' := (s.hp ++ [v], s.x)) rfl k a a (tk a)
          (fun _ => tk (a - 1)) u hv
      · exact .inr hv
    | write q v =>
      simp only [COp.run]
      by_cases hq : s.x.data.getD 0 none = some q
      · rw [if_pos hq]
        exact cinv_change E p t ci (.write q v) hoo (by simp) hh
      · rw [if_neg hq]
        refine ⟨ci.nodup, ci.nonpos, fun m a inner k w h1 h2 => ?_, ci.start⟩
        rcases ci.valid m a inner k w h1 h2 with ⟨u, hv, hw⟩ | hv
        · left
          refine ⟨u, ?_, hw⟩
          have hget : ∀ i r, s.x.data.getD i none = some r → (s.hp.put q v).get r = s.hp.get r := by
            intro i r hr
            apply get_put_ne
            rintro rfl
            by_cases hi0 : i = 0
            · subst hi0; exact hq hr
            · exact hoo.1 i (by omega) hr
          have tk : ∀ st, s.x.call (s.hp.put q v) st = s.x.call s.hp st := by
            intro st
            unfold Var.call
            split
            · cases hd : s.x.data.getD 0 none with
              | none => rfl
              | some r => simp only; rw [hget 0 r hd]
            · split
              · rfl
              · next i hi =>
                cases hd : s.x.data.getD i none with
                | none => rfl
                | some r => simp only; rw [hget i r hd]
          exact callD_keep E p (s := (s.hp, s.x)) (s' := (s.hp.put q v, s.x)) rfl k a a
            (fun u hu => by rw [tk]; exact hu) (fun _ u hu => by rw [tk]; exact hu) u hv
        · exact .inr hv
    | set q =>
      exact cinv_change E p t ci (.set q) hoo (by simp) hh
    | advance ts =>
      obtain ⟨s', e, t', c', _⟩ := tracks_advance t ts
      have hrun : (HOp.advance ts).run (s.hp, s.x) = s' := by
        simp only [HOp.run]; rw [e]
      simp only [COp.run]
      rw [hrun]
      have hs' : s'.2.step ≠ 0 := (t'.old (by simp)).1
      have hhist := t.hist
      simp only at hhist
      rw [hhist]
      cases h with
      | zero =>
        -- no shift
        simp only [Cache.advance]
        refine ⟨ci.nodup, ci.nonpos, fun m a inner k w h1 h2 => ?_, fun h0 => absurd h0 hs'⟩
        have hle := ci.nonpos m a (by rw [h1]; simp)
        by_cases ha : a = 0
        · by_cases hk : E.isDt k = true
          · right; exact ⟨hk, by simpa using ha, hs'⟩
          · rcases ci.valid m a inner k w h1 h2 with ⟨u, hv, hw⟩ | hv
            · left
              refine ⟨u, ?_, hw⟩
              subst ha
              unfold callD at hv ⊢
              rw [if_neg hk] at hv ⊢
              obtain ⟨r, d1, _⟩ := t.cur
              obtain ⟨r', d1', _⟩ := t'.cur
              rw [call_zero t d1] at hv
              rw [call_zero t' d1']
              unfold current at c'
              rw [call_zero t d1, call_zero t' d1'] at c'
              rw [← hv]
              exact congrArg _ c'
            · exact .inr ⟨hv.1, hv.2.1, hs'⟩
        · exfalso
          rcases ci.valid m a inner k w h1 h2 with ⟨u, hv, hw⟩ | hv
          · by_cases h0 : s.x.step = 0
            · exact ha (ci.start h0 m a inner k w h1 h2)
            · obtain ⟨u', hu'⟩ := callD_call E p hv
              exact call_out t (by simp; omega) h0 u' hu'
          · exact ha (by simpa using hv.2.1)
      | succ h =>
        simp only [Cache.advance]
        have spec := fun m => advanceCache_spec (h + 1) (s.c m) (ci.nodup m) (ho.2 m)
        refine ⟨fun m => (spec m).1, fun m a ha => ?_, fun m a inner k w h1 h2 => ?_,
          fun h0 => absurd h0 hs'⟩
        · obtain ⟨inner, hin⟩ := Option.ne_none_iff_exists'.1 ha
          rcases (spec m).2 a inner hin with ⟨_, h⟩ | ⟨_, h⟩
          · have := ci.nonpos m (a + 1) (by rw [h]; simp)
            omega
          · exact ci.nonpos m a (by rw [h]; simp)
        · rcases (spec m).2 a inner h1 with ⟨hlt, h3⟩ | ⟨hge, h3⟩
          · have hle := ci.nonpos m (a + 1) (by rw [h3]; simp)
            rcases ci.valid m (a + 1) inner k w h3 h2 with ⟨u, hv, hw⟩ | ⟨_, hv, _⟩
            · by_cases hk : E.isDt k = true ∧ a = -((h + 1 : Nat) : Int)
              · exact .inr ⟨hk.1, hk.2, hs'⟩
              · left
                refine ⟨u, ?_, hw⟩
                refine callD_keep E p (s := (s.hp, s.x)) (s' := s') (by rw [t'.hist, hhist]) k
                  (a + 1) a ?_ ?_ u hv
                · intro b hb
                  have := call_shift t e (step := a + 1) hle (by push_cast; omega) hb
                  rwa [show a + 1 - 1 = a by omega] at this
                · intro hdt b hb
                  have hane : a ≠ -((h + 1 : Nat) : Int) := fun e => hk ⟨hdt, e⟩
                  rw [show a + 1 - 1 = a by omega] at hb
                  exact call_shift t e (step := a) (by omega) (by push_cast at hane ⊢; omega) hb
            · exfalso; push_cast at hv; omega
          · exfalso
            have hle := ci.nonpos m a (by rw [h3]; simp)
            rcases ci.valid m a inner k w h3 h2 with ⟨u, hv, hw⟩ | ⟨_, hv, _⟩
            · by_cases h0 : s.x.step = 0
              · have := ci.start h0 m a inner k w h3 h2
                push_cast at hge; omega
              · obtain ⟨u', hu'⟩ := callD_call E p hv
                exact call_out t (by push_cast at hge ⊢; omega) h0 u' hu'
            · push_cast at hge hv; omega
  | evaluate m step k =>
    refine ⟨?_, past, t⟩
    obtain ⟨hst, hst0⟩ := ho
    simp only [COp.run]
    -- general fact about storing a valid inner dictionary
    have gen : ∀ inner' : List (κ × W),
        (∀ k' w, lookup k' inner' = some w →
          (∃ v, callD E s.hp s.x k' p step = .ok v ∧ w = E.val m k' p v) ∨
            (E.isDt k' = true ∧ step = -(h : Int) ∧ s.x.step ≠ 0)) →
        ∀ c0 : Cache M κ W, CInv E p ⟨s.hp, s.x, c0⟩ h →
        CInv E p ⟨s.hp, s.x, Function.update c0 m (store step inner' (c0 m))⟩ h := by
      intro inner' hin c0 ci0
      refine ⟨fun m' => ?_, fun m' a ha => ?_, fun m' a inn k' w h1 h2 => ?_,
        fun h0 m' a inn k' w h1 h2 => ?_⟩
      · simp only
        by_cases hm : m' = m
        · subst hm; rw [Function.update_self]; exact store_nodup _ _ _ (ci0.nodup m')
        · rw [Function.update_of_ne hm]; exact ci0.nodup m'
      · simp only at ha
        by_cases hm : m' = m
        · subst hm
          rw [Function.update_self, lookup_store] at ha
          split at ha
          · omega
          · exact ci0.nonpos m' a ha
        · rw [Function.update_of_ne hm] at ha; exact ci0.nonpos m' a ha
      · simp only at h1
        by_cases hm : m' = m
        · subst hm
          rw [Function.update_self, lookup_store] at h1
          split at h1
          · next e => subst e; cases h1; exact hin k' w h2
          · exact ci0.valid m' a inn k' w h1 h2
        · rw [Function.update_of_ne hm] at h1; exact ci0.valid m' a inn k' w h1 h2
      · simp only at h1
        by_cases hm : m' = m
        · subst hm
          rw [Function.update_self, lookup_store] at h1
          split at h1
          · next e => rw [e]; exact hst0 h0
          · exact ci0.start h0 m' a inn k' w h1 h2
        · rw [Function.update_of_ne hm] at h1; exact ci0.start h0 m' a inn k' w h1 h2
    have hold : ∀ k' w, lookup k' ((lookup step (s.c m)).getD []) = some w →
        (∃ v, callD E s.hp s.x k' p step = .ok v ∧ w = E.val m k' p v) ∨
          (E.isDt k' = true ∧ step = -(h : Int) ∧ s.x.step ≠ 0) := by
      intro k' w hw
      cases hl : lookup step (s.c m) with
      | none => rw [hl] at hw; simp [lookup] at hw
      | some inner => rw [hl] at hw; exact ci.valid m step inner k' w hl hw
    have ci1 := gen _ hold s.c ci
    unfold evaluate
    simp only
    split
    · exact ci1
    · split
      · exact ci1
      · next v hv =>
        refine gen _ ?_ _ ci1
        intro k' w hw
        rw [lookup_store] at hw
        split at hw
        · next e => subst e; cases hw; exact .inl ⟨v, hv, rfl⟩
        · exact hold k' w hw

theorem cinv_run (E : Env M κ W H V) (p : H) (ops : List (COp V M κ)) :
    ∀ {s : CState V M κ W} {h lo hi : Nat} {past : List (List V)},
    Tracks (s.hp, s.x) h lo hi past → CInv E p s h → allAllowedC E p ops s →
    CInv E p (ops.foldl (fun s o => o.run E p s) s) h ∧
    ∃ past', Tracks ((ops.foldl (fun s o => o.run E p s) s).hp,
      (ops.foldl (fun s o => o.run E p s) s).x) h lo hi past' := by
  induction ops with
  | nil => intro s h lo hi past t ci _; exact ⟨ci, past, t⟩
  | cons o os ih =>
    intro s h lo hi past t ci ha
    obtain ⟨ci', past', t'⟩ := cinv_step E p t ci o ha.1
    exact ih t' ci' ha.2

/-! ### C25 -/

/-- C25: after any allowed sequence of changes of the data, advances and evaluations, whenever the
evaluation without a cache gives a result, the evaluation with the cache gives the same one. -/
theorem C25_cached_is_fresh (E : Env M κ W H V) (p : H) (hp : Heap V) (x : Var) (h lo hi : Nat)
    (t : Tracks (hp, x) h lo hi []) (ops : List (COp V M κ))
    (ha : allAllowedC E p ops ⟨hp, x, fun _ => []⟩) (m : M) (step : Int) (k : κ) (w : W) :
    let s := ops.foldl (fun s o => o.run E p s) (⟨hp, x, fun _ => []⟩ : CState V M κ W)
    (evaluate E s.hp s.x (fun _ => []) m step k p).1 = .ok w →
    (evaluate E s.hp s.x s.c m step k p).1 = .ok w := by
  intro s hw
  obtain ⟨ci, past', t'⟩ : CInv E p s h ∧ ∃ past', Tracks (s.hp, s.x) h lo hi past' := cinv_run E p ops t
    ⟨fun m => by simp, fun m a ha => by simp [lookup] at ha,
     fun m a inner k w h1 => by simp [lookup] at h1, fun _ m a inner k w h1 => by simp [lookup] at h1⟩ ha
  unfold evaluate at hw
  simp only [lookup, Option.getD_none] at hw
  split at hw
  · cases hw
  · next v hv =>
    simp only at hw
    unfold evaluate
    simp only
    split
    · next w' hw' =>
      simp only
      cases hl : lookup step (s.c m) with
      | none => rw [hl] at hw'; simp [lookup] at hw'
      | some inner =>
        rw [hl] at hw'
        rcases ci.valid m step inner k w' hl hw' with ⟨v', hv', e⟩ | ⟨e1, e2, e3⟩
        · rw [hv] at hv'
          rw [e, ← Except.ok.inj hv']
          exact hw
        · exfalso
          obtain ⟨_, b, _, hb⟩ := callD_dt_prev E p e1 hv
          exact call_out t' (by rw [e2]; omega) e3 b hb
    · rw [hv]
      exact hw

/-! ### Findings -/

/-- An environment for the examples: the evaluation returns the DOF vector times the parameter, the key
`true` asks for the derivative. -/
def exEnv : Env Unit Bool (List Int) Int Int where
  val := fun _ _ p v => v.map (p * ·)
  diff := fun _ a b => List.zipWith (· - ·) a b
  isDt := id

/-- A variable with one DOF and the given history depth, set to `[1]`. -/
def exState (h : Nat) : CState Int Unit Bool (List Int) :=
  ⟨[[1]], ⟨some h, 1, some 0 :: List.replicate h none, 0, 1, 0, false⟩, fun _ => []⟩

/-- The state after some operations. -/
def exRun (h : Nat) (ops : List (COp Int Unit Bool)) : CState Int Unit Bool (List Int) :=
  ops.foldl (fun s o => o.run exEnv 1 s) (exState h)

/-- Cached and fresh evaluation of the step `step`. -/
def exBoth (s : CState Int Unit Bool (List Int)) (step : Int) (k : Bool) :
    Option (List Int) × Option (List Int) :=
  ((evaluate exEnv s.hp s.x s.c () step k 1).1.toOption,
   (evaluate exEnv s.hp s.x (fun _ => []) () step k 1).1.toOption)

/-- C25, a finding: gaps.  With the history depth 2, if the steps -2 and 0 but not -1 are evaluated in a
time step, then in the next time step the value for -2 is that of the previous time step: the
cached value is `[1]`, the right one `[2]`. -/
theorem C25_counterexample_gap :
    exBoth (exRun 2 [.hop (.advance 0), .hop (.write 0 [2]), .hop (.advance 1), .hop (.write 0 [3]),
      .evaluate () (-2) false, .evaluate () 0 false, .hop (.advance 2)]) (-2) false
    = (some [1], some [2]) := by
  rfl

/-- C25, a finding: in the time step 0 the value for `step=-1` is evaluated from the current vector, but
is not invalidated when the current vector changes: a nonlinear solver iterating in the
step 0 uses the value for the initial guess. -/
theorem C25_counterexample_step0 :
    exBoth (exRun 1 [.evaluate () (-1) false, .hop (.write 0 [2])]) (-1) false
    = (some [1], some [2]) := by
  rfl

/-- C25, a finding: the time derivative in the current step depends on the previous vector, too, but
is not invalidated by `set_data(..., step=-1)`. -/
theorem C25_counterexample_derivative :
    let s := exRun 1 [.hop (.advance 0), .hop (.write 0 [5]), .evaluate () 0 true,
      .hop (.newArray [4])]
    ∃ x', s.x.setData s.hp 2 (some (0, 1)) (-1) = .ok x' ∧
      exBoth ⟨s.hp, x', s.c.invalidate (-1)⟩ 0 true = (some [4], some [1]) := by
  refine ⟨_, rfl, rfl⟩

/-- C25, a finding: the time step and the base functions given to `evaluate` are not a part of the
cache key: the second evaluation with other ones returns the result of the first. -/
theorem C25_counterexample_arguments :
    let s := exRun 1 []
    let c := (evaluate exEnv s.hp s.x s.c () 0 false 10).2
    (evaluate exEnv s.hp s.x c () 0 false 7).1 = .ok [10] ∧
    (evaluate exEnv s.hp s.x (fun _ => []) () 0 false 7).1 = .ok [7] := by
  exact ⟨rfl, rfl⟩

/-! ### Non-vacuity -/

/-- A run with allowed operations: two time steps, evaluations of the current and the previous
vector. -/
example : allAllowedC exEnv 1 [.evaluate () 0 false, .hop (.advance 0), .evaluate () (-1) false,
    .evaluate () 0 true, .hop (.advance 1)] (exState 1) := by
  refine ⟨⟨by decide, fun _ => rfl⟩, ⟨trivial, ?_⟩, ⟨by decide, fun e => by cases e⟩,
    ⟨by decide, fun e => by cases e⟩, ⟨trivial, ?_⟩, trivial⟩
  · intro m s hs
    rw [lookup_ne_none] at hs
    have : s = 0 := by simpa [COp.run, evaluate, exState, store, lookup, exEnv, callD, Var.call,
      pyIndex] using hs
    subst this
    left
    intro t ht
    rw [lookup_ne_none] at ht
    have : t = 0 := by simpa [COp.run, evaluate, exState, store, lookup, exEnv, callD, Var.call,
      pyIndex] using ht
    omega
  · intro m s hs
    rw [lookup_ne_none] at hs
    have hs' : s ∈ ([-1, 0] : List Int) := hs
    simp only [List.mem_cons, List.not_mem_nil, or_false] at hs'
    rcases hs' with rfl | rfl
    · right
      rw [lookup_ne_none]
      show (0 : Int) ∈ ([-1, 0] : List Int)
      simp
    · left
      intro t ht
      rw [lookup_ne_none] at ht
      have ht' : t ∈ ([-1, 0] : List Int) := ht
      simp only [List.mem_cons, List.not_mem_nil, or_false] at ht'
      omega

end Verif.History
