/-
The sorting of the requirements.
-/
import Verif.Homog.Spec
import Mathlib.Data.List.Nodup
import Mathlib.Data.Finset.Card
import Mathlib.Data.Finset.Prod
import Mathlib.Data.Fintype.Basic
import Mathlib.Data.Fintype.Prod

namespace Verif.Homog

open Relation

section
variable {α : Type}

theorem Ordered.nil (reqs : Name α → Option (List (Name α))) : Ordered reqs [] :=
  ⟨List.nodup_nil, fun l1 n l2 h => by simp at h⟩

theorem Ordered.snoc {reqs : Name α → Option (List (Name α))} {L : List (Name α)} (h : Ordered reqs L) {n : Name α}
    (hn : n ∉ L) {rs : List (Name α)} (hr : reqs n = some rs) (hs : ∀ r ∈ rs, r ∈ L) : Ordered reqs (L ++ [n]) := by
  refine ⟨List.nodup_append.2 ⟨h.1, List.nodup_singleton _, fun a ha b hb => ?_⟩, fun l1 m l2 e => ?_⟩
  · rw [List.mem_singleton.1 hb]; rintro rfl; exact hn ha
  · rcases List.eq_nil_or_concat l2 with rfl | ⟨l, x, rfl⟩
    · have := List.append_inj' (e.trans rfl : L ++ [n] = l1 ++ [m]) rfl
      obtain ⟨rfl, e2⟩ := this
      simp at e2
      subst e2
      exact ⟨rs, hr, hs⟩
    · have e : L ++ [n] = (l1 ++ m :: l) ++ [x] := by rw [e]; simp
      obtain ⟨rfl, -⟩ := List.append_inj' e rfl
      exact h.2 l1 m l rfl

theorem Ordered.mem {reqs : Name α → Option (List (Name α))} {L : List (Name α)} (h : Ordered reqs L) {n : Name α}
    (hn : n ∈ L) : ∃ rs, reqs n = some rs ∧ ∀ r ∈ rs, r ∈ L := by
  obtain ⟨l1, l2, rfl⟩ := List.append_of_mem hn
  obtain ⟨rs, h1, h2⟩ := h.2 l1 n l2 rfl
  exact ⟨rs, h1, fun r hr => List.mem_append_left _ (h2 r hr)⟩

end

section
variable {α : Type} [DecidableEq α]

/-- Adding the missing names of another ordered list. -/
theorem Ordered.union {reqs : Name α → Option (List (Name α))} {L : List (Name α)} (h : Ordered reqs L) :
    ∀ {S : List (Name α)}, Ordered reqs S → Ordered reqs (L ++ S.filter fun i => i ∉ L) := by
  intro S
  induction S using List.reverseRecOn with
  | nil => intro _; simpa using h
  | append_singleton S n ih =>
    intro hS
    have hS' : Ordered reqs S := ⟨(List.nodup_append.1 hS.1).1, fun l1 m l2 e =>
      hS.2 l1 m (l2 ++ [n]) (by rw [e]; simp)⟩
    obtain ⟨rs, h1, h2⟩ := hS.2 S n [] (by simp)
    rw [List.filter_append, ← List.append_assoc]
    by_cases hn : n ∈ L
    · have : ([n].filter fun i => i ∉ L) = [] := by simp [hn]
      rw [this, List.append_nil]
      exact ih hS'
    · have : ([n].filter fun i => i ∉ L) = [n] := by simp [hn]
      rw [this]
      refine (ih hS').snoc ?_ h1 fun r hr => ?_
      · rw [List.mem_append, not_or]
        refine ⟨hn, fun hc => ?_⟩
        have := (List.nodup_append.1 hS.1).2.2 n (List.mem_of_mem_filter hc) n (by simp)
        exact this rfl
      · have := h2 r hr
        by_cases hr : r ∈ L
        · exact List.mem_append_left _ hr
        · exact List.mem_append_right _ (List.mem_filter.2 ⟨this, by simpa using hr⟩)

/-- One pass of the loop of `insert_sub_reqs()`. -/
def insStep (info : Info α) (f : ℕ) (levels : List (Name α)) (all : List (Name α)) (req : Name α) :
    Except Err (List (Name α)) :=
  match info req.2 with
  | none => .error .undefined
  | some sub =>
    if req ∈ levels then .error .circular
    else
      match (if sub ≠ [] then
          (insertSubReqs info f sub (levels ++ [req])).map fun s => all ++ s.filter fun i => i ∉ all
        else .ok all) with
      | .error e => .error e
      | .ok all => .ok (if req ∈ all then all else all ++ [req])

theorem insertSubReqs_succ (info : Info α) (f : ℕ) (reqs levels : List (Name α)) :
    insertSubReqs info (f + 1) reqs levels = reqs.foldlM (insStep info f levels) [] := rfl

theorem foldlM_ok {ε σ τ : Type} {F : σ → τ → Except ε σ} {P : List τ → σ → Prop} (l : List τ)
    (hstep : ∀ pre t st st', (∃ suf, l = pre ++ t :: suf) → P pre st → F st t = .ok st' → P (pre ++ [t]) st')
    {s s' : σ} (h0 : P [] s) (h : l.foldlM F s = .ok s') : P l s' := by
  suffices H : ∀ (suf pre : List τ) (s : σ), l = pre ++ suf → P pre s → suf.foldlM F s = .ok s' → P l s' from
    H l [] s rfl h0 h
  intro suf
  induction suf with
  | nil =>
    intro pre s e hp h
    rw [List.append_nil] at e
    rw [List.foldlM_nil] at h
    cases h
    rw [e]; exact hp
  | cons t suf ih =>
    intro pre s e hp h
    rw [List.foldlM_cons] at h
    cases hF : F s t with
    | error err => rw [hF] at h; cases h
    | ok st =>
      rw [hF] at h
      exact ih (pre ++ [t]) st (by rw [e]; simp) (hstep pre t s st ⟨suf, e⟩ hp hF) h

theorem foldlM_error {ε σ τ : Type} {F : σ → τ → Except ε σ} (l : List τ) {s : σ} {e : ε}
    (h : l.foldlM F s = .error e) : ∃ t ∈ l, ∃ st, F st t = .error e := by
  induction l generalizing s with
  | nil => cases h
  | cons t l ih =>
    rw [List.foldlM_cons] at h
    cases hF : F s t with
    | error err => rw [hF] at h; cases h; exact ⟨t, by simp, s, hF⟩
    | ok st =>
      rw [hF] at h
      obtain ⟨t', h1, st', h2⟩ := ih h
      exact ⟨t', List.mem_cons_of_mem _ h1, st', h2⟩

theorem reach_sub {info : Info α} {req : Name α} {sub : List (Name α)} (hs : info req.2 = some sub) (n : Name α) :
    ReflTransGen (Needs info) req n ↔ n = req ∨ Reach info sub n := by
  rw [ReflTransGen.cases_head_iff]
  constructor
  · rintro (h | ⟨q, ⟨rs, h1, h2⟩, h3⟩)
    · exact Or.inl h.symm
    · rw [hs] at h1; cases h1; exact Or.inr ⟨q, h2, h3⟩
  · rintro (rfl | ⟨q, h1, h2⟩)
    · exact Or.inl rfl
    · exact Or.inr ⟨q, ⟨sub, hs, h1⟩, h2⟩

/-- A successful `insert_sub_reqs()`. -/
theorem insertSubReqs_ok {info : Info α} : ∀ {f : ℕ} {reqs levels L : List (Name α)},
    insertSubReqs info f reqs levels = .ok L →
    Ordered (fun n => info n.2) L ∧ ∀ n, n ∈ L ↔ Reach info reqs n := by
  intro f
  induction f with
  | zero => intro reqs levels L h; cases h
  | succ f ih =>
    intro reqs levels L h
    rw [insertSubReqs_succ] at h
    refine foldlM_ok (P := fun pre all => Ordered (fun n => info n.2) all ∧ ∀ n, n ∈ all ↔ Reach info pre n) reqs ?_
      ⟨Ordered.nil _, fun n => ?_⟩ h
    · rintro pre req all st' - ⟨ho, hm⟩ hF
      have hreach : ∀ n, Reach info (pre ++ [req]) n ↔ n ∈ all ∨ ReflTransGen (Needs info) req n := by
        intro n
        rw [hm n]
        constructor
        · rintro ⟨q, hq, h⟩
          rcases List.mem_append.1 hq with hq | hq
          · exact Or.inl ⟨q, hq, h⟩
          · rw [List.mem_singleton.1 hq] at h; exact Or.inr h
        · rintro (⟨q, hq, h⟩ | h)
          · exact ⟨q, List.mem_append_left _ hq, h⟩
          · exact ⟨req, by simp, h⟩
      unfold insStep at hF
      cases hs : info req.2 with
      | none => rw [hs] at hF; cases hF
      | some sub =>
        rw [hs] at hF
        simp only at hF
        by_cases hl : req ∈ levels
        · rw [if_pos hl] at hF; cases hF
        · rw [if_neg hl] at hF
          -- the list with the sub-requirements
          obtain ⟨all', ha, ho', hm'⟩ : ∃ all', (if sub ≠ [] then
              (insertSubReqs info f sub (levels ++ [req])).map fun s => all ++ s.filter fun i => i ∉ all
              else .ok all) = .ok all' ∧ Ordered (fun n => info n.2) all' ∧
              ∀ n, n ∈ all' ↔ n ∈ all ∨ Reach info sub n := by
            by_cases hsub : sub = []
            · subst hsub
              refine ⟨all, by simp, ho, fun n => ?_⟩
              constructor
              · exact Or.inl
              · rintro (h | ⟨q, hq, -⟩)
                · exact h
                · simp at hq
            · rw [if_pos hsub] at hF ⊢
              cases hI : insertSubReqs info f sub (levels ++ [req]) with
              | error e => rw [hI] at hF; cases hF
              | ok s =>
                obtain ⟨o1, o2⟩ := ih hI
                refine ⟨_, rfl, ho.union o1, fun n => ?_⟩
                rw [List.mem_append, List.mem_filter, o2 n]
                constructor
                · rintro (h | ⟨h, -⟩)
                  exacts [Or.inl h, Or.inr h]
                · rintro (h | h)
                  · exact Or.inl h
                  · by_cases hn : n ∈ all
                    · exact Or.inl hn
                    · exact Or.inr ⟨h, by simpa using hn⟩
          rw [ha] at hF
          simp only [Except.ok.injEq] at hF
          subst hF
          have hsubmem : ∀ r ∈ sub, r ∈ all' := fun r hr => (hm' r).2 (Or.inr ⟨r, hr, ReflTransGen.refl⟩)
          split_ifs with hin
          · refine ⟨ho', fun n => ?_⟩
            rw [hreach, reach_sub hs, hm']
            constructor
            · rintro (h | h)
              exacts [Or.inl h, Or.inr (Or.inr h)]
            · rintro (h | rfl | h)
              exacts [Or.inl h, (hm' _).1 hin, Or.inr h]
          · refine ⟨ho'.snoc hin hs hsubmem, fun n => ?_⟩
            rw [hreach, reach_sub hs, List.mem_append, hm', List.mem_singleton]
            tauto
    · simp [Reach]

/-- A failed `insert_sub_reqs()`. -/
theorem insertSubReqs_error {info : Info α} : ∀ {f : ℕ} {reqs levels : List (Name α)} {e : Err},
    (∀ l ∈ levels, ∀ q ∈ reqs, TransGen (Needs info) l q) → insertSubReqs info f reqs levels = .error e →
    (e = .undefined ∧ ∃ n, Reach info reqs n ∧ info n.2 = none) ∨
      (e = .circular ∧ ∃ n, Reach info reqs n ∧ TransGen (Needs info) n n) ∨ e = .fuel := by
  intro f
  induction f with
  | zero => intro reqs levels e _ h; cases h; exact Or.inr (Or.inr rfl)
  | succ f ih =>
    intro reqs levels e hl h
    rw [insertSubReqs_succ] at h
    obtain ⟨req, hreq, all, hF⟩ := foldlM_error _ h
    unfold insStep at hF
    cases hs : info req.2 with
    | none => rw [hs] at hF; cases hF; exact Or.inl ⟨rfl, req, ⟨req, hreq, ReflTransGen.refl⟩, hs⟩
    | some sub =>
      rw [hs] at hF
      simp only at hF
      by_cases hlv : req ∈ levels
      · rw [if_pos hlv] at hF; cases hF
        exact Or.inr (Or.inl ⟨rfl, req, ⟨req, hreq, ReflTransGen.refl⟩, hl req hlv req hreq⟩)
      · rw [if_neg hlv] at hF
        by_cases hsub : sub = []
        · subst hsub; simp at hF
        · rw [if_pos hsub] at hF
          cases hI : insertSubReqs info f sub (levels ++ [req]) with
          | ok s => rw [hI] at hF; cases hF
          | error e' =>
            rw [hI] at hF
            cases hF
            have := ih (fun l hl' q hq => ?_) hI
            · have up : ∀ n, Reach info sub n → Reach info reqs n := fun n hn =>
                ⟨req, hreq, (reach_sub hs n).2 (Or.inr hn)⟩
              rcases this with ⟨h1, n, h2, h3⟩ | ⟨h1, n, h2, h3⟩ | h
              · exact Or.inl ⟨h1, n, up n h2, h3⟩
              · exact Or.inr (Or.inl ⟨h1, n, up n h2, h3⟩)
              · exact Or.inr (Or.inr h)
            · have hn : TransGen (Needs info) req q := TransGen.single ⟨sub, hs, hq⟩
              rcases List.mem_append.1 hl' with hl' | hl'
              · exact (hl l hl' req hreq).trans hn
              · rw [List.mem_singleton.1 hl']; exact hn

/-- The recursion depth is bounded by the number of the definitions. -/
theorem insertSubReqs_fuel {info : Info α} (dom : Finset α) (hdom : ∀ a, info a ≠ none → a ∈ dom) :
    ∀ {f : ℕ} {reqs levels : List (Name α)}, levels.Nodup → (∀ l ∈ levels, l.2 ∈ dom) →
    2 * dom.card + 1 ≤ f + levels.length → insertSubReqs info f reqs levels ≠ .error .fuel := by
  have hlen : ∀ levels : List (Name α), levels.Nodup → (∀ l ∈ levels, l.2 ∈ dom) → levels.length ≤ 2 * dom.card := by
    intro levels hn hl
    rw [← List.toFinset_card_of_nodup hn]
    have : levels.toFinset ⊆ (Finset.univ : Finset Bool) ×ˢ dom := fun x hx => by
      rw [Finset.mem_product]
      exact ⟨Finset.mem_univ _, hl x (List.mem_toFinset.1 hx)⟩
    have := Finset.card_le_card this
    rw [Finset.card_product] at this
    simpa using this
  intro f
  induction f with
  | zero =>
    intro reqs levels hn hl hf
    have := hlen levels hn hl
    omega
  | succ f ih =>
    intro reqs levels hn hl hf h
    rw [insertSubReqs_succ] at h
    obtain ⟨req, hreq, all, hF⟩ := foldlM_error _ h
    unfold insStep at hF
    cases hs : info req.2 with
    | none => rw [hs] at hF; cases hF
    | some sub =>
      rw [hs] at hF
      simp only at hF
      by_cases hlv : req ∈ levels
      · rw [if_pos hlv] at hF; cases hF
      · rw [if_neg hlv] at hF
        by_cases hsub : sub = []
        · subst hsub; simp at hF
        · rw [if_pos hsub] at hF
          cases hI : insertSubReqs info f sub (levels ++ [req]) with
          | ok s => rw [hI] at hF; cases hF
          | error e' =>
            rw [hI] at hF
            cases hF
            refine ih (reqs := sub) (levels := levels ++ [req]) ?_ ?_ ?_ hI
            · rw [List.nodup_append]
              refine ⟨hn, List.nodup_singleton _, fun a ha b hb => ?_⟩
              rw [List.mem_singleton.1 hb]; rintro rfl; exact hlv ha
            · intro l hl'
              rcases List.mem_append.1 hl' with hl' | hl'
              · exact hl l hl'
              · rw [List.mem_singleton.1 hl']; exact hdom _ (by rw [hs]; simp)
            · simp; omega

/-- There are no cycles in an ordered list. -/
theorem Ordered.acyclic {info : Info α} {L : List (Name α)} (h : Ordered (fun n => info n.2) L) {n m : Name α}
    (hn : n ∈ L) (hm : TransGen (Needs info) n m) : L.idxOf m < L.idxOf n := by
  have step : ∀ n ∈ L, ∀ m, Needs info n m → m ∈ L ∧ L.idxOf m < L.idxOf n := by
    intro n hn m hm
    obtain ⟨rs, h1, h2⟩ := hm
    obtain ⟨l1, l2, rfl⟩ := List.append_of_mem hn
    obtain ⟨rs', h3, h4⟩ := h.2 l1 n l2 rfl
    have h3 : info n.2 = some rs' := h3
    have : rs = rs' := by rw [h1] at h3; exact Option.some.inj h3
    subst this
    have hm := h4 m h2
    refine ⟨List.mem_append_left _ hm, ?_⟩
    have hn1 : n ∉ l1 := fun hc => (List.nodup_append.1 h.1).2.2 n hc n (by simp) rfl
    rw [List.idxOf_append_of_mem hm, List.idxOf_append_of_notMem hn1]
    have := List.idxOf_lt_length_of_mem hm
    omega
  have key : m ∈ L ∧ L.idxOf m < L.idxOf n := by
    induction hm with
    | single h => exact step n hn _ h
    | tail _ h ih =>
      obtain ⟨i1, i2⟩ := ih
      obtain ⟨j1, j2⟩ := step _ i1 _ h
      exact ⟨j1, by omega⟩
  exact key.2

/-! ### The sorted dependencies -/

/-- The names in the definitions are of the right kind: no name is both a requirement and a coefficient, the
coefficients are required with the prefix `'c.'` and the requirements without it. -/
structure WellNamed (reqInfo coefInfo : Info α) : Prop where
  disjoint : ∀ a, reqInfo a = none ∨ coefInfo a = none
  kind : ∀ a rs, (reqInfo a = some rs ∨ coefInfo a = some rs) → ∀ n ∈ rs,
    (n.1 = true → reqInfo n.2 = none) ∧ (n.1 = false → coefInfo n.2 = none)

theorem merged_coef {reqInfo coefInfo : Info α} (hd : ∀ a, reqInfo a = none ∨ coefInfo a = none) {a : α}
    {rs : List (Name α)} (h : coefInfo a = some rs) : merged reqInfo coefInfo a = some rs := by
  rcases hd a with h' | h'
  · rw [merged, h']; exact h
  · rw [h] at h'; cases h'

theorem merged_some {reqInfo coefInfo : Info α} {a : α} {rs : List (Name α)} (h : merged reqInfo coefInfo a = some rs) :
    reqInfo a = some rs ∨ coefInfo a = some rs := by
  rw [merged] at h
  cases hr : reqInfo a with
  | some r => rw [hr] at h; exact Or.inl h
  | none => rw [hr] at h; exact Or.inr h

theorem WellNamed.requires {reqInfo coefInfo : Info α} (h : WellNamed reqInfo coefInfo) {n : Name α}
    (h1 : n.1 = true → reqInfo n.2 = none) (h2 : n.1 = false → coefInfo n.2 = none) :
    requires reqInfo coefInfo n = merged reqInfo coefInfo n.2 := by
  rcases n with ⟨_ | _, a⟩
  · have := h2 rfl
    simp only [Verif.Homog.requires, merged] at this ⊢
    cases hr : reqInfo a with
    | some r => rfl
    | none => simp [this]
  · have := h1 rfl
    simp only [Verif.Homog.requires, merged] at this ⊢
    rw [this]; rfl

theorem foldl_add (S : List (Name α)) (hS : S.Nodup) (L : List (Name α)) :
    S.foldl (fun names dep => if dep ∈ names then names else names ++ [dep]) L = L ++ S.filter fun i => i ∉ L := by
  induction S using List.reverseRecOn with
  | nil => simp
  | append_singleton S n ih =>
    have hn := List.nodup_append.1 hS
    rw [List.foldl_append, ih hn.1, List.filter_append, ← List.append_assoc]
    have hnS : n ∉ S := fun hc => hn.2.2 n hc n (by simp) rfl
    by_cases h : n ∈ L
    · simp [h]
    · simp [h, hnS]

/-- One coefficient in the sorting. -/
def sortStep (fuel : ℕ) (reqInfo coefInfo : Info α) (names : List (Name α)) (a : α) : Except Err (List (Name α)) :=
  match coefInfo a with
  | none => .error .key
  | some requires =>
    match insertSubReqs (merged reqInfo coefInfo) fuel requires [] with
    | .error e => .error e
    | .ok deps => .ok ((deps ++ [(true, a)]).foldl (fun names dep => if dep ∈ names then names else names ++ [dep])
        names)

theorem sortedDeps_ok {fuel : ℕ} {reqInfo coefInfo : Info α} {names : List α} {L : List (Name α)}
    (hd : ∀ a, reqInfo a = none ∨ coefInfo a = none) (h : sortedDeps fuel reqInfo coefInfo names = .ok L) :
    Ordered (fun n => merged reqInfo coefInfo n.2) L ∧
      ∀ n, n ∈ L ↔ Reach (merged reqInfo coefInfo) (names.map fun a => (true, a)) n := by
  change names.foldlM (sortStep fuel reqInfo coefInfo) [] = .ok L at h
  refine foldlM_ok (P := fun pre all => Ordered (fun n => merged reqInfo coefInfo n.2) all ∧
    ∀ n, n ∈ all ↔ Reach (merged reqInfo coefInfo) (pre.map fun a => (true, a)) n) names ?_
    ⟨Ordered.nil _, fun n => by simp [Reach]⟩ h
  rintro pre a all st' - ⟨ho, hm⟩ hF
  unfold sortStep at hF
  cases hc : coefInfo a with
  | none => rw [hc] at hF; cases hF
  | some rs =>
    rw [hc] at hF
    simp only at hF
    cases hI : insertSubReqs (merged reqInfo coefInfo) fuel rs [] with
    | error e => rw [hI] at hF; cases hF
    | ok deps =>
      rw [hI] at hF
      simp only [Except.ok.injEq] at hF
      obtain ⟨o1, o2⟩ := insertSubReqs_ok hI
      have hma := merged_coef hd hc
      have hna : ((true, a) : Name α) ∉ deps := fun hin => by
        obtain ⟨q, hq, hr⟩ := (o2 _).1 hin
        have : TransGen (Needs (merged reqInfo coefInfo)) (true, a) (true, a) := TransGen.head' ⟨rs, hma, hq⟩ hr
        exact absurd (o1.acyclic hin this) (lt_irrefl _)
      have o3 : Ordered (fun n => merged reqInfo coefInfo n.2) (deps ++ [(true, a)]) :=
        o1.snoc hna hma fun r hr => (o2 r).2 ⟨r, hr, ReflTransGen.refl⟩
      rw [foldl_add _ o3.1] at hF
      subst hF
      refine ⟨ho.union o3, fun n => ?_⟩
      rw [List.mem_append, List.mem_filter]
      have hsplit : Reach (merged reqInfo coefInfo) ((pre ++ [a]).map fun a => (true, a)) n ↔
          n ∈ all ∨ n ∈ deps ++ [(true, a)] := by
        rw [hm n, List.mem_append, o2 n, List.mem_singleton, or_comm (b := n = (true, a)),
          ← reach_sub (req := (true, a)) hma n]
        constructor
        · rintro ⟨q, hq, h⟩
          rw [List.map_append, List.mem_append] at hq
          rcases hq with hq | hq
          · exact Or.inl ⟨q, hq, h⟩
          · rw [List.map_singleton, List.mem_singleton] at hq
            rw [hq] at h; exact Or.inr h
        · rintro (⟨q, hq, h⟩ | h)
          · exact ⟨q, by rw [List.map_append]; exact List.mem_append_left _ hq, h⟩
          · exact ⟨(true, a), by simp, h⟩
      rw [hsplit]
      constructor
      · rintro (h | ⟨h, -⟩)
        exacts [Or.inl h, Or.inr h]
      · rintro (h | h)
        · exact Or.inl h
        · by_cases hn : n ∈ all
          · exact Or.inl hn
          · exact Or.inr ⟨h, by simpa using hn⟩

/-- **C58**: the names computed by the homogenization engine are the wanted coefficients with all their direct and
indirect requirements, each once and after everything it requires. -/
theorem C58_sorted (fuel : ℕ) (reqInfo coefInfo : Info α) (names : List α) (L : List (Name α))
    (hw : WellNamed reqInfo coefInfo) (h : sortedDeps fuel reqInfo coefInfo names = .ok L) :
    Ordered (requires reqInfo coefInfo) L ∧
      ∀ n, n ∈ L ↔ Reach (merged reqInfo coefInfo) (names.map fun a => (true, a)) n := by
  obtain ⟨h1, h2⟩ := sortedDeps_ok hw.disjoint h
  refine ⟨⟨h1.1, fun l1 n l2 e => ?_⟩, h2⟩
  obtain ⟨rs, h3, h4⟩ := h1.2 l1 n l2 e
  refine ⟨rs, ?_, h4⟩
  have hn : n ∈ L := by rw [e]; simp
  rw [hw.requires ?_ ?_]
  · exact h3
  · intro hk
    obtain ⟨q, hq, hr⟩ := (h2 n).1 hn
    rcases ReflTransGen.cases_tail hr with rfl | ⟨p, -, rs', hp, hmem⟩
    · obtain ⟨a, ha, rfl⟩ := List.mem_map.1 hq
      rcases hw.disjoint a with h' | h'
      · exact h'
      · -- the wanted names are coefficients
        exfalso
        have hF : ∀ b ∈ names, coefInfo b ≠ none := by
          refine foldlM_ok (F := sortStep fuel reqInfo coefInfo) (P := fun pre _ => ∀ b ∈ pre, coefInfo b ≠ none) names ?_
            (by simp) h
          rintro pre t st st' - hp hF b hb
          rcases List.mem_append.1 hb with hb | hb
          · exact hp b hb
          · rw [List.mem_singleton.1 hb]
            intro hc
            rw [sortStep, hc] at hF
            cases hF
        exact hF a ha h'
    · exact ((hw.kind p.2 rs' (merged_some hp)) n hmem).1 hk
  · intro hk
    obtain ⟨q, hq, hr⟩ := (h2 n).1 hn
    rcases ReflTransGen.cases_tail hr with rfl | ⟨p, -, rs', hp, hmem⟩
    · obtain ⟨a, ha, rfl⟩ := List.mem_map.1 hq
      cases hk
    · exact ((hw.kind p.2 rs' (merged_some hp)) n hmem).2 hk

/-- **C58**: the sorting succeeds if and only if all the names needed are defined and no name needed requires itself,
directly or not; a missing definition and a cycle are reported as such. -/
theorem C58_sorted_iff (fuel : ℕ) (reqInfo coefInfo : Info α) (names : List α) (dom : Finset α)
    (hdom : ∀ a, merged reqInfo coefInfo a ≠ none → a ∈ dom) (hfuel : 2 * dom.card + 1 ≤ fuel)
    (hd : ∀ a, reqInfo a = none ∨ coefInfo a = none) (hnames : ∀ a ∈ names, coefInfo a ≠ none) :
    ((∃ L, sortedDeps fuel reqInfo coefInfo names = .ok L) ↔
      (∀ n, Reach (merged reqInfo coefInfo) (names.map fun a => (true, a)) n → merged reqInfo coefInfo n.2 ≠ none) ∧
      ∀ n, Reach (merged reqInfo coefInfo) (names.map fun a => (true, a)) n →
        ¬ TransGen (Needs (merged reqInfo coefInfo)) n n) ∧
    (sortedDeps fuel reqInfo coefInfo names = .error .undefined →
      ∃ n, Reach (merged reqInfo coefInfo) (names.map fun a => (true, a)) n ∧ merged reqInfo coefInfo n.2 = none) ∧
    (sortedDeps fuel reqInfo coefInfo names = .error .circular →
      ∃ n, Reach (merged reqInfo coefInfo) (names.map fun a => (true, a)) n ∧
        TransGen (Needs (merged reqInfo coefInfo)) n n) := by
  have herr : ∀ e, sortedDeps fuel reqInfo coefInfo names = .error e →
      (e = .undefined ∧ ∃ n, Reach (merged reqInfo coefInfo) (names.map fun a => (true, a)) n ∧
        merged reqInfo coefInfo n.2 = none) ∨
      (e = .circular ∧ ∃ n, Reach (merged reqInfo coefInfo) (names.map fun a => (true, a)) n ∧
        TransGen (Needs (merged reqInfo coefInfo)) n n) := by
    intro e h
    obtain ⟨a, ha, st, hF⟩ := foldlM_error (F := sortStep fuel reqInfo coefInfo) names h
    unfold sortStep at hF
    cases hc : coefInfo a with
    | none => exact absurd hc (hnames a ha)
    | some rs =>
      rw [hc] at hF
      simp only at hF
      cases hI : insertSubReqs (merged reqInfo coefInfo) fuel rs [] with
      | ok s => rw [hI] at hF; cases hF
      | error e' =>
        rw [hI] at hF
        cases hF
        have up : ∀ n, Reach (merged reqInfo coefInfo) rs n →
            Reach (merged reqInfo coefInfo) (names.map fun a => (true, a)) n := fun n hn =>
          ⟨(true, a), List.mem_map.2 ⟨a, ha, rfl⟩, (reach_sub (req := (true, a)) (merged_coef hd hc) n).2 (Or.inr hn)⟩
        rcases insertSubReqs_error (by simp) hI with ⟨h1, n, h2, h3⟩ | ⟨h1, n, h2, h3⟩ | h1
        · exact Or.inl ⟨h1, n, up n h2, h3⟩
        · exact Or.inr ⟨h1, n, up n h2, h3⟩
        · subst h1
          exact absurd hI (insertSubReqs_fuel dom hdom List.nodup_nil (by simp) (by simpa using hfuel))
  refine ⟨⟨?_, ?_⟩, fun h => ?_, fun h => ?_⟩
  · rintro ⟨L, h⟩
    obtain ⟨h1, h2⟩ := sortedDeps_ok hd h
    refine ⟨fun n hn => ?_, fun n hn hc => ?_⟩
    · obtain ⟨rs, h3, -⟩ := h1.mem ((h2 n).2 hn)
      rw [h3]; simp
    · exact absurd (h1.acyclic ((h2 n).2 hn) hc) (lt_irrefl _)
  · rintro ⟨h1, h2⟩
    cases h : sortedDeps fuel reqInfo coefInfo names with
    | ok L => exact ⟨L, rfl⟩
    | error e =>
      rcases herr e h with ⟨-, n, h3, h4⟩ | ⟨-, n, h3, h4⟩
      · exact absurd h4 (h1 n h3)
      · exact absurd h4 (h2 n h3)
  · rcases herr _ h with ⟨-, h⟩ | ⟨h, -⟩
    · exact h
    · cases h
  · rcases herr _ h with ⟨h, -⟩ | ⟨-, h⟩
    · cases h
    · exact h

end

end Verif.Homog
