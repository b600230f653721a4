/-
C59: the blocks of equations and their order.
-/
import Verif.Base.ResolveSpec
import Mathlib.Data.List.Perm.Basic
import Mathlib.Data.List.Dedup
import Mathlib.Tactic

namespace Verif.Base

open Relation

variable {α : Type} [LinearOrder α]

theorem mem_combinations {n : ℕ} : ∀ {l s : List α}, s ∈ combinations n l ↔ s.Sublist l ∧ s.length = n := by
  induction n with
  | zero =>
    intro l s
    simp only [combinations, List.mem_singleton, List.length_eq_zero_iff]
    constructor
    · rintro rfl; simp
    · exact fun h => h.2
  | succ n ih =>
    intro l
    induction l with
    | nil =>
      intro s
      simp only [combinations, List.not_mem_nil, List.sublist_nil, false_iff]
      rintro ⟨rfl, h⟩; simp at h
    | cons a l ihl =>
      intro s
      simp only [combinations, List.mem_append, List.mem_map, ihl]
      constructor
      · rintro (⟨t, ht, rfl⟩ | ⟨h1, h2⟩)
        · obtain ⟨h1, h2⟩ := ih.1 ht
          exact ⟨h1.cons_cons a, by simp [h2]⟩
        · exact ⟨h1.cons a, h2⟩
      · rintro ⟨h1, h2⟩
        cases h1 with
        | cons _ h => exact Or.inr ⟨h, h2⟩
        | cons_cons _ h =>
          rename_i t
          exact Or.inl ⟨t, ih.2 ⟨h, by simpa using h2⟩, rfl⟩

theorem removeKnown_eq (known : List α) : ∀ deps : Deps α, removeKnown deps known =
    (deps.filter fun p => p.1 ∉ known).map fun p => (p.1, p.2.filter fun ii => ii ∉ known) := by
  induction known with
  | nil => intro deps; simp [removeKnown]
  | cons k known ih =>
    intro deps
    show removeKnown (removeOne deps k) known = _
    rw [ih, removeOne, List.filter_map, List.map_map, List.filter_filter]
    congr 1
    · funext p
      simp only [Function.comp, List.filter_filter, Prod.mk.injEq, true_and]
      congr 1; funext x; simp [Bool.and_comm]
    · congr 1; funext x; simp [Bool.and_comm]

theorem mem_removeKnown {deps : Deps α} {known : List α} {a : α} {v : List α} :
    (a, v) ∈ removeKnown deps known ↔ a ∉ known ∧ ∃ w, (a, w) ∈ deps ∧ v = w.filter fun ii => ii ∉ known := by
  rw [removeKnown_eq, List.mem_map]
  constructor
  · rintro ⟨⟨b, w⟩, h, e⟩
    obtain ⟨h1, h2⟩ := List.mem_filter.1 h
    simp only [Prod.mk.injEq] at e
    obtain ⟨rfl, rfl⟩ := e
    exact ⟨by simpa using h2, w, h1, rfl⟩
  · rintro ⟨h1, w, h2, rfl⟩
    exact ⟨(a, w), List.mem_filter.2 ⟨h2, by simpa using h1⟩, rfl⟩

theorem keys_removeKnown (deps : Deps α) (known : List α) :
    (removeKnown deps known).map Prod.fst = (deps.map Prod.fst).filter fun a => a ∉ known := by
  rw [removeKnown_eq, List.map_map, List.filter_map]
  rfl

theorem uses_removeKnown {deps : Deps α} {known : List α} {a p : α} :
    Uses (removeKnown deps known) a p ↔ Uses deps a p ∧ a ∉ known ∧ p ∉ known := by
  constructor
  · rintro ⟨v, h1, h2⟩
    obtain ⟨h3, w, h4, rfl⟩ := mem_removeKnown.1 h1
    obtain ⟨h5, h6⟩ := List.mem_filter.1 h2
    exact ⟨⟨w, h4, h5⟩, h3, by simpa using h6⟩
  · rintro ⟨⟨w, h1, h2⟩, h3, h4⟩
    exact ⟨_, mem_removeKnown.2 ⟨h3, w, h1, rfl⟩, List.mem_filter.2 ⟨h2, by simpa using h4⟩⟩

theorem mem_lookup {deps : Deps α} (hk : (deps.map Prod.fst).Nodup) {a p : α} :
    p ∈ lookup deps a ↔ Uses deps a p := by
  unfold lookup
  cases h : deps.find? fun q => q.1 = a with
  | none =>
    simp only [Option.map_none, Option.getD_none, List.not_mem_nil, false_iff]
    rintro ⟨v, h1, -⟩
    have := List.find?_eq_none.1 h _ h1
    simp at this
  | some q =>
    have h1 := List.mem_of_find?_eq_some h
    have h2 : q.1 = a := by simpa using List.find?_some h
    simp only [Option.map_some, Option.getD_some]
    constructor
    · intro hp
      exact ⟨q.2, by rw [← h2]; exact h1, hp⟩
    · rintro ⟨v, h3, h4⟩
      have : (a, v) = q := List.inj_on_of_nodup_map hk h3 h1 h2.symm
      rw [← this]; exact h4

theorem solvable_iff {deps : Deps α} (hk : (deps.map Prod.fst).Nodup) {s : List α} :
    solvable deps s = true ↔ s ≠ [] ∧ (∀ a ∈ s, ∀ p, Uses deps a p → p ∈ s) ∧ ∀ p ∈ s, ∃ a ∈ s, Uses deps a p := by
  unfold solvable
  split_ifs with h
  · simp [h]
  · simp only [decide_eq_true_eq, List.mem_flatMap, mem_lookup hk, ne_eq, h, not_false_eq_true, true_and]
    constructor
    · rintro ⟨h1, h2⟩
      exact ⟨fun a ha p hp => h1 p ⟨a, ha, hp⟩, h2⟩
    · rintro ⟨h1, h2⟩
      exact ⟨fun p ⟨a, ha, hp⟩ => h1 a ha p hp, h2⟩

theorem mem_tryBlock {deps : Deps α} {n : ℕ} {b : List α} (h : b ∈ tryBlock deps n) :
    ∃ s, s.Sublist (deps.map Prod.fst) ∧ s.length = n ∧ solvable deps s = true ∧ b = s.insertionSort (· ≤ ·) := by
  obtain ⟨s, h1, rfl⟩ := List.mem_map.1 h
  obtain ⟨h2, h3⟩ := List.mem_filter.1 h1
  obtain ⟨h4, h5⟩ := mem_combinations.1 h2
  exact ⟨s, h4, h5, h3, rfl⟩

theorem mem_isort {s : List α} {a : α} : a ∈ s.insertionSort (· ≤ ·) ↔ a ∈ s := (List.perm_insertionSort _ s).mem_iff

/-! ### The order is always correct -/

/-- Each block uses only its own names and the names of the earlier blocks. -/
def Sound (deps : Deps α) (order : List (List α)) : Prop :=
  ∀ l1 b l2, order = l1 ++ b :: l2 → ∀ a ∈ b, a ∈ deps.map Prod.fst ∧ ∀ p, Uses deps a p → p ∈ b ∨ p ∈ l1.flatten

theorem Sound.nil (deps : Deps α) : Sound deps [] := by
  intro l1 b l2 h; simp at h

theorem Sound.append {deps : Deps α} {O R : List (List α)} {b : List α} (h : Sound deps O)
    (hk : ∀ a ∈ b, a ∈ deps.map Prod.fst) (hb : ∀ a ∈ b, ∀ p, Uses deps a p → p ∈ b)
    (hR : Sound (removeKnown deps b) R) : Sound deps (O ++ ([b] ++ R)) := by
  intro l1 c l2 e a ha
  rcases List.append_eq_append_iff.1 e with ⟨t, e1, e2⟩ | ⟨t, e1, e2⟩
  · cases t with
    | nil =>
      simp only [List.nil_append, List.singleton_append, List.cons.injEq] at e2
      obtain ⟨rfl, -⟩ := e2
      exact ⟨hk a ha, fun p hp => Or.inl (hb a ha p hp)⟩
    | cons t0 t =>
      simp only [List.singleton_append, List.cons_append, List.cons.injEq] at e2
      obtain ⟨rfl, e2⟩ := e2
      obtain ⟨h1, h2⟩ := hR t c l2 e2 a ha
      rw [keys_removeKnown, List.mem_filter] at h1
      refine ⟨h1.1, fun p hp => ?_⟩
      by_cases hpb : p ∈ b
      · right; subst e1; simp [hpb]
      · rcases h2 p (uses_removeKnown.2 ⟨hp, by simpa using h1.2, hpb⟩) with h3 | h3
        · exact Or.inl h3
        · right; subst e1; simp only [List.flatten_append, List.flatten_cons, List.mem_append]; tauto
  · cases t with
    | nil =>
      simp only [List.nil_append, List.singleton_append, List.cons.injEq] at e2
      obtain ⟨rfl, -⟩ := e2
      exact ⟨hk a ha, fun p hp => Or.inl (hb a ha p hp)⟩
    | cons t0 t =>
      simp only [List.cons_append, List.cons.injEq] at e2
      obtain ⟨rfl, -⟩ := e2
      exact h l1 c t e1 a ha

theorem resolveLoop_sound {rec : Deps α → List (List α)} {deps : Deps α} (hk : (deps.map Prod.fst).Nodup)
    (hrec : ∀ known, Sound (removeKnown deps known) (rec (removeKnown deps known))) : ∀ (l : List ℕ) (O : List (List α)),
    Sound deps O → Sound deps (resolveLoop rec deps l O) := by
  intro l
  induction l with
  | nil => intro O h; exact h
  | cons ib l ih =>
    intro O h
    rw [resolveLoop]
    have hO : Sound deps (match tryBlock deps ib with
      | [] => O
      | block :: _ => O ++ ([block] ++ rec (removeKnown deps block))) := by
      cases ht : tryBlock deps ib with
      | nil => exact h
      | cons b t =>
        obtain ⟨s, h1, h2, h3, h4⟩ := mem_tryBlock (deps := deps) (b := b) (n := ib) (by rw [ht]; simp)
        obtain ⟨-, h5, -⟩ := (solvable_iff hk).1 h3
        refine h.append ?_ ?_ (hrec b)
        · intro a ha
          rw [h4, mem_isort] at ha
          exact h1.subset ha
        · intro a ha p hp
          rw [h4, mem_isort] at ha ⊢
          exact h5 a ha p hp
    split_ifs
    · exact hO
    · exact ih _ hO

theorem nodup_removeKnown {deps : Deps α} (hk : (deps.map Prod.fst).Nodup) (known : List α) :
    ((removeKnown deps known).map Prod.fst).Nodup := by
  rw [keys_removeKnown]; exact hk.filter _

theorem resolveAux_sound : ∀ (f : ℕ) (deps : Deps α), (deps.map Prod.fst).Nodup → Sound deps (resolveAux f deps) := by
  intro f
  induction f with
  | zero => intro deps _; exact Sound.nil deps
  | succ f ih =>
    intro deps hk
    rw [resolveAux]
    cases (getNums deps).min? with
    | none => exact Sound.nil deps
    | some ib0 => exact resolveLoop_sound hk (fun known => ih _ (nodup_removeKnown hk known)) _ _ (Sound.nil deps)

/-- **C59**: for any dependencies the blocks can be solved in the given order: a block needs only its own names and the
names of the earlier blocks. -/
theorem C59_order (deps : Deps α) (hk : (deps.map Prod.fst).Nodup) (l1 : List (List α)) (b : List α)
    (l2 : List (List α)) (h : resolve deps = l1 ++ b :: l2) (a : α) (ha : a ∈ b) :
    a ∈ deps.map Prod.fst ∧ ∀ p, Uses deps a p → p ∈ b ∨ p ∈ l1.flatten :=
  resolveAux_sound _ deps hk l1 b l2 h a ha

/-! ### Correct dependencies -/

theorem closed_reach {deps : Deps α} {s : List α} (hs : ∀ a ∈ s, ∀ p, Uses deps a p → p ∈ s) {a b : α}
    (h : ReflTransGen (Uses deps) a b) (ha : a ∈ s) : b ∈ s := by
  induction h with
  | refl => exact ha
  | tail _ h ih => exact hs _ ih _ h

/-- A closed set of names on cycles is solvable. -/
theorem Good.solvable {deps : Deps α} (g : Good deps) {s : List α} (hne : s ≠ []) (hk : ∀ a ∈ s, a ∈ deps.map Prod.fst)
    (hs : ∀ a ∈ s, ∀ p, Uses deps a p → p ∈ s) : solvable deps s = true := by
  refine (solvable_iff g.keys).2 ⟨hne, hs, fun p hp => ?_⟩
  obtain ⟨q, h1, h2⟩ := TransGen.tail'_iff.1 (g.cyclic p (hk p hp))
  exact ⟨q, closed_reach hs h1 hp, h2⟩

theorem reach_of_remove {deps : Deps α} {b : List α} {x y : α} (h : ReflTransGen (Uses (removeKnown deps b)) x y) :
    ReflTransGen (Uses deps) x y := by
  induction h with
  | refl => exact .refl
  | tail _ h ih => exact ih.tail (uses_removeKnown.1 h).1

theorem Good.remove {deps : Deps α} (g : Good deps) {b : List α} (hb : ∀ a ∈ b, ∀ p, Uses deps a p → p ∈ b) :
    Good (removeKnown deps b) ∧ ∀ x y, x ∉ b → y ∉ b →
      (ReflTransGen (Uses (removeKnown deps b)) x y ↔ ReflTransGen (Uses deps) x y) := by
  have back : ∀ x y, y ∉ b → ReflTransGen (Uses deps) x y → ReflTransGen (Uses (removeKnown deps b)) x y := by
    intro x y hy h
    induction h with
    | refl => exact .refl
    | @tail z w h1 h2 ih =>
      have hz : z ∉ b := fun hz => hy (hb z hz w h2)
      exact (ih hz).tail (uses_removeKnown.2 ⟨h2, hz, hy⟩)
  refine ⟨⟨nodup_removeKnown g.keys b, ?_, ?_, ?_⟩, ?_⟩
  · intro a v h
    obtain ⟨-, w, h1, rfl⟩ := mem_removeKnown.1 h
    exact (g.vals a w h1).filter _
  · intro a p h
    obtain ⟨h1, h2, h3⟩ := uses_removeKnown.1 h
    rw [keys_removeKnown, List.mem_filter]
    exact ⟨g.closed a p h1, by simpa using h3⟩
  · intro a ha
    rw [keys_removeKnown, List.mem_filter] at ha
    obtain ⟨h1, h2⟩ := ha
    have h2 : a ∉ b := by simpa using h2
    obtain ⟨q, h3, h4⟩ := TransGen.tail'_iff.1 (g.cyclic a h1)
    have hq : q ∉ b := fun hq => h2 (hb q hq a h4)
    exact TransGen.tail'_iff.2 ⟨q, back a q hq h3, uses_removeKnown.2 ⟨h4, hq, h2⟩⟩
  · intro x y _ hy
    exact ⟨reach_of_remove, back x y hy⟩

/-- The sizes without a block are passed. -/
theorem resolveLoop_skip {rec : Deps α → List (List α)} {deps : Deps α} (hd : deps ≠ []) (l1 : List ℕ)
    (h : ∀ i ∈ l1, tryBlock deps i = []) (l2 : List ℕ) : resolveLoop rec deps (l1 ++ l2) [] = resolveLoop rec deps l2 [] := by
  induction l1 with
  | nil => rfl
  | cons i l1 ih =>
    rw [List.cons_append, resolveLoop, h i (by simp)]
    simp only [List.flatten_nil, List.length_nil]
    rw [if_neg, ih fun j hj => h j (by simp [hj])]
    intro h0
    exact hd (List.length_eq_zero_iff.1 h0.symm)

theorem min_getNums_le {deps : Deps α} {m : ℕ} (h : (getNums deps).min? = some m) {a : α} {v : List α} (hv : (a, v) ∈ deps) :
    m ≤ v.length := by
  have := (List.min?_eq_some_iff.1 h).2 v.length (List.mem_map.2 ⟨_, hv, rfl⟩)
  exact this

/-- The first step of the resolution. -/
theorem resolveAux_step {deps : Deps α} (g : Good deps) (hd : deps ≠ []) (f : ℕ)
    (hrec : ∀ b, (∀ a ∈ b, ∀ p, Uses deps a p → p ∈ b) → b ≠ [] → (∀ a ∈ b, a ∈ deps.map Prod.fst) → b.Nodup →
      (resolveAux f (removeKnown deps b)).flatten.length = (removeKnown deps b).length) :
    ∃ b, resolveAux (f + 1) deps = b :: resolveAux f (removeKnown deps b) ∧ b ≠ [] ∧ b.Nodup ∧ b.Pairwise (· ≤ ·) ∧
      (∀ a ∈ b, a ∈ deps.map Prod.fst) ∧ (∀ a ∈ b, ∀ p, Uses deps a p → p ∈ b) ∧
      ∀ s, s ≠ [] → s.Nodup → (∀ a ∈ s, a ∈ deps.map Prod.fst) → (∀ a ∈ s, ∀ p, Uses deps a p → p ∈ s) →
        b.length ≤ s.length := by
  obtain ⟨ib0, hib⟩ : ∃ m, (getNums deps).min? = some m := by
    cases h : (getNums deps).min? with
    | none =>
      rw [List.min?_eq_none_iff] at h
      exact absurd (List.map_eq_nil_iff.1 h) hd
    | some m => exact ⟨m, rfl⟩
  set K := deps.map Prod.fst with hK
  -- the blocks of the given size
  have hblock : ∀ s : List α, s ≠ [] → s.Nodup → (∀ a ∈ s, a ∈ K) → (∀ a ∈ s, ∀ p, Uses deps a p → p ∈ s) →
      tryBlock deps s.length ≠ [] ∧ ib0 ≤ s.length ∧ s.length ≤ deps.length := by
    intro s h1 h2 h3 h4
    let t := K.filter fun a => a ∈ s
    have ht : ∀ a, a ∈ t ↔ a ∈ s := by
      intro a
      simp only [t, List.mem_filter, decide_eq_true_eq]
      exact ⟨fun h => h.2, fun h => ⟨h3 a h, h⟩⟩
    have htn : t.Nodup := g.keys.filter _
    have hlen : t.length = s.length := ((List.perm_ext_iff_of_nodup htn h2).2 ht).length_eq
    have htne : t ≠ [] := by
      intro h0
      rw [h0] at hlen
      exact h1 (List.length_eq_zero_iff.1 hlen.symm)
    have hsol : solvable deps t = true := by
      refine g.solvable htne (fun a ha => h3 a ((ht a).1 ha)) fun a ha p hp => ?_
      rw [ht] at ha ⊢
      exact h4 a ha p hp
    refine ⟨?_, ?_, ?_⟩
    · intro h0
      have : t.insertionSort (· ≤ ·) ∈ tryBlock deps s.length :=
        List.mem_map.2 ⟨t, List.mem_filter.2 ⟨mem_combinations.2 ⟨List.filter_sublist, hlen⟩, hsol⟩, rfl⟩
      rw [h0] at this
      simp at this
    · obtain ⟨a, ha⟩ := List.exists_mem_of_ne_nil s h1
      obtain ⟨⟨_, v⟩, hv, rfl⟩ := List.mem_map.1 (h3 a ha)
      refine (min_getNums_le hib hv).trans ?_
      exact ((g.vals _ v hv).subperm fun p hp => h4 _ ha p ⟨v, hv, hp⟩).length_le
    · have := (h2.subperm h3).length_le
      rwa [hK, List.length_map] at this
  -- the least size
  have hall : tryBlock deps deps.length ≠ [] ∧ ib0 ≤ deps.length := by
    have hKne : K ≠ [] := fun h => hd (List.map_eq_nil_iff.1 h)
    have := hblock K hKne g.keys (fun a ha => ha) fun a _ p hp => g.closed a p hp
    rw [hK, List.length_map] at this
    exact ⟨this.1, this.2.1⟩
  have hex : ∃ n, ib0 ≤ n ∧ tryBlock deps n ≠ [] := ⟨_, hall.2, hall.1⟩
  classical
  obtain ⟨n0, hn0⟩ : ∃ n, n = Nat.find hex := ⟨_, rfl⟩
  have hn1 : ib0 ≤ n0 ∧ tryBlock deps n0 ≠ [] := by rw [hn0]; exact Nat.find_spec hex
  have hn2 : ∀ m, ib0 ≤ m → m < n0 → tryBlock deps m = [] := by
    intro m h1 h2
    by_contra h3
    rw [hn0] at h2
    exact Nat.find_min hex h2 ⟨h1, h3⟩
  have hn3 : n0 ≤ deps.length := by rw [hn0]; exact Nat.find_min' hex ⟨hall.2, hall.1⟩
  have hrange : List.range' ib0 (deps.length + 1 - ib0) =
      List.range' ib0 (n0 - ib0) ++ n0 :: List.range' (n0 + 1) (deps.length - n0) := by
    rw [← List.range'_succ, show deps.length + 1 - ib0 = (n0 - ib0) + (deps.length - n0 + 1) by omega,
      ← List.range'_append]
    congr 2; omega
  cases htb : tryBlock deps n0 with
  | nil => exact absurd htb hn1.2
  | cons b t =>
    obtain ⟨s, h1, h2, h3, h4⟩ := mem_tryBlock (deps := deps) (b := b) (n := n0) (by rw [htb]; simp)
    obtain ⟨h5, h6, -⟩ := (solvable_iff g.keys).1 h3
    have hsn : s.Nodup := h1.nodup g.keys
    have hperm : b.Perm s := by rw [h4]; exact List.perm_insertionSort _ s
    have hbl : b.length = n0 := by rw [hperm.length_eq, h2]
    have hbne : b ≠ [] := by
      intro h0
      rw [h0] at hperm
      exact h5 (List.perm_nil.1 hperm.symm)
    have hbn : b.Nodup := hperm.nodup_iff.2 hsn
    have hbk : ∀ a ∈ b, a ∈ K := fun a ha => h1.subset (hperm.mem_iff.1 ha)
    have hbc : ∀ a ∈ b, ∀ p, Uses deps a p → p ∈ b := fun a ha p hp => hperm.mem_iff.2 (h6 a (hperm.mem_iff.1 ha) p hp)
    refine ⟨b, ?_, hbne, hbn, by rw [h4]; exact List.pairwise_insertionSort _ s, hbk, hbc, ?_⟩
    · rw [resolveAux, hib]
      simp only
      rw [hrange, resolveLoop_skip hd]
      · rw [resolveLoop, htb]
        simp only [List.nil_append, List.singleton_append]
        rw [if_pos]
        rw [List.flatten_cons, List.length_append, hrec b hbc hbne hbk hbn]
        have e := congrArg List.length (keys_removeKnown deps b)
        rw [List.length_map] at e
        rw [e]
        have hp : (b ++ K.filter fun a => a ∉ b).Perm K := by
          refine (List.perm_ext_iff_of_nodup ?_ g.keys).2 ?_
          · refine List.Nodup.append hbn (g.keys.filter _) fun a h7 h8 => ?_
            have := (List.mem_filter.1 h8).2
            simp only [decide_eq_true_eq] at this
            exact this h7
          · intro a
            simp only [List.mem_append, List.mem_filter, decide_eq_true_eq]
            constructor
            · rintro (h | h)
              · exact hbk a h
              · exact h.1
            · intro h
              by_cases hab : a ∈ b
              · exact Or.inl hab
              · exact Or.inr ⟨h, hab⟩
        have := hp.length_eq
        rw [List.length_append, hK, List.length_map] at this
        exact this
      · intro i hi
        rw [List.mem_range'_1] at hi
        exact hn2 i hi.1 (by omega)
    · intro s h7 h8 h9 h10
      obtain ⟨q1, q2, -⟩ := hblock s h7 h8 h9 h10
      rw [hbl]
      by_contra hlt
      exact q1 (hn2 _ q2 (by omega))

/-- What holds for the resolution of correct dependencies. -/
structure Resolved (deps : Deps α) (order : List (List α)) : Prop where
  perm : order.flatten.Perm (deps.map Prod.fst)
  comp : ∀ b ∈ order, b ≠ [] ∧ b.Pairwise (· ≤ ·) ∧ ∀ a ∈ b, ∀ x, x ∈ b ↔ Mutual deps a x
  small : ∀ l1 b l2, order = l1 ++ b :: l2 → ∀ s, s ≠ [] → s.Nodup → (∀ a ∈ s, a ∈ (b :: l2).flatten) →
    (∀ a ∈ s, ∀ p, Uses deps a p → p ∈ s ∨ p ∈ l1.flatten) → b.length ≤ s.length

theorem resolveAux_good : ∀ (f : ℕ) (deps : Deps α), Good deps → deps.length ≤ f → Resolved deps (resolveAux f deps) := by
  intro f
  induction f with
  | zero =>
    intro deps g hf
    have : deps = [] := List.length_eq_zero_iff.1 (by omega)
    subst this
    refine ⟨by simp [resolveAux], by simp [resolveAux], ?_⟩
    intro l1 b l2 h; simp [resolveAux] at h
  | succ f ih =>
    intro deps g hf
    by_cases hd : deps = []
    · subst hd
      have e : resolveAux (f + 1) ([] : Deps α) = [] := rfl
      rw [e]
      refine ⟨by simp, by simp, ?_⟩
      intro l1 b l2 h; simp at h
    · have hlen : ∀ b : List α, b ≠ [] → (∀ a ∈ b, a ∈ deps.map Prod.fst) → (removeKnown deps b).length < deps.length := by
        intro b hb hbk
        have e := congrArg List.length (keys_removeKnown deps b)
        rw [List.length_map] at e
        rw [e, ← List.length_map (f := Prod.fst) (as := deps)]
        obtain ⟨a, ha⟩ := List.exists_mem_of_ne_nil b hb
        exact List.length_filter_lt_length_iff_exists.2 ⟨a, hbk a ha, by simpa using ha⟩
      obtain ⟨b, h1, h2, h3, h4, h5, h6, h7⟩ := resolveAux_step g hd f (by
        intro b hb1 hb2 hb3 hb4
        have := (ih _ (g.remove hb1).1 (by have := hlen b hb2 hb3; omega)).perm.length_eq
        rwa [List.length_map] at this)
      obtain ⟨g', hreach⟩ := g.remove h6
      have R := ih _ g' (by have := hlen b h2 h5; omega)
      rw [h1]
      refine ⟨?_, ?_, ?_⟩
      · rw [List.flatten_cons]
        refine (R.perm.append_left b).trans ?_
        rw [keys_removeKnown]
        refine (List.perm_ext_iff_of_nodup ?_ g.keys).2 ?_
        · refine List.Nodup.append h3 (g.keys.filter _) fun a h7 h8 => ?_
          have := (List.mem_filter.1 h8).2
          simp only [decide_eq_true_eq] at this
          exact this h7
        · intro a
          simp only [List.mem_append, List.mem_filter, decide_eq_true_eq]
          constructor
          · rintro (h | h)
            · exact h5 a h
            · exact h.1
          · intro h
            by_cases hab : a ∈ b
            · exact Or.inl hab
            · exact Or.inr ⟨h, hab⟩
      · intro c hc
        rcases List.mem_cons.1 hc with rfl | hc
        · refine ⟨h2, h4, ?_⟩
          -- everything in the block can be reached from any of its names
          have hall : ∀ a ∈ c, ∀ x ∈ c, ReflTransGen (Uses deps) a x := by
            intro a ha x hx
            classical
            let s := c.filter fun y => ReflTransGen (Uses deps) a y
            have hs : ∀ y, y ∈ s ↔ y ∈ c ∧ ReflTransGen (Uses deps) a y := by
              intro y; simp [s, List.mem_filter]
            have hle := h7 s (by
                intro h0
                have : a ∈ s := (hs a).2 ⟨ha, .refl⟩
                rw [h0] at this; simp at this) (h3.filter _) (fun y hy => h5 y ((hs y).1 hy).1)
              (fun y hy p hp => (hs p).2 ⟨h6 y ((hs y).1 hy).1 p hp, ((hs y).1 hy).2.tail hp⟩)
            have : s = c := List.filter_sublist.eq_of_length_le hle
            exact ((hs x).1 (by rw [this]; exact hx)).2
          intro a ha x
          constructor
          · intro hx; exact ⟨hall a ha x hx, hall x hx a ha⟩
          · intro hx; exact closed_reach h6 hx.1 ha
        · obtain ⟨q1, q2, q3⟩ := R.comp c hc
          have hcb : ∀ a ∈ c, a ∉ b := by
            intro a ha
            have : a ∈ (removeKnown deps b).map Prod.fst := R.perm.mem_iff.1 (List.mem_flatten.2 ⟨c, hc, ha⟩)
            rw [keys_removeKnown, List.mem_filter] at this
            simpa using this.2
          refine ⟨q1, q2, fun a ha x => ?_⟩
          rw [q3 a ha x]
          constructor
          · rintro ⟨m1, m2⟩
            exact ⟨reach_of_remove m1, reach_of_remove m2⟩
          · rintro ⟨m1, m2⟩
            have hx : x ∉ b := fun hx => hcb a ha (closed_reach h6 m2 hx)
            exact ⟨(hreach a x (hcb a ha) hx).2 m1, (hreach x a hx (hcb a ha)).2 m2⟩
      · intro l1 c l2 e s hs1 hs2 hs3 hs4
        cases l1 with
        | nil =>
          simp only [List.nil_append, List.cons.injEq] at e
          obtain ⟨rfl, e⟩ := e
          refine h7 s hs1 hs2 ?_ ?_
          · intro a ha
            have := hs3 a ha
            rw [List.flatten_cons, List.mem_append] at this
            rcases this with h | h
            · exact h5 a h
            · rw [← e] at h
              have := R.perm.mem_iff.1 h
              rw [keys_removeKnown, List.mem_filter] at this
              exact this.1
          · intro a ha p hp
            rcases hs4 a ha p hp with h | h
            · exact h
            · simp at h
        | cons b' l1 =>
          simp only [List.cons_append, List.cons.injEq] at e
          obtain ⟨rfl, e⟩ := e
          refine R.small l1 c l2 e s hs1 hs2 hs3 ?_
          intro a ha p hp
          obtain ⟨u1, u2, u3⟩ := uses_removeKnown.1 hp
          rcases hs4 a ha p u1 with h | h
          · exact Or.inl h
          · rw [List.flatten_cons, List.mem_append] at h
            exact Or.inr (h.resolve_left u3)

/-- **C59**: for correct dependencies every name is in exactly one block, the blocks are exactly the sets of the mutually
dependent names, and the smallest possible block is always solved first: no smaller set of the remaining names needs only
itself and the names already solved. -/
theorem C59_blocks (deps : Deps α) (g : Good deps) :
    (resolve deps).flatten.Perm (deps.map Prod.fst) ∧
    (∀ b ∈ resolve deps, b ≠ [] ∧ b.Pairwise (· ≤ ·) ∧ ∀ a ∈ b, ∀ x, x ∈ b ↔ Mutual deps a x) ∧
    ∀ l1 b l2, resolve deps = l1 ++ b :: l2 → ∀ s, s ≠ [] → s.Nodup → (∀ a ∈ s, a ∈ (b :: l2).flatten) →
      (∀ a ∈ s, ∀ p, Uses deps a p → p ∈ s ∨ p ∈ l1.flatten) → b.length ≤ s.length := by
  have R := resolveAux_good deps.length deps g le_rfl
  exact ⟨R.perm, R.comp, R.small⟩

/-! ### The block solution -/

/-- **C59**: the block solution solves the whole problem: when the residual of an equation depends only on its
prerequisites, and the solver of a sub-problem makes the residuals of its equations zero for the given values of the other
variables, all the residuals are zero in the end; only the variables of the equations are changed. -/
theorem C59_block_solve {V R : Type} [Zero R] (deps : Deps α) (g : Good deps) (res : α → (α → V) → R)
    (hres : ∀ a ∈ deps.map Prod.fst, ∀ x y : α → V, (∀ p, Uses deps a p → x p = y p) → res a x = res a y)
    (solveBlock : List α → (α → V) → Option (α → V))
    (hsolve : ∀ b x y, solveBlock b x = some y → ∀ a ∈ b, res a (fun n => if n ∈ b then y n else x n) = 0)
    (x y : α → V) (h : blockSolve solveBlock (resolve deps) x = some y) :
    (∀ a ∈ deps.map Prod.fst, res a y = 0) ∧ ∀ n, n ∉ deps.map Prod.fst → y n = x n := by
  have hperm := (C59_blocks deps g).1
  have hnd : (resolve deps).flatten.Nodup := hperm.nodup_iff.2 g.keys
  have key : ∀ (l1 l2 : List (List α)), resolve deps = l1 ++ l2 → ∀ x' y', (∀ a ∈ l1.flatten, res a x' = 0) →
      blockSolve solveBlock l2 x' = some y' →
      (∀ a ∈ (resolve deps).flatten, res a y' = 0) ∧ ∀ n, n ∉ l2.flatten → y' n = x' n := by
    intro l1 l2
    induction l2 generalizing l1 with
    | nil =>
      intro e x' y' h1 h2
      cases h2
      rw [e, List.append_nil]
      exact ⟨h1, fun _ _ => rfl⟩
    | cons b l2 ih =>
      intro e x' y' h1 h2
      rw [blockSolve, List.foldlM_cons] at h2
      cases hs : solveBlock b x' with
      | none => rw [hs] at h2; cases h2
      | some z =>
        rw [hs] at h2
        have h2 : blockSolve solveBlock l2 (fun n => if n ∈ b then z n else x' n) = some y' := h2
        have hdisj : ∀ n ∈ l1.flatten, n ∉ b := by
          intro n hn hnb
          rw [e, List.flatten_append, List.flatten_cons] at hnd
          exact List.disjoint_of_nodup_append hnd hn (List.mem_append_left _ hnb)
        have hz : ∀ a ∈ (l1 ++ [b]).flatten, res a (fun n => if n ∈ b then z n else x' n) = 0 := by
          intro a ha
          rw [List.flatten_append, List.mem_append] at ha
          rcases ha with ha | ha
          · rw [← h1 a ha]
            obtain ⟨c, hc, hac⟩ := List.mem_flatten.1 ha
            obtain ⟨u, v, huv⟩ := List.append_of_mem hc
            obtain ⟨hak, huse⟩ := C59_order deps g.keys u c (v ++ b :: l2) (by rw [e, huv]; simp) a hac
            refine hres a hak _ _ fun p hp => if_neg (hdisj p ?_)
            rw [huv, List.flatten_append, List.flatten_cons]
            rcases huse p hp with hp | hp <;> simp [hp]
          · exact hsolve b x' z hs a (by simpa using ha)
        obtain ⟨h3, h4⟩ := ih (l1 ++ [b]) (by rw [e]; simp) _ y' hz h2
        refine ⟨h3, fun n hn => ?_⟩
        rw [List.flatten_cons, List.mem_append, not_or] at hn
        rw [h4 n hn.2, if_neg hn.1]
  obtain ⟨h1, h2⟩ := key [] (resolve deps) rfl x y (by simp) h
  refine ⟨fun a ha => h1 a (hperm.mem_iff.2 ha), fun n hn => h2 n fun hc => hn (hperm.mem_iff.1 hc)⟩

end Verif.Base
