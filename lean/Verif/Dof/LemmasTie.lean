import Verif.Dof.PropsChains
import Verif.Dof.LemmasMap
/-
The `master_slave` array after the loop and after `resolve_chains`.
-/
namespace Verif.Dof
open Verif.Np

variable {α : Type}

theorem partner_pos {x : Int} {b : Nat} (h : x = (b : Int) + 1) : partner x = b := by
  have : x.sign = 1 := Int.sign_eq_one_of_pos (by omega)
  unfold partner; rw [this]; omega

theorem partner_neg {x : Int} {b : Nat} (h : x = -(b : Int) - 1) : partner x = b := by
  have : x.sign = -1 := Int.sign_eq_neg_one_of_neg (by omega)
  unfold partner; rw [this]; omega

theorem pos_cast {x : Int} (h : 0 < x) : x = (((x - 1).toNat : Nat) : Int) + 1 := by omega
theorem neg_cast {x : Int} (h : x < 0) : x = -(((-x - 1).toNat : Nat) : Int) - 1 := by omega

theorem ends_nodup {prs : List (Nat × Nat)} (h : (ends prs).Nodup) :
    (prs.map (·.1)).Nodup ∧ (prs.map (·.2)).Nodup ∧ ∀ p ∈ prs, ∀ q ∈ prs, p.1 ≠ q.2 := by
  unfold ends at h
  rw [List.nodup_append] at h
  refine ⟨h.1, h.2.1, ?_⟩
  intro p hp q hq
  exact h.2.2 _ (List.mem_map.2 ⟨p, hp, rfl⟩) _ (List.mem_map.2 ⟨q, hq, rfl⟩)

theorem inj_of_nodup_map {β γ : Type} {f : β → γ} {l : List β} (h : (l.map f).Nodup) {a b : β}
    (ha : a ∈ l) (hb : b ∈ l) (e : f a = f b) : a = b :=
  List.inj_on_of_nodup_map h ha hb e

theorem assignPairs_out (ms : Nat → Int) (prs : List (Nat × Nat)) (i : Nat)
    (h : i ∉ ends prs) : assignPairs ms prs i = ms i := by
  unfold assignPairs
  rw [scatter_of_not_mem, scatter_of_not_mem]
  · intro p hp e
    obtain ⟨q, hq, rfl⟩ := List.mem_map.1 hp
    exact h (mem_ends.2 ⟨q, hq, .inl e.symm⟩)
  · intro p hp e
    obtain ⟨q, hq, rfl⟩ := List.mem_map.1 hp
    exact h (mem_ends.2 ⟨q, hq, .inr e.symm⟩)

theorem assignPairs_in (ms : Nat → Int) (prs : List (Nat × Nat)) (hn : (ends prs).Nodup)
    (p : Nat × Nat) (hp : p ∈ prs) :
    assignPairs ms prs p.1 = (p.2 : Int) + 1 ∧ assignPairs ms prs p.2 = -(p.1 : Int) - 1 := by
  obtain ⟨h1, h2, h3⟩ := ends_nodup hn
  unfold assignPairs
  constructor
  · rw [scatter_of_not_mem]
    · apply scatter_eq
      · exact ⟨_, List.mem_map.2 ⟨p, hp, rfl⟩, rfl⟩
      · intro q0 hq0 e
        obtain ⟨q, hq, rfl⟩ := List.mem_map.1 hq0
        have := inj_of_nodup_map h1 hq hp e
        rw [this]
    · intro q0 hq0 e
      obtain ⟨q, hq, rfl⟩ := List.mem_map.1 hq0
      exact h3 p hp q hq e.symm
  · apply scatter_eq
    · exact ⟨_, List.mem_map.2 ⟨p, hp, rfl⟩, rfl⟩
    · intro q0 hq0 e
      obtain ⟨q, hq, rfl⟩ := List.mem_map.1 hq0
      have := inj_of_nodup_map h2 hq hp e
      rw [this]

/-- The pairs of one condition that are assigned directly. -/
def fresh (ms : Nat → Int) (prs : List (Nat × Nat)) : List (Nat × Nat) :=
  prs.filter fun p => ¬ (ms p.1 ≠ 0 ∨ ms p.2 ≠ 0)

theorem stepEpbc_ms (s : MapState α) (prs : List (Nat × Nat)) :
    (stepEpbc s prs).ms = assignPairs s.ms (fresh s.ms prs) := by
  unfold stepEpbc
  dsimp only
  split
  · rfl
  · next h =>
    have : fresh s.ms prs = prs := by
      unfold fresh
      rw [List.filter_eq_self]
      intro p hp
      simp only [not_or, ne_eq, Decidable.not_not, List.filter_eq_nil_iff, decide_eq_true_eq] at h
      have h1 := h.1 p hp
      have h2 := h.2 p hp
      simp [h1, h2]
    rw [this]

theorem stepEpbc_chains (s : MapState α) (prs : List (Nat × Nat)) (c : Nat × Nat) :
    c ∈ (stepEpbc s prs).chains ↔ c ∈ s.chains ∨ ∃ p ∈ prs,
      (s.ms p.1 ≠ 0 ∧ c = (p.1, partner (s.ms p.1))) ∨
      (s.ms p.2 ≠ 0 ∧ c = (p.2, partner (s.ms p.2))) ∨
      ((s.ms p.1 ≠ 0 ∨ s.ms p.2 ≠ 0) ∧ c = p) := by
  unfold stepEpbc
  dsimp only
  split
  · simp only [List.mem_append, List.mem_map, List.mem_filter, decide_eq_true_eq]
    constructor
    · rintro ((((h | ⟨p, ⟨hp, h⟩, rfl⟩) | ⟨p, ⟨hp, h⟩, rfl⟩) | ⟨hp, h⟩) | ⟨hp, h⟩)
      · exact .inl h
      · exact .inr ⟨p, hp, .inl ⟨h, rfl⟩⟩
      · exact .inr ⟨p, hp, .inr (.inl ⟨h, rfl⟩)⟩
      · exact .inr ⟨c, hp, .inr (.inr ⟨.inl h, rfl⟩)⟩
      · exact .inr ⟨c, hp, .inr (.inr ⟨.inr h.1, rfl⟩)⟩
    · rintro (h | ⟨p, hp, ⟨h, rfl⟩ | ⟨h, rfl⟩ | ⟨h, rfl⟩⟩)
      · exact .inl (.inl (.inl (.inl h)))
      · exact .inl (.inl (.inl (.inr ⟨p, ⟨hp, h⟩, rfl⟩)))
      · exact .inl (.inl (.inr ⟨p, ⟨hp, h⟩, rfl⟩))
      · by_cases h1 : s.ms c.1 ≠ 0
        · exact .inl (.inr ⟨hp, h1⟩)
        · rcases h with h | h
          · exact absurd h h1
          · exact .inr ⟨hp, h, h1⟩
  · next hn =>
    simp only [not_or, ne_eq, Decidable.not_not, List.filter_eq_nil_iff, decide_eq_true_eq] at hn
    constructor
    · exact .inl
    · rintro (h | ⟨p, hp, ⟨h, rfl⟩ | ⟨h, rfl⟩ | ⟨h, rfl⟩⟩)
      · exact h
      · exact absurd (hn.1 p hp) h
      · exact absurd (hn.2 p hp) h
      · rcases h with h | h
        · exact absurd (hn.1 c hp) h
        · exact absurd (hn.2 c hp) h

/-- The loop invariant for the periodic part. `P` are the pairs declared so far. -/
structure TieInv (P : List (Nat × Nat)) (tied : List Nat) (ms : Nat → Int)
    (C : List (Nat × Nat)) : Prop where
  mtch : ∀ a b : Nat, ms a = (b : Int) + 1 ↔ ms b = -(a : Int) - 1
  direct : ∀ p ∈ P, ms p.1 = (p.2 : Int) + 1 ∨ p ∈ C
  linked : ∀ c ∈ C, Linked P c.1 c.2
  closed : ∀ x, ms x ≠ 0 → x ∈ ends C → (x, partner (ms x)) ∈ C ∨ (partner (ms x), x) ∈ C
  cseen : ∀ x ∈ ends C, x ∈ ends P
  mseen : ∀ x, ms x ≠ 0 → x ∈ ends P
  msP : ∀ a b : Nat, ms a = (b : Int) + 1 → (a, b) ∈ P
  tied_iff : ∀ x, ms x ≠ 0 ↔ x ∈ tied

theorem TieInv.init : TieInv [] [] (fun _ => 0) [] := by
  constructor
  · intro a b; omega
  all_goals simp [ends]
  intro a b; omega

theorem TieInv.partner_ne {P tied ms C} (h : TieInv P tied ms C) {x : Nat} (hx : ms x ≠ 0) :
    ms (partner (ms x)) ≠ 0 ∧ partner (ms (partner (ms x))) = x ∧
      ((x, partner (ms x)) ∈ P ∨ (partner (ms x), x) ∈ P) := by
  rcases Int.lt_or_gt_of_ne hx with hl | hg
  · have e := neg_cast hl
    have hp := partner_neg e
    have := (h.mtch _ _).2 e
    rw [hp]
    refine ⟨by omega, partner_pos this, .inr (h.msP _ _ this)⟩
  · have e := pos_cast hg
    have hp := partner_pos e
    have := (h.mtch _ _).1 e
    rw [hp]
    exact ⟨by omega, partner_neg this, .inl (h.msP _ _ e)⟩

theorem ends_append (l l' : List (Nat × Nat)) (x : Nat) :
    x ∈ ends (l ++ l') ↔ x ∈ ends l ∨ x ∈ ends l' := by
  simp only [mem_ends, List.mem_append]
  constructor
  · rintro ⟨p, hp | hp, h⟩
    · exact .inl ⟨p, hp, h⟩
    · exact .inr ⟨p, hp, h⟩
  · rintro (⟨p, hp, h⟩ | ⟨p, hp, h⟩)
    · exact ⟨p, .inl hp, h⟩
    · exact ⟨p, .inr hp, h⟩

theorem mem_fresh {ms : Nat → Int} {prs : List (Nat × Nat)} {p : Nat × Nat} :
    p ∈ fresh ms prs ↔ p ∈ prs ∧ ms p.1 = 0 ∧ ms p.2 = 0 := by
  unfold fresh
  rw [List.mem_filter]
  simp

theorem nodup_fresh {ms : Nat → Int} {prs : List (Nat × Nat)} (h : (ends prs).Nodup) :
    (ends (fresh ms prs)).Nodup := by
  have hs : List.Sublist (fresh ms prs) prs := List.filter_sublist
  exact h.sublist ((hs.map _).append (hs.map _))

theorem TieInv.step {P tied} {s : MapState α} (h : TieInv P tied s.ms s.chains)
    (prs : List (Nat × Nat)) (hn : (ends prs).Nodup)
    (hg : ∀ p ∈ prs, (p.1 ∈ tied ∨ p.2 ∈ tied) ∨ (p.1 ∉ ends P ∧ p.2 ∉ ends P)) :
    TieInv (P ++ prs) (tied ++ ends (prs.filter fun p => decide (p.1 ∉ tied ∧ p.2 ∉ tied)))
      (stepEpbc s prs).ms (stepEpbc s prs).chains := by
  have hms := stepEpbc_ms s prs
  have hch := stepEpbc_chains s prs
  have hnf := nodup_fresh (ms := s.ms) hn
  have hin := fun p hp => assignPairs_in s.ms _ hnf p hp
  have hout := fun i hi => assignPairs_out s.ms (fresh s.ms prs) i hi
  rw [← hms] at hin hout
  have hmono : ∀ p ∈ P, p ∈ P ++ prs := fun p hp => List.mem_append_left _ hp
  -- fresh ends were never seen
  have hfr : ∀ x ∈ ends (fresh s.ms prs), x ∉ ends P ∧ s.ms x = 0 := by
    intro x hx
    obtain ⟨p, hp, hxp⟩ := mem_ends.1 hx
    obtain ⟨hp, h1, h2⟩ := mem_fresh.1 hp
    rcases hg p hp with ht | ht
    · rcases ht with ht | ht
      · exact absurd h1 ((h.tied_iff _).2 ht)
      · exact absurd h2 ((h.tied_iff _).2 ht)
    · rcases hxp with rfl | rfl
      · exact ⟨ht.1, h1⟩
      · exact ⟨ht.2, h2⟩
  have hold : ∀ x, s.ms x ≠ 0 → (stepEpbc s prs).ms x = s.ms x := by
    intro x hx
    apply hout
    intro hf
    exact hx (hfr x hf).2
  -- values of the new array
  have hcases : ∀ x, ((stepEpbc s prs).ms x = s.ms x ∧ x ∉ ends (fresh s.ms prs)) ∨
      (∃ p ∈ fresh s.ms prs, (x = p.1 ∧ (stepEpbc s prs).ms x = (p.2 : Int) + 1) ∨
        (x = p.2 ∧ (stepEpbc s prs).ms x = -(p.1 : Int) - 1)) := by
    intro x
    by_cases hx : x ∈ ends (fresh s.ms prs)
    · right
      obtain ⟨p, hp, hxp⟩ := mem_ends.1 hx
      refine ⟨p, hp, ?_⟩
      rcases hxp with rfl | rfl
      · exact .inl ⟨rfl, (hin p hp).1⟩
      · exact .inr ⟨rfl, (hin p hp).2⟩
    · exact .inl ⟨hout x hx, hx⟩
  -- new chain ends are not fresh ends
  have hchf : ∀ x ∈ ends (stepEpbc s prs).chains, x ∉ ends (fresh s.ms prs) := by
    intro x hx hf
    obtain ⟨c, hc, hxc⟩ := mem_ends.1 hx
    rcases (hch c).1 hc with hc | ⟨p, hp, hpc⟩
    · exact (hfr x hf).1 (h.cseen x (mem_ends.2 ⟨c, hc, hxc⟩))
    · have hx0 := (hfr x hf).2
      -- x is an end of p or a partner
      have hpx : x = p.1 ∨ x = p.2 ∨ s.ms x ≠ 0 := by
        rcases hpc with ⟨h1, rfl⟩ | ⟨h1, rfl⟩ | ⟨h1, rfl⟩
        · rcases hxc with rfl | rfl
          · exact .inl rfl
          · exact .inr (.inr (h.partner_ne h1).1)
        · rcases hxc with rfl | rfl
          · exact .inr (.inl rfl)
          · exact .inr (.inr (h.partner_ne h1).1)
        · rcases hxc with h | h
          · exact .inl h
          · exact .inr (.inl h)
      have hpa : s.ms p.1 ≠ 0 ∨ s.ms p.2 ≠ 0 := by
        rcases hpc with ⟨h1, _⟩ | ⟨h1, _⟩ | ⟨h1, _⟩
        · exact .inl h1
        · exact .inr h1
        · exact h1
      -- p is not fresh but shares an end with a fresh pair
      obtain ⟨q, hq, hxq⟩ := mem_ends.1 hf
      obtain ⟨hq, hq1, hq2⟩ := mem_fresh.1 hq
      obtain ⟨n1, n2, n3⟩ := ends_nodup hn
      have : p = q := by
        rcases hpx with e | e | e
        · rcases hxq with e' | e'
          · exact inj_of_nodup_map n1 hp hq (e.symm.trans e')
          · exact absurd (e.symm.trans e') (n3 p hp q hq)
        · rcases hxq with e' | e'
          · exact absurd (e'.symm.trans e) (n3 q hq p hp)
          · exact inj_of_nodup_map n2 hp hq (e.symm.trans e')
        · exact absurd hx0 e
      subst this
      rcases hpa with h | h
      · exact h hq1
      · exact h hq2
  constructor
  · -- mtch
    intro a b
    constructor
    · intro e
      rcases hcases a with ⟨ea, ha⟩ | ⟨p, hp, ⟨rfl, ea⟩ | ⟨rfl, ea⟩⟩
      · have := (h.mtch a b).1 (by rw [← ea, e])
        rw [hold b (by omega), this]
      · have : p.2 = b := by omega
        rw [← this]; exact (hin p hp).2
      · omega
    · intro e
      rcases hcases b with ⟨ea, ha⟩ | ⟨p, hp, ⟨rfl, ea⟩ | ⟨rfl, ea⟩⟩
      · have := (h.mtch a b).2 (by rw [← ea, e])
        rw [hold a (by omega), this]
      · omega
      · have : p.1 = a := by omega
        rw [← this]; exact (hin p hp).1
  · -- direct
    intro p hp
    rcases List.mem_append.1 hp with hp | hp
    · rcases h.direct p hp with e | e
      · left; rw [hold _ (by omega), e]
      · right; exact (hch p).2 (.inl e)
    · by_cases hf : p ∈ fresh s.ms prs
      · exact .inl (hin p hf).1
      · right
        refine (hch p).2 (.inr ⟨p, hp, .inr (.inr ⟨?_, rfl⟩)⟩)
        rw [mem_fresh] at hf
        by_cases h1 : s.ms p.1 = 0
        · right; intro h2; exact hf ⟨hp, h1, h2⟩
        · exact .inl h1
  · -- linked
    intro c hc
    rcases (hch c).1 hc with hc | ⟨p, hp, hpc⟩
    · exact (h.linked c hc).mono hmono
    · have hpl : ∀ x, s.ms x ≠ 0 → Linked (P ++ prs) x (partner (s.ms x)) := by
        intro x hx
        rcases (h.partner_ne hx).2.2 with hP | hP
        · exact .rel _ _ (hmono _ hP)
        · exact .symm _ _ (.rel _ _ (hmono _ hP))
      rcases hpc with ⟨h1, rfl⟩ | ⟨h1, rfl⟩ | ⟨h1, rfl⟩
      · exact hpl _ h1
      · exact hpl _ h1
      · exact .rel _ _ (List.mem_append_right _ hp)
  · -- closed
    intro x hx hxc
    have hxf := hchf x hxc
    have e := hout x hxf
    rw [e] at hx ⊢
    obtain ⟨c, hc, hxc⟩ := mem_ends.1 hxc
    have key : (x ∈ ends s.chains) ∨ (∃ p ∈ prs, x = p.1 ∨ x = p.2) ∨
        (∃ y, s.ms y ≠ 0 ∧ x = partner (s.ms y) ∧ ∃ p ∈ prs, y = p.1 ∨ y = p.2) := by
      rcases (hch c).1 hc with hc | ⟨p, hp, hpc⟩
      · exact .inl (mem_ends.2 ⟨c, hc, hxc⟩)
      · right
        rcases hpc with ⟨h1, rfl⟩ | ⟨h1, rfl⟩ | ⟨h1, rfl⟩
        · rcases hxc with rfl | rfl
          · exact .inl ⟨p, hp, .inl rfl⟩
          · exact .inr ⟨p.1, h1, rfl, p, hp, .inl rfl⟩
        · rcases hxc with rfl | rfl
          · exact .inl ⟨p, hp, .inr rfl⟩
          · exact .inr ⟨p.2, h1, rfl, p, hp, .inr rfl⟩
        · exact .inl ⟨c, hp, hxc⟩
    rcases key with hk | ⟨p, hp, rfl | rfl⟩ | ⟨y, hy, rfl, p, hp, hyp⟩
    · rcases h.closed x hx hk with h' | h'
      · exact .inl ((hch _).2 (.inl h'))
      · exact .inr ((hch _).2 (.inl h'))
    · exact .inl ((hch _).2 (.inr ⟨p, hp, .inl ⟨hx, rfl⟩⟩))
    · exact .inl ((hch _).2 (.inr ⟨p, hp, .inr (.inl ⟨hx, rfl⟩)⟩))
    · right
      rw [(h.partner_ne hy).2.1]
      refine (hch _).2 (.inr ⟨p, hp, ?_⟩)
      rcases hyp with rfl | rfl
      · exact .inl ⟨hy, rfl⟩
      · exact .inr (.inl ⟨hy, rfl⟩)
  · -- cseen
    intro x hx
    obtain ⟨c, hc, hxc⟩ := mem_ends.1 hx
    rw [ends_append]
    rcases (hch c).1 hc with hc | ⟨p, hp, hpc⟩
    · exact .inl (h.cseen x (mem_ends.2 ⟨c, hc, hxc⟩))
    · rcases hpc with ⟨h1, rfl⟩ | ⟨h1, rfl⟩ | ⟨h1, rfl⟩
      · rcases hxc with rfl | rfl
        · exact .inl (h.mseen _ h1)
        · exact .inl (h.mseen _ (h.partner_ne h1).1)
      · rcases hxc with rfl | rfl
        · exact .inl (h.mseen _ h1)
        · exact .inl (h.mseen _ (h.partner_ne h1).1)
      · exact .inr (mem_ends.2 ⟨c, hp, hxc⟩)
  · -- mseen
    intro x hx
    rw [ends_append]
    rcases hcases x with ⟨ea, _⟩ | ⟨p, hp, hpx⟩
    · exact .inl (h.mseen x (by rw [← ea]; exact hx))
    · right
      refine mem_ends.2 ⟨p, (mem_fresh.1 hp).1, ?_⟩
      rcases hpx with ⟨e, _⟩ | ⟨e, _⟩
      · exact .inl e
      · exact .inr e
  · -- msP
    intro a b e
    rw [List.mem_append]
    rcases hcases a with ⟨ea, _⟩ | ⟨p, hp, ⟨rfl, ea⟩ | ⟨rfl, ea⟩⟩
    · exact .inl (h.msP a b (by rw [← ea, e]))
    · right
      have : p.2 = b := by omega
      rw [← this]; exact (mem_fresh.1 hp).1
    · omega
  · -- tied_iff
    intro x
    rw [List.mem_append]
    have hff : ∀ p, p ∈ fresh s.ms prs ↔
        p ∈ prs.filter fun p => decide (p.1 ∉ tied ∧ p.2 ∉ tied) := by
      intro p
      rw [mem_fresh, List.mem_filter]
      simp only [decide_eq_true_eq, ← h.tied_iff, ne_eq, Decidable.not_not]
    rcases hcases x with ⟨ea, hx⟩ | ⟨p, hp, hpx⟩
    · rw [ea, h.tied_iff]
      constructor
      · exact .inl
      · rintro (h' | h')
        · exact h'
        · obtain ⟨p, hp, hxp⟩ := mem_ends.1 h'
          exact absurd (mem_ends.2 ⟨p, (hff p).2 hp, hxp⟩) hx
    · constructor
      · intro _
        right
        refine mem_ends.2 ⟨p, (hff p).1 hp, ?_⟩
        rcases hpx with ⟨e, _⟩ | ⟨e, _⟩
        · exact .inl e
        · exact .inr e
      · intro _
        rcases hpx with ⟨_, e⟩ | ⟨_, e⟩ <;> omega

theorem TieInv.loop (bcs : List (BC α)) (P : List (Nat × Nat)) (seen tied : List Nat)
    (hs : ∀ x, x ∈ seen ↔ x ∈ ends P)
    (s : MapState α) (h : TieInv P tied s.ms s.chains) (hg : GoodFrom seen tied (epbcLists bcs)) :
    ∃ tied', TieInv (P ++ declared bcs) tied' (bcs.foldl stepBC s).ms
      (bcs.foldl stepBC s).chains := by
  induction bcs generalizing P seen tied s with
  | nil => exact ⟨tied, by simpa [declared, epbcLists] using h⟩
  | cons bc bcs ih =>
    rw [List.foldl_cons]
    cases bc with
    | ebc items => exact ih P seen tied hs (stepBC s (.ebc items)) h hg
    | skip => exact ih P seen tied hs s h hg
    | epbc prs =>
      obtain ⟨h1, h2, h3⟩ := hg
      have := h.step prs h1 (by
        intro p hp
        rcases h2 p hp with h' | h'
        · exact .inl h'
        · exact .inr ⟨fun e => h'.1 ((hs _).2 e), fun e => h'.2 ((hs _).2 e)⟩)
      have := ih (P ++ prs) _ _ (by
        intro x; rw [List.mem_append, ends_append, hs]) (stepEpbc s prs) this h3
      obtain ⟨t, ht⟩ := this
      refine ⟨t, ?_⟩
      have e : P ++ declared (BC.epbc (α := α) prs :: bcs) = P ++ prs ++ declared bcs := by
        simp [declared, epbcLists]
      rw [e]; exact ht

/-! ### resolve_chains -/

theorem resolveChain_out (ms : Nat → Int) (ch : List Nat) (x : Nat) (h : x ∉ ch) :
    resolveChain ms ch x = ms x := by
  unfold resolveChain
  cases hl : ch.getLast? with
  | none => rfl
  | some slave =>
    cases hh : ch.head? with
    | none => rfl
    | some c0 =>
      have hs : slave ∈ ch := List.mem_of_getLast? hl
      simp only
      have hne : x ≠ slave := fun e => h (e ▸ hs)
      rw [upd_ne _ _ hne, scatterConst_apply, if_neg]
      exact fun h' => h ((List.dropLast_sublist ch).subset h')

theorem resolveChain_in (ms : Nat → Int) (ch : List Nat) (hne : ch ≠ []) :
    ∃ s ∈ ch, resolveChain ms ch s < 0 ∧ ∀ x ∈ ch, x ≠ s → resolveChain ms ch x = (s : Int) + 1 := by
  obtain ⟨s, hs⟩ : ∃ s, ch.getLast? = some s := by
    cases h : ch.getLast? with
    | none => rw [List.getLast?_eq_none_iff] at h; exact absurd h hne
    | some s => exact ⟨s, rfl⟩
  obtain ⟨c, hc⟩ : ∃ s, ch.head? = some s := by
    cases h : ch.head? with
    | none => rw [List.head?_eq_none_iff] at h; exact absurd h hne
    | some s => exact ⟨s, rfl⟩
  have hmem : s ∈ ch := List.mem_of_getLast? hs
  refine ⟨s, hmem, ?_, ?_⟩
  · unfold resolveChain; rw [hs, hc]; simp only [upd_same]; omega
  · intro x hx hxs
    unfold resolveChain; rw [hs, hc]; simp only
    rw [upd_ne _ _ hxs, scatterConst_apply, if_pos]
    have : ch = ch.dropLast ++ [s] := by
      rw [List.dropLast_append_getLast?]; exact hs
    rw [this, List.mem_append] at hx
    rcases hx with h | h
    · exact h
    · simp at h; exact absurd h hxs

theorem resolveChains_out (chs : List (List Nat)) (ms : Nat → Int) (x : Nat)
    (h : ∀ g ∈ chs, x ∉ g) : resolveChains ms chs x = ms x := by
  unfold resolveChains
  induction chs generalizing ms with
  | nil => rfl
  | cons g chs ih =>
    rw [List.foldl_cons, ih _ (fun g' hg' => h g' (List.mem_cons_of_mem _ hg')),
      resolveChain_out _ _ _ (h g List.mem_cons_self)]

theorem resolveChains_in (chs : List (List Nat)) (ms : Nat → Int)
    (hd : chs.Pairwise fun g h => ∀ x ∈ g, x ∉ h)
    (g : List Nat) (hg : g ∈ chs) (hne : g ≠ []) :
    ∃ s ∈ g, resolveChains ms chs s < 0 ∧
      ∀ x ∈ g, x ≠ s → resolveChains ms chs x = (s : Int) + 1 := by
  induction chs generalizing ms with
  | nil => simp at hg
  | cons g' chs ih =>
    rw [List.pairwise_cons] at hd
    rcases List.mem_cons.1 hg with rfl | hg
    · obtain ⟨s, hs, h1, h2⟩ := resolveChain_in ms g hne
      have ho : ∀ x ∈ g, resolveChains ms (g :: chs) x = resolveChain ms g x := by
        intro x hx
        exact resolveChains_out chs _ x (fun g' hg' => hd.1 g' hg' x hx)
      refine ⟨s, hs, by rw [ho s hs]; exact h1, ?_⟩
      intro x hx hxs; rw [ho x hx]; exact h2 x hx hxs
    · exact ih (resolveChain ms g') hd.2 hg

/-- The structure of the final `master_slave` array: in each class of linked DOFs exactly
one DOF is a slave and the others point to it; other DOFs are untouched. -/
structure Tied (P : List (Nat × Nat)) (ms : Nat → Int) : Prop where
  zero : ∀ x, x ∉ ends P → ms x = 0
  neg_or : ∀ x ∈ ends P, ms x < 0 ∨ ∃ s : Nat, ms x = (s : Int) + 1 ∧ ms s < 0 ∧ Linked P x s
  uniq : ∀ x y, ms x < 0 → ms y < 0 → Linked P x y → x = y

theorem linked_ends {P : List (Nat × Nat)} {x y : Nat} (h : Linked P x y) :
    x = y ∨ (x ∈ ends P ∧ y ∈ ends P) := by
  induction h with
  | rel a b hab => exact .inr ⟨mem_ends.2 ⟨_, hab, .inl rfl⟩, mem_ends.2 ⟨_, hab, .inr rfl⟩⟩
  | refl => exact .inl rfl
  | symm _ _ _ ih => exact ih.elim (fun h => .inl h.symm) (fun h => .inr ⟨h.2, h.1⟩)
  | trans _ _ _ _ _ ih1 ih2 =>
    rcases ih1 with rfl | h1
    · exact ih2
    · rcases ih2 with rfl | h2
      · exact .inr h1
      · exact .inr ⟨h1.1, h2.2⟩

theorem TieInv.resolve {P tied ms C} (h : TieInv P tied ms C) (ord : List Nat → List Nat)
    (hord : ∀ l, (ord l).Perm l) : Tied P (resolveChains ms (groupChains ord C)) := by
  obtain ⟨g1, g2, g3, g4⟩ := C10_group_chains_components ord hord C
  have hout : ∀ x, x ∉ ends C → resolveChains ms (groupChains ord C) x = ms x := by
    intro x hx
    apply resolveChains_out
    intro g hg hxg
    exact hx (mem_ends.2 ((g3 x).1 ⟨g, hg, hxg⟩))
  have hin : ∀ x ∈ ends C, ∃ g ∈ groupChains ord C, x ∈ g ∧ ∃ s ∈ g,
      resolveChains ms (groupChains ord C) s < 0 ∧
      ∀ x ∈ g, x ≠ s → resolveChains ms (groupChains ord C) x = (s : Int) + 1 := by
    intro x hx
    obtain ⟨g, hg, hxg⟩ := (g3 x).2 (mem_ends.1 hx)
    exact ⟨g, hg, hxg, resolveChains_in _ _ g2 g hg (List.ne_nil_of_mem hxg)⟩
  generalize resolveChains ms (groupChains ord C) = ms' at hout hin
  have hCP : ∀ {a b}, Linked C a b → Linked P a b := by
    intro a b hab
    induction hab with
    | rel a b hab => exact h.linked _ hab
    | refl => exact .refl _
    | symm _ _ _ ih => exact .symm _ _ ih
    | trans _ _ _ _ _ ih1 ih2 => exact .trans _ _ _ ih1 ih2
  -- partners stay inside / outside of the chains
  have hpart : ∀ x, ms x ≠ 0 → x ∉ ends C → partner (ms x) ∉ ends C := by
    intro x hx hxc hp
    obtain ⟨p1, p2, p3⟩ := h.partner_ne hx
    rcases h.closed _ p1 hp with h' | h'
    · rw [p2] at h'; exact hxc (mem_ends.2 ⟨_, h', .inr rfl⟩)
    · rw [p2] at h'; exact hxc (mem_ends.2 ⟨_, h', .inl rfl⟩)
  -- linking within chains
  have hPC : ∀ p ∈ P, (p.1 ∈ ends C ∨ p.2 ∈ ends C) → Linked C p.1 p.2 := by
    intro p hp hpe
    rcases h.direct p hp with e | e
    · have e2 := (h.mtch _ _).1 e
      rcases hpe with h' | h'
      · have := h.closed p.1 (by omega) h'
        rw [partner_pos e] at this
        rcases this with h' | h'
        · exact .rel _ _ h'
        · exact .symm _ _ (.rel _ _ h')
      · have := h.closed p.2 (by omega) h'
        rw [partner_neg e2] at this
        rcases this with h' | h'
        · exact .symm _ _ (.rel _ _ h')
        · exact .rel _ _ h'
    · exact .rel _ _ e
  have hPC' : ∀ x y, Linked P x y → (x ∈ ends C ∨ y ∈ ends C) → Linked C x y := by
    intro x y hxy
    have : (x ∈ ends C ↔ y ∈ ends C) ∧ (x ∈ ends C → Linked C x y) := by
      induction hxy with
      | rel a b hab =>
        constructor
        · constructor
          · intro ha
            rcases linked_ends (hPC _ hab (.inl ha)) with e | e
            · simp only at e; rw [← e]; exact ha
            · exact e.2
          · intro hb
            rcases linked_ends (hPC _ hab (.inr hb)) with e | e
            · simp only at e; rw [e]; exact hb
            · exact e.1
        · intro ha; exact hPC _ hab (.inl ha)
      | refl => exact ⟨Iff.rfl, fun _ => .refl _⟩
      | symm a b _ ih => exact ⟨ih.1.symm, fun hb => .symm _ _ (ih.2 (ih.1.2 hb))⟩
      | trans a b c _ _ ih1 ih2 =>
        exact ⟨ih1.1.trans ih2.1, fun ha => .trans _ _ _ (ih1.2 ha) (ih2.2 (ih1.1.1 ha))⟩
    rintro (h' | h')
    · exact this.2 h'
    · exact this.2 (this.1.2 h')
  constructor
  · intro x hx
    rw [hout x (fun h' => hx (h.cseen x h'))]
    by_contra h0
    exact hx (h.mseen x h0)
  · intro x hx
    by_cases hxc : x ∈ ends C
    · obtain ⟨g, hg, hxg, s, hs, hs1, hs2⟩ := hin x hxc
      by_cases e : x = s
      · left; rw [e]; exact hs1
      · right
        exact ⟨s, hs2 x hxg e, hs1, hCP ((g4 g hg x hxg s).1 hs)⟩
    · rw [hout x hxc]
      have hx0 : ms x ≠ 0 := by
        obtain ⟨p, hp, hxp⟩ := mem_ends.1 hx
        rcases h.direct p hp with e | e
        · have := (h.mtch _ _).1 e
          rcases hxp with rfl | rfl <;> omega
        · exact absurd (mem_ends.2 ⟨p, e, hxp⟩) hxc
      rcases Int.lt_or_gt_of_ne hx0 with hl | hg
      · exact .inl hl
      · right
        have e := pos_cast hg
        have e2 := (h.mtch _ _).1 e
        have hp := hpart x hx0 hxc
        rw [partner_pos e] at hp
        refine ⟨_, e, by rw [hout _ hp]; omega, .rel _ _ (h.msP _ _ e)⟩
  · intro x y hx hy hxy
    by_cases hc : x ∈ ends C ∨ y ∈ ends C
    · have hl := hPC' x y hxy hc
      have hxc : x ∈ ends C := by
        rcases linked_ends hl with e | e
        · rcases hc with h' | h'
          · exact h'
          · rw [e]; exact h'
        · exact e.1
      obtain ⟨g, hg, hxg, s, hs, hs1, hs2⟩ := hin x hxc
      have hyg := (g4 g hg x hxg y).2 hl
      have : x = s := by
        by_contra hne
        have := hs2 x hxg hne; omega
      have : y = s := by
        by_contra hne
        have := hs2 y hyg hne; omega
      omega
    · have hxc : x ∉ ends C := fun h' => hc (.inl h')
      have hyc : y ∉ ends C := fun h' => hc (.inr h')
      rw [hout x hxc] at hx
      rw [hout y hyc] at hy
      have e := neg_cast hx
      have e2 := (h.mtch _ _).2 e
      have hpc := hpart x (by omega) hxc
      rw [partner_neg e] at hpc
      generalize (-ms x - 1).toNat = m at e e2 hpc
      -- the class of x is {x, m}
      have hresp : ∀ p ∈ P, ((p.1 = x ∨ p.1 = m) ↔ (p.2 = x ∨ p.2 = m)) := by
        intro p hp
        rcases h.direct p hp with d | d
        · have d2 := (h.mtch _ _).1 d
          constructor
          · rintro (h' | h')
            · rw [h'] at d; omega
            · rw [h'] at d; left; omega
          · rintro (h' | h')
            · rw [h'] at d2; right; omega
            · rw [h'] at d2; omega
        · constructor
          · rintro (h' | h')
            · exact absurd (mem_ends.2 ⟨p, d, .inl h'.symm⟩) hxc
            · exact absurd (mem_ends.2 ⟨p, d, .inl h'.symm⟩) hpc
          · rintro (h' | h')
            · exact absurd (mem_ends.2 ⟨p, d, .inr h'.symm⟩) hxc
            · exact absurd (mem_ends.2 ⟨p, d, .inr h'.symm⟩) hpc
      rcases (Linked.respects (P := fun z => z = x ∨ z = m) hresp hxy).1 (.inl rfl) with h' | h'
      · exact h'.symm
      · rw [h'] at hy; omega

end Verif.Dof
