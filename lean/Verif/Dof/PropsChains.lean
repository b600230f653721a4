import Verif.Dof.Spec
import Mathlib.Logic.Relation
import Mathlib.Data.List.Nodup
/-
C10: `group_chains` computes connected components.
-/
namespace Verif.Dof
open Verif.Np

theorem Linked.mono {l l' : List (Nat × Nat)} (h : ∀ p ∈ l, p ∈ l') {a b : Nat}
    (hl : Linked l a b) : Linked l' a b :=
  Relation.EqvGen.mono (fun _ _ hp => h _ hp) _ _ hl

/-- Predicates respected by all pairs are respected by linking. -/
theorem Linked.respects {l : List (Nat × Nat)} {P : Nat → Prop}
    (h : ∀ p ∈ l, P p.1 ↔ P p.2) {a b : Nat} (hl : Linked l a b) : P a ↔ P b := by
  induction hl with
  | rel x y hxy => exact h _ hxy
  | refl x => exact Iff.rfl
  | symm x y _ ih => exact ih.symm
  | trans x y z _ _ ih1 ih2 => exact ih1.trans ih2

structure AbsorbSpec (chain : List Nat) (pre rest : List (Nat × Nat))
    (r : List Nat × List (Nat × Nat)) : Prop where
  sub : ∀ x ∈ chain, x ∈ r.1
  nodup : chain.Nodup → r.1.Nodup
  left_sub : ∀ c ∈ r.2, c ∈ pre ∨ c ∈ rest
  left_out : (∀ c ∈ pre, c.1 ∉ chain ∧ c.2 ∉ chain) → ∀ c ∈ r.2, c.1 ∉ r.1 ∧ c.2 ∉ r.1
  all : ∀ c, c ∈ pre ∨ c ∈ rest → c ∈ r.2 ∨ (c.1 ∈ r.1 ∧ c.2 ∈ r.1)
  conn : ∀ (R : Nat → Nat → Prop), Equivalence R →
    (∀ c, c ∈ pre ∨ c ∈ rest → R c.1 c.2) → ∀ r0, (∀ x ∈ chain, R r0 x) → ∀ x ∈ r.1, R r0 x

theorem absorb_spec (chain : List Nat) (pre rest : List (Nat × Nat)) :
    AbsorbSpec chain pre rest (absorb chain pre rest) := by
  fun_induction absorb chain pre rest with
  | case1 chain pre =>
    constructor
    · exact fun x h => h
    · exact fun h => h
    · exact fun c h => .inl h
    · exact fun h => h
    · intro c h; rcases h with h | h
      · exact .inl h
      · simp at h
    · intro R _ _ r0 h; exact h
  | case2 chain pre c rest hc ih =>
    constructor
    · exact ih.sub
    · exact ih.nodup
    · intro c' h
      rcases ih.left_sub c' h with h | h
      · exact .inl h
      · exact .inr (List.mem_cons_of_mem _ h)
    · exact ih.left_out
    · intro c' h
      rcases h with h | h
      · exact ih.all c' (.inl h)
      · rcases List.mem_cons.1 h with rfl | h
        · exact .inr ⟨ih.sub _ hc.1, ih.sub _ hc.2⟩
        · exact ih.all c' (.inr h)
    · intro R hR hp r0 h0
      exact ih.conn R hR (fun c' h => hp c' (h.imp id (List.mem_cons_of_mem _))) r0 h0
  | case3 chain pre c rest hc1 hc2 ih =>
    have mem_ins : ∀ x, x ∈ (chain.insert c.1).insert c.2 ↔ x = c.2 ∨ x = c.1 ∨ x ∈ chain := by
      intro x; simp [List.mem_insert_iff]
    constructor
    · intro x h; exact ih.sub x ((mem_ins x).2 (.inr (.inr h)))
    · intro h; exact ih.nodup ((h.insert).insert)
    · intro c' h
      rcases ih.left_sub c' h with h | h
      · simp at h
      · rcases List.mem_append.1 h with h | h
        · exact .inl h
        · exact .inr (List.mem_cons_of_mem _ h)
    · intro _ ; exact ih.left_out (by simp)
    · intro c' h
      rcases h with h | h
      · exact ih.all c' (.inr (List.mem_append.2 (.inl h)))
      · rcases List.mem_cons.1 h with rfl | h
        · exact .inr ⟨ih.sub _ ((mem_ins _).2 (.inr (.inl rfl))), ih.sub _ ((mem_ins _).2 (.inl rfl))⟩
        · exact ih.all c' (.inr (List.mem_append.2 (.inr h)))
    · intro R hR hp r0 h0
      apply ih.conn R hR
      · intro c' h
        rcases h with h | h
        · simp at h
        · rcases List.mem_append.1 h with h | h
          · exact hp c' (.inl h)
          · exact hp c' (.inr (List.mem_cons_of_mem _ h))
      · intro x hx
        have hcc : R c.1 c.2 := hp c (.inr List.mem_cons_self)
        rcases (mem_ins x).1 hx with rfl | rfl | h
        · rcases hc2 with h | h
          · exact hR.trans (h0 _ h) hcc
          · exact h0 _ h
        · rcases hc2 with h | h
          · exact h0 _ h
          · exact hR.trans (h0 _ h) (hR.symm hcc)
        · exact h0 _ h
  | case4 chain pre c rest hc1 hc2 ih =>
    constructor
    · exact ih.sub
    · exact ih.nodup
    · intro c' h
      rcases ih.left_sub c' h with h | h
      · rcases List.mem_append.1 h with h | h
        · exact .inl h
        · simp at h; subst h; exact .inr List.mem_cons_self
      · exact .inr (List.mem_cons_of_mem _ h)
    · intro hpre
      apply ih.left_out
      intro c' h
      rcases List.mem_append.1 h with h | h
      · exact hpre c' h
      · simp at h; subst h
        exact ⟨fun h => hc2 (.inl h), fun h => hc2 (.inr h)⟩
    · intro c' h
      rcases h with h | h
      · exact ih.all c' (.inl (List.mem_append.2 (.inl h)))
      · rcases List.mem_cons.1 h with rfl | h
        · exact ih.all c' (.inl (List.mem_append.2 (.inr (by simp))))
        · exact ih.all c' (.inr h)
    · intro R hR hp r0 h0
      apply ih.conn R hR _ r0 h0
      intro c' h
      rcases h with h | h
      · rcases List.mem_append.1 h with h | h
        · exact hp c' (.inl h)
        · simp at h; subst h; exact hp c' (.inr List.mem_cons_self)
      · exact hp c' (.inr (List.mem_cons_of_mem _ h))

structure GroupSpec (l : List (Nat × Nat)) (gs : List (List Nat)) : Prop where
  nodup : ∀ g ∈ gs, g.Nodup
  disjoint : gs.Pairwise fun g h => ∀ x ∈ g, x ∉ h
  cover : ∀ x, (∃ g ∈ gs, x ∈ g) ↔ ∃ p ∈ l, x = p.1 ∨ x = p.2
  comp : ∀ g ∈ gs, ∀ x ∈ g, ∀ y, y ∈ g ↔ Linked l x y

theorem equiv_linked (l : List (Nat × Nat)) : Equivalence (Linked l) :=
  Relation.EqvGen.is_equivalence _

theorem groupSets_spec (l : List (Nat × Nat)) : GroupSpec l (groupSets l) := by
  fun_induction groupSets l with
  | case1 => constructor <;> simp
  | case2 c rest r ih =>
    have hs := absorb_spec (([] : List Nat).insert c.1 |>.insert c.2) [] rest
    change AbsorbSpec _ _ _ r at hs
    have hout := hs.left_out (by simp)
    have hc1 : c.1 ∈ r.1 := hs.sub _ (by simp [List.mem_insert_iff])
    have hc2 : c.2 ∈ r.1 := hs.sub _ (by simp [List.mem_insert_iff])
    have hlsub : ∀ p ∈ r.2, p ∈ c :: rest := by
      intro p hp
      rcases hs.left_sub p hp with h | h
      · simp at h
      · exact List.mem_cons_of_mem _ h
    -- later groups do not meet the first one
    have hdis : ∀ g ∈ groupSets r.2, ∀ x ∈ g, x ∉ r.1 := by
      intro g hg x hx
      obtain ⟨p, hp, h⟩ := (ih.cover x).1 ⟨g, hg, hx⟩
      rcases h with rfl | rfl
      · exact (hout p hp).1
      · exact (hout p hp).2
    have hroot : ∀ x ∈ r.1, Linked (c :: rest) c.1 x := by
      apply hs.conn _ (equiv_linked _)
      · intro p hp
        rcases hp with h | h
        · simp at h
        · exact .rel _ _ (List.mem_cons_of_mem _ h)
      · intro x hx
        simp [List.mem_insert_iff] at hx
        rcases hx with rfl | rfl
        · exact .rel _ _ List.mem_cons_self
        · exact .refl _
    -- every pair has both or no end in any group
    have hresp : ∀ g ∈ r.1 :: groupSets r.2, ∀ p ∈ c :: rest, (p.1 ∈ g ↔ p.2 ∈ g) := by
      intro g hg p hp
      have hp' : p = c ∨ p ∈ rest := List.mem_cons.1 hp
      have habs : p ∈ r.2 ∨ (p.1 ∈ r.1 ∧ p.2 ∈ r.1) := by
        rcases hp' with rfl | h
        · exact .inr ⟨hc1, hc2⟩
        · exact hs.all p (.inr h)
      rcases List.mem_cons.1 hg with rfl | hg
      · rcases habs with h | h
        · exact ⟨fun h' => absurd h' (hout p h).1, fun h' => absurd h' (hout p h).2⟩
        · exact ⟨fun _ => h.2, fun _ => h.1⟩
      · rcases habs with h | h
        · constructor
          · intro h'
            exact (ih.comp g hg _ h' _).2 (.rel _ _ h)
          · intro h'
            exact (ih.comp g hg _ h' _).2 (.symm _ _ (.rel _ _ h))
        · exact ⟨fun h' => absurd h.1 (hdis g hg _ h'), fun h' => absurd h.2 (hdis g hg _ h')⟩
    constructor
    · intro g hg
      rcases List.mem_cons.1 hg with rfl | hg
      · exact hs.nodup (List.Nodup.insert (List.Nodup.insert List.nodup_nil))
      · exact ih.nodup g hg
    · rw [List.pairwise_cons]
      exact ⟨fun g hg x hx hx' => hdis g hg x hx' hx, ih.disjoint⟩
    · intro x
      constructor
      · rintro ⟨g, hg, hx⟩
        rcases List.mem_cons.1 hg with rfl | hg
        · -- members of the first group are ends of pairs
          have := hs.conn (fun a b => (∃ p ∈ c :: rest, a = p.1 ∨ a = p.2) ↔
              (∃ p ∈ c :: rest, b = p.1 ∨ b = p.2))
            ⟨fun _ => Iff.rfl, fun h => h.symm, fun h h' => h.trans h'⟩
            (by
              intro p hp
              rcases hp with h | h
              · simp at h
              · have hm := List.mem_cons_of_mem c h
                exact ⟨fun _ => ⟨p, hm, .inr rfl⟩, fun _ => ⟨p, hm, .inl rfl⟩⟩)
            c.1
            (by
              intro y hy
              simp [List.mem_insert_iff] at hy
              have hm : c ∈ c :: rest := List.mem_cons_self
              rcases hy with rfl | rfl
              · exact ⟨fun _ => ⟨c, hm, .inr rfl⟩, fun _ => ⟨c, hm, .inl rfl⟩⟩
              · exact Iff.rfl) x hx
          exact this.1 ⟨c, List.mem_cons_self, .inl rfl⟩
        · obtain ⟨p, hp, h⟩ := (ih.cover x).1 ⟨g, hg, hx⟩
          exact ⟨p, hlsub p hp, h⟩
      · rintro ⟨p, hp, h⟩
        rcases List.mem_cons.1 hp with rfl | hp
        · refine ⟨r.1, List.mem_cons_self, ?_⟩
          rcases h with rfl | rfl
          · exact hc1
          · exact hc2
        · rcases hs.all p (.inr hp) with h' | h'
          · obtain ⟨g, hg, hx⟩ := (ih.cover x).2 ⟨p, h', h⟩
            exact ⟨g, List.mem_cons_of_mem _ hg, hx⟩
          · refine ⟨r.1, List.mem_cons_self, ?_⟩
            rcases h with rfl | rfl
            · exact h'.1
            · exact h'.2
    · intro g hg x hx y
      constructor
      · intro hy
        rcases List.mem_cons.1 hg with rfl | hg
        · exact .trans _ _ _ (.symm _ _ (hroot x hx)) (hroot y hy)
        · exact Linked.mono hlsub ((ih.comp g hg x hx y).1 hy)
      · intro hl
        exact (Linked.respects (P := fun z => z ∈ g) (hresp g hg) hl).1 hx

/-- `group_chains` returns the connected components of the graph given by the pairs:
the returned lists are duplicate-free and pairwise disjoint, their members are exactly
the ends of the pairs, and two members are in the same list iff they are linked by a
sequence of pairs.  `ord` (the iteration order of Python sets) is arbitrary. -/
theorem C10_group_chains_components (ord : List Nat → List Nat)
    (hord : ∀ l, (ord l).Perm l) (l : List (Nat × Nat)) :
    (∀ g ∈ groupChains ord l, g.Nodup) ∧
    ((groupChains ord l).Pairwise fun g h => ∀ x ∈ g, x ∉ h) ∧
    (∀ x, (∃ g ∈ groupChains ord l, x ∈ g) ↔ ∃ p ∈ l, x = p.1 ∨ x = p.2) ∧
    (∀ g ∈ groupChains ord l, ∀ x ∈ g, ∀ y, y ∈ g ↔ Linked l x y) := by
  have hs := groupSets_spec l
  have hm : ∀ g x, x ∈ ord g ↔ x ∈ g := fun g x => (hord g).mem_iff
  unfold groupChains
  refine ⟨?_, ?_, ?_, ?_⟩
  · intro g hg
    obtain ⟨g', hg', rfl⟩ := List.mem_map.1 hg
    exact (hord g').nodup_iff.2 (hs.nodup g' hg')
  · rw [List.pairwise_map]
    refine hs.disjoint.imp ?_
    intro g h hgh x hx hx'
    exact hgh x ((hm g x).1 hx) ((hm h x).1 hx')
  · intro x
    rw [← hs.cover x]
    constructor
    · rintro ⟨g, hg, hx⟩
      obtain ⟨g', hg', rfl⟩ := List.mem_map.1 hg
      exact ⟨g', hg', (hm g' x).1 hx⟩
    · rintro ⟨g, hg, hx⟩
      exact ⟨ord g, List.mem_map.2 ⟨g, hg, rfl⟩, (hm g x).2 hx⟩
  · intro g hg x hx y
    obtain ⟨g', hg', rfl⟩ := List.mem_map.1 hg
    rw [hm g' y]
    exact hs.comp g' hg' x ((hm g' x).1 hx) y

/-- Non-vacuity: two components, one of them built from three pairs given in an
order that needs the restart of the inner loop; the set order `ord` is here `reverse`. -/
example : groupChains List.reverse [(1, 2), (7, 8), (3, 4), (2, 3)] = [[1, 2, 3, 4], [7, 8]] ∧
    (∀ l : List Nat, l.reverse.Perm l) := by
  refine ⟨?_, fun l => List.reverse_perm l⟩
  simp [groupChains, groupSets, absorb, List.insert]

end Verif.Dof
