/-
C33: the quicksorts of `sort.c` sort, do not access memory out of the array, do not overflow their stack.
-/
import Verif.Sort.Model
import Mathlib.Tactic.Linarith
import Mathlib.Tactic.Ring
import Mathlib.Logic.Equiv.Basic
import Mathlib.GroupTheory.Perm.Basic
import Mathlib.Algebra.Order.Group.Int
import Mathlib.Algebra.Order.Ring.Int

namespace Verif.Sort

open Function

variable {α : Type}

/-- A strict weak order: the order of the items, where also different items can be equal. -/
structure Weak (lt : α → α → Bool) : Prop where
  irrefl : ∀ a, lt a a = false
  trans : ∀ a b c, lt a b = true → lt b c = true → lt a c = true
  negTrans : ∀ a b c, lt a b = false → lt b c = false → lt a c = false

theorem Weak.asymm {lt : α → α → Bool} (h : Weak lt) {a b : α} (hab : lt a b = true) : lt b a = false := by
  by_contra hba
  have := h.trans a b a hab (by simpa using hba)
  rw [h.irrefl] at this; simp at this

/-- `b` is a rearrangement of `a` moving only the items at `l, ..., r`. -/
def Rearr (l r : ℤ) (a b : ℤ → α) : Prop :=
  ∃ σ : Equiv.Perm ℤ, b = a ∘ σ ∧ ∀ k, ¬ (l ≤ k ∧ k ≤ r) → σ k = k

theorem Rearr.refl (l r : ℤ) (a : ℤ → α) : Rearr l r a a := ⟨1, by ext; simp, by simp⟩

theorem Rearr.trans {l r : ℤ} {a b c : ℤ → α} (h1 : Rearr l r a b) (h2 : Rearr l r b c) :
    Rearr l r a c := by
  obtain ⟨σ, rfl, hs⟩ := h1
  obtain ⟨τ, rfl, ht⟩ := h2
  refine ⟨σ * τ, ?_, fun k hk => ?_⟩
  · ext k; simp
  · simp [ht k hk, hs k hk]

theorem Rearr.mono {l r l' r' : ℤ} {a b : ℤ → α} (h : Rearr l r a b) (hl : l' ≤ l) (hr : r ≤ r') :
    Rearr l' r' a b := by
  obtain ⟨σ, e, hs⟩ := h
  exact ⟨σ, e, fun k hk => hs k fun h => hk ⟨by omega, by omega⟩⟩

theorem rearr_maps {l r : ℤ} {σ : Equiv.Perm ℤ} (hs : ∀ k, ¬ (l ≤ k ∧ k ≤ r) → σ k = k) (k : ℤ)
    (hk : l ≤ k ∧ k ≤ r) : l ≤ σ k ∧ σ k ≤ r := by
  by_contra h
  have := hs _ h
  have := σ.injective this
  rw [this] at h
  exact h hk

theorem Rearr.outside {l r : ℤ} {a b : ℤ → α} (h : Rearr l r a b) {k : ℤ} (hk : ¬ (l ≤ k ∧ k ≤ r)) :
    b k = a k := by
  obtain ⟨σ, rfl, hs⟩ := h
  simp [hs k hk]

theorem Rearr.inside {l r : ℤ} {a b : ℤ → α} (h : Rearr l r a b) {k : ℤ} (hk : l ≤ k ∧ k ≤ r) :
    ∃ k', (l ≤ k' ∧ k' ≤ r) ∧ b k = a k' := by
  obtain ⟨σ, rfl, hs⟩ := h
  exact ⟨σ k, rearr_maps hs k hk, rfl⟩

/-- The exchange of two items. -/
def exch (a : ℤ → α) (p q : ℤ) : ℤ → α := a ∘ Equiv.swap p q

theorem exch_rearr {a : ℤ → α} {p q l r : ℤ} (hp : l ≤ p ∧ p ≤ r) (hq : l ≤ q ∧ q ≤ r) :
    Rearr l r a (exch a p q) := by
  refine ⟨Equiv.swap p q, rfl, fun k hk => ?_⟩
  refine Equiv.swap_apply_of_ne_of_ne ?_ ?_ <;> rintro rfl <;> exact hk ‹_›

theorem exch_left (a : ℤ → α) (p q : ℤ) : exch a p q p = a q := by simp [exch]
theorem exch_right (a : ℤ → α) (p q : ℤ) : exch a p q q = a p := by simp [exch]
theorem exch_ne (a : ℤ → α) {p q k : ℤ} (h1 : k ≠ p) (h2 : k ≠ q) : exch a p q k = a k := by
  simp [exch, Equiv.swap_apply_of_ne_of_ne h1 h2]

/-! ### Accesses -/

theorem rd_ok {n : ℤ} (a : ℤ → α) {p : ℤ} (h0 : 0 ≤ p) (h1 : p < n) : rd n a p = some (a p) := by
  simp [rd, h0, h1]

theorem wr_ok {n : ℤ} (a : ℤ → α) {p : ℤ} (v : α) (h0 : 0 ≤ p) (h1 : p < n) :
    wr n a p v = some (update a p v) := by
  simp [wr, h0, h1]

theorem swp_ok {n : ℤ} (a : ℤ → α) {p q : ℤ} (hp : 0 ≤ p ∧ p < n) (hq : 0 ≤ q ∧ q < n) :
    swp n a p q = some (exch a p q) := by
  rw [swp, rd_ok a hq.1 hq.2, rd_ok a hp.1 hp.2]
  simp only [Option.bind_eq_bind, Option.bind_some]
  rw [wr_ok _ _ hq.1 hq.2]
  simp only [Option.bind_some]
  rw [wr_ok _ _ hp.1 hp.2]
  congr 1
  funext k
  by_cases h1 : k = p
  · subst h1; simp [exch_left]
  · by_cases h2 : k = q
    · subst h2; simp [h1, exch_right]
    · simp [h1, h2, exch_ne a h1 h2]

theorem cswp_ok {n : ℤ} (lt : α → α → Bool) (a : ℤ → α) {p q : ℤ} (hp : 0 ≤ p ∧ p < n)
    (hq : 0 ≤ q ∧ q < n) :
    cswp lt n a p q = some (if lt (a p) (a q) then exch a p q else a) := by
  rw [cswp, rd_ok a hp.1 hp.2, rd_ok a hq.1 hq.2]
  simp only [Option.bind_eq_bind, Option.bind_some]
  split
  · exact swp_ok a hp hq
  · rfl

/-! ### Scans -/

theorem scanUp_ok (lt : α → α → Bool) (n : ℤ) (a : ℤ → α) (vp : α) : ∀ (fuel : ℕ) (pi s : ℤ),
    0 ≤ pi + 1 → pi < s → s < n → lt (a s) vp = false → s - pi ≤ fuel →
    ∃ q, scanUp lt n a vp fuel pi = some q ∧ pi < q ∧ q ≤ s ∧ lt (a q) vp = false ∧
      ∀ k, pi < k → k < q → lt (a k) vp = true
  | 0, pi, s, _, h1, _, _, h3 => by simp at h3; omega
  | fuel + 1, pi, s, h0, h1, h2, hs, h3 => by
    rw [scanUp, rd_ok a (by omega) (by omega)]
    simp only [Option.bind_eq_bind, Option.bind_some]
    split
    · rename_i hlt
      have hne : pi + 1 ≠ s := by
        rintro rfl
        rw [hs] at hlt; simp at hlt
      obtain ⟨q, e, q1, q2, q3, q4⟩ := scanUp_ok lt n a vp fuel (pi + 1) s (by omega) (by omega) h2 hs
        (by push_cast at h3; omega)
      refine ⟨q, e, by omega, q2, q3, fun k k1 k2 => ?_⟩
      by_cases hk : k = pi + 1
      · rw [hk]; exact hlt
      · exact q4 k (by omega) k2
    · rename_i hlt
      exact ⟨pi + 1, rfl, by omega, by omega, by simpa using hlt, fun k k1 k2 => by omega⟩

theorem scanDown_ok (lt : α → α → Bool) (n : ℤ) (a : ℤ → α) (vp : α) : ∀ (fuel : ℕ) (pj s : ℤ),
    pj ≤ n → s < pj → 0 ≤ s → lt vp (a s) = false → pj - s ≤ fuel →
    ∃ q, scanDown lt n a vp fuel pj = some q ∧ q < pj ∧ s ≤ q ∧ lt vp (a q) = false ∧
      ∀ k, k < pj → q < k → lt vp (a k) = true
  | 0, pj, s, _, h1, _, _, h3 => by simp at h3; omega
  | fuel + 1, pj, s, h0, h1, h2, hs, h3 => by
    rw [scanDown, rd_ok a (by omega) (by omega)]
    simp only [Option.bind_eq_bind, Option.bind_some]
    split
    · rename_i hlt
      have hne : pj - 1 ≠ s := by
        rintro rfl
        rw [hs] at hlt; simp at hlt
      obtain ⟨q, e, q1, q2, q3, q4⟩ := scanDown_ok lt n a vp fuel (pj - 1) s (by omega) (by omega) h2 hs
        (by push_cast at h3; omega)
      refine ⟨q, e, by omega, q2, q3, fun k k1 k2 => ?_⟩
      by_cases hk : k = pj - 1
      · rw [hk]; exact hlt
      · exact q4 k (by omega) k2
    · rename_i hlt
      exact ⟨pj - 1, rfl, by omega, by omega, by simpa using hlt, fun k k1 k2 => by omega⟩

/-! ### Partition -/

theorem partLoop_ok {lt : α → α → Bool} (hw : Weak lt) (n : ℤ) (vp : α) (sf : ℕ) (pl pr : ℤ) (h0 : 0 ≤ pl)
    (hn : pr < n) (hsf : n ≤ sf) :
    ∀ (fuel : ℕ) (a : ℤ → α) (pi pj : ℤ), pl ≤ pi → pi < pj → pj ≤ pr - 1 → pj - pi ≤ fuel →
    (∀ k, pl ≤ k → k ≤ pi → lt vp (a k) = false) →
    (∀ k, pj ≤ k → k ≤ pr - 1 → lt (a k) vp = false) →
    ∃ b q, partLoop lt n vp sf fuel a pi pj = some (b, q) ∧ pi < q ∧ q ≤ pj ∧
      (∃ σ : Equiv.Perm ℤ, b = a ∘ σ ∧ ∀ k, ¬ (pi < k ∧ k < pj) → σ k = k) ∧
      (∀ k, pl ≤ k → k < q → lt vp (b k) = false) ∧
      (∀ k, q ≤ k → k ≤ pr - 1 → lt (b k) vp = false)
  | 0, a, pi, pj, _, h2, _, h4, _, _ => by simp at h4; omega
  | fuel + 1, a, pi, pj, h1, h2, h3, h4, hl, hr => by
    obtain ⟨p, ep, p1, p2, p3, p4⟩ := scanUp_ok lt n a vp sf pi pj (by omega) h2 (by omega)
      (hr pj le_rfl h3) (by omega)
    obtain ⟨q, eq, q1, q2, q3, q4⟩ := scanDown_ok lt n a vp sf pj pi (by omega) h2 (by omega)
      (hl pi h1 le_rfl) (by omega)
    rw [partLoop, ep]
    simp only [Option.bind_eq_bind, Option.bind_some]
    rw [eq]
    simp only [Option.bind_some]
    have hlow : ∀ k, pl ≤ k → k < p → lt vp (a k) = false := by
      intro k k1 k2
      by_cases hk : k ≤ pi
      · exact hl k k1 hk
      · exact hw.asymm (p4 k (by omega) k2)
    have hhigh : ∀ k, q < k → k ≤ pr - 1 → lt (a k) vp = false := by
      intro k k1 k2
      by_cases hk : pj ≤ k
      · exact hr k hk k2
      · exact hw.asymm (q4 k (by omega) k1)
    split
    · rename_i hge
      refine ⟨a, p, rfl, p1, p2, ⟨1, by ext; simp, by simp⟩, hlow, ?_⟩
      intro k k1 k2
      by_cases hk : k = p
      · rw [hk]; exact p3
      · exact hhigh k (by omega) k2
    · rename_i hlt
      simp only [ge_iff_le, not_le] at hlt
      rw [swp_ok a ⟨by omega, by omega⟩ ⟨by omega, by omega⟩]
      simp only [Option.bind_some]
      obtain ⟨b, r, e, r1, r2, ⟨σ, hb, hσ⟩, r4, r5⟩ := partLoop_ok hw n vp sf pl pr h0 hn hsf fuel
        (exch a p q) p q (by omega) hlt (by omega) (by push_cast at h4; omega)
        (by
          intro k k1 k2
          by_cases hk : k = p
          · rw [hk, exch_left]; exact q3
          · rw [exch_ne a hk (by omega)]; exact hlow k k1 (by omega))
        (by
          intro k k1 k2
          by_cases hk : k = q
          · rw [hk, exch_right]; exact p3
          · rw [exch_ne a (by omega) hk]; exact hhigh k (by omega) k2)
      refine ⟨b, r, e, by omega, by omega, ⟨Equiv.swap p q * σ, ?_, ?_⟩, r4, r5⟩
      · rw [hb]; ext k; simp [exch]
      · intro k hk
        by_cases h1 : k = p
        · omega
        · by_cases h2 : k = q
          · omega
          · rw [Equiv.Perm.mul_apply, hσ k (by omega), Equiv.swap_apply_of_ne_of_ne h1 h2]

theorem partition_ok {lt : α → α → Bool} (hw : Weak lt) (n : ℤ) (fuel : ℕ) (a : ℤ → α) (pl pr : ℤ)
    (h0 : 0 ≤ pl) (hn : pr < n) (hbig : pr - pl > 2) (hf : n ≤ fuel) :
    ∃ b q, partition lt n fuel a pl pr = some (b, q) ∧ pl < q ∧ q < pr ∧ Rearr pl pr a b ∧
      (∀ k, pl ≤ k → k ≤ q → lt (b q) (b k) = false) ∧ (∀ k, q ≤ k → k ≤ pr → lt (b k) (b q) = false) := by
  obtain ⟨pm, hpm⟩ : ∃ pm, pm = pl + (pr - pl) / 2 := ⟨_, rfl⟩
  have m1 : pl < pm := by omega
  have m2 : pm < pr - 1 := by omega
  have hcs : ∀ (a : ℤ → α) (p q : ℤ), (0 ≤ p ∧ p < n) → (0 ≤ q ∧ q < n) → (pl ≤ p ∧ p ≤ pr) →
      (pl ≤ q ∧ q ≤ pr) → p ≠ q → ∃ b, cswp lt n a p q = some b ∧ Rearr pl pr a b ∧
        lt (b p) (b q) = false ∧ (∀ k, k ≠ p → k ≠ q → b k = a k) ∧
        ((b p = a p ∧ b q = a q) ∨ (b p = a q ∧ b q = a p ∧ lt (a p) (a q) = true)) := by
    intro a p q hp hq hp' hq' hne
    refine ⟨_, cswp_ok lt a hp hq, ?_, ?_, ?_, ?_⟩
    · split
      · exact exch_rearr hp' hq'
      · exact Rearr.refl _ _ _
    · split
      · rename_i h
        rw [exch_left, exch_right]; exact hw.asymm h
      · rename_i h; simpa using h
    · intro k h1 h2
      split
      · exact exch_ne a h1 h2
      · rfl
    · split
      · rename_i h
        right; exact ⟨exch_left _ _ _, exch_right _ _ _, h⟩
      · left; exact ⟨rfl, rfl⟩
  obtain ⟨a1, e1, r1, v1, o1, -⟩ := hcs a pm pl ⟨by omega, by omega⟩ ⟨by omega, by omega⟩
    ⟨by omega, by omega⟩ ⟨by omega, by omega⟩ (by omega)
  obtain ⟨a2, e2, r2, v2, o2, c2⟩ := hcs a1 pr pm ⟨by omega, by omega⟩ ⟨by omega, by omega⟩
    ⟨by omega, by omega⟩ ⟨by omega, by omega⟩ (by omega)
  obtain ⟨a3, e3, r3, v3, o3, c3⟩ := hcs a2 pm pl ⟨by omega, by omega⟩ ⟨by omega, by omega⟩
    ⟨by omega, by omega⟩ ⟨by omega, by omega⟩ (by omega)
  -- after the three exchanges a3 pl <= a3 pm <= a3 pr
  have hpr : lt (a3 pr) (a3 pm) = false := by
    rw [o3 pr (by omega) (by omega)]
    rcases c3 with ⟨h1, -⟩ | ⟨h1, h2, h3⟩
    · rw [h1]; exact v2
    · rw [h1, o2 pl (by omega) (by omega)]
      -- a3 pm = a1 pl, and a1 pl <= a1 pm
      rcases c2 with ⟨g1, g2⟩ | ⟨g1, g2, g3⟩
      · rw [o2 pl (by omega) (by omega)] at h3
        rw [g2] at h3
        rw [v1] at h3; simp at h3
      · rw [g1]
        exact v1
  have hr3 : Rearr pl pr a a3 := r1.trans (r2.trans r3)
  obtain ⟨vp, hvp⟩ : ∃ vp, vp = a3 pm := ⟨_, rfl⟩
  have e4 := swp_ok (n := n) a3 (p := pm) (q := pr - 1) ⟨by omega, by omega⟩ ⟨by omega, by omega⟩
  have hr4 : Rearr pl pr a (exch a3 pm (pr - 1)) :=
    hr3.trans (exch_rearr ⟨by omega, by omega⟩ ⟨by omega, by omega⟩)
  obtain ⟨b, q, e5, q1, q2, ⟨σ, hb, hσ⟩, q4, q5⟩ := partLoop_ok hw n vp fuel pl pr h0 hn (by omega) fuel
    (exch a3 pm (pr - 1)) pl (pr - 1) le_rfl (by omega) le_rfl (by omega)
    (by
      intro k k1 k2
      have : k = pl := by omega
      rw [this, exch_ne a3 (by omega) (by omega), hvp]
      exact v3)
    (by
      intro k k1 k2
      have : k = pr - 1 := by omega
      rw [this, exch_right, hvp]
      exact hw.irrefl _)
  have e6 := swp_ok (n := n) b (p := q) (q := pr - 1) ⟨by omega, by omega⟩ ⟨by omega, by omega⟩
  have hbl : b (pr - 1) = vp := by
    rw [hb]; simp only [comp_apply]; rw [hσ _ (by omega), exch_right, hvp]
  have hbr : b pr = a3 pr := by
    rw [hb]; simp only [comp_apply]; rw [hσ _ (by omega), exch_ne a3 (by omega) (by omega)]
  refine ⟨exch b q (pr - 1), q, ?_, q1, by omega, ?_, ?_, ?_⟩
  · rw [partition]
    simp only [← hpm, e1, e2, e3, Option.bind_eq_bind, Option.bind_some]
    rw [rd_ok a3 (by omega) (by omega)]
    simp only [Option.bind_some, e4, ← hvp, e5, e6]
    rfl
  · refine hr4.trans (Rearr.trans ⟨σ, hb, fun k hk => hσ k (by omega)⟩ ?_)
    exact exch_rearr ⟨by omega, by omega⟩ ⟨by omega, by omega⟩
  · intro k k1 k2
    rw [exch_left, hbl]
    by_cases hk : k = q
    · rw [hk, exch_left, hbl]; exact hw.irrefl _
    · rw [exch_ne b hk (by omega)]
      exact q4 k k1 (by omega)
  · intro k k1 k2
    rw [exch_left, hbl]
    by_cases hk : k = q
    · rw [hk, exch_left, hbl]; exact hw.irrefl _
    · by_cases hk' : k = pr - 1
      · rw [hk', exch_right]
        exact q5 q le_rfl (by omega)
      · rw [exch_ne b hk hk']
        by_cases hk'' : k = pr
        · rw [hk'', hbr, hvp]; exact hpr
        · exact q5 k (by omega) (by omega)

/-! ### Insertion sort -/

/-- The items at `l, ..., r` are sorted. -/
def SortedOn (lt : α → α → Bool) (a : ℤ → α) (l r : ℤ) : Prop :=
  ∀ i j, l ≤ i → i < j → j ≤ r → lt (a j) (a i) = false

theorem update_swap (a : ℤ → α) (p : ℤ) (v : α) :
    update (update a (p + 1) (a p)) p v = exch (update a (p + 1) v) p (p + 1) := by
  funext k
  by_cases h1 : k = p
  · subst h1; simp [exch_left]
  · by_cases h2 : k = p + 1
    · subst h2; rw [exch_right]; simp
    · rw [exch_ne _ h1 h2]; simp [h1, h2]

theorem insInner_ok {lt : α → α → Bool} (hw : Weak lt) (n pl : ℤ) (h0 : 0 ≤ pl) (vp : α) (top : ℤ)
    (hn : top < n) : ∀ (m : ℕ) (a : ℤ → α), pl + m ≤ top →
    (∀ i j, pl ≤ i → i < j → j ≤ top → i ≠ pl + m → j ≠ pl + m → lt (a j) (a i) = false) →
    (∀ k, pl + m < k → k ≤ top → lt vp (a k) = true) →
    ∃ b, insInner lt n pl vp m a = some b ∧ Rearr pl top (update a (pl + m) vp) b ∧ SortedOn lt b pl top
  | 0, a, hm, hs, hv => by
    rw [insInner, wr_ok _ _ h0 (by push_cast at hm; omega)]
    refine ⟨_, rfl, by simpa using Rearr.refl _ _ _, ?_⟩
    intro i j h1 h2 h3
    rw [update_of_ne (by omega)]
    by_cases hi : i = pl
    · subst hi
      rw [update_self]
      exact hw.asymm (hv j (by push_cast; omega) h3)
    · rw [update_of_ne hi]
      exact hs i j h1 h2 h3 (by push_cast; omega) (by push_cast; omega)
  | m + 1, a, hm, hs, hv => by
    push_cast at hm hs hv
    rw [insInner, rd_ok a (by omega) (by omega)]
    simp only [Option.bind_eq_bind, Option.bind_some]
    split
    · rename_i hlt
      rw [wr_ok _ _ (by omega) (by omega)]
      simp only [Option.bind_some]
      obtain ⟨b, e, hr, hb⟩ := insInner_ok hw n pl h0 vp top hn m (update a (pl + m + 1) (a (pl + m)))
        (by omega)
        (by
          intro i j h1 h2 h3 h4 h5
          by_cases hj : j = pl + m + 1
          · subst hj
            rw [update_self, update_of_ne (by omega)]
            exact hs i (pl + m) h1 (by omega) (by omega) (by omega) (by omega)
          · rw [update_of_ne hj]
            by_cases hi : i = pl + m + 1
            · subst hi
              rw [update_self]
              exact hs (pl + m) j (by omega) (by omega) h3 (by omega) (by omega)
            · rw [update_of_ne hi]
              exact hs i j h1 h2 h3 (by omega) (by omega))
        (by
          intro k k1 k2
          by_cases hk : k = pl + m + 1
          · subst hk; rw [update_self]; exact hlt
          · rw [update_of_ne hk]; exact hv k (by omega) k2)
      refine ⟨b, e, ?_, hb⟩
      refine Rearr.trans ?_ hr
      rw [update_swap]
      have : pl + ((m + 1 : ℕ) : ℤ) = pl + m + 1 := by push_cast; ring
      rw [this]
      exact exch_rearr ⟨by omega, by omega⟩ ⟨by omega, by omega⟩
    · rename_i hlt
      have hlt : lt vp (a (pl + m)) = false := by simpa using hlt
      rw [wr_ok _ _ (by omega) (by omega)]
      have : pl + ((m + 1 : ℕ) : ℤ) = pl + m + 1 := by push_cast; ring
      rw [this]
      refine ⟨_, rfl, Rearr.refl _ _ _, ?_⟩
      intro i j h1 h2 h3
      by_cases hj : j = pl + m + 1
      · subst hj
        rw [update_self, update_of_ne (by omega)]
        by_cases hi : i = pl + m
        · rw [hi]; exact hlt
        · exact hw.negTrans _ _ _ hlt (hs i (pl + m) h1 (by omega) (by omega) (by omega) (by omega))
      · rw [update_of_ne hj]
        by_cases hi : i = pl + m + 1
        · subst hi
          rw [update_self]
          exact hw.asymm (hv j (by omega) h3)
        · rw [update_of_ne hi]
          exact hs i j h1 h2 h3 (by omega) (by omega)

theorem insertion_ok {lt : α → α → Bool} (hw : Weak lt) (n : ℤ) (a : ℤ → α) (pl pr : ℤ) (h0 : 0 ≤ pl)
    (hn : pr < n) : ∃ b, insertion lt n a pl pr = some b ∧ Rearr pl pr a b ∧ SortedOn lt b pl pr := by
  have main : ∀ m : ℕ, (m : ℤ) ≤ (pr - pl).toNat → ∃ b, (List.range m).foldlM (fun a k => do
      let vp ← rd n a (pl + (k + 1 : ℕ))
      insInner lt n pl vp (k + 1) a) a = some b ∧ Rearr pl pr a b ∧ SortedOn lt b pl (pl + m) := by
    intro m
    induction m with
    | zero =>
      intro _
      exact ⟨a, rfl, Rearr.refl _ _ _, fun i j h1 h2 h3 => by push_cast at h3; omega⟩
    | succ m ih =>
      intro hm
      push_cast at hm
      obtain ⟨b, e, hr, hs⟩ := ih (by omega)
      rw [List.range_succ, List.foldlM_append, e]
      simp only [Option.bind_eq_bind, Option.bind_some, List.foldlM_cons, List.foldlM_nil]
      rw [rd_ok b (by push_cast; omega) (by push_cast; omega)]
      simp only [Option.bind_some]
      obtain ⟨c, e', hr', hs'⟩ := insInner_ok hw n pl h0 (b (pl + (m + 1 : ℕ))) (pl + (m + 1 : ℕ))
        (by push_cast; omega) (m + 1) b le_rfl
        (fun i j h1 h2 h3 h4 h5 => hs i j h1 h2 (by push_cast at h3 h5; omega))
        (fun k h1 h2 => by omega)
      rw [update_eq_self] at hr'
      rw [e']
      refine ⟨c, rfl, hr.trans (hr'.mono le_rfl (by push_cast; omega)), hs'⟩
  obtain ⟨b, e, hr, hs⟩ := main (pr - pl).toNat le_rfl
  refine ⟨b, e, hr, fun i j h1 h2 h3 => hs i j h1 h2 (by omega)⟩

/-! ### The main loop -/

/-- The intervals of items not yet sorted are disjoint and the other items are in order. -/
structure Inv (lt : α → α → Bool) (n : ℤ) (a : ℤ → α) (I : List (ℤ × ℤ)) : Prop where
  bound : ∀ p ∈ I, 0 ≤ p.1 ∧ p.2 < n
  disj : I.Pairwise fun p q => p.2 < q.1 ∨ q.2 < p.1
  order : ∀ i j, 0 ≤ i → i < j → j < n → lt (a j) (a i) = false ∨
    ∃ p ∈ I, p.1 ≤ i ∧ j ≤ p.2

theorem Inv.other {lt : α → α → Bool} {n : ℤ} {a b : ℤ → α} {p : ℤ × ℤ} {I : List (ℤ × ℤ)}
    (h : Inv lt n a (p :: I)) (hr : Rearr p.1 p.2 a b) {i j : ℤ} (h1 : 0 ≤ i) (h2 : i < j) (h3 : j < n)
    (hnot : ¬ (p.1 ≤ i ∧ j ≤ p.2)) : lt (b j) (b i) = false ∨ ∃ q ∈ I, q.1 ≤ i ∧ j ≤ q.2 := by
  obtain ⟨hb, hd, ho⟩ := h
  rw [List.pairwise_cons] at hd
  have hp := hb p (by simp)
  by_cases hi : p.1 ≤ i ∧ i ≤ p.2
  · have hj : ¬ (p.1 ≤ j ∧ j ≤ p.2) := fun h => hnot ⟨hi.1, h.2⟩
    obtain ⟨i', hi', e⟩ := hr.inside hi
    rw [e, hr.outside hj]
    rcases ho i' j (by omega) (by omega) h3 with h | ⟨q, hq, hq1, hq2⟩
    · exact Or.inl h
    · rcases List.mem_cons.1 hq with rfl | hq
      · omega
      · have := hd.1 q hq; omega
  · rw [hr.outside hi]
    by_cases hj : p.1 ≤ j ∧ j ≤ p.2
    · obtain ⟨j', hj', e⟩ := hr.inside hj
      rw [e]
      rcases ho i j' (by omega) (by omega) (by omega) with h | ⟨q, hq, hq1, hq2⟩
      · exact Or.inl h
      · rcases List.mem_cons.1 hq with rfl | hq
        · omega
        · have := hd.1 q hq; omega
    · rw [hr.outside hj]
      rcases ho i j h1 h2 h3 with h | ⟨q, hq, hq1, hq2⟩
      · exact Or.inl h
      · rcases List.mem_cons.1 hq with rfl | hq
        · exact absurd ⟨hq1, hq2⟩ hnot
        · exact Or.inr ⟨q, hq, hq1, hq2⟩

/-- The sizes of the postponed intervals (the last one is pushed first): at the depth `d` at most
`n / 2^d`. -/
def Small (n : ℤ) : List (ℤ × ℤ) → Prop
  | [] => True
  | p :: I => (p.2 - p.1 + 1) * 2 ^ I.length ≤ n ∧ Small n I

/-- The number of items of the intervals, each counted with twice its size plus one. -/
def weight : List (ℤ × ℤ) → ℤ
  | [] => 0
  | p :: I => 2 * max 0 (p.2 - p.1 + 1) + 1 + weight I

theorem weight_nonneg (I : List (ℤ × ℤ)) : 0 ≤ weight I := by
  induction I with
  | nil => simp [weight]
  | cons p I ih => rw [weight]; omega

theorem mainLoop_ok {lt : α → α → Bool} (hw : Weak lt) (n : ℤ) (fuel : ℕ) (hf : n ≤ fuel)
    (hbig : n < 16 * 2 ^ 50) :
    ∀ (k : ℕ) (a : ℤ → α) (pl pr : ℤ) (stack : List (ℤ × ℤ)), Inv lt n a ((pl, pr) :: stack) →
    Small n stack → (pr - pl + 1) * 2 ^ stack.length ≤ n → weight ((pl, pr) :: stack) ≤ k →
    ∃ b, mainLoop lt n fuel k a pl pr stack = some b ∧ Rearr 0 (n - 1) a b ∧ SortedOn lt b 0 (n - 1)
  | 0, a, pl, pr, stack, _, _, _, hk => by
    have := weight_nonneg stack
    rw [weight] at hk; push_cast at hk; omega
  | k + 1, a, pl, pr, stack, hI, hS, hsz, hk => by
    have hbd := hI.bound (pl, pr) (by simp)
    simp only at hbd
    rw [weight] at hk
    push_cast at hk
    rw [mainLoop]
    split
    · rename_i hlarge
      obtain ⟨b, q, e, q1, q2, hr, hlo, hhi⟩ := partition_ok hw n fuel a pl pr hbd.1 hbd.2 (by omega) hf
      have hdis := hI.disj
      rw [List.pairwise_cons] at hdis
      simp only [e, Option.bind_eq_bind, Option.bind_some]
      have hlen : ¬ stack.length ≥ 50 := by
        intro hge
        have h1 : (2 : ℤ) ^ 50 ≤ 2 ^ stack.length := by
          exact pow_le_pow_right₀ (by norm_num) hge
        have : (16 : ℤ) * 2 ^ 50 ≤ (pr - pl + 1) * 2 ^ stack.length := by
          have h2 : (0 : ℤ) < 2 ^ stack.length := by positivity
          nlinarith
        omega
      rw [if_neg hlen]
      -- the invariant for the two parts, in any order
      have hord : ∀ i j, 0 ≤ i → i < j → j < n → lt (b j) (b i) = false ∨
          (pl ≤ i ∧ j ≤ q - 1) ∨ (q + 1 ≤ i ∧ j ≤ pr) ∨ ∃ p ∈ stack, p.1 ≤ i ∧ j ≤ p.2 := by
        intro i j h1 h2 h3
        by_cases hin : pl ≤ i ∧ j ≤ pr
        · by_cases hj : j ≤ q - 1
          · exact Or.inr (Or.inl ⟨hin.1, hj⟩)
          · by_cases hi : q + 1 ≤ i
            · exact Or.inr (Or.inr (Or.inl ⟨hi, hin.2⟩))
            · left
              exact hw.negTrans _ (b q) _ (hhi j (by omega) hin.2) (hlo i hin.1 (by omega))
        · rcases hI.other hr h1 h2 h3 hin with h | h
          · exact Or.inl h
          · exact Or.inr (Or.inr (Or.inr h))
      have hr0 : Rearr 0 (n - 1) a b := hr.mono hbd.1 (by omega)
      have hpow : (0 : ℤ) < 2 ^ stack.length := by positivity
      have hpos : (2 : ℤ) ^ (stack.length + 1) = 2 * 2 ^ stack.length := by rw [pow_succ]; ring
      split
      · rename_i hlt
        obtain ⟨c, e', hr', hs'⟩ := mainLoop_ok hw n fuel hf hbig k b pl (q - 1) ((q + 1, pr) :: stack)
          { bound := by
              intro p hp
              simp only [List.mem_cons] at hp
              rcases hp with rfl | rfl | hp
              · exact ⟨hbd.1, by simp only; omega⟩
              · exact ⟨by simp only; omega, hbd.2⟩
              · exact hI.bound p (by simp [hp])
            disj := by
              simp only [List.pairwise_cons, List.mem_cons]
              refine ⟨?_, ?_, hdis.2⟩
              · rintro p (rfl | hp)
                · left; simp only; omega
                · have := hdis.1 p hp; simp only at this ⊢; omega
              · intro p hp
                have := hdis.1 p hp; simp only at this ⊢; omega
            order := by
              intro i j h1 h2 h3
              rcases hord i j h1 h2 h3 with h | h | h | ⟨p, hp, h⟩
              · exact Or.inl h
              · exact Or.inr ⟨(pl, q - 1), by simp, h⟩
              · exact Or.inr ⟨(q + 1, pr), by simp, h⟩
              · exact Or.inr ⟨p, by simp [hp], h⟩ }
          ⟨by
            simp only
            refine le_trans ?_ hsz
            exact mul_le_mul_of_nonneg_right (by omega) hpow.le, hS⟩
          (by
            rw [List.length_cons, hpos]
            refine le_trans ?_ hsz
            have : 2 * (q - 1 - pl + 1) ≤ pr - pl + 1 := by omega
            nlinarith)
          (by
            have := weight_nonneg stack
            rw [weight, weight]; simp only; omega)
        exact ⟨c, e', hr0.trans hr', hs'⟩
      · rename_i hlt
        obtain ⟨c, e', hr', hs'⟩ := mainLoop_ok hw n fuel hf hbig k b (q + 1) pr ((pl, q - 1) :: stack)
          { bound := by
              intro p hp
              simp only [List.mem_cons] at hp
              rcases hp with rfl | rfl | hp
              · exact ⟨by simp only; omega, hbd.2⟩
              · exact ⟨hbd.1, by simp only; omega⟩
              · exact hI.bound p (by simp [hp])
            disj := by
              simp only [List.pairwise_cons, List.mem_cons]
              refine ⟨?_, ?_, hdis.2⟩
              · rintro p (rfl | hp)
                · right; simp only; omega
                · have := hdis.1 p hp; simp only at this ⊢; omega
              · intro p hp
                have := hdis.1 p hp; simp only at this ⊢; omega
            order := by
              intro i j h1 h2 h3
              rcases hord i j h1 h2 h3 with h | h | h | ⟨p, hp, h⟩
              · exact Or.inl h
              · exact Or.inr ⟨(pl, q - 1), by simp, h⟩
              · exact Or.inr ⟨(q + 1, pr), by simp, h⟩
              · exact Or.inr ⟨p, by simp [hp], h⟩ }
          ⟨by
            simp only
            refine le_trans ?_ hsz
            exact mul_le_mul_of_nonneg_right (by omega) hpow.le, hS⟩
          (by
            rw [List.length_cons, hpos]
            refine le_trans ?_ hsz
            have : 2 * (pr - (q + 1) + 1) ≤ pr - pl + 1 := by omega
            nlinarith)
          (by
            have := weight_nonneg stack
            rw [weight, weight]; simp only; omega)
        exact ⟨c, e', hr0.trans hr', hs'⟩
    · obtain ⟨b, e, hr, hs⟩ := insertion_ok hw n a pl pr hbd.1 hbd.2
      simp only [e, Option.bind_eq_bind, Option.bind_some]
      have hr0 : Rearr 0 (n - 1) a b := hr.mono hbd.1 (by omega)
      have hord : ∀ i j, 0 ≤ i → i < j → j < n → lt (b j) (b i) = false ∨
          ∃ p ∈ stack, p.1 ≤ i ∧ j ≤ p.2 := by
        intro i j h1 h2 h3
        by_cases hin : pl ≤ i ∧ j ≤ pr
        · exact Or.inl (hs i j hin.1 h2 hin.2)
        · exact hI.other hr h1 h2 h3 hin
      cases stack with
      | nil =>
        refine ⟨b, rfl, hr0, fun i j h1 h2 h3 => ?_⟩
        rcases hord i j h1 h2 (by omega) with h | ⟨p, hp, -⟩
        · exact h
        · simp at hp
      | cons p stack =>
        obtain ⟨c, e', hr', hs'⟩ := mainLoop_ok hw n fuel hf hbig k b p.1 p.2 stack
          { bound := fun q hq => hI.bound q (by simp at hq ⊢; tauto)
            disj := (List.pairwise_cons.1 hI.disj).2
            order := hord } hS.2 hS.1 (by
            have : weight ((p.1, p.2) :: stack) = weight (p :: stack) := rfl
            omega)
        exact ⟨c, e', hr0.trans hr', hs'⟩

/-- C33: a quicksort of `sort.c` of an array of any (representable) length terminates, without accesses out
of the array and without the overflow of the stack; the result is a sorted rearrangement of the array. -/
theorem C33_quicksort {lt : α → α → Bool} (hw : Weak lt) (n : ℕ) (hn : n < 2 ^ 54) (a : ℤ → α) (fuel : ℕ)
    (hf : 2 * n + 1 ≤ fuel) :
    ∃ b, quicksort lt n fuel a = some b ∧
      (∃ σ : Equiv.Perm ℤ, b = a ∘ σ ∧ ∀ k : ℤ, ¬ (0 ≤ k ∧ k < n) → σ k = k) ∧
      ∀ i j : ℤ, 0 ≤ i → i < j → j < n → lt (b j) (b i) = false := by
  obtain ⟨b, e, ⟨σ, h1, h2⟩, hs⟩ := mainLoop_ok hw n fuel (by omega) (by norm_num; omega) fuel a 0 (n - 1)
    []
    { bound := by simp
      disj := by simp
      order := fun i j h1 h2 h3 => Or.inr ⟨(0, n - 1), by simp, h1, by simp only; omega⟩ }
    trivial (by simp) (by rw [weight, weight]; simp only; omega)
  exact ⟨b, e, ⟨σ, h1, fun k hk => h2 k (by omega)⟩, fun i j h1 h2 h3 => hs i j h1 h2 (by omega)⟩

end Verif.Sort
