import Mathlib.Tactic.Linarith
import Mathlib.Tactic.Ring
import Mathlib.Tactic.NormNum
import Mathlib.Tactic.FieldSimp
import Mathlib.Tactic.FinCases
import Mathlib.Data.List.Chain
import Mathlib.Analysis.SpecialFunctions.Trigonometric.Bounds
import Verif.Prb.Model

/-!
# Properties of the adaptive refinement of probes (C131)
-/

namespace Verif.Prb

/-! ## Specification -/

/-- Insert the midpoint of every flagged interval of the list. -/
noncomputable def midpoints : List ℝ → List Bool → List ℝ
  | x :: y :: t, b :: fl =>
    x :: ((if b then [(x + y) / 2] else []) ++ midpoints (y :: t) fl)
  | l, _ => l

/-- Flagged intervals of the list are longer than `δ`. -/
def FlagGap (δ : ℝ) (l : List ℝ) (fl : List Bool) : Prop :=
  ∀ i a b, fl[i]? = some true → l[i]? = some a → l[i + 1]? = some b → δ < b - a

/-! ## `nm.insert` -/

/-- The refined list as a concatenation over original indices. -/
noncomputable def blocks (pars cpars : List ℝ) (fl : List Bool) (j : ℕ) : List ℝ :=
  (if 1 ≤ j ∧ fl.getD (j - 1) false = true then
    [0.5 * (cpars.getD j 0 + cpars.getD (j - 1) 0)] else []) ++ (pars[j]?).toList

theorem filter_ins (fl : List Bool) (g : ℕ → ℝ) (j : ℕ) :
    (((whereTrue fl).map fun i => (i + 1, g i)).filter fun p => p.1 == j).map Prod.snd
      = if 1 ≤ j ∧ fl.getD (j - 1) false = true then [g (j - 1)] else [] := by
  have key : ∀ n, ((((List.range n).filter fun i => fl.getD i false).map
      fun i => (i + 1, g i)).filter fun p => p.1 == j).map Prod.snd
      = if 1 ≤ j ∧ j ≤ n ∧ fl.getD (j - 1) false = true then [g (j - 1)] else [] := by
    intro n
    induction n with
    | zero =>
      rw [if_neg (by omega)]; rfl
    | succ n ih =>
      have hfs : List.filter (fun i => fl.getD i false) [n]
          = if fl.getD n false = true then [n] else [] := by
        rw [List.filter_cons, List.filter_nil]
      rw [List.range_succ, List.filter_append, List.map_append, List.filter_append,
        List.map_append, ih, hfs]
      by_cases hj : j = n + 1
      · subst hj
        rw [if_neg (by omega), Nat.add_sub_cancel]
        by_cases hf : fl.getD n false = true
        · rw [if_pos hf, if_pos ⟨by omega, le_refl _, hf⟩]
          rw [List.map_singleton, List.filter_cons, List.filter_nil]
          rw [if_pos (by simp)]
          rfl
        · rw [if_neg hf, if_neg (fun h => hf h.2.2)]
          rfl
      · have h2 : ((((if fl.getD n false = true then [n] else []).map
            fun i => (i + 1, g i)).filter fun p => p.1 == j).map Prod.snd) = [] := by
          by_cases hf : fl.getD n false = true
          · have : ¬ (n + 1 = j) := fun h => hj h.symm
            rw [if_pos hf, List.map_singleton, List.filter_cons, List.filter_nil,
              if_neg (by simpa using this)]
            rfl
          · rw [if_neg hf]; rfl
        rw [h2, List.append_nil]
        by_cases hc : 1 ≤ j ∧ j ≤ n ∧ fl.getD (j - 1) false = true
        · rw [if_pos hc, if_pos ⟨hc.1, by omega, hc.2.2⟩]
        · rw [if_neg hc, if_neg]
          rintro ⟨a, b, c⟩
          exact hc ⟨a, by omega, c⟩
  rw [whereTrue, key]
  by_cases h : 1 ≤ j ∧ fl.getD (j - 1) false = true
  · rw [if_pos h, if_pos]
    refine ⟨h.1, ?_, h.2⟩
    by_contra hlt
    have : fl.getD (j - 1) false = false := by
      rw [List.getD_eq_getElem?_getD, List.getElem?_eq_none (by omega)]
      rfl
    rw [this] at h
    exact absurd h.2 (by simp)
  · rw [if_neg h, if_neg]
    rintro ⟨a, _, c⟩
    exact h ⟨a, c⟩

theorem refinePars_blocks (pars : List ℝ) (fl : List Bool) (cyc : Option ℝ) :
    refinePars pars fl cyc
      = (List.range (pars.length + 1)).flatMap (blocks pars (pars ++ cyc.toList) fl) := by
  have hc : refinePars pars fl cyc = npInsert pars ((whereTrue fl).map fun i => (i + 1,
      0.5 * ((pars ++ cyc.toList).getD (i + 1) 0 + (pars ++ cyc.toList).getD i 0))) := by
    cases cyc <;> simp [refinePars]
  rw [hc]
  unfold npInsert
  congr 1
  funext j
  rw [filter_ins fl (fun i => 0.5 * ((pars ++ cyc.toList).getD (i + 1) 0
    + (pars ++ cyc.toList).getD i 0)) j]
  unfold blocks
  by_cases h : 1 ≤ j ∧ fl.getD (j - 1) false = true
  · rw [if_pos h, if_pos h, Nat.sub_add_cancel h.1]
  · rw [if_neg h, if_neg h]

theorem blocks_midpoints (l : List ℝ) (fl : List Bool) (h : fl.length + 1 = l.length) :
    (List.range (l.length + 1)).flatMap (blocks l l fl) = midpoints l fl := by
  induction l generalizing fl with
  | nil => simp at h
  | cons x t ih =>
    cases t with
    | nil =>
      have : fl = [] := by
        cases fl with
        | nil => rfl
        | cons b f => simp at h
      subst this
      simp [List.range_succ, blocks, midpoints]
    | cons y t =>
      cases fl with
      | nil => simp at h
      | cons b fl =>
        have h' : fl.length + 1 = (y :: t).length := by simpa using h
        rw [midpoints, ← ih fl h', List.range_succ_eq_map, List.flatMap_cons, List.flatMap_map]
        have h0 : blocks (x :: y :: t) (x :: y :: t) (b :: fl) 0 = [x] := by simp [blocks]
        rw [h0, List.singleton_append, List.length_cons, List.range_succ_eq_map,
          List.flatMap_cons, List.flatMap_map]
        rw [List.flatMap_cons, List.flatMap_map]
        have h1 : blocks (x :: y :: t) (x :: y :: t) (b :: fl) (Nat.succ 0)
            = (if b then [(x + y) / 2] else []) ++ [y] := by
          have : (0.5 : ℝ) * (y + x) = (x + y) / 2 := by ring
          cases b <;> simp [blocks, this]
        have h2 : blocks (y :: t) (y :: t) fl 0 = [y] := by simp [blocks]
        rw [h1, h2]
        simp only [List.append_assoc]
        congr 4
        funext j
        simp [blocks]

/-- The refinement inserts the midpoints of the flagged intervals of the list of parameters, for a
cyclic probe of the list closed by the period (whose last item is not stored). -/
theorem refine_full (pars : List ℝ) (fl : List Bool) (cyc : Option ℝ)
    (h : fl.length + 1 = (pars ++ cyc.toList).length) :
    refinePars pars fl cyc ++ cyc.toList = midpoints (pars ++ cyc.toList) fl := by
  rw [refinePars_blocks, ← blocks_midpoints _ _ h]
  cases cyc with
  | none => simp
  | some c =>
    have hl : (pars ++ (some c).toList).length = pars.length + 1 := by simp
    have hfl : fl.length = pars.length := by omega
    rw [hl, List.range_succ (n := pars.length + 1), List.flatMap_append]
    have hlast : List.flatMap (blocks (pars ++ (some c).toList) (pars ++ (some c).toList) fl)
        [pars.length + 1] = [] := by
      have h1 : fl.getD (pars.length + 1 - 1) false = false := by
        rw [List.getD_eq_getElem?_getD, List.getElem?_eq_none (by omega)]; rfl
      have h2 : (pars ++ (some c).toList)[pars.length + 1]? = none :=
        List.getElem?_eq_none (by omega)
      simp only [List.flatMap_cons, List.flatMap_nil, List.append_nil, blocks, h1, h2]
      simp
    rw [hlast, List.append_nil, List.range_succ, List.flatMap_append, List.flatMap_append,
      List.append_assoc]
    congr 1
    · apply List.flatMap_congr
      intro j hj
      have hj' : j < pars.length := List.mem_range.mp hj
      unfold blocks
      rw [List.getElem?_append_left hj']
    · have h2 : (pars ++ (some c).toList)[pars.length]? = some c := by simp
      simp only [List.flatMap_cons, List.flatMap_nil, List.append_nil, blocks, h2,
        List.getElem?_eq_none (le_refl _)]
      simp

/-! ## Properties of `midpoints` -/

theorem midpoints_ne_nil (l : List ℝ) (fl : List Bool) (h : l ≠ []) : midpoints l fl ≠ [] := by
  match l, fl with
  | [], _ => exact absurd rfl h
  | [x], _ => simp [midpoints]
  | x :: y :: t, [] => simp [midpoints]
  | x :: y :: t, b :: fl => simp [midpoints]

theorem midpoints_head (l : List ℝ) (fl : List Bool) : (midpoints l fl).head? = l.head? := by
  match l, fl with
  | [], _ => simp [midpoints]
  | [x], _ => simp [midpoints]
  | x :: y :: t, [] => simp [midpoints]
  | x :: y :: t, b :: fl => simp [midpoints]

theorem midpoints_last (l : List ℝ) (fl : List Bool) :
    (midpoints l fl).getLast? = l.getLast? := by
  match l, fl with
  | [], _ => simp [midpoints]
  | [x], _ => simp [midpoints]
  | x :: y :: t, [] => simp [midpoints]
  | x :: y :: t, b :: fl =>
    have ih := midpoints_last (y :: t) fl
    have hne := midpoints_ne_nil (y :: t) fl (by simp)
    rw [midpoints, List.getLast?_cons_cons, ← ih]
    obtain ⟨z, zs, hz⟩ := List.exists_cons_of_ne_nil hne
    rw [hz]
    cases b <;> simp

theorem midpoints_length (l : List ℝ) (fl : List Bool) (h : fl.length + 1 = l.length) :
    (midpoints l fl).length = l.length + fl.count true := by
  match l, fl with
  | [], _ => simp at h
  | [x], [] => simp [midpoints]
  | [x], b :: fl => simp at h
  | x :: y :: t, [] => simp at h
  | x :: y :: t, b :: fl =>
    have ih := midpoints_length (y :: t) fl (by simpa using h)
    rw [midpoints, List.length_cons, List.length_append, ih]
    cases b <;> simp <;> omega

theorem midpoints_sublist (l : List ℝ) (fl : List Bool) : l.Sublist (midpoints l fl) := by
  match l, fl with
  | [], _ => simp
  | [x], _ => simp [midpoints]
  | x :: y :: t, [] => simp [midpoints]
  | x :: y :: t, b :: fl =>
    have ih := midpoints_sublist (y :: t) fl
    rw [midpoints]
    exact List.Sublist.cons_cons x (ih.trans (List.sublist_append_right _ _))

theorem midpoints_chain (l : List ℝ) (fl : List Bool) (m : ℝ)
    (hc : l.IsChain (fun a b => a + m ≤ b)) (hg : FlagGap (2 * m) l fl) :
    (midpoints l fl).IsChain (fun a b => a + m ≤ b) := by
  match l, fl with
  | [], _ => simp [midpoints]
  | [x], _ => simp [midpoints]
  | x :: y :: t, [] => simpa [midpoints] using hc
  | x :: y :: t, b :: fl =>
    rw [List.isChain_cons_cons] at hc
    have hg' : FlagGap (2 * m) (y :: t) fl := by
      intro i a c h1 h2 h3
      exact hg (i + 1) a c (by simpa using h1) (by simpa using h2) (by simpa using h3)
    have ih := midpoints_chain (y :: t) fl m hc.2 hg'
    have hh := midpoints_head (y :: t) fl
    obtain ⟨z, zs, hz⟩ := List.exists_cons_of_ne_nil (midpoints_ne_nil (y :: t) fl (by simp))
    rw [midpoints]
    rw [hz] at ih hh ⊢
    have hzy : z = y := by simpa using hh
    subst hzy
    cases b with
    | false =>
      simp only [Bool.false_eq_true, if_false, List.nil_append]
      exact List.isChain_cons_cons.mpr ⟨hc.1, ih⟩
    | true =>
      have h0 := hg 0 x z (by simp) (by simp) (by simp)
      simp only [if_true, List.cons_append, List.nil_append]
      refine List.isChain_cons_cons.mpr ⟨by linarith, List.isChain_cons_cons.mpr ⟨by linarith, ih⟩⟩

theorem chain_length (l : List ℝ) (m x y : ℝ) (hc : l.IsChain (fun a b => a + m ≤ b))
    (hx : l.head? = some x) (hy : l.getLast? = some y) : ((l.length : ℝ) - 1) * m ≤ y - x := by
  induction l generalizing x with
  | nil => simp at hx
  | cons a t ih =>
    cases t with
    | nil =>
      simp at hx hy
      subst hx; subst hy
      simp
    | cons b t =>
      rw [List.isChain_cons_cons] at hc
      have hxa : a = x := by simpa using hx
      subst hxa
      have := ih b hc.2 (by simp) (by simpa using hy)
      simp only [List.length_cons] at this ⊢
      push_cast at this ⊢
      nlinarith [hc.1]

/-! ## The loop -/

theorem loop_terminates {d : ℕ} (pts : List ℝ → List (Pt d)) (cyc : Option ℝ)
    (flagsOf : List (Pt d) → List Bool) (m : ℝ) (hm : 0 < m) (x y : ℝ)
    (hlen : ∀ pars, pars ≠ [] → (flagsOf (pts pars)).length + 1 = (pars ++ cyc.toList).length)
    (hgap : ∀ pars, (pars ++ cyc.toList).IsChain (fun a b => a + m ≤ b) →
      (pars ++ cyc.toList).head? = some x → (pars ++ cyc.toList).getLast? = some y →
      FlagGap (2 * m) (pars ++ cyc.toList) (flagsOf (pts pars)))
    (k : ℕ) (pars : List ℝ) (hne : pars ≠ [])
    (hk : (y - x) / m + 1 < ((pars ++ cyc.toList).length : ℝ) + k)
    (hc : (pars ++ cyc.toList).IsChain (fun a b => a + m ≤ b))
    (hx : (pars ++ cyc.toList).head? = some x) (hy : (pars ++ cyc.toList).getLast? = some y) :
    ∃ res, probeLoop pts cyc flagsOf k pars = some res ∧ pars.Sublist res ∧
      (res ++ cyc.toList).IsChain (fun a b => a + m ≤ b) ∧
      (res ++ cyc.toList).head? = some x ∧ (res ++ cyc.toList).getLast? = some y ∧
      res ≠ [] ∧ (∀ b ∈ flagsOf (pts res), b = false) := by
  induction k generalizing pars with
  | zero =>
    exfalso
    have h := chain_length _ m x y hc hx hy
    rw [← le_div_iff₀ hm] at h
    push_cast at hk
    linarith
  | succ k ih =>
    by_cases hf : (flagsOf (pts pars)).any id = true
    · have hl := hlen pars hne
      have hfull := refine_full pars (flagsOf (pts pars)) cyc hl
      have hsub : pars.Sublist (refinePars pars (flagsOf (pts pars)) cyc) := by
        have := midpoints_sublist (pars ++ cyc.toList) (flagsOf (pts pars))
        rw [← hfull] at this
        exact (List.append_sublist_append_right _).mp this
      have hne' : refinePars pars (flagsOf (pts pars)) cyc ≠ [] := by
        intro h0
        rw [h0] at hsub
        exact hne (List.sublist_nil.mp hsub)
      have hcount : 1 ≤ (flagsOf (pts pars)).count true := by
        rw [Nat.one_le_iff_ne_zero, Ne, List.count_eq_zero]
        intro hnot
        rw [List.any_eq_true] at hf
        obtain ⟨b, hb, hb2⟩ := hf
        have : b = true := hb2
        subst this
        exact hnot hb
      obtain ⟨res, h1, h2, h3⟩ := ih (refinePars pars (flagsOf (pts pars)) cyc) hne'
        (by
          rw [hfull, midpoints_length _ _ hl]
          push_cast at hk ⊢
          have : (1 : ℝ) ≤ ((flagsOf (pts pars)).count true : ℝ) := by exact_mod_cast hcount
          linarith)
        (by rw [hfull]; exact midpoints_chain _ _ m hc (hgap pars hc hx hy))
        (by rw [hfull, midpoints_head]; exact hx)
        (by rw [hfull, midpoints_last]; exact hy)
      refine ⟨res, ?_, hsub.trans h2, h3⟩
      rw [probeLoop]
      simp only [hf, if_true]
      exact h1
    · refine ⟨pars, ?_, List.Sublist.refl _, hc, hx, hy, hne, ?_⟩
      · rw [probeLoop]
        simp only [hf]
        simp
      · intro b hb
        by_contra hbt
        apply hf
        rw [List.any_eq_true]
        exact ⟨b, hb, by simpa using hbt⟩

end Verif.Prb
