import Verif.Opt.Props
import Verif.Solver.PropsLs
import Mathlib.Analysis.SpecialFunctions.Pow.Deriv

/-! # Claims about the semi-smooth Newton solver (C118, C119) -/

namespace Verif.Opt

open Verif.Solver (convTest TolMet convTest_cases)

/-! ### The residual and the matrix (C118) -/

/-- **C118.** The semi-smooth residual is zero exactly when both functions are nonnegative and one of them is zero, in
both modes. -/
theorem C118_complementarity (mode : Bool) (a b : ℝ) : semiRes mode a b = 0 ↔ 0 ≤ a ∧ 0 ≤ b ∧ a * b = 0 := by
  cases mode with
  | true =>
    simp only [semiRes, if_true]
    constructor
    · intro h
      have h1 : √(a ^ 2 + b ^ 2) = a + b := by linarith
      have h2 : 0 ≤ a + b := h1 ▸ Real.sqrt_nonneg _
      have h3 : a ^ 2 + b ^ 2 = (a + b) ^ 2 := by
        rw [← h1, Real.sq_sqrt (by positivity)]
      have h4 : a * b = 0 := by nlinarith
      rcases mul_eq_zero.mp h4 with h | h
      · subst h; exact ⟨le_refl _, by linarith, by simp⟩
      · subst h; exact ⟨by linarith, le_refl _, by simp⟩
    · rintro ⟨ha, hb, hab⟩
      have : a ^ 2 + b ^ 2 = (a + b) ^ 2 := by nlinarith
      rw [this, Real.sqrt_sq (by linarith)]
      ring
  | false =>
    simp only [semiRes, Bool.false_eq_true, if_false]
    constructor
    · intro h
      split_ifs at h with h1
      · exact ⟨h.ge, by linarith, by simp [h]⟩
      · exact ⟨by linarith, h.ge, by simp [h]⟩
    · rintro ⟨ha, hb, hab⟩
      rcases mul_eq_zero.mp hab with h | h
      · subst h
        split_ifs with h1
        · rfl
        · linarith
      · subst h
        split_ifs with h1
        · linarith
        · rfl

theorem maxAbs1_pos (n : ℕ) (v : ℕ → ℝ) : 0 < maxAbs1 n v := by
  unfold maxAbs1
  have : ∀ (l : List ℕ) (m : ℝ), 0 < m → 0 < l.foldl (fun m (i : ℕ) => max m |v i|) m := by
    intro l
    induction l with
    | nil => intro m hm; exact hm
    | cons i l ih => intro m hm; exact ih _ (lt_max_of_lt_left hm)
  exact this _ 1 one_pos

/-- **C118.** In the semi-smooth mode, the row of the matrix of a non-active item is the derivative of the item of the residual
along any direction: for `a`, `b` with the rows `rowA`, `rowB` of the gradients along the directions `d`. -/
theorem C118_nonactive_row (macheps : ℝ) (hm : 0 < macheps) (n : ℕ) (a b : ℕ → ℝ) (i : ℕ)
    (hi : ¬ isActive macheps n a b i) (nx : ℕ) (rowA rowB d : ℕ → ℝ) (fa fb : ℝ → ℝ) (h0a : fa 0 = a i) (h0b : fb 0 = b i)
    (ha : HasDerivAt fa (∑ j ∈ Finset.range nx, rowA j * d j) 0)
    (hb : HasDerivAt fb (∑ j ∈ Finset.range nx, rowB j * d j) 0) :
    HasDerivAt (fun t => semiRes true (fa t) (fb t))
      (∑ j ∈ Finset.range nx, nsRow (mulNonactive (a i) (b i)) rowA rowB j * d j) 0 := by
  have hne : a i ^ 2 + b i ^ 2 ≠ 0 := by
    intro h
    apply hi
    have h1 : a i = 0 := by nlinarith [sq_nonneg (a i), sq_nonneg (b i)]
    have h2 : b i = 0 := by nlinarith [sq_nonneg (a i), sq_nonneg (b i)]
    exact ⟨by rw [h1, abs_zero]; exact mul_pos hm (maxAbs1_pos n a), by rw [h2, abs_zero]; exact mul_pos hm (maxAbs1_pos n b)⟩
  have hs := ((ha.pow 2).add (hb.pow 2)).sqrt (by simpa [h0a, h0b] using hne)
  have := hs.sub (ha.add hb)
  simp only [semiRes, if_true]
  refine this.congr_deriv ?_
  have hrow : ∑ j ∈ Finset.range nx, nsRow (mulNonactive (a i) (b i)) rowA rowB j * d j =
      (mulNonactive (a i) (b i)).1 * ∑ j ∈ Finset.range nx, rowA j * d j +
      (mulNonactive (a i) (b i)).2 * ∑ j ∈ Finset.range nx, rowB j * d j := by
    rw [Finset.mul_sum, Finset.mul_sum, ← Finset.sum_add_distrib]
    refine Finset.sum_congr rfl fun j _ => ?_
    simp only [nsRow]; ring
  rw [hrow]
  have hs0 : √(a i ^ 2 + b i ^ 2) ≠ 0 := by
    rw [Real.sqrt_ne_zero']
    exact lt_of_le_of_ne (by positivity) (Ne.symm hne)
  simp only [mulNonactive, Pi.add_apply, Pi.pow_apply, h0a, h0b]
  field_simp
  ring

/-- **C118.** The finding: in the brute force mode, the row of the matrix is the derivative of the larger of the two functions, while
the residual is the smaller one: where they differ, the row is the derivative of the residual only if both functions have the
same derivative. -/
theorem C118_brute_row (a b : ℝ) (hab : a ≠ b) (nx : ℕ) (rowA rowB d : ℕ → ℝ) (fa fb : ℝ → ℝ) (h0a : fa 0 = a)
    (h0b : fb 0 = b) (ha : HasDerivAt fa (∑ j ∈ Finset.range nx, rowA j * d j) 0)
    (hb : HasDerivAt fb (∑ j ∈ Finset.range nx, rowB j * d j) 0) :
    HasDerivAt (fun t => max (fa t) (fb t)) (∑ j ∈ Finset.range nx, nsRow (mulBrute a b) rowA rowB j * d j) 0 ∧
    (HasDerivAt (fun t => semiRes false (fa t) (fb t)) (∑ j ∈ Finset.range nx, nsRow (mulBrute a b) rowA rowB j * d j) 0 ↔
      ∑ j ∈ Finset.range nx, rowA j * d j = ∑ j ∈ Finset.range nx, rowB j * d j) := by
  have hca := ha.continuousAt
  have hcb := hb.continuousAt
  rcases lt_or_gt_of_ne hab with h | h
  · have hrow : ∑ j ∈ Finset.range nx, nsRow (mulBrute a b) rowA rowB j * d j = ∑ j ∈ Finset.range nx, rowB j * d j :=
      Finset.sum_congr rfl fun j _ => by simp [nsRow, mulBrute, not_lt.mpr h.le]
    have hev : ∀ᶠ t in nhds (0 : ℝ), fa t < fb t := hca.eventually_lt hcb (by rw [h0a, h0b]; exact h)
    rw [hrow]
    refine ⟨hb.congr_of_eventuallyEq (hev.mono fun t ht => by simp only; exact max_eq_right ht.le), ?_⟩
    have hd : HasDerivAt (fun t => semiRes false (fa t) (fb t)) (∑ j ∈ Finset.range nx, rowA j * d j) 0 :=
      ha.congr_of_eventuallyEq (hev.mono fun t ht => by simp [semiRes, ht])
    exact ⟨fun h' => hd.unique h', fun e => e ▸ hd⟩
  · have hrow : ∑ j ∈ Finset.range nx, nsRow (mulBrute a b) rowA rowB j * d j = ∑ j ∈ Finset.range nx, rowA j * d j :=
      Finset.sum_congr rfl fun j _ => by simp [nsRow, mulBrute, h]
    have hev : ∀ᶠ t in nhds (0 : ℝ), fb t < fa t := hcb.eventually_lt hca (by rw [h0a, h0b]; exact h)
    rw [hrow]
    refine ⟨ha.congr_of_eventuallyEq (hev.mono fun t ht => by simp only; exact max_eq_left ht.le), ?_⟩
    have hd : HasDerivAt (fun t => semiRes false (fa t) (fb t)) (∑ j ∈ Finset.range nx, rowB j * d j) 0 :=
      hb.congr_of_eventuallyEq (hev.mono fun t ht => by simp [semiRes, ht.not_gt])
    exact ⟨fun h' => h'.unique hd, fun e => e ▸ hd⟩

/-- **C118.** An active item: the multipliers plus one are on the unit circle, as all the limits of the gradients in
the non-active states are, exactly when the derivatives along `z` have the same sum of squares as the rows: a condition the
vector `z` of ones does not meet in general. -/
theorem C118_active_multipliers (nx : ℕ) (rowA rowB z : ℕ → ℝ)
    (hne : ∑ j ∈ Finset.range nx, rowA j * rowA j + ∑ j ∈ Finset.range nx, rowB j * rowB j ≠ 0) :
    (((mulActive nx rowA rowB z).1 + 1) ^ 2 + ((mulActive nx rowA rowB z).2 + 1) ^ 2 = 1 ↔
      (∑ j ∈ Finset.range nx, rowA j * z j) ^ 2 + (∑ j ∈ Finset.range nx, rowB j * z j) ^ 2 =
        ∑ j ∈ Finset.range nx, rowA j * rowA j + ∑ j ∈ Finset.range nx, rowB j * rowB j) := by
  set s := ∑ j ∈ Finset.range nx, rowA j * rowA j + ∑ j ∈ Finset.range nx, rowB j * rowB j with hs
  have hs0 : 0 ≤ s := add_nonneg (Finset.sum_nonneg fun j _ => mul_self_nonneg _) (Finset.sum_nonneg fun j _ => mul_self_nonneg _)
  simp only [mulActive, ← hs, sub_add_cancel, div_pow, Real.sq_sqrt hs0]
  rw [← add_div, div_eq_one_iff_eq hne]

/-! ### The iteration (C119) -/

variable {K V M R : Type} [Field K] [LinearOrder K] [AddCommGroup V] [Module K V]

/-- What the residual loop gives: in the first iteration the state itself; otherwise a state with a sufficiently
smaller residual, or - after a regular step - the previous state with `vec_r` of a rejected one, or - after a steepest descent step -
the last state tried. -/
theorem ssSearch_spec (c : SsConf K) (e : SsEnv K V M R) (it : ℕ) (xLast dx0 : V) (errLast : K) (mode : Mode)
    (x' : V) (err : K) (r : R) (mode' : Mode) (reuse : Bool) :
    ∀ (n : ℕ) (ls : K) (x : V), (it ≠ 0 → x = xLast - ls • dx0) →
      ssSearch c e it xLast dx0 errLast mode n ls x = some (.ok x' err r mode' reuse) →
      (it = 0 ∧ x' = x ∧ e.res x = some r ∧ err = e.norm r ∧ mode' = mode ∧ reuse = false) ∨
      (it ≠ 0 ∧ e.res x' = some r ∧ err = e.norm r ∧ err < errLast * c.base.lsOn ∧ mode' = .regular ∧ reuse = false) ∨
      (it ≠ 0 ∧ mode = .regular ∧ mode' = .descent ∧ reuse = true ∧ x' = xLast ∧ err = errLast ∧
        ∃ ls, ls < c.base.lsMin ∧ e.res (xLast - ls • dx0) = some r ∧ ¬ e.norm r < errLast * c.base.lsOn) ∨
      (it ≠ 0 ∧ mode = .descent ∧ mode' = .descent ∧ reuse = false ∧ e.res x' = some r ∧ err = e.norm r) := by
  intro n
  induction n with
  | zero => intro ls x _ h; simp [ssSearch] at h
  | succ n ih =>
    intro ls x hx h
    simp only [ssSearch] at h
    cases hr : e.res x with
    | none =>
      simp only [hr] at h
      split_ifs at h with h1
      · simp at h
      · rcases ih _ _ (fun _ => rfl) h with h2 | h2
        · exact absurd (Or.inl h2.1) h1
        · exact Or.inr h2
    | some r' =>
      simp only [hr] at h
      by_cases h0 : it = 0
      · simp only [h0, if_true, Option.some.injEq, LsRes.ok.injEq] at h
        obtain ⟨rfl, rfl, rfl, rfl, rfl⟩ := h
        exact Or.inl ⟨h0, rfl, rfl, rfl, rfl, rfl⟩
      simp only [h0, if_false] at h
      by_cases h1 : e.norm r' < errLast * c.base.lsOn
      · simp only [h1, if_true, Option.some.injEq, LsRes.ok.injEq] at h
        obtain ⟨rfl, rfl, rfl, rfl, rfl⟩ := h
        exact Or.inr (Or.inl ⟨h0, hr, rfl, h1, rfl, rfl⟩)
      simp only [h1, if_false] at h
      by_cases h2 : ls < c.base.lsMin
      · simp only [h2, if_true] at h
        cases mode with
        | regular =>
          simp only [if_true, Option.some.injEq, LsRes.ok.injEq] at h
          obtain ⟨rfl, rfl, rfl, rfl, rfl⟩ := h
          exact Or.inr (Or.inr (Or.inl ⟨h0, rfl, rfl, rfl, rfl, rfl, ls, h2, by rw [← hx h0]; exact hr, h1⟩))
        | descent =>
          simp only [reduceCtorEq, if_false, Option.some.injEq, LsRes.ok.injEq] at h
          obtain ⟨rfl, rfl, rfl, rfl, rfl⟩ := h
          exact Or.inr (Or.inr (Or.inr ⟨h0, rfl, rfl, rfl, hr, rfl⟩))
      · simp only [h2, if_false] at h
        rcases ih _ _ (fun _ => rfl) h with h3 | h3
        · exact absurd h3.1 h0
        · exact Or.inr h3

/-- The invariant of the iteration. -/
structure SsInv (e : SsEnv K V M R) (x0 : V) (s : SsState K V M) : Prop where
  start : s.it = 0 → s.x = x0 ∧ s.mode = .regular
  trial : s.it ≠ 0 → s.x = s.xLast - s.dx
  last : s.it ≠ 0 → ∃ r, e.res s.xLast = some r ∧ s.errLast = e.norm r
  first : s.it ≠ 0 → ∃ r, e.res x0 = some r ∧ s.err0 = e.norm r
  mtx : s.it ≠ 0 → ∃ m, s.mtx = some m
  len : s.log.length = s.it

theorem ssStep_spec (c : SsConf K) (e : SsEnv K V M R) (lsFuel : ℕ) (x0 : V) (s : SsState K V M) (hs : SsInv e x0 s) :
    (∀ s', ssStep c e lsFuel s = some (.inl s') → SsInv e x0 s' ∧ s'.it = s.it + 1 ∧ (s.it : ℤ) < c.base.iMax) ∧
    (∀ x cond it err err0, ssStep c e lsFuel s = some (.inr (.done x cond it err err0)) →
      it = s.it ∧ (∃ r, e.res x = some r ∧ err = e.norm r) ∧ (∃ r, e.res x0 = some r ∧ err0 = e.norm r) ∧
      ((cond = 0 ∧ TolMet c.base it err err0) ∨ (cond = 1 ∧ ¬ TolMet c.base it err err0 ∧ c.base.iMax ≤ it))) ∧
    ssStep c e lsFuel s ≠ some (.inr .unbound) := by
  unfold ssStep
  cases hr : ssSearch c e s.it s.xLast s.dx s.errLast s.mode lsFuel 1 s.x with
  | none => simp
  | some o =>
    cases o with
    | valueError => simp
    | ok x err r mode reuse =>
      have hsp := ssSearch_spec c e s.it s.xLast s.dx s.errLast s.mode x err r mode reuse lsFuel 1 s.x
        (fun h => by rw [one_smul]; exact hs.trial h) hr
      simp only
      -- the error belongs to the state
      have herr : ∃ r, e.res x = some r ∧ err = e.norm r := by
        rcases hsp with h | h | h | h
        · exact ⟨r, by rw [h.2.1]; exact h.2.2.1, h.2.2.2.1⟩
        · exact ⟨r, h.2.1, h.2.2.1⟩
        · obtain ⟨r1, h1, h2⟩ := hs.last h.1
          exact ⟨r1, by rw [h.2.2.2.2.1]; exact h1, by rw [h.2.2.2.2.2.1]; exact h2⟩
        · exact ⟨r, h.2.2.2.2.1, h.2.2.2.2.2⟩
      have herr0 : ∃ r, e.res x0 = some r ∧ (if s.it = 0 then err else s.err0) = e.norm r := by
        by_cases h0 : s.it = 0
        · rcases hsp with h | h | h | h
          · refine ⟨r, ?_, by rw [if_pos h0]; exact h.2.2.2.1⟩
            rw [← (hs.start h0).1]; exact h.2.2.1
          all_goals exact absurd h0 h.1
        · rw [if_neg h0]; exact hs.first h0
      have hmtx : ∃ m, (if reuse then s.mtx else some (e.jac x)) = some m := by
        cases hre : reuse with
        | false => exact ⟨_, rfl⟩
        | true =>
          rcases hsp with h | h | h | h
          · exact absurd (hre.symm.trans h.2.2.2.2.2) (by simp)
          · exact absurd (hre.symm.trans h.2.2.2.2.2) (by simp)
          · exact hs.mtx h.1
          · exact absurd (hre.symm.trans h.2.2.2.1) (by simp)
      obtain ⟨m, hm⟩ := hmtx
      generalize hE : (if s.it = 0 then err else s.err0) = E at *
      rcases convTest_cases c.base s.it err E with hc | hc | hc
      · have hp : convTest c.base s.it err E ≥ 0 := by rw [hc.2]
        simp only [hp, if_true]
        refine ⟨by simp, ?_, by simp⟩
        intro x' cond it err' err0' h
        simp only [Option.some.injEq, Sum.inr.injEq, SsOut.done.injEq] at h
        obtain ⟨rfl, rfl, rfl, rfl, rfl⟩ := h
        exact ⟨rfl, herr, herr0, Or.inl ⟨hc.2, hc.1⟩⟩
      · have hp : convTest c.base s.it err E ≥ 0 := by rw [hc.2.2]; norm_num
        simp only [hp, if_true]
        refine ⟨by simp, ?_, by simp⟩
        intro x' cond it err' err0' h
        simp only [Option.some.injEq, Sum.inr.injEq, SsOut.done.injEq] at h
        obtain ⟨rfl, rfl, rfl, rfl, rfl⟩ := h
        exact ⟨rfl, herr, herr0, Or.inr ⟨hc.2.2, hc.1, hc.2.1⟩⟩
      · have hp : ¬ convTest c.base s.it err E ≥ 0 := by rw [hc.2.2]; norm_num
        simp only [hp, if_false, hm]
        refine ⟨?_, by simp, by simp⟩
        intro s' h
        simp only [Option.some.injEq, Sum.inl.injEq] at h
        subst h
        refine ⟨⟨fun h => by simp at h, fun _ => rfl, fun _ => herr, fun _ => herr0, fun _ => ⟨m, rfl⟩, ?_⟩, rfl, hc.2.1⟩
        simp [hs.len]

/-- **C119.** When the semi-smooth Newton solver returns, the error reported is the norm of the residual in the state returned, the
initial error is that of the initial state, the condition is 0 exactly when the tolerances are met, otherwise 1 and the
maximum number of iterations is reached; the number of iterations does not exceed the maximum; the matrix reused always exists. -/
theorem C119_result (c : SsConf K) (e : SsEnv K V M R) (lsFuel fuel : ℕ) (x0 : V) (o : SsOut K V) (log : List K)
    (h : semismoothNewton c e lsFuel fuel x0 = some (o, log)) :
    o ≠ .unbound ∧ ∀ x cond it err err0, o = .done x cond it err err0 →
      (∃ r, e.res x = some r ∧ err = e.norm r) ∧ (∃ r, e.res x0 = some r ∧ err0 = e.norm r) ∧
      ((cond = 0 ∧ TolMet c.base it err err0) ∨ (cond = 1 ∧ ¬ TolMet c.base it err err0 ∧ c.base.iMax ≤ it)) ∧
      (it : ℤ) ≤ max c.base.iMax 0 ∧ log.length = it := by
  have key : ∀ (n : ℕ) (s : SsState K V M), SsInv e x0 s → (s.it : ℤ) ≤ max c.base.iMax 0 →
      ssLoop c e lsFuel n s = some (o, log) → o ≠ .unbound ∧ ∀ x cond it err err0, o = .done x cond it err err0 →
      (∃ r, e.res x = some r ∧ err = e.norm r) ∧ (∃ r, e.res x0 = some r ∧ err0 = e.norm r) ∧
      ((cond = 0 ∧ TolMet c.base it err err0) ∨ (cond = 1 ∧ ¬ TolMet c.base it err err0 ∧ c.base.iMax ≤ it)) ∧
      (it : ℤ) ≤ max c.base.iMax 0 ∧ log.length = it := by
    intro n
    induction n with
    | zero => intro s _ _ h; simp [ssLoop] at h
    | succ n ih =>
      intro s hs hle h
      obtain ⟨h1, h2, h3⟩ := ssStep_spec c e lsFuel x0 s hs
      simp only [ssLoop] at h
      cases hst : ssStep c e lsFuel s with
      | none => simp [hst] at h
      | some q =>
        cases q with
        | inl s' =>
          simp only [hst] at h
          obtain ⟨h4, h5, h6⟩ := h1 s' hst
          exact ih s' h4 (by rw [h5]; push_cast; omega) h
        | inr o' =>
          simp only [hst, Option.some.injEq, Prod.mk.injEq] at h
          obtain ⟨rfl, rfl⟩ := h
          refine ⟨fun hu => h3 (by rw [hst, hu]), ?_⟩
          intro x cond it err err0 ho
          subst ho
          obtain ⟨h4, h5, h6, h7⟩ := h2 _ _ _ _ _ hst
          exact ⟨h5, h6, h7, by rw [h4]; exact hle, by rw [h4]; exact hs.len⟩
  refine key fuel _ ⟨fun _ => ⟨rfl, rfl⟩, ?_, ?_, ?_, ?_, rfl⟩ (by simp) h <;> intro h <;> simp at h

/-- **C119.** In each iteration after the first one: the error decreases by the factor `ls_on`, or the previous state is
restored, or the step was one of the steepest descent. -/
theorem C119_monotone (c : SsConf K) (e : SsEnv K V M R) (lsFuel : ℕ) (x0 : V) (s s' : SsState K V M) (hs : SsInv e x0 s)
    (h0 : s.it ≠ 0) (h : ssStep c e lsFuel s = some (.inl s')) :
    s'.errLast < s.errLast * c.base.lsOn ∨ (s'.xLast = s.xLast ∧ s'.errLast = s.errLast) ∨ s.mode = .descent := by
  unfold ssStep at h
  cases hr : ssSearch c e s.it s.xLast s.dx s.errLast s.mode lsFuel 1 s.x with
  | none => simp [hr] at h
  | some o =>
    cases o with
    | valueError => simp [hr] at h
    | ok x err r mode reuse =>
      have hsp := ssSearch_spec c e s.it s.xLast s.dx s.errLast s.mode x err r mode reuse lsFuel 1 s.x
        (fun h => by rw [one_smul]; exact hs.trial h) hr
      simp only [hr, h0, if_false] at h
      by_cases h1 : convTest c.base s.it err s.err0 ≥ 0
      · simp [h1] at h
      simp only [h1, if_false] at h
      have hs' : s'.errLast = err ∧ s'.xLast = x := by
        cases hm : (if reuse then s.mtx else some (e.jac x)) with
        | none => simp [hm] at h
        | some m =>
          simp only [hm, Option.some.injEq, Sum.inl.injEq] at h
          subst h
          exact ⟨rfl, rfl⟩
      rcases hsp with h2 | h2 | h2 | h2
      · exact absurd h2.1 h0
      · left; rw [hs'.1]; exact h2.2.2.2.1
      · right; left; exact ⟨hs'.2.trans h2.2.2.2.2.1, hs'.1.trans h2.2.2.2.2.2.1⟩
      · right; right; exact h2.2.1

/-- **C119.** The finding: when the line search of a regular step fails, the state and the error are restored, but not the residual
vector: the steepest descent direction is computed from the residual in the last rejected state, with the matrix of the
restored one. -/
theorem C119_stale_direction (c : SsConf K) (e : SsEnv K V M R) (lsFuel : ℕ) (x0 : V) (s s' : SsState K V M)
    (hs : SsInv e x0 s) (h0 : s.it ≠ 0) (hmode : s.mode = .regular)
    (hall : ∀ x r, e.res x = some r → ¬ e.norm r < s.errLast * c.base.lsOn)
    (h : ssStep c e lsFuel s = some (.inl s')) :
    s'.xLast = s.xLast ∧ s'.mtx = s.mtx ∧ ∃ m ls r, s.mtx = some m ∧ ls < c.base.lsMin ∧
      e.res (s.xLast - ls • s.dx) = some r ∧ s'.dx = e.tmul m r := by
  unfold ssStep at h
  cases hr : ssSearch c e s.it s.xLast s.dx s.errLast s.mode lsFuel 1 s.x with
  | none => simp [hr] at h
  | some o =>
    cases o with
    | valueError => simp [hr] at h
    | ok x err r mode reuse =>
      have hsp := ssSearch_spec c e s.it s.xLast s.dx s.errLast s.mode x err r mode reuse lsFuel 1 s.x
        (fun h => by rw [one_smul]; exact hs.trial h) hr
      simp only [hr, h0, if_false] at h
      by_cases h1 : convTest c.base s.it err s.err0 ≥ 0
      · simp [h1] at h
      simp only [h1, if_false] at h
      rcases hsp with h2 | h2 | h2 | h2
      · exact absurd h2.1 h0
      · obtain ⟨_, h3, h4, h5, _⟩ := h2
        exact absurd (h4 ▸ h5) (hall x r h3)
      · obtain ⟨_, _, rfl, rfl, rfl, rfl, ls, hls, hres, _⟩ := h2
        obtain ⟨m, hm⟩ := hs.mtx h0
        simp only [if_true, hm, Option.some.injEq, Sum.inl.injEq] at h
        subst h
        exact ⟨rfl, hm.symm, m, ls, r, hm, hls, hres, by simp [ssDirection]⟩
      · rw [hmode] at h2; simp at h2

/-! ### Termination -/

theorem ssSearch_terminates [IsStrictOrderedRing K] (c : SsConf K) (e : SsEnv K V M R) (it : ℕ) (xLast dx0 : V) (errLast : K)
    (mode : Mode) (ρ : K) (hρ0 : 0 ≤ ρ) (h1 : c.redRegular ≤ ρ) (h2 : c.redDescent ≤ ρ) (h3 : c.lsRedWarp ≤ ρ) (h10 : 0 ≤ c.redRegular)
    (h20 : 0 ≤ c.redDescent) (h30 : 0 ≤ c.lsRedWarp) :
    ∀ (n m : ℕ) (ls : K) (x : V), 0 ≤ ls → ls * ρ ^ n < c.base.lsMin → n + 1 ≤ m →
      ssSearch c e it xLast dx0 errLast mode m ls x ≠ none := by
  intro n
  induction n with
  | zero =>
    intro m ls x hl hlt hm
    obtain ⟨m, rfl⟩ : ∃ k, m = k + 1 := ⟨m - 1, by omega⟩
    rw [pow_zero, mul_one] at hlt
    simp only [ssSearch]
    cases e.res x with
    | none => simp [hlt]
    | some r => simp only [hlt, if_true]; split_ifs <;> simp
  | succ n ih =>
    intro m ls x hl hlt hm
    obtain ⟨m, rfl⟩ : ∃ k, m = k + 1 := ⟨m - 1, by omega⟩
    have key : ∀ red : K, red ≤ ρ → ls * red * ρ ^ n < c.base.lsMin := by
      intro red hr
      refine lt_of_le_of_lt ?_ hlt
      rw [pow_succ, mul_comm (ρ ^ n) ρ, ← mul_assoc]
      exact mul_le_mul_of_nonneg_right (mul_le_mul_of_nonneg_left hr hl) (pow_nonneg hρ0 n)
    have hred : (if mode = .regular then c.redRegular else c.redDescent) ≤ ρ ∧
        0 ≤ (if mode = .regular then c.redRegular else c.redDescent) := by
      split_ifs
      exacts [⟨h1, h10⟩, ⟨h2, h20⟩]
    simp only [ssSearch]
    cases e.res x with
    | none =>
      simp only
      split_ifs
      · simp
      · exact ih m _ _ (mul_nonneg hl h30) (key _ h3) (by omega)
    | some r =>
      simp only
      by_cases c1 : it = 0
      · simp [c1]
      by_cases c2 : e.norm r < errLast * c.base.lsOn
      · simp [c1, c2]
      by_cases c3 : ls < c.base.lsMin
      · simp only [c1, c2, c3, if_false, if_true]
        split_ifs <;> simp
      · simp only [c1, c2, c3, if_false]
        exact ih m _ _ (mul_nonneg hl hred.2) (key _ hred.1) (by omega)

/-- **C119.** The solver stops for any functions, also those failing in some states, any matrices and any linear solver: the number of the
passes of the residual loop has a bound that depends only on the options. -/
theorem C119_terminates [IsStrictOrderedRing K] [Archimedean K] (c : SsConf K) (hmin : 0 < c.base.lsMin) (h10 : 0 ≤ c.redRegular)
    (h20 : 0 ≤ c.redDescent) (h30 : 0 ≤ c.lsRedWarp) (h1 : c.redRegular < 1) (h2 : c.redDescent < 1)
    (h3 : c.lsRedWarp < 1) :
    ∃ B : ℕ, ∀ (e : SsEnv K V M R) (lsFuel fuel : ℕ) (x0 : V), B ≤ lsFuel → c.base.iMax.toNat < fuel →
      semismoothNewton c e lsFuel fuel x0 ≠ none := by
  obtain ⟨n, hn⟩ := exists_pow_lt_of_lt_one hmin (max_lt (max_lt h1 h2) h3)
  refine ⟨n + 1, fun e lsFuel fuel x0 hB hfuel => ?_⟩
  have key : ∀ (m : ℕ) (s : SsState K V M), SsInv e x0 s → c.base.iMax < (s.it : ℤ) + m → m ≠ 0 →
      ssLoop c e lsFuel m s ≠ none := by
    intro m
    induction m with
    | zero => intro s _ _ h; exact absurd rfl h
    | succ m ih =>
      intro s hs hlt _
      have hst := ssStep_spec c e lsFuel x0 s hs
      have hsr := ssSearch_terminates c e s.it s.xLast s.dx s.errLast s.mode (max (max c.redRegular c.redDescent) c.lsRedWarp)
        (h10.trans ((le_max_left _ _).trans (le_max_left _ _))) ((le_max_left _ _).trans (le_max_left _ _)) ((le_max_right _ _).trans (le_max_left _ _)) (le_max_right _ _)
        h10 h20 h30 n lsFuel 1 s.x zero_le_one (by rw [one_mul]; exact hn) hB
      have hnone : ssStep c e lsFuel s ≠ none := by
        unfold ssStep
        cases hr : ssSearch c e s.it s.xLast s.dx s.errLast s.mode lsFuel 1 s.x with
        | none => exact absurd hr hsr
        | some o =>
          cases o with
          | valueError => simp
          | ok x err r mode reuse =>
            simp only
            generalize (if s.it = 0 then err else s.err0) = E
            generalize (if reuse = true then s.mtx else some (e.jac x)) = q
            by_cases hcv : convTest c.base s.it err E ≥ 0
            · simp [hcv]
            · cases q <;> simp [hcv]
      simp only [ssLoop]
      cases hq : ssStep c e lsFuel s with
      | none => exact absurd hq hnone
      | some q =>
        cases q with
        | inr o => simp
        | inl s' =>
          simp only
          obtain ⟨h4, h5, h6⟩ := hst.1 s' hq
          refine ih s' h4 (by rw [h5]; push_cast at hlt ⊢; omega) ?_
          rintro rfl
          push_cast at hlt
          omega
  refine key fuel _ ⟨fun _ => ⟨rfl, rfl⟩, ?_, ?_, ?_, ?_, rfl⟩ ?_ (by omega)
  · intro h; simp at h
  · intro h; simp at h
  · intro h; simp at h
  · intro h; simp at h
  · show c.base.iMax < ((0 : ℕ) : ℤ) + fuel
    push_cast; omega

/-! ### Examples -/

/-- The options. -/
def exSs : SsConf ℚ :=
  { base := { iMax := 3, epsA := 1 / 100, epsR := 1, epsOr := false, macheps := 1 / 10 ^ 16, lsMode := .residual, lsOn := 99 / 100,
              lsRed := 1 / 10, lsRedWarp := 1 / 10, lsMin := 1 / 5, giveUpWarp := false, stepRed := 1, isLinear := false },
    redRegular := 1 / 2, redDescent := 1 / 4, lsRedWarp := 1 / 10, linRed := 1 }

/-- The residual x + 1 with a matrix of a wrong sign: the regular step fails, the state is restored; the direction
of the steepest descent is that of a rejected state. -/
def exEnv : SsEnv ℚ ℚ ℚ ℚ :=
  { res := fun x => some (x + 1), norm := fun r => |r|, jac := fun _ => -1, linSolve := fun m r => r / m, tmul := fun m r => m * r,
    linErr := fun _ _ _ => 0 }

/-- The state after the first iteration from the state 0: the next trial is 1. -/
def exState : SsState ℚ ℚ ℚ := ⟨1, 1, 0, -1, 1, 1, .regular, some (-1), [1]⟩

theorem exInv : SsInv exEnv 0 exState :=
  ⟨fun h => by simp [exState] at h, fun _ => by norm_num [exState], fun _ => ⟨1, by norm_num [exState, exEnv]⟩,
    fun _ => ⟨1, by norm_num [exState, exEnv]⟩, fun _ => ⟨-1, rfl⟩, rfl⟩

/-- The state is restored to 0 with the residual 1, but the direction is that of the residual 9/8 in the rejected state 1/8. -/
example : ((ssStep exSs exEnv 10 exState).bind fun o =>
      match o with
      | .inl s => some (s.xLast, s.errLast, s.dx)
      | _ => none) = some ((0 : ℚ), (1 : ℚ), (-9 / 8 : ℚ)) := by decide +kernel

/-- The whole run. -/
example : ((semismoothNewton exSs exEnv 10 10 0).bind fun o =>
      match o.1 with
      | .done x cond it err err0 => some (cond, it, err0, decide (err = |x + 1|))
      | _ => none) = some ((1 : ℤ), (3 : ℕ), (1 : ℚ), true) := by decide +kernel

/-- The complementarity for `a = 3`, `b = 0`. -/
example : semiRes true 3 0 = 0 := (C118_complementarity true 3 0).mpr ⟨by norm_num, by norm_num, by norm_num⟩

/-- The rows `(1, 1)` and `(0, 0)` with `z = (1, 1)`: the multipliers are not those of a limit of gradients. -/
example : ¬ (((mulActive 2 (fun _ => 1) (fun _ => 0) fun _ => 1).1 + 1) ^ 2 +
    ((mulActive 2 (fun _ => 1) (fun _ => 0) fun _ => 1).2 + 1) ^ 2 = 1) := by
  rw [C118_active_multipliers 2 (fun _ => 1) (fun _ => 0) (fun _ => 1) (by simp)]
  norm_num

/-- A non-active item: `a = 1 + t`, `b = 2 - t`. -/
example : HasDerivAt (fun t : ℝ => semiRes true (1 + t) (2 - t))
    (∑ j ∈ Finset.range 1, nsRow (mulNonactive 1 2) (fun _ => 1) (fun _ => -1) j * 1) 0 := by
  refine C118_nonactive_row (1 / 10) (by norm_num) 1 (fun _ => 1) (fun _ => 2) 0 ?_ 1 (fun _ => 1) (fun _ => -1) (fun _ => 1)
    (fun t => 1 + t) (fun t => 2 - t) (by norm_num) (by norm_num) ?_ ?_
  · simp only [isActive, maxAbs1]
    norm_num
  · simpa using (hasDerivAt_id (0 : ℝ)).const_add 1
  · simpa using (hasDerivAt_id (0 : ℝ)).const_sub 2

/-- The brute force row of the same functions is 'of the other one': -1 instead of 1. -/
example : ¬ HasDerivAt (fun t : ℝ => semiRes false (1 + t) (2 - t))
    (∑ j ∈ Finset.range 1, nsRow (mulBrute 1 2) (fun _ => 1) (fun _ => -1) j * 1) 0 := by
  have := (C118_brute_row 1 2 (by norm_num) 1 (fun _ => 1) (fun _ => -1) (fun _ => 1)
    (fun t => 1 + t) (fun t => 2 - t) (by norm_num) (by norm_num) (by simpa using (hasDerivAt_id (0 : ℝ)).const_add 1)
    (by simpa using (hasDerivAt_id (0 : ℝ)).const_sub 2)).2
  rw [this]
  norm_num

end Verif.Opt
