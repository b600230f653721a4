import Verif.Solver.Tsc
import Mathlib.Tactic.Linarith
import Mathlib.Tactic.Positivity
import Mathlib.Tactic.NormNum
import Mathlib.Algebra.Order.BigOperators.Group.Finset

/-!
C28: adaptive time step controllers.
-/

namespace Verif.Solver.Tsc

/-- A non-negative float or nan. -/
def Fl.NonNeg : Fl → Prop
  | .fin r => 0 ≤ r
  | _ => True

/-- The usual meaning of a sensible configuration. -/
structure Conf.Valid (c : Conf) : Prop where
  fmin : 0 < c.fmin
  fmin_le : c.fmin ≤ c.fmax
  fsafety : 0 < c.fsafety
  order : 0 < c.order

/-! ### Acceptance -/

/-- C28: `tsc.ed_basic` accepts a step exactly if the scaled error of displacements is at most 1
and the scaled error of velocities is at most 1 or nan. -/
theorem C28_basic_accept (c : Conf) (u v : Fl) :
    (basic c u v).2 = true ↔ u.Le (.fin 1) ∧ (v.Le (.fin 1) ∨ v = .nan) := by
  unfold basic
  simp only
  have h : (pyMax u v).Le (.fin 1) ↔ u.Le (.fin 1) ∧ (v.Le (.fin 1) ∨ v = .nan) := by
    unfold pyMax
    cases u with
    | fin a =>
      cases v with
      | fin b =>
        simp only [Fl.Lt, reduceCtorEq, or_false]
        by_cases hab : a < b
        · simp only [hab, if_true, Fl.Le]
          exact ⟨fun h => ⟨by linarith, h⟩, fun h => h.2⟩
        · simp only [hab, if_false, Fl.Le]
          exact ⟨fun h => ⟨h, by linarith⟩, fun h => h.1⟩
      | inf => simp [Fl.Lt, Fl.Le]
      | nan => simp [Fl.Lt, Fl.Le]
    | inf => simp [Fl.Lt, Fl.Le]
    | nan => simp [Fl.Lt, Fl.Le]
  by_cases ha : (pyMax u v).Le (.fin 1)
  · simp only [ha, if_true]
    simpa using h.mp ha
  · simp only [ha, if_false]
    exact ⟨fun e => absurd e (by simp), fun e => absurd (h.mpr e) ha⟩

/-- C28: for errors that are numbers: accepted iff both errors are at most 1. -/
theorem C28_basic_accept_iff (c : Conf) (u v : Fl) (hv : v ≠ .nan) :
    (basic c u v).2 = true ↔ u.Le (.fin 1) ∧ v.Le (.fin 1) := by
  rw [C28_basic_accept]; simp [hv]

example (c : Conf) : (basic c (.fin (1/2)) (.fin 1)).2 = true ∧
    (basic c (.fin (1/2)) (.fin 2)).2 = false ∧ (basic c .nan (.fin 0)).2 = false := by
  refine ⟨?_, ?_, ?_⟩
  · rw [C28_basic_accept_iff _ _ _ (by simp)]; norm_num [Fl.Le]
  · rw [← Bool.not_eq_true, C28_basic_accept_iff _ _ _ (by simp)]; norm_num [Fl.Le]
  · rw [← Bool.not_eq_true, C28_basic_accept_iff _ _ _ (by simp)]; norm_num [Fl.Le]

/-- Finding: a nan velocity error (e.g. nan accelerations) does not lead to rejection. -/
theorem C28_nan_accepted (c : Conf) : (basic c (.fin 0) .nan).2 = true := by
  rw [C28_basic_accept]; norm_num [Fl.Le]

/-! ### Limits of the step change -/

theorem pyMax_nonneg (u v : Fl) (hu : u.NonNeg) (hv : v.NonNeg) : (pyMax u v).NonNeg := by
  unfold pyMax; split_ifs <;> assumption

/-- The uncut step change factor for an error that is at most one. -/
theorem raw_accept (c : Conf) (hc : c.Valid) (e : ℝ) (h0 : 0 ≤ e) (h1 : e ≤ 1) :
    Fl.rdiv c.fsafety ((Fl.fin e).pow (1 / c.order)) = .inf ∨
    ∃ f, Fl.rdiv c.fsafety ((Fl.fin e).pow (1 / c.order)) = .fin f ∧ c.fsafety ≤ f := by
  have hp : 0 < 1 / c.order := one_div_pos.mpr hc.order
  generalize 1 / c.order = p at hp ⊢
  unfold Fl.pow
  simp only [hp.ne', if_false, not_lt.mpr hp.le, and_false]
  unfold Fl.rdiv
  simp only
  by_cases hz : e ^ p = 0
  · simp [hz]
  · right
    refine ⟨c.fsafety / e ^ p, by simp [hz], ?_⟩
    have h2 : e ^ p ≤ 1 := Real.rpow_le_one h0 h1 hp.le
    have h3 : 0 < e ^ p := lt_of_le_of_ne (Real.rpow_nonneg h0 _) (Ne.symm hz)
    rw [le_div_iff₀ h3]
    nlinarith [hc.fsafety]

theorem raw_reject (c : Conf) (hc : c.Valid) (e : ℝ) (h1 : 1 < e) :
    ∃ f, Fl.rdiv c.fsafety ((Fl.fin e).pow (1 / c.order)) = .fin f ∧ 0 < f ∧ f < c.fsafety := by
  have hp : 0 < 1 / c.order := one_div_pos.mpr hc.order
  generalize 1 / c.order = p at hp ⊢
  have h2 : 1 < e ^ p := Real.one_lt_rpow h1 hp
  unfold Fl.pow
  simp only [hp.ne', if_false, not_lt.mpr hp.le, and_false]
  unfold Fl.rdiv
  simp only
  have hz : e ^ p ≠ 0 := by linarith
  refine ⟨c.fsafety / e ^ p, by simp [hz], div_pos hc.fsafety (by linarith), ?_⟩
  rw [div_lt_iff₀ (by linarith)]
  nlinarith [hc.fsafety]

theorem le_one_fin (e : Fl) (h : e.Le (.fin 1)) : ∃ r, e = .fin r ∧ r ≤ 1 := by
  cases e with
  | fin r => exact ⟨r, rfl, h⟩
  | inf => exact absurd h (by simp [Fl.Le])
  | nan => exact absurd h (by simp [Fl.Le])

/-- C28: `tsc.ed_basic`: an accepted step changes dt by a finite factor which is at most `fmax`
and at least the smaller one of `fmax`, `fsafety`; in particular the factor is positive. -/
theorem C28_basic_factor_accept (c : Conf) (hc : c.Valid) (u v : Fl) (hu : u.NonNeg)
    (hv : v.NonNeg) (h : (basic c u v).2 = true) :
    ∃ f, (basic c u v).1 = .fin f ∧ f ≤ c.fmax ∧ min c.fmax c.fsafety ≤ f ∧ 0 < f := by
  have hpos : 0 < min c.fmax c.fsafety := lt_min (lt_of_lt_of_le hc.fmin hc.fmin_le) hc.fsafety
  have hnn := pyMax_nonneg u v hu hv
  unfold basic at h ⊢
  simp only at h ⊢
  by_cases ha : (pyMax u v).Le (.fin 1)
  · simp only [ha, if_true]
    obtain ⟨e, he, he1⟩ := le_one_fin _ ha
    rw [he] at hnn ⊢
    rcases raw_accept c hc e hnn he1 with hr | ⟨f, hr, hf⟩
    · rw [hr]
      refine ⟨c.fmax, by simp [pyMin, Fl.Lt], le_refl _, min_le_left _ _, ?_⟩
      exact lt_of_lt_of_le hpos (min_le_left _ _)
    · rw [hr]
      unfold pyMin
      by_cases hlt : f < c.fmax
      · have : Fl.Lt (.fin f) (.fin c.fmax) := hlt
        simp only [this, if_true]
        exact ⟨f, rfl, hlt.le, le_trans (min_le_right _ _) hf, lt_of_lt_of_le hc.fsafety hf⟩
      · have : ¬ Fl.Lt (.fin f) (.fin c.fmax) := hlt
        simp only [this, if_false]
        exact ⟨c.fmax, rfl, le_refl _, min_le_left _ _, lt_of_lt_of_le hpos (min_le_left _ _)⟩
  · simp [ha] at h

/-- C28: `tsc.ed_basic`: a rejected step changes dt by a finite factor which is at least `fmin`
and at most the larger one of `fmin`, `fsafety`: with both less than one, dt is reduced at least
by this factor in each rejection. -/
theorem C28_basic_factor_reject (c : Conf) (hc : c.Valid) (u v : Fl)
    (h : (basic c u v).2 = false) :
    ∃ f, (basic c u v).1 = .fin f ∧ c.fmin ≤ f ∧ f ≤ max c.fmin c.fsafety := by
  have hp : 0 < 1 / c.order := one_div_pos.mpr hc.order
  unfold basic at h ⊢
  simp only at h ⊢
  by_cases ha : (pyMax u v).Le (.fin 1)
  · simp [ha] at h
  · simp only [ha, if_false]
    cases he : pyMax u v with
    | fin e =>
      rw [he] at ha
      have h1 : 1 < e := lt_of_not_ge ha
      obtain ⟨f, hr, hf0, hf⟩ := raw_reject c hc e h1
      rw [hr]
      unfold pyMax
      by_cases hlt : c.fmin < f
      · have : Fl.Lt (.fin c.fmin) (.fin f) := hlt
        simp only [this, if_true]
        exact ⟨f, rfl, hlt.le, le_trans hf.le (le_max_right _ _)⟩
      · have : ¬ Fl.Lt (.fin c.fmin) (.fin f) := hlt
        simp only [this, if_false]
        exact ⟨c.fmin, rfl, le_refl _, le_max_left _ _⟩
    | inf =>
      refine ⟨c.fmin, ?_, le_refl _, le_max_left _ _⟩
      generalize 1 / c.order = p at hp ⊢
      simp [Fl.pow, hp.ne', not_lt.mpr hp.le, Fl.rdiv, pyMax, Fl.Lt, not_lt.mpr hc.fmin.le]
    | nan =>
      refine ⟨c.fmin, ?_, le_refl _, le_max_left _ _⟩
      generalize 1 / c.order = p at hp ⊢
      simp [Fl.pow, hp.ne', Fl.rdiv, pyMax, Fl.Lt]

/-- An example configuration (the defaults, order 1). -/
noncomputable def confEx : Conf :=
  { fmin := 3/10, fmax := 5/2, fsafety := 4/5, order := 1, pcoef := 0, icoef := 1, dcoef := 0,
    fred := 1, incWait := 2, minFinc := 3/2 }

theorem confEx_valid : confEx.Valid := by
  constructor <;> norm_num [confEx]

example : (basic confEx (.fin (1/2)) (.fin (1/4))) = (.fin (8/5), true) ∧
    (basic confEx (.fin 2) (.fin (1/4))) = (.fin (2/5), false) := by
  norm_num [basic, confEx, pyMax, pyMin, Fl.Lt, Fl.Le, Fl.pow, Fl.rdiv]

/-- Cutting a factor with Python's `min(fmax, max(fmin, ·))` gives a number in
`[fmin, fmax]`, also for infinite factors and nan. -/
theorem clamp_spec (fmin fmax : ℝ) (h : fmin ≤ fmax) (raw : Fl) :
    ∃ f, pyMin (.fin fmax) (pyMax (.fin fmin) raw) = .fin f ∧ fmin ≤ f ∧ f ≤ fmax := by
  have key : ∀ x : Fl, (x = .inf ∨ ∃ r, x = .fin r ∧ fmin ≤ r) →
      ∃ f, pyMin (.fin fmax) x = .fin f ∧ fmin ≤ f ∧ f ≤ fmax := by
    rintro x (rfl | ⟨r, rfl, hr⟩)
    · exact ⟨fmax, by simp [pyMin, Fl.Lt], h, le_refl _⟩
    · unfold pyMin
      by_cases hlt : r < fmax
      · have : Fl.Lt (.fin r) (.fin fmax) := hlt
        simp only [this, if_true]
        exact ⟨r, rfl, hr, hlt.le⟩
      · have : ¬ Fl.Lt (.fin r) (.fin fmax) := hlt
        simp only [this, if_false]
        exact ⟨fmax, rfl, h, le_refl _⟩
  apply key
  unfold pyMax
  cases raw with
  | fin r =>
    by_cases hlt : fmin < r
    · have : Fl.Lt (.fin fmin) (.fin r) := hlt
      simp only [this, if_true]
      exact .inr ⟨r, rfl, hlt.le⟩
    · have : ¬ Fl.Lt (.fin fmin) (.fin r) := hlt
      simp only [this, if_false]
      exact .inr ⟨fmin, rfl, le_refl _⟩
  | inf => left; simp [Fl.Lt]
  | nan => right; exact ⟨fmin, by simp [Fl.Lt], le_refl _⟩

/-- C28: `tsc.ed_pid` keeps the step change factor in `[fmin, fmax]`, for all errors and all
histories, including infinite errors and nan; it accepts the same steps as `tsc.ed_basic` and
remembers the last two errors. -/
theorem C28_pid (c : Conf) (h : c.fmin ≤ c.fmax) (st : Fl × Fl) (u v : Fl) :
    (∃ f, (pid c st u v).1.1 = .fin f ∧ c.fmin ≤ f ∧ f ≤ c.fmax) ∧
    (pid c st u v).1.2 = (basic c u v).2 ∧
    (pid c st u v).2 = (pyMax u v, st.1) := by
  refine ⟨clamp_spec c.fmin c.fmax h _, ?_, rfl⟩
  unfold pid basic
  simp only
  by_cases ha : (pyMax u v).Le (.fin 1) <;> simp [ha]

/-- C28: the default coefficients (P = D = 0, I = 1) reduce `tsc.ed_pid` to `tsc.ed_basic`,
provided `fmin <= fsafety <= fmax`. -/
theorem C28_pid_default (c : Conf) (hc : c.Valid) (hp : c.pcoef = 0) (hi : c.icoef = 1)
    (hd : c.dcoef = 0) (h1 : c.fmin ≤ c.fsafety) (h2 : c.fsafety ≤ c.fmax) (st : Fl × Fl)
    (u v : Fl) (hu : u.NonNeg) (hv : v.NonNeg) :
    (pid c st u v).1 = basic c u v := by
  have hpos : 0 < 1 / c.order := one_div_pos.mpr hc.order
  have hneg : -1 / c.order = -(1 / c.order) := by ring
  have hnn := pyMax_nonneg u v hu hv
  have hraw : ((((Fl.fin c.fsafety).mul ((pyMax u v).pow (-1 / c.order))).mul
      (.fin 1)).mul (.fin 1)) = Fl.rdiv c.fsafety ((pyMax u v).pow (1 / c.order)) := by
    rw [hneg]
    have hs := hc.fsafety.ne'
    have hlt : -(1 / c.order) < 0 := by linarith
    unfold Fl.pow
    simp only [neg_eq_zero, hpos.ne', if_false, hlt, not_lt.mpr hpos.le, and_true, and_false]
    cases he : pyMax u v with
    | fin e =>
      rw [he] at hnn
      simp only
      by_cases hz : e = 0
      · subst hz
        have : (0 : ℝ) ^ (1 / c.order) = 0 := Real.zero_rpow hpos.ne'
        simp only [Fl.mul, Fl.rdiv, hs, this, if_true, if_false, one_ne_zero]
      · have hne : e ^ (1 / c.order) ≠ 0 := by
          have : 0 < e := lt_of_le_of_ne hnn (Ne.symm hz)
          exact (Real.rpow_pos_of_pos this _).ne'
        simp only [hz, if_false, Fl.mul, Fl.rdiv, hne, mul_one]
        rw [Real.rpow_neg hnn]
        rfl
    | inf => simp [Fl.mul, Fl.rdiv]
    | nan => simp [Fl.mul, Fl.rdiv]
  have hpid : (pid c st u v).1 = (pyMin (.fin c.fmax) (pyMax (.fin c.fmin)
      (Fl.rdiv c.fsafety ((pyMax u v).pow (1 / c.order)))),
      (basic c u v).2) := by
    rw [← hraw]
    unfold pid
    have hb : -1 / c.order ≠ 0 := by rw [hneg]; linarith
    have hbas : (basic c u v).2 = (pid c st u v).1.2 := (C28_pid c hc.fmin_le st u v).2.1.symm
    rw [hbas]
    unfold pid
    simp [hp, hi, hd, hb]
  rw [hpid]
  unfold basic
  simp only
  by_cases ha : (pyMax u v).Le (.fin 1)
  · simp only [ha, if_true, Prod.mk.injEq, and_true]
    obtain ⟨e, he, he1⟩ := le_one_fin _ ha
    rw [he] at hnn ⊢
    rcases raw_accept c hc e hnn he1 with hr | ⟨f, hr, hf⟩
    · rw [hr]; simp [pyMin, pyMax, Fl.Lt]
    · rw [hr]
      by_cases hlt : c.fmin < f
      · have : Fl.Lt (.fin c.fmin) (.fin f) := hlt
        simp [pyMax, this]
      · have hfe : f = c.fmin := by linarith
        subst hfe
        simp [pyMax]
  · simp only [ha, if_false, Prod.mk.injEq, and_true]
    -- rejected: the result of `max` is at most `fmax`
    have hcut : ∀ x : Fl, (∃ f, x = .fin f ∧ f ≤ c.fmax) → pyMin (.fin c.fmax) x = x := by
      rintro x ⟨f, rfl, hf⟩
      unfold pyMin
      by_cases hlt : f < c.fmax
      · have : Fl.Lt (.fin f) (.fin c.fmax) := hlt
        simp [this]
      · have : ¬ Fl.Lt (.fin f) (.fin c.fmax) := hlt
        simp only [this, if_false]
        rw [le_antisymm hf (not_lt.mp hlt)]
    apply hcut
    obtain ⟨f, hf, _, hf2⟩ := C28_basic_factor_reject c hc u v (by unfold basic; simp [ha])
    refine ⟨f, ?_, le_trans hf2 (max_le hc.fmin_le h2)⟩
    rw [← hf]
    unfold basic
    simp [ha]

theorem pow_term (x p : ℝ) (hx : 0 < x) :
    (if p = 0 then Fl.fin 1 else (Fl.fin x).pow p) = .fin (x ^ p) := by
  by_cases hp : p = 0
  · simp [hp]
  · simp [Fl.pow, hp, hx.ne']

/-- C28: for positive finite errors `tsc.ed_pid` is the PID controller: the uncut factor is
`fsafety * (1/e)^(I/k) * (e0/e)^(P/k) * (e0^2/(e*e00))^(D/k)` with the current error `e`, the two
previous errors `e0`, `e00` and the error order `k`. -/
theorem C28_pid_formula (c : Conf) (e e0 e00 : ℝ) (u v : Fl) (he : pyMax u v = .fin e)
    (h : 0 < e) (h0 : 0 < e0) (h00 : 0 < e00) :
    (pid c (.fin e0, .fin e00) u v).1.1 =
      pyMin (.fin c.fmax) (pyMax (.fin c.fmin) (.fin (c.fsafety *
        ((1 / e) ^ (c.icoef / c.order) * (e0 / e) ^ (c.pcoef / c.order) *
          (e0 ^ 2 / (e * e00)) ^ (c.dcoef / c.order))))) := by
  unfold pid
  simp only [he, pow_term _ _ h, pow_term _ _ h0, pow_term _ _ h00, Fl.mul]
  have key : c.fsafety * e ^ (-(c.pcoef + c.icoef + c.dcoef) / c.order) *
      e0 ^ ((c.pcoef + 2 * c.dcoef) / c.order) * e00 ^ (-c.dcoef / c.order)
      = c.fsafety *
        ((1 / e) ^ (c.icoef / c.order) * (e0 / e) ^ (c.pcoef / c.order) *
          (e0 ^ 2 / (e * e00)) ^ (c.dcoef / c.order)) := by
    have r1 : -(c.pcoef + c.icoef + c.dcoef) / c.order
        = -(c.icoef / c.order) + -(c.pcoef / c.order) + -(c.dcoef / c.order) := by ring
    have r2 : (c.pcoef + 2 * c.dcoef) / c.order
        = c.pcoef / c.order + (c.dcoef / c.order + c.dcoef / c.order) := by ring
    have r3 : -c.dcoef / c.order = -(c.dcoef / c.order) := by ring
    rw [r1, r2, r3]
    generalize c.icoef / c.order = i
    generalize c.pcoef / c.order = p
    generalize c.dcoef / c.order = d
    rw [Real.rpow_add h, Real.rpow_add h, Real.rpow_add h0, Real.rpow_add h0,
      Real.rpow_neg h.le, Real.rpow_neg h.le, Real.rpow_neg h.le, Real.rpow_neg h00.le,
      Real.div_rpow zero_le_one h.le, Real.one_rpow, Real.div_rpow h0.le h.le,
      Real.div_rpow (by positivity) (by positivity), Real.mul_rpow h.le h00.le, pow_two,
      Real.mul_rpow h0.le h0.le]
    have a1 := (Real.rpow_pos_of_pos h i).ne'
    have a2 := (Real.rpow_pos_of_pos h p).ne'
    have a3 := (Real.rpow_pos_of_pos h d).ne'
    have a4 := (Real.rpow_pos_of_pos h00 d).ne'
    field_simp
  rw [key]

/-- Finding: with a proportional part `tsc.ed_pid` can reject a step and increase dt at the same
time. -/
theorem C28_pid_reject_increases : ∃ (c : Conf) (st : Fl × Fl) (f : ℝ), c.Valid ∧
    pid c st (.fin 2) (.fin 0) = ((.fin f, false), (.fin 2, st.1)) ∧ 1 < f := by
  refine ⟨{ confEx with pcoef := 1, icoef := 0 }, (.fin 4, .fin 1), 8/5, ?_, ?_, by norm_num⟩
  · constructor <;> norm_num [confEx]
  · have e1 : (2 : ℝ) ^ (-1 : ℝ) = 1 / 2 := by rw [Real.rpow_neg_one]; norm_num
    norm_num [pid, confEx, pyMax, pyMin, Fl.Lt, Fl.Le, Fl.pow, Fl.mul, e1]

/-! ### `tsc.ed_linear` -/

/-- C28: a single call of `tsc.ed_linear`: for a sensible configuration with
`fred * max(fmin, fsafety) <= 1` the step size is increased only if the step is accepted, at
least `inc_wait` accepted steps with unchanged dt were counted, and the increase is at least
`min_finc` and at most `fmax`. -/
theorem linear_call (c : Conf) (count : ℕ) (u v : Fl) :
    ((linear c count u v).1 = (.fin 1, true) ∧
      ((linear c count u v).2 = count ∧ c.incWait ≤ count ∨
       (linear c count u v).2 = count + 1 ∧ (count : Int) < c.incWait)) ∨
    (basic c u v).2 = true ∧ c.incWait ≤ (count : Int) ∧
      (linear c count u v) = (((basic c u v).1, true), 0) ∧ (basic c u v).1.Ge (.fin c.minFinc) ∨
    (basic c u v).2 = false ∧
      (linear c count u v) = (((basic c u v).1.mul (.fin c.fred), false), 0) := by
  unfold linear
  simp only
  by_cases h1 : (basic c u v).2 = false
  · simp [h1]
  · simp only [h1]
    have h1' : (basic c u v).2 = true := by simpa using h1
    by_cases h2 : (count : Int) ≥ c.incWait
    · simp only [h2, if_true]
      by_cases h3 : (basic c u v).1.Ge (.fin c.minFinc)
      · right; left; simp [h3]
      · left; simp [h3]
    · left; simp [h2]; omega

/-- The state of a controller after a sequence of calls. -/
noncomputable def stateAfter {σ : Type} (f : σ → Fl → Fl → (Fl × Bool) × σ) (s : σ)
    (es : List (Fl × Fl)) : σ := es.foldl (fun s e => (f s e.1 e.2).2) s

theorem runs_append {σ : Type} (f : σ → Fl → Fl → (Fl × Bool) × σ) (es : List (Fl × Fl))
    (e : Fl × Fl) : ∀ s : σ,
    runs f s (es ++ [e]) = runs f s es ++ [(f (stateAfter f s es) e.1 e.2).1] := by
  induction es with
  | nil => intro s; simp [runs, stateAfter]
  | cons a es ih =>
    intro s
    simp only [List.cons_append, runs, ih]
    rfl

theorem runs_length {σ : Type} (f : σ → Fl → Fl → (Fl × Bool) × σ) (es : List (Fl × Fl)) :
    ∀ s : σ, (runs f s es).length = es.length := by
  induction es with
  | nil => intro s; rfl
  | cons a es ih => intro s; simp [runs, ih]

theorem runs_take {σ : Type} (f : σ → Fl → Fl → (Fl × Bool) × σ) (es : List (Fl × Fl)) (k : ℕ) :
    ∀ s : σ, runs f s (es.take k) = (runs f s es).take k := by
  induction es generalizing k with
  | nil => intro s; simp [runs]
  | cons a es ih =>
    intro s
    cases k with
    | zero => simp [runs]
    | succ k => simp [runs, ih]

/-- The counter counts accepted steps with unchanged dt at the end of the history. -/
theorem linear_count (c : Conf) (es : List (Fl × Fl)) :
    stateAfter (linear c) 0 es ≤ es.length ∧
    ∀ j, es.length - stateAfter (linear c) 0 es ≤ j → j < es.length →
      (runs (linear c) 0 es)[j]? = some (.fin 1, true) := by
  induction es using List.reverseRecOn with
  | nil => simp [stateAfter]
  | append_singleton es e ih =>
    obtain ⟨ih1, ih2⟩ := ih
    have hs : stateAfter (linear c) 0 (es ++ [e])
        = (linear c (stateAfter (linear c) 0 es) e.1 e.2).2 := by
      simp [stateAfter, List.foldl_append]
    rw [hs, runs_append]
    have hlen := runs_length (linear c) es 0
    generalize stateAfter (linear c) 0 es = n at *
    have hcases : ((linear c n e.1 e.2).1 = (.fin 1, true) ∧ (linear c n e.1 e.2).2 ≤ n + 1) ∨
        (linear c n e.1 e.2).2 = 0 := by
      rcases linear_call c n e.1 e.2 with ⟨h1, h2⟩ | ⟨_, _, h2, _⟩ | ⟨_, h2⟩
      · left; exact ⟨h1, by rcases h2 with h | h <;> omega⟩
      · right; rw [h2]
      · right; rw [h2]
    rw [List.length_append, List.length_singleton]
    rcases hcases with ⟨h1, h2⟩ | h
    · refine ⟨by omega, ?_⟩
      intro j hj1 hj2
      by_cases hje : j < es.length
      · rw [List.getElem?_append_left (by omega)]
        exact ih2 j (by omega) hje
      · have : j = (runs (linear c) 0 es).length := by omega
        rw [this, List.getElem?_concat_length, h1]
    · refine ⟨by omega, ?_⟩
      intro j hj1 hj2
      omega

/-- C28: `tsc.ed_linear`, over any sequence of calls started with a new controller: when a call
returns a step size larger than the current one, the step was accepted, the increase is at least
`min_finc` and at most `fmax`, and the `inc_wait` calls before it were all accepted and left the
step size unchanged. -/
theorem C28_linear (c : Conf) (hc : c.Valid) (hred : 0 ≤ c.fred)
    (hred1 : max c.fmin c.fsafety * c.fred ≤ 1) (es : List (Fl × Fl))
    (hnn : ∀ e ∈ es, e.1.NonNeg ∧ e.2.NonNeg) (k : ℕ) (f : Fl) (b : Bool)
    (hk : (runs (linear c) 0 es)[k]? = some (f, b)) (hf : Fl.Lt (.fin 1) f) :
    b = true ∧ Fl.Le (.fin c.minFinc) f ∧ Fl.Le f (.fin c.fmax) ∧
    c.incWait ≤ (k : Int) ∧
    ∀ j : ℕ, (k : Int) - c.incWait ≤ j → j < k →
      (runs (linear c) 0 es)[j]? = some (.fin 1, true) := by
  have hlen : k < es.length := by
    rw [← runs_length (linear c) es 0]
    exact (List.getElem?_eq_some_iff.mp hk).1
  obtain ⟨hc1, hc2⟩ := linear_count c (es.take k)
  have hstep : (linear c (stateAfter (linear c) 0 (es.take k)) es[k].1 es[k].2).1 = (f, b) := by
    have h1 : es.take (k + 1) = es.take k ++ [es[k]] := by
      rw [List.take_add_one, List.getElem?_eq_getElem hlen]; rfl
    have h2 : (runs (linear c) 0 (es.take (k + 1)))[k]? = some (f, b) := by
      rw [runs_take, List.getElem?_take_of_lt (Nat.lt_succ_self k)]; exact hk
    rw [h1, runs_append] at h2
    have h3 : (runs (linear c) 0 (es.take k)).length = k := by
      rw [runs_length, List.length_take]; omega
    rw [List.getElem?_append_right (by omega), h3] at h2
    simpa using h2
  rw [List.length_take, Nat.min_eq_left hlen.le, runs_take] at hc2
  rw [List.length_take, Nat.min_eq_left hlen.le] at hc1
  have hnnk := hnn es[k] (List.getElem_mem hlen)
  generalize stateAfter (linear c) 0 (es.take k) = n at *
  rcases linear_call c n es[k].1 es[k].2 with ⟨h1, _⟩ | ⟨ha, hw, h2, hge⟩ | ⟨hr, h2⟩
  · rw [hstep] at h1
    simp only [Prod.mk.injEq] at h1
    rw [h1.1] at hf
    exact absurd hf (by simp [Fl.Lt])
  · rw [h2] at hstep
    simp only [Prod.mk.injEq] at hstep
    obtain ⟨hs1, hs2⟩ := hstep
    obtain ⟨g, hg, hg1, _⟩ := C28_basic_factor_accept c hc _ _ hnnk.1 hnnk.2 ha
    refine ⟨hs2.symm, ?_, ?_, by omega, ?_⟩
    · rw [← hs1]; exact hge
    · rw [← hs1, hg]; exact hg1
    · intro j hj1 hj2
      have := hc2 j (by omega) hj2
      rwa [List.getElem?_take_of_lt hj2] at this
  · rw [h2] at hstep
    simp only [Prod.mk.injEq] at hstep
    obtain ⟨hs1, _⟩ := hstep
    obtain ⟨g, hg, _, hg2⟩ := C28_basic_factor_reject c hc _ _ hr
    rw [hg] at hs1
    rw [← hs1] at hf
    have hf' : (1 : ℝ) < g * c.fred := hf
    nlinarith

/-- C28: `tsc.ed_linear` never decreases dt after an accepted step. -/
theorem C28_linear_accept_ge (c : Conf) (hm : 1 ≤ c.minFinc) (count : ℕ) (u v : Fl)
    (h : (linear c count u v).1.2 = true) : Fl.Le (.fin 1) (linear c count u v).1.1 := by
  rcases linear_call c count u v with ⟨h1, _⟩ | ⟨_, _, h2, hge⟩ | ⟨_, h2⟩
  · rw [h1]; exact le_refl _
  · rw [h2]
    simp only
    unfold Fl.Ge at hge
    cases hb : (basic c u v).1 with
    | fin r => rw [hb] at hge; exact le_trans hm hge
    | inf => trivial
    | nan => rw [hb] at hge; exact absurd hge (by simp [Fl.Le])
  · rw [h2] at h; simp at h

/-- Non-vacuity: with `inc_wait = 2` the third of three equal accepted steps is enlarged. -/
example : runs (linear confEx) 0 [(.fin (1/2), .fin 0), (.fin (1/2), .fin 0),
    (.fin (1/2), .fin 0)] = [(.fin 1, true), (.fin 1, true), (.fin (8/5), true)] := by
  have h : basic confEx (.fin (1/2)) (.fin 0) = (.fin (8/5), true) := by
    norm_num [basic, confEx, pyMax, pyMin, Fl.Lt, Fl.Le, Fl.pow, Fl.rdiv]
  have h0 : (linear confEx 0 (.fin (1/2)) (.fin 0)) = ((.fin 1, true), 1) := by
    unfold linear; rw [h]; norm_num [confEx]
  have h1 : (linear confEx 1 (.fin (1/2)) (.fin 0)) = ((.fin 1, true), 2) := by
    unfold linear; rw [h]; norm_num [confEx]
  have h2 : (linear confEx 2 (.fin (1/2)) (.fin 0)) = ((.fin (8/5), true), 0) := by
    unfold linear; rw [h]; norm_num [confEx, Fl.Ge, Fl.Le]
  simp only [runs, h0, h1, h2]

/-! ### The scaled norm -/

theorem scaled_le {n : ℕ} (hn : 0 < n) (terr : Fin n → ℝ) (epsA epsR B : ℝ) (hB : 0 ≤ B)
    (h : ∀ i, |terr i / (epsR * |terr i| + epsA)| ≤ B) :
    evalScaledNorm terr epsA epsR ≤ B := by
  unfold evalScaledNorm
  rw [Real.sqrt_le_left hB]
  have h1 : ∑ i, (terr i / (epsR * |terr i| + epsA)) ^ 2 ≤ ∑ _i : Fin n, B ^ 2 := by
    apply Finset.sum_le_sum
    intro i _
    rw [← sq_abs]
    exact pow_le_pow_left₀ (abs_nonneg _) (h i) 2
  have h2 : ∑ _i : Fin n, B ^ 2 = (n : ℝ) * B ^ 2 := by simp
  have hn' : (0 : ℝ) < n := by exact_mod_cast hn
  rw [h2] at h1
  calc 1 / (n : ℝ) * ∑ i, (terr i / (epsR * |terr i| + epsA)) ^ 2
      ≤ 1 / (n : ℝ) * ((n : ℝ) * B ^ 2) := by
        apply mul_le_mul_of_nonneg_left h1
        positivity
    _ = B ^ 2 := by field_simp

/-- Finding (C28): since the error is scaled by itself, the scaled norm is never more than
`1 / eps_r`, however large the truncation error is. -/
theorem C28_scaled_norm_bound {n : ℕ} (hn : 0 < n) (terr : Fin n → ℝ) (epsA epsR : ℝ)
    (ha : 0 < epsA) (hr : 0 < epsR) : evalScaledNorm terr epsA epsR ≤ 1 / epsR := by
  apply scaled_le hn _ _ _ _ (by positivity)
  intro i
  have hpos : 0 < epsR * |terr i| + epsA := by positivity
  rw [abs_div, abs_of_pos hpos, div_le_div_iff₀ hpos hr]
  linarith

/-- Finding (C28): with `eps_r >= 1` no step is ever rejected. -/
theorem C28_never_rejects (c : Conf) {n : ℕ} (hn : 0 < n) (dt : ℝ)
    (u0 v0 u1 v1 a1 : Fin n → ℝ) (epsA epsR : ℝ × ℝ) (ha : 0 < epsA.1) (ha' : 0 < epsA.2)
    (hr : 1 ≤ epsR.1) (hr' : 1 ≤ epsR.2) :
    (basic c (.fin (scaledErrors dt u0 v0 u1 v1 a1 epsA epsR).1)
      (.fin (scaledErrors dt u0 v0 u1 v1 a1 epsA epsR).2)).2 = true := by
  rw [C28_basic_accept_iff _ _ _ (by simp)]
  constructor
  · refine le_trans (C28_scaled_norm_bound hn _ _ _ ha (by linarith)) ?_
    rw [div_le_one (by linarith)]; exact hr
  · refine le_trans (C28_scaled_norm_bound hn _ _ _ ha' (by linarith)) ?_
    rw [div_le_one (by linarith)]; exact hr'

/-- C28: a step whose backward Euler differences are all within the absolute tolerance is
accepted. -/
theorem C28_small_error_accepted (c : Conf) {n : ℕ} (hn : 0 < n) (dt : ℝ)
    (u0 v0 u1 v1 a1 : Fin n → ℝ) (epsA epsR : ℝ × ℝ) (ha : 0 < epsA.1) (ha' : 0 < epsA.2)
    (hr : 0 ≤ epsR.1) (hr' : 0 ≤ epsR.2)
    (hu : ∀ i, |u1 i - (u0 i + dt * v1 i)| ≤ epsA.1)
    (hv : ∀ i, |v1 i - (v0 i + dt * a1 i)| ≤ epsA.2) :
    (basic c (.fin (scaledErrors dt u0 v0 u1 v1 a1 epsA epsR).1)
      (.fin (scaledErrors dt u0 v0 u1 v1 a1 epsA epsR).2)).2 = true := by
  rw [C28_basic_accept_iff _ _ _ (by simp)]
  constructor
  · apply scaled_le hn _ _ _ _ zero_le_one
    intro i
    have hpos : 0 < epsR.1 * |u1 i - (u0 i + dt * v1 i)| + epsA.1 := by positivity
    rw [abs_div, abs_of_pos hpos, div_le_one hpos]
    have : 0 ≤ epsR.1 * |u1 i - (u0 i + dt * v1 i)| := by positivity
    linarith [hu i]
  · apply scaled_le hn _ _ _ _ zero_le_one
    intro i
    have hpos : 0 < epsR.2 * |v1 i - (v0 i + dt * a1 i)| + epsA.2 := by positivity
    rw [abs_div, abs_of_pos hpos, div_le_one hpos]
    have : 0 ≤ epsR.2 * |v1 i - (v0 i + dt * a1 i)| := by positivity
    linarith [hv i]

/-- C28: a zero truncation error is accepted with the maximal increase. -/
theorem C28_zero_error (c : Conf) (hc : c.Valid) (dt : ℝ) {n : ℕ} (u0 v0 v1 a1 : Fin n → ℝ)
    (epsA epsR : ℝ × ℝ) (hv : ∀ i, v1 i = v0 i + dt * a1 i) :
    let e := scaledErrors dt u0 v0 (fun i => u0 i + dt * v1 i) v1 a1 epsA epsR
    basic c (.fin e.1) (.fin e.2) = (.fin c.fmax, true) := by
  have hp : 0 < 1 / c.order := one_div_pos.mpr hc.order
  have e1 : scaledErrors dt u0 v0 (fun i => u0 i + dt * v1 i) v1 a1 epsA epsR = (0, 0) := by
    unfold scaledErrors evalScaledNorm
    simp [hv]
  simp only [e1]
  unfold basic
  generalize 1 / c.order = p at hp ⊢
  simp [pyMax, pyMin, Fl.Lt, Fl.Le, Fl.pow, hp.ne', not_lt.mpr hp.le, Fl.rdiv,
    Real.zero_rpow hp.ne']

end Verif.Solver.Tsc
