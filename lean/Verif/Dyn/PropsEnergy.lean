/-
C47: energy balance and stability of the Newmark and generalized alpha steps for linear
problems with constant loads, for every number of steps and every step size; the `Omega_crit`
column of the table in the documentation of `NewmarkTS`.
-/
import Verif.Dyn.PropsSchemes
import Mathlib.Analysis.InnerProductSpace.Basic
import Mathlib.Analysis.Real.Sqrt

namespace Verif.Dyn

open Verif.Time

variable {V : Type} [NormedAddCommGroup V] [InnerProductSpace ℝ V]

local notation "⟪" x ", " y "⟫" => @inner ℝ _ _ x y

/-- A linear problem `M a + C v + S u = f` with symmetric matrices and a constant load. -/
structure LinearProblem (P : Prob ℝ V) (M C S : V →ₗ[ℝ] V) (f : V) : Prop where
  motion : ∀ tm t u v a, motion P tm t u v a = M a + C v + S u - f
  symM : ∀ x y, ⟪M x, y⟫ = ⟪x, M y⟫
  symC : ∀ x y, ⟪C x, y⟫ = ⟪x, C y⟫
  symS : ∀ x y, ⟪S x, y⟫ = ⟪x, S y⟫

/-- Exact solution of the equation of motion. -/
def Exact (P : Prob ℝ V) (tm t : ℝ) (s : St V) : Prop := motion P tm t s.u s.v s.a = 0

/-- A computation of `ts.newmark` with the constant step `dt` and exact solves: `s n` are the states
after the step `n`, starting with an initial state `s 0` that satisfies the equation of motion
(`C45_initial_acceleration`). -/
structure NewmarkRun (nls : Nls ℝ V) (P : Prob ℝ V) (gamma beta dt : ℝ) (s : ℕ → St V) : Prop where
  start : ∃ tm t, Exact P tm t (s 0)
  step : ∀ n, ∃ (tm : ℝ) (ts : TS ℝ), ts.dt = dt ∧
    Solves nls (fun r => r = 0) (newmarkMotion P tm ts.time gamma beta ts.dt (s n)) ∧
    (nmStep nls P gamma beta tm ts (s n)).1 = s (n + 1)

theorem newmarkRun_rel {nls : Nls ℝ V} {P : Prob ℝ V} {gamma beta dt : ℝ} {s : ℕ → St V}
    (h : NewmarkRun nls P gamma beta dt s) (n : ℕ) :
    NewmarkRel gamma beta dt (s n).u (s n).v (s n).a (s (n + 1)).u (s (n + 1)).v (s (n + 1)).a ∧
      (∃ tm t, Exact P tm t (s n)) ∧ ∃ tm t, Exact P tm t (s (n + 1)) := by
  have hs : ∀ n, NewmarkRel gamma beta dt (s n).u (s n).v (s n).a (s (n + 1)).u (s (n + 1)).v
      (s (n + 1)).a ∧ ∃ tm t, Exact P tm t (s (n + 1)) := by
    intro n
    obtain ⟨tm, ts, rfl, hsol, hst⟩ := h.step n
    obtain ⟨h1, h2, -⟩ := C45_newmark_step nls _ P gamma beta tm ts (s n) (s (n + 1)) _ hsol
      (Prod.ext hst rfl)
    exact ⟨h1, tm, ts.time, h2⟩
  refine ⟨(hs n).1, ?_, (hs n).2⟩
  cases n with
  | zero => exact h.start
  | succ n => exact (hs n).2

/-- The quadratic functional of the accelerations and velocities that controls the Newmark
method (Hughes): `1/2 (a.B a + v.S v)`, `B = M + dt² (beta - gamma/2) S`. -/
noncomputable def functional (M S : V →ₗ[ℝ] V) (gamma beta dt : ℝ) (s : St V) : ℝ :=
  1 / 2 * (⟪s.a, M s.a⟫ + dt ^ 2 * (beta - gamma / 2) * ⟪s.a, S s.a⟫ + ⟪s.v, S s.v⟫)

/-- The mechanical energy. -/
noncomputable def energy (M S : V →ₗ[ℝ] V) (f : V) (s : St V) : ℝ :=
  1 / 2 * ⟪s.v, M s.v⟫ + 1 / 2 * ⟪s.u, S s.u⟫ - ⟪f, s.u⟫

/-- Balance of the functional in one step, without any sign condition. -/
theorem C47_newmark_balance {nls : Nls ℝ V} {P : Prob ℝ V} {M C S : V →ₗ[ℝ] V} {f : V}
    (hP : LinearProblem P M C S f) {gamma beta dt : ℝ} (hdt : dt ≠ 0) {s : ℕ → St V}
    (h : NewmarkRun nls P gamma beta dt s) (n : ℕ) :
    functional M S gamma beta dt (s (n + 1)) - functional M S gamma beta dt (s n) =
      -((gamma - 1 / 2) * (⟪(s (n + 1)).a - (s n).a, M ((s (n + 1)).a - (s n).a)⟫
          + dt ^ 2 * (beta - gamma / 2) *
            ⟪(s (n + 1)).a - (s n).a, S ((s (n + 1)).a - (s n).a)⟫))
        - ⟪(s (n + 1)).v - (s n).v, C ((s (n + 1)).v - (s n).v)⟫ / dt := by
  obtain ⟨⟨hu, hv⟩, ⟨tm, t, e0⟩, tm', t', e1⟩ := newmarkRun_rel h n
  generalize s n = s0 at *
  generalize s (n + 1) = s1 at *
  obtain ⟨u0, v0, a0⟩ := s0
  obtain ⟨u1, v1, a1⟩ := s1
  simp only [Exact, hP.motion] at *
  simp only [newmarkDisp, newmarkVelo] at hu hv
  have e : M (a1 - a0) + C (v1 - v0) + S (u1 - u0) = 0 := by
    simp only [map_sub]
    have := congrArg₂ (· - ·) e1 e0
    simp only [sub_zero] at this
    rw [← this]
    abel
  -- the increment of the displacements
  have hdu : u1 - u0 = (dt / 2) • (v0 + v1) + (dt ^ 2 * (beta - gamma / 2)) • (a1 - a0) := by
    rw [hu, hv]
    module
  have hdv : v1 - v0 = (dt / 2) • (a0 + a1) + (dt * (gamma - 1 / 2)) • (a1 - a0) := by
    rw [hv]
    module
  have hE := congrArg (fun x => ⟪v1 - v0, x⟫) e
  simp only [inner_zero_right, inner_add_right] at hE
  have t1 : ⟪v1 - v0, M (a1 - a0)⟫ = dt / 2 * (⟪a1, M a1⟫ - ⟪a0, M a0⟫)
      + dt * (gamma - 1 / 2) * ⟪a1 - a0, M (a1 - a0)⟫ := by
    rw [hdv]
    simp only [inner_add_left, inner_smul_left, map_sub, inner_sub_right, inner_sub_left,
      RCLike.conj_to_real]
    have c1 : ⟪a0, M a1⟫ = ⟪a1, M a0⟫ := by rw [← hP.symM, real_inner_comm]
    rw [c1]
    ring
  have t3 : ⟪v1 - v0, S (u1 - u0)⟫ = dt / 2 * (⟪v1, S v1⟫ - ⟪v0, S v0⟫)
      + dt ^ 2 * (beta - gamma / 2) * (dt / 2 * (⟪a1, S a1⟫ - ⟪a0, S a0⟫)
        + dt * (gamma - 1 / 2) * ⟪a1 - a0, S (a1 - a0)⟫) := by
    have hx : ⟪v1 - v0, S (a1 - a0)⟫ = dt / 2 * (⟪a1, S a1⟫ - ⟪a0, S a0⟫)
        + dt * (gamma - 1 / 2) * ⟪a1 - a0, S (a1 - a0)⟫ := by
      rw [hdv]
      simp only [inner_add_left, inner_smul_left, map_sub, inner_sub_right, inner_sub_left,
        RCLike.conj_to_real]
      have c1 : ⟪a0, S a1⟫ = ⟪a1, S a0⟫ := by rw [← hP.symS, real_inner_comm]
      rw [c1]
      ring
    have hy : ⟪v1 - v0, S (v0 + v1)⟫ = ⟪v1, S v1⟫ - ⟪v0, S v0⟫ := by
      simp only [map_add, inner_add_right, inner_sub_left]
      have c1 : ⟪v0, S v1⟫ = ⟪v1, S v0⟫ := by rw [← hP.symS, real_inner_comm]
      rw [c1]
      ring
    rw [hdu, map_add, map_smul, map_smul, inner_add_right, inner_smul_right, inner_smul_right, hx,
      hy]
  rw [t1, t3] at hE
  simp only [functional]
  generalize ⟪a1 - a0, M (a1 - a0)⟫ = x1 at *
  generalize ⟪a1 - a0, S (a1 - a0)⟫ = x2 at *
  generalize ⟪v1 - v0, C (v1 - v0)⟫ = x3 at *
  have h3 : x3 / dt = -(1 / 2 * (⟪a1, M a1⟫ - ⟪a0, M a0⟫) + (gamma - 1 / 2) * x1
      + 1 / 2 * (⟪v1, S v1⟫ - ⟪v0, S v0⟫)
      + dt ^ 2 * (beta - gamma / 2) * (1 / 2 * (⟪a1, S a1⟫ - ⟪a0, S a0⟫)
        + (gamma - 1 / 2) * x2)) := by
    rw [div_eq_iff hdt]
    linear_combination hE
  rw [h3]
  ring

/-- Stability: if `gamma ≥ 1/2`, the damping is non-negative and `M + dt² (beta - gamma/2) S ≥ 0`,
the functional never increases. -/
theorem C47_newmark_stability {nls : Nls ℝ V} {P : Prob ℝ V} {M C S : V →ₗ[ℝ] V} {f : V}
    (hP : LinearProblem P M C S f) {gamma beta dt : ℝ} (hdt : 0 < dt) (hg : 1 / 2 ≤ gamma)
    (hC : ∀ x, 0 ≤ ⟪x, C x⟫)
    (hB : ∀ x, 0 ≤ ⟪x, M x⟫ + dt ^ 2 * (beta - gamma / 2) * ⟪x, S x⟫)
    {s : ℕ → St V} (h : NewmarkRun nls P gamma beta dt s) (n : ℕ) :
    functional M S gamma beta dt (s (n + 1)) ≤ functional M S gamma beta dt (s n) ∧
      functional M S gamma beta dt (s n) ≤ functional M S gamma beta dt (s 0) := by
  have hstep : ∀ n, functional M S gamma beta dt (s (n + 1)) ≤
      functional M S gamma beta dt (s n) := by
    intro n
    have hb := C47_newmark_balance hP hdt.ne' h n
    have h1 := mul_nonneg (sub_nonneg.mpr hg) (hB ((s (n + 1)).a - (s n).a))
    have h2 := div_nonneg (hC ((s (n + 1)).v - (s n).v)) hdt.le
    linarith
  refine ⟨hstep n, ?_⟩
  induction n with
  | zero => exact le_rfl
  | succ n ih => exact (hstep n).trans ih

/-- Unconditional stability for `2 beta ≥ gamma ≥ 1/2`: for every step size and every number of
steps, the kinetic norm of the accelerations and the elastic norm of the velocities are bounded
by the initial functional. -/
theorem C47_newmark_unconditional {nls : Nls ℝ V} {P : Prob ℝ V} {M C S : V →ₗ[ℝ] V} {f : V}
    (hP : LinearProblem P M C S f) {gamma beta dt : ℝ} (hdt : 0 < dt) (hg : 1 / 2 ≤ gamma)
    (hb : gamma ≤ 2 * beta) (hM : ∀ x, 0 ≤ ⟪x, M x⟫) (hC : ∀ x, 0 ≤ ⟪x, C x⟫)
    (hS : ∀ x, 0 ≤ ⟪x, S x⟫) {s : ℕ → St V} (h : NewmarkRun nls P gamma beta dt s) (n : ℕ) :
    1 / 2 * ⟪(s n).a, M (s n).a⟫ + 1 / 2 * ⟪(s n).v, S (s n).v⟫ ≤
      functional M S gamma beta dt (s 0) := by
  have hc : 0 ≤ dt ^ 2 * (beta - gamma / 2) := mul_nonneg (sq_nonneg _) (by linarith)
  have h1 := (C47_newmark_stability hP hdt hg hC
    (fun x => add_nonneg (hM x) (mul_nonneg hc (hS x))) h n).2
  have h2 := mul_nonneg hc (hS (s n).a)
  have h3 : functional M S gamma beta dt (s n) =
    1 / 2 * ⟪(s n).a, M (s n).a⟫ + 1 / 2 * ⟪(s n).v, S (s n).v⟫
      + 1 / 2 * (dt ^ 2 * (beta - gamma / 2) * ⟪(s n).a, S (s n).a⟫) := by
    simp only [functional]; ring
  linarith

/-- Conditional stability with `gamma = 1/2`, `beta < 1/4`: if no frequency of the system exceeds
`omega` (`S ≤ omega² M`) and `Omega = omega dt` satisfies `Omega² (1/4 - beta) ≤ 1`, then the
functional is non-negative and never increases. -/
theorem C47_newmark_conditional {nls : Nls ℝ V} {P : Prob ℝ V} {M C S : V →ₗ[ℝ] V} {f : V}
    (hP : LinearProblem P M C S f) {beta dt omega : ℝ} (hdt : 0 < dt)
    (hbeta : beta ≤ 1 / 4) (hM : ∀ x, 0 ≤ ⟪x, M x⟫) (hC : ∀ x, 0 ≤ ⟪x, C x⟫)
    (hS : ∀ x, 0 ≤ ⟪x, S x⟫) (homega : ∀ x, ⟪x, S x⟫ ≤ omega ^ 2 * ⟪x, M x⟫)
    (hcrit : (omega * dt) ^ 2 * (1 / 4 - beta) ≤ 1)
    {s : ℕ → St V} (h : NewmarkRun nls P (1 / 2) beta dt s) (n : ℕ) :
    0 ≤ functional M S (1 / 2) beta dt (s n) ∧
      1 / 2 * ⟪(s n).v, S (s n).v⟫ ≤ functional M S (1 / 2) beta dt (s 0) := by
  have hB : ∀ x, 0 ≤ ⟪x, M x⟫ + dt ^ 2 * (beta - (1 / 2) / 2) * ⟪x, S x⟫ := by
    intro x
    have h1 : dt ^ 2 * (1 / 4 - beta) * ⟪x, S x⟫ ≤
        dt ^ 2 * (1 / 4 - beta) * (omega ^ 2 * ⟪x, M x⟫) :=
      mul_le_mul_of_nonneg_left (homega x) (mul_nonneg (sq_nonneg _) (by linarith))
    have h2 : (omega * dt) ^ 2 * (1 / 4 - beta) * ⟪x, M x⟫ ≤ 1 * ⟪x, M x⟫ :=
      mul_le_mul_of_nonneg_right hcrit (hM x)
    nlinarith
  have h1 := (C47_newmark_stability hP hdt le_rfl hC hB h n).2
  have h2 := hB (s n).a
  have h3 := hS (s n).v
  have h4 : functional M S (1 / 2) beta dt (s n) =
    1 / 2 * (⟪(s n).a, M (s n).a⟫ + dt ^ 2 * (beta - (1 / 2) / 2) * ⟪(s n).a, S (s n).a⟫)
      + 1 / 2 * ⟪(s n).v, S (s n).v⟫ := by
    simp only [functional]; ring
  exact ⟨by linarith, by linarith⟩

/-- The table of the documentation: `(name, beta, Omega_crit²)`; the critical value of
`C47_newmark_conditional` is the documented one: `2 sqrt 3` for the linear acceleration, `sqrt 6`
for Fox-Goodwin, `2` for the central difference method. -/
theorem C47_newmark_table (Om : ℝ) (h0 : 0 ≤ Om) :
    (Om ^ 2 * (1 / 4 - 1 / 6) ≤ 1 ↔ Om ≤ 2 * Real.sqrt 3) ∧
    (Om ^ 2 * (1 / 4 - 1 / 12) ≤ 1 ↔ Om ≤ Real.sqrt 6) ∧
    (Om ^ 2 * (1 / 4 - 0) ≤ 1 ↔ Om ≤ 2) ∧ Om ^ 2 * (1 / 4 - 1 / 4) ≤ 1 := by
  have h3 := Real.sq_sqrt (show (0 : ℝ) ≤ 3 by norm_num)
  have h3' := Real.sqrt_nonneg 3
  refine ⟨⟨fun h => ?_, fun h => ?_⟩, ⟨fun h => ?_, fun h => ?_⟩, ⟨fun h => ?_, fun h => ?_⟩,
    by norm_num⟩
  · refine le_of_sq_le_sq ?_ (by positivity)
    rw [mul_pow, h3]; linarith
  · have := pow_le_pow_left₀ h0 h 2
    rw [mul_pow, h3] at this; linarith
  · apply Real.le_sqrt_of_sq_le; linarith
  · have := pow_le_pow_left₀ h0 h 2
    rw [Real.sq_sqrt (by norm_num)] at this; linarith
  · nlinarith
  · nlinarith

/-- The trapezoidal rule (`gamma = 1/2`, `beta = 1/4`): the mechanical energy changes exactly by the
work of the damping forces. -/
theorem C47_trapezoidal_energy {nls : Nls ℝ V} {P : Prob ℝ V} {M C S : V →ₗ[ℝ] V} {f : V}
    (hP : LinearProblem P M C S f) {dt : ℝ} {s : ℕ → St V}
    (h : NewmarkRun nls P (1 / 2) (1 / 4) dt s) (n : ℕ) :
    energy M S f (s (n + 1)) - energy M S f (s n) =
      -(dt * ⟪(1 / 2 : ℝ) • ((s n).v + (s (n + 1)).v),
        C ((1 / 2 : ℝ) • ((s n).v + (s (n + 1)).v))⟫) := by
  obtain ⟨⟨hu, hv⟩, ⟨tm, t, e0⟩, tm', t', e1⟩ := newmarkRun_rel h n
  generalize s n = s0 at *
  generalize s (n + 1) = s1 at *
  obtain ⟨u0, v0, a0⟩ := s0
  obtain ⟨u1, v1, a1⟩ := s1
  simp only [Exact, hP.motion] at *
  simp only [newmarkDisp, newmarkVelo] at hu hv
  have hdu : u1 - u0 = (dt / 2) • (v0 + v1) := by rw [hu, hv]; module
  have hdv : v1 - v0 = (dt / 2) • (a0 + a1) := by rw [hv]; module
  have e : M (a0 + a1) + C (v0 + v1) + S (u0 + u1) - (2 : ℝ) • f = 0 := by
    simp only [map_add]
    have := congrArg₂ (· + ·) e1 e0
    simp only [add_zero] at this
    rw [← this, two_smul]
    abel
  have hE := congrArg (fun x => ⟪v0 + v1, x⟫) e
  simp only [inner_zero_right, inner_add_right, inner_sub_right, inner_smul_right] at hE
  have k1 : dt / 2 * ⟪v0 + v1, M (a0 + a1)⟫ = ⟪v1, M v1⟫ - ⟪v0, M v0⟫ := by
    have : (dt / 2) • M (a0 + a1) = M (v1 - v0) := by rw [hdv, map_smul]
    rw [← inner_smul_right, this]
    simp only [map_sub, inner_sub_right, inner_add_left]
    have c1 : ⟪v0, M v1⟫ = ⟪v1, M v0⟫ := by rw [← hP.symM, real_inner_comm]
    rw [c1]; ring
  have k2 : dt / 2 * ⟪v0 + v1, S (u0 + u1)⟫ = ⟪u1, S u1⟫ - ⟪u0, S u0⟫ := by
    have : dt / 2 * ⟪v0 + v1, S (u0 + u1)⟫ = ⟪u1 - u0, S (u0 + u1)⟫ := by
      rw [hdu, real_inner_smul_left]
    rw [this]
    simp only [map_add, inner_add_right, inner_sub_left]
    have c1 : ⟪u0, S u1⟫ = ⟪u1, S u0⟫ := by rw [← hP.symS, real_inner_comm]
    rw [c1]; ring
  have k3 : dt / 2 * ⟪v0 + v1, f⟫ = ⟪f, u1⟫ - ⟪f, u0⟫ := by
    rw [← inner_sub_right, hdu, inner_smul_right, real_inner_comm]
  have k4 : ⟪(1 / 2 : ℝ) • (v0 + v1), C ((1 / 2 : ℝ) • (v0 + v1))⟫ =
      1 / 4 * ⟪v0 + v1, C (v0 + v1)⟫ := by
    rw [map_smul, inner_smul_right, real_inner_smul_left]; ring
  simp only [energy, k4]
  have hE' : dt / 2 * ⟪v0 + v1, M (a0 + a1)⟫ + dt / 2 * ⟪v0 + v1, C (v0 + v1)⟫
      + dt / 2 * ⟪v0 + v1, S (u0 + u1)⟫ - 2 * (dt / 2 * ⟪v0 + v1, f⟫) = 0 := by
    have : ⟪v0 + v1, C v0 + C v1⟫ = ⟪v0 + v1, C (v0 + v1)⟫ := by rw [map_add]
    linear_combination (dt / 2) * hE
  rw [k1, k2, k3] at hE'
  linarith

/-- Without damping the trapezoidal rule conserves the energy for ever. -/
theorem C47_trapezoidal_conservation {nls : Nls ℝ V} {P : Prob ℝ V} {M S : V →ₗ[ℝ] V} {f : V}
    (hP : LinearProblem P M 0 S f) {dt : ℝ} {s : ℕ → St V}
    (h : NewmarkRun nls P (1 / 2) (1 / 4) dt s) (n : ℕ) :
    energy M S f (s n) = energy M S f (s 0) := by
  induction n with
  | zero => rfl
  | succ n ih =>
    have := C47_trapezoidal_energy hP h n
    simp only [LinearMap.zero_apply, inner_zero_right, mul_zero, neg_zero] at this
    linarith

/-- `rho_inf = 1` means no dissipation: a generalized alpha step with the default parameters of
`rho_inf = 1` changes the energy exactly by the work of the damping forces. The initial
acceleration is irrelevant. -/
theorem C47_generalized_alpha_no_dissipation {nls : Nls ℝ V} {P : Prob ℝ V} {M C S : V →ₗ[ℝ] V}
    {f : V} (hP : LinearProblem P M C S f) (tm : ℝ) (ts : TS ℝ) (hts : ts.start = none)
    (s s' : St V) (ts' : TS ℝ)
    (hQ : Solves nls (fun r => r = 0)
      (alphaMotion P tm ts.time (gaPars 1 none none none none) ts.dt s))
    (h : gaStep nls P (gaPars 1 none none none none) tm ts s = (s', ts')) :
    energy M S f s' - energy M S f s =
      -(ts.dt * ⟪(1 / 2 : ℝ) • (s.v + s'.v), C ((1 / 2 : ℝ) • (s.v + s'.v))⟫) := by
  obtain ⟨⟨hu, hv⟩, hm, -⟩ := C45_generalized_alpha_step nls _ P _ tm ts hts s s' ts' hQ h
  have hp : gaPars (1 : ℝ) none none none none = ⟨1 / 2, 1 / 2, 1 / 2, 1 / 4⟩ := by
    simp only [gaPars, Option.getD_none, GaPars.mk.injEq]
    norm_num
  rw [hp] at hu hv hm
  simp only [hP.motion] at hm
  simp only [newmarkDisp, newmarkVelo] at hu hv
  obtain ⟨u0, v0, a0⟩ := s
  obtain ⟨u1, v1, a1⟩ := s'
  generalize ts.dt = dt at *
  simp only at *
  have hdu : u1 - u0 = (dt / 2) • (v0 + v1) := by rw [hu, hv]; module
  have hdv : v1 - v0 = (dt / 2) • (a0 + a1) := by rw [hv]; module
  have e : M (a0 + a1) + C (v0 + v1) + S (u0 + u1) - (2 : ℝ) • f = 0 := by
    have := congrArg (fun x => (2 : ℝ) • x) hm
    simp only [smul_zero] at this
    rw [← this]
    simp only [map_add, map_smul]
    module
  have hE := congrArg (fun x => ⟪v0 + v1, x⟫) e
  simp only [inner_zero_right, inner_add_right, inner_sub_right, inner_smul_right] at hE
  have k1 : dt / 2 * ⟪v0 + v1, M (a0 + a1)⟫ = ⟪v1, M v1⟫ - ⟪v0, M v0⟫ := by
    have : (dt / 2) • M (a0 + a1) = M (v1 - v0) := by rw [hdv, map_smul]
    rw [← inner_smul_right, this]
    simp only [map_sub, inner_sub_right, inner_add_left]
    have c1 : ⟪v0, M v1⟫ = ⟪v1, M v0⟫ := by rw [← hP.symM, real_inner_comm]
    rw [c1]; ring
  have k2 : dt / 2 * ⟪v0 + v1, S (u0 + u1)⟫ = ⟪u1, S u1⟫ - ⟪u0, S u0⟫ := by
    have : dt / 2 * ⟪v0 + v1, S (u0 + u1)⟫ = ⟪u1 - u0, S (u0 + u1)⟫ := by
      rw [hdu, real_inner_smul_left]
    rw [this]
    simp only [map_add, inner_add_right, inner_sub_left]
    have c1 : ⟪u0, S u1⟫ = ⟪u1, S u0⟫ := by rw [← hP.symS, real_inner_comm]
    rw [c1]; ring
  have k3 : dt / 2 * ⟪v0 + v1, f⟫ = ⟪f, u1⟫ - ⟪f, u0⟫ := by
    rw [← inner_sub_right, hdu, inner_smul_right, real_inner_comm]
  have k4 : ⟪(1 / 2 : ℝ) • (v0 + v1), C ((1 / 2 : ℝ) • (v0 + v1))⟫ =
      1 / 4 * ⟪v0 + v1, C (v0 + v1)⟫ := by
    rw [map_smul, inner_smul_right, real_inner_smul_left]; ring
  simp only [energy, k4]
  have hE' : dt / 2 * ⟪v0 + v1, M (a0 + a1)⟫ + dt / 2 * ⟪v0 + v1, C (v0 + v1)⟫
      + dt / 2 * ⟪v0 + v1, S (u0 + u1)⟫ - 2 * (dt / 2 * ⟪v0 + v1, f⟫) = 0 := by
    linear_combination (dt / 2) * hE
  rw [k1, k2, k3] at hE'
  linarith

/-- The hypotheses are met by the oscillator `a + v + 4 u = 1` on the line with the trapezoidal rule
and an exact solver. -/
example : ∃ (nls : Nls ℝ ℝ) (P : Prob ℝ ℝ) (s : ℕ → St ℝ),
    LinearProblem P LinearMap.id LinearMap.id ((4 : ℝ) • LinearMap.id) 1 ∧
      NewmarkRun nls P (1 / 2) (1 / 4) 1 s ∧ s 0 = ⟨0, 0, 1⟩ := by
  -- for an affine `f` of slope `c ≠ 0`, one Newton step from 0 is exact
  let P : Prob ℝ ℝ := ⟨fun _ _ s => ⟨4 * s.u - 1, s.v, s.a⟩,
    fun _ _ _ => ⟨LinearMap.id, LinearMap.id, (4 : ℝ) • LinearMap.id⟩⟩
  let nls : Nls ℝ ℝ := fun n _ => -n.f 0 / (n.f 1 - n.f 0)
  let ts : TS ℝ := ⟨0, 1, 1, 2, [0, 1], 1, 1, 1, none⟩
  let s : ℕ → St ℝ := fun n =>
    Nat.rec ⟨0, 0, 1⟩ (fun _ x => (nmStep nls P (1 / 2) (1 / 4) 1 ts x).1) n
  refine ⟨nls, P, s, ⟨?_, ?_, ?_, ?_⟩, ⟨⟨0, 0, ?_⟩, ?_⟩, rfl⟩
  · intro tm t u v a
    simp only [motion, P, LinearMap.id_coe, id_eq, LinearMap.smul_apply, smul_eq_mul]
    ring
  · intro x y; rfl
  · intro x y; rfl
  · intro x y
    simp only [LinearMap.smul_apply, LinearMap.id_coe, id_eq, smul_eq_mul, RCLike.inner_apply,
      conj_trivial]
    ring
  · simp [Exact, motion, P, s]
  · intro n
    refine ⟨1, ts, rfl, ?_, rfl⟩
    intro nl x0 hf
    simp only [nls]
    rw [hf]
    simp only [newmarkMotion, motion, P, newmarkDisp, newmarkVelo, smul_eq_mul, ts]
    field_simp
    ring

end Verif.Dyn
