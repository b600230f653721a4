/-
C45: one step of each elastodynamics solver satisfies the equations of its scheme and the
equation of motion at the documented time; its tangent matrix is the derivative of its residual;
the documented equivalences between the schemes.
-/
import Verif.Dyn.Model
import Verif.Time.PropsFixed
import Mathlib.Analysis.Calculus.FDeriv.Add
import Mathlib.Analysis.Calculus.FDeriv.Comp
import Mathlib.Analysis.Calculus.FDeriv.Prod
import Mathlib.Analysis.Calculus.FDeriv.Linear
import Mathlib.Tactic.Linarith
import Mathlib.Tactic.Ring
import Mathlib.Tactic.FieldSimp
import Mathlib.Tactic.Module
import Mathlib.Tactic.NormNum

namespace Verif.Dyn

open Verif.Time

variable {K : Type} [Field K] {V E : Type} [AddCommGroup V] [Module K V] [AddCommGroup E]
  [Module K E]

/-! ### Specification -/

/-- The nonlinear solver succeeds for the residual function `R`: the residual of the vector it
returns satisfies `Q` (for example: is zero, or its norm is below the tolerance), whatever the
tangent matrix function and the initial guess are. -/
def Solves {W : Type} [AddCommGroup W] [Module K W] (nls : Nls K W) (Q : W → Prop) (R : W → W) :
    Prop :=
  ∀ n x0, n.f = R → Q (R (nls n x0))

/-- The residual of the equation of motion: the sum of the residuals of the terms with the
displacements, the velocities and the accelerations, with loads of materials given at `tm` and
explicit time `t`. -/
def motion (P : Prob K V) (tm t : K) (u v a : V) : V :=
  (P.res tm t ⟨u, v, a⟩).u + (P.res tm t ⟨u, v, a⟩).v + (P.res tm t ⟨u, v, a⟩).a

/-- Newmark's formula for the new displacements. -/
def newmarkDisp (beta dt : K) (u v a a' : V) : V :=
  u + dt • v + (dt ^ 2 / 2 : K) • ((1 - 2 * beta : K) • a + (2 * beta : K) • a')

/-- Newmark's formula for the new velocities. -/
def newmarkVelo (gamma dt : K) (v a a' : V) : V := v + dt • ((1 - gamma : K) • a + gamma • a')

/-- Newmark's relations between the states at the ends of a step. -/
structure NewmarkRel (gamma beta dt : K) (u v a u' v' a' : V) : Prop where
  disp : u' = newmarkDisp beta dt u v a a'
  velo : v' = newmarkVelo gamma dt v a a'

/-- The residual of the equation of motion at the end of a Newmark step as a function of the
unknown accelerations. -/
def newmarkMotion (P : Prob K V) (tm t gamma beta dt : K) (s : St V) (x : V) : V :=
  motion P tm t (newmarkDisp beta dt s.u s.v s.a x) (newmarkVelo gamma dt s.v s.a x) x

/-! ### Newmark -/

theorem nmU_eq [CharZero K] (beta dt : K) (u v a a' : V) :
    nmU beta dt u v a a' = newmarkDisp beta dt u v a a' := by
  unfold nmU newmarkDisp; module

theorem nmV_eq (gamma dt : K) (v a a' : V) :
    nmV gamma dt v a a' = newmarkVelo gamma dt v a a' := by
  unfold nmV newmarkVelo; module

theorem newmarkRel [CharZero K] (gamma beta dt : K) (u v a a' : V) :
    NewmarkRel gamma beta dt u v a (nmU beta dt u v a a') (nmV gamma dt v a a') a' :=
  ⟨nmU_eq _ _ _ _ _ _, nmV_eq _ _ _ _ _⟩

theorem nmNlst_f [CharZero K] (P : Prob K V) (tm t dt gamma beta : K) (s : St V) :
    (nmNlst P tm t dt gamma beta s).f = newmarkMotion P tm t gamma beta dt s := by
  funext x
  simp only [nmNlst, newmarkMotion, motion, St.total, nmU_eq, nmV_eq]

/-- A step of `ts.newmark`. -/
theorem C45_newmark_step [CharZero K] (nls : Nls K V) (Q : V → Prop)
    (P : Prob K V) (gamma beta tm : K) (ts : TS K) (s s' : St V) (ts' : TS K)
    (hQ : Solves nls Q (newmarkMotion P tm ts.time gamma beta ts.dt s))
    (h : nmStep nls P gamma beta tm ts s = (s', ts')) :
    NewmarkRel gamma beta ts.dt s.u s.v s.a s'.u s'.v s'.a ∧
      Q (motion P tm ts.time s'.u s'.v s'.a) ∧ ts' = ts := by
  simp only [nmStep, Prod.mk.injEq] at h
  obtain ⟨rfl, rfl⟩ := h
  refine ⟨newmarkRel _ _ _ _ _ _ _, ?_, rfl⟩
  have := hQ _ s.a (nmNlst_f P tm ts.time ts.dt gamma beta s)
  simpa only [newmarkMotion, ← nmU_eq, ← nmV_eq] using this

/-- A step of `ts.newmark` with extra variables: also the equations of the extra variables are
solved, at the new time. -/
theorem C45_newmark_step_extra [CharZero K] (nls : Nls K (V × E)) (Q : V × E → Prop)
    (P : ProbE K V E) (gamma beta tm : K) (ts : TS K) (s s' : StE V E) (ts' : TS K)
    (hQ : Solves nls Q fun x =>
      let y : StE V E := ⟨newmarkDisp beta ts.dt s.u s.v s.a x.1, x.2,
        newmarkVelo gamma ts.dt s.v s.a x.1, x.1⟩
      ((P.res tm ts.time y).u + (P.res tm ts.time y).v + (P.res tm ts.time y).a,
        (P.res tm ts.time y).e))
    (h : nmStepE nls P gamma beta tm ts s = (s', ts')) :
    NewmarkRel gamma beta ts.dt s.u s.v s.a s'.u s'.v s'.a ∧
      Q ((P.res tm ts.time s').u + (P.res tm ts.time s').v + (P.res tm ts.time s').a,
        (P.res tm ts.time s').e) ∧ ts' = ts := by
  simp only [nmStepE, Prod.mk.injEq] at h
  obtain ⟨rfl, rfl⟩ := h
  refine ⟨newmarkRel _ _ _ _ _ _ _, ?_, rfl⟩
  have := hQ (nmNlstE P tm ts.time ts.dt gamma beta s) (s.a, s.e)
    (by funext x; simp only [nmNlstE, nmU_eq, nmV_eq])
  simpa only [← nmU_eq, ← nmV_eq] using this

/-! ### Central difference and velocity-Verlet -/

/-- A step of `ts.central_difference`: the displacements and velocities of Newmark's relations with
`gamma = 1/2`, `beta = 0` and the equation of motion at the new time. -/
theorem C45_central_difference_step [CharZero K] (nls : Nls K V) (Q : V → Prop)
    (P : Prob K V) (tm : K) (ts : TS K) (s s' : St V) (ts' : TS K)
    (hQ : Solves nls Q (newmarkMotion P tm ts.time (1 / 2) 0 ts.dt s))
    (h : cdStep nls P tm ts s = (s', ts')) :
    NewmarkRel (1 / 2) 0 ts.dt s.u s.v s.a s'.u s'.v s'.a ∧
      Q (motion P tm ts.time s'.u s'.v s'.a) ∧ ts' = ts := by
  simp only [cdStep, Prod.mk.injEq] at h
  obtain ⟨rfl, rfl⟩ := h
  have hu : ∀ x : V, cdU ts.dt s = newmarkDisp 0 ts.dt s.u s.v s.a x := by
    intro x; simp only [cdU, newmarkDisp]; module
  have hv : ∀ x : V, cdV ts.dt s x = newmarkVelo (1 / 2) ts.dt s.v s.a x := by
    intro x; simp only [cdV, newmarkVelo]; module
  refine ⟨⟨hu _, hv _⟩, ?_, rfl⟩
  have hf : (cdNlst P tm ts.time ts.dt s).f = newmarkMotion P tm ts.time (1 / 2) 0 ts.dt s := by
    funext x
    simp only [cdNlst, newmarkMotion, motion, St.total, hu x, hv]
  have := hQ _ s.a hf
  simp only [newmarkMotion, ← hu, ← hv] at this
  exact this

/-- The explicit formula: three consecutive displacements with a constant step satisfy
`u(n+1) - 2 u(n) + u(n-1) = dt² a(n)`, the central difference formula. -/
theorem C45_central_difference_formula [CharZero K] (nls : Nls K V) (P : Prob K V) (tm tm' : K)
    (ts ts2 : TS K) (hdt : ts2.dt = ts.dt) (s s1 s2 : St V) (ts' ts2' : TS K)
    (h : cdStep nls P tm ts s = (s1, ts')) (h2 : cdStep nls P tm' ts2 s1 = (s2, ts2')) :
    s2.u - (2 : K) • s1.u + s.u = (ts.dt ^ 2 : K) • s1.a := by
  simp only [cdStep, Prod.mk.injEq] at h h2
  obtain ⟨rfl, rfl⟩ := h
  obtain ⟨rfl, rfl⟩ := h2
  simp only [cdU, cdV, hdt]
  module

theorem nmNlst_central [CharZero K] (P : Prob K V) (tm t dt : K) (s : St V) :
    nmNlst P tm t dt (1 / 2) 0 s = cdNlst P tm t dt s := by
  have hu : ∀ x : V, nmU 0 dt s.u s.v s.a x = cdU dt s := by
    intro x; simp only [nmU, cdU]; module
  have hv : ∀ x : V, nmV (1 / 2) dt s.v s.a x = cdV dt s x := by
    intro x; simp only [nmV, cdV]; module
  simp only [nmNlst, cdNlst, hu, hv, Nlst.mk.injEq, true_and]
  funext x
  module

/-- The documented claim "the same method as obtained by using NewmarkTS with beta = 0,
gamma = 1/2": the steps coincide for every nonlinear solver and every problem. -/
theorem C45_central_difference_is_newmark [CharZero K] (nls : Nls K V) (P : Prob K V) (tm : K)
    (ts : TS K) (s : St V) : cdStep nls P tm ts s = nmStep nls P (1 / 2) 0 tm ts s := by
  simp only [cdStep, nmStep, nmNlst_central, Prod.mk.injEq, and_true, St.mk.injEq]
  refine ⟨?_, ?_⟩
  · simp only [nmU, cdU]; module
  · simp only [nmV, cdV]; module

/-- A step of `ts.velocity_verlet`: the velocity Verlet relations, and the equation of motion at
the new displacements and accelerations, but with the velocities of the middle of the step. -/
theorem C45_verlet_step [CharZero K] (nls : Nls K V) (Q : V → Prop)
    (P : Prob K V) (tm : K) (ts : TS K) (s s' : St V) (ts' : TS K)
    (hQ : Solves nls Q fun x => motion P tm ts.time (newmarkDisp 0 ts.dt s.u s.v s.a 0)
      (s.v + (ts.dt / 2 : K) • s.a) x)
    (h : vvStep nls P tm ts s = (s', ts')) :
    NewmarkRel (1 / 2) 0 ts.dt s.u s.v s.a s'.u s'.v s'.a ∧
      Q (motion P tm ts.time s'.u (s.v + (ts.dt / 2 : K) • s.a) s'.a) ∧ ts' = ts := by
  simp only [vvStep, Prod.mk.injEq] at h
  obtain ⟨rfl, rfl⟩ := h
  have hu : ∀ x : V, vvU ts.dt s = newmarkDisp 0 ts.dt s.u s.v s.a x := by
    intro x; simp only [vvU, vvVm, newmarkDisp]; module
  refine ⟨⟨hu _, ?_⟩, ?_, rfl⟩
  · simp only [vvV, vvVm, newmarkVelo]; module
  · have hm : vvVm ts.dt s = s.v + (ts.dt / 2 : K) • s.a := by simp only [vvVm]; module
    have := hQ (vvNlst P tm ts.time ts.dt s) s.a
      (by funext x; simp only [vvNlst, motion, St.total, hu 0, hm])
    simp only [← hu, ← hm] at this ⊢
    exact this

/-- "Mathematically equivalent to CentralDifferenceTS": true for every problem without damping,
i.e. with a residual and matrices that do not depend on the velocities and a zero damping
matrix. -/
theorem C45_verlet_is_central_difference [CharZero K] (nls : Nls K V) (P : Prob K V) (tm : K)
    (ts : TS K) (s : St V)
    (hres : ∀ tm t u v v' a, P.res tm t ⟨u, v, a⟩ = P.res tm t ⟨u, v', a⟩)
    (hm : ∀ tm t u v v' a, (P.mats tm t ⟨u, v, a⟩).M = (P.mats tm t ⟨u, v', a⟩).M)
    (hc : ∀ tm t x, (P.mats tm t x).C = 0) :
    vvStep nls P tm ts s = cdStep nls P tm ts s := by
  have hu : vvU ts.dt s = cdU ts.dt s := by
    simp only [vvU, vvVm, cdU]; module
  have hn : vvNlst P tm ts.time ts.dt s = cdNlst P tm ts.time ts.dt s := by
    simp only [vvNlst, cdNlst, hc, smul_zero, add_zero, hu, Nlst.mk.injEq]
    exact ⟨funext fun x => by rw [hres], funext fun x => hm _ _ _ _ _ _⟩
  simp only [vvStep, cdStep, hn, hu, Prod.mk.injEq, and_true, St.mk.injEq, true_and]
  simp only [vvV, vvVm, cdV]; module

/-- With damping the documented equivalence fails: for `a + v = 0` on the line, with exact
solves, the two solvers return different accelerations. -/
theorem C45_counterexample_verlet_damping :
    ∃ (P : Prob ℚ ℚ) (ts : TS ℚ) (s : St ℚ) (nls1 nls2 : Nls ℚ ℚ),
      (∀ tm t u v a, motion P tm t u v a = a + v) ∧
      (vvNlst P 0 ts.time ts.dt s).f (nls1 (vvNlst P 0 ts.time ts.dt s) s.a) = 0 ∧
      (cdNlst P 0 ts.time ts.dt s).f (nls2 (cdNlst P 0 ts.time ts.dt s) s.a) = 0 ∧
      (vvStep nls1 P 0 ts s).1.a ≠ (cdStep nls2 P 0 ts s).1.a ∧
      ¬ ∃ x y, (vvNlst P 0 ts.time ts.dt s).f x = 0 ∧ (cdNlst P 0 ts.time ts.dt s).f y = 0 ∧
        x = y := by
  refine ⟨⟨fun _ _ s => ⟨0, s.v, s.a⟩, fun _ _ _ => ⟨LinearMap.id, LinearMap.id, 0⟩⟩,
    ⟨0, 1, 1, 2, [0, 1], 1, 1, 1, none⟩, ⟨0, 1, -1⟩, fun _ _ => -1 / 2, fun _ _ => -1 / 3,
    ?_, ?_, ?_, ?_, ?_⟩
  · intro tm t u v a
    simp [motion, add_comm]
  · simp only [vvNlst, St.total, vvVm, smul_eq_mul]; norm_num
  · simp only [cdNlst, St.total, cdV, smul_eq_mul]; norm_num
  · simp only [vvStep, cdStep]; norm_num
  · rintro ⟨x, y, h1, h2, rfl⟩
    simp only [vvNlst, cdNlst, St.total, vvVm, cdV, smul_eq_mul] at h1 h2
    linarith

/-- The reciprocal mass matrix variant: the new acceleration is `-R r` where `R` is the reciprocal
mass operator and `r` the residual of the displacement terms at the new displacements. It solves
the equation of motion if `R` is a right inverse of the mass and there is neither damping nor a
load in the velocity and acceleration blocks. -/
theorem C45_rmm_step [CharZero K] (lin : V → V) (P : Prob K V) (tm : K) (ts : TS K) (s s' : St V)
    (ts' : TS K) (h : rmmStep lin P tm ts s = (s', ts')) (M : V →ₗ[K] V)
    (hM : ∀ b, M (lin b) = b)
    (hu : ∀ tm t u v a, (P.res tm t ⟨u, v, a⟩).u = (P.res tm t ⟨u, 0, 0⟩).u)
    (hv : ∀ tm t x, (P.res tm t x).v = 0) (ha : ∀ tm t x, (P.res tm t x).a = M x.a) :
    NewmarkRel (1 / 2) 0 ts.dt s.u s.v s.a s'.u s'.v s'.a ∧
      motion P tm ts.time s'.u s'.v s'.a = 0 ∧ ts' = ts := by
  simp only [rmmStep, Prod.mk.injEq] at h
  obtain ⟨rfl, rfl⟩ := h
  refine ⟨⟨?_, ?_⟩, ?_, rfl⟩
  · simp only [cdU, newmarkDisp]; module
  · simp only [cdV, newmarkVelo]; module
  · simp only [motion, hv, ha, hM]
    rw [hu]
    abel

/-! ### Generalized alpha -/

/-- The residual of the equation of motion at the weighted mean of the states at the ends of a step,
at the weighted mean of the times, as a function of the unknown accelerations. -/
def alphaMotion (P : Prob K V) (tm t : K) (p : GaPars K) (dt : K) (s : St V) (x : V) : V :=
  motion P tm ((1 - p.af) * t + p.af * (t - dt))
    ((1 - p.af : K) • newmarkDisp p.beta dt s.u s.v s.a x + p.af • s.u)
    ((1 - p.af : K) • newmarkVelo p.gamma dt s.v s.a x + p.af • s.v)
    ((1 - p.am : K) • x + p.am • s.a)

/-- A step of `ts.generalized_alpha`: Newmark's relations between the ends of the step and the
equation of motion at the weighted mean of the states, at the time
`(1 - alpha_f) t(n+1) + alpha_f t(n)`; the time stepper is left at `t(n+1)`. The materials are
those of the last `prestep_fun` call, i.e. of `tm`, and not of the middle time. -/
theorem C45_generalized_alpha_step [CharZero K] (nls : Nls K V) (Q : V → Prop)
    (P : Prob K V) (p : GaPars K) (tm : K) (ts : TS K) (hts : ts.start = none)
    (s s' : St V) (ts' : TS K) (hQ : Solves nls Q (alphaMotion P tm ts.time p ts.dt s))
    (h : gaStep nls P p tm ts s = (s', ts')) :
    NewmarkRel p.gamma p.beta ts.dt s.u s.v s.a s'.u s'.v s'.a ∧
      Q (motion P tm ((1 - p.af) * ts.time + p.af * (ts.time - ts.dt))
        ((1 - p.af : K) • s'.u + p.af • s.u) ((1 - p.af : K) • s'.v + p.af • s.v)
        ((1 - p.am : K) • s'.a + p.am • s.a)) ∧ ts' = ts := by
  simp only [gaStep, Prod.mk.injEq] at h
  obtain ⟨rfl, rfl⟩ := h
  have hu : ∀ x : V, gaU p ts.dt s x = newmarkDisp p.beta ts.dt s.u s.v s.a x := by
    intro x; simp only [gaU, newmarkDisp]; module
  have hv : ∀ x : V, gaV p ts.dt s x = newmarkVelo p.gamma ts.dt s.v s.a x := fun _ => rfl
  refine ⟨⟨hu _, hv _⟩, ?_, ?_⟩
  · have ht : (1 - p.af) * ts.time + p.af * (ts.time - ts.dt) =
        (ts.setSubstep (-p.af * ts.dt)).time := by simp only [TS.setSubstep]; ring
    have := hQ (gaNlst P tm (ts.setSubstep (-p.af * ts.dt)).time ts.dt p s) s.a
      (by funext x; simp only [gaNlst, alphaMotion, motion, St.total, gaMid, hu, hv, ht])
    simp only [alphaMotion, ← hu, ← hv] at this
    exact this
  · cases ts
    simp only at hts
    subst hts
    rfl

/-- "alpha_m = 0, alpha_f = 0 produces the Newmark method". -/
theorem C45_generalized_alpha_is_newmark [CharZero K] (nls : Nls K V) (P : Prob K V)
    (gamma beta tm : K) (ts : TS K) (hts : ts.start = none) (s : St V) :
    gaStep nls P ⟨0, 0, gamma, beta⟩ tm ts s = nmStep nls P gamma beta tm ts s := by
  have hu : ∀ x : V, gaU (⟨0, 0, gamma, beta⟩ : GaPars K) ts.dt s x =
      nmU beta ts.dt s.u s.v s.a x := by
    intro x; simp only [gaU, nmU]; module
  have hv : ∀ x : V, gaV (⟨0, 0, gamma, beta⟩ : GaPars K) ts.dt s x =
      nmV gamma ts.dt s.v s.a x := by
    intro x; simp only [gaV, nmV]; module
  have hn : gaNlst P tm ts.time ts.dt ⟨0, 0, gamma, beta⟩ s
      = nmNlst P tm ts.time ts.dt gamma beta s := by
    simp only [gaNlst, nmNlst, gaMid, hu, hv, sub_zero, one_smul, zero_smul, add_zero, one_mul]
  have ht : (ts.setSubstep (-(0 : K) * ts.dt)).time = ts.time := by simp [TS.setSubstep]
  have hr : (ts.setSubstep (-(0 : K) * ts.dt)).restore = ts := by
    cases ts
    simp only at hts
    subst hts
    rfl
  simp only [gaStep, nmStep, ht, hn, hr, hu, hv]

/-- The default parameters: for `0 ≤ rho_inf ≤ 1` they satisfy the documented conditions of
unconditional stability and of second order accuracy, and maximize the dissipation. -/
theorem C45_generalized_alpha_defaults [LinearOrder K] [IsStrictOrderedRing K] (rho : K)
    (h0 : 0 ≤ rho) (h1 : rho ≤ 1) :
    let p := gaPars rho none none none none
    p.am ≤ p.af ∧ p.af ≤ 1 / 2 ∧ p.beta ≥ 1 / 4 + 1 / 2 * (p.af - p.am) ∧
      p.gamma = 1 / 2 - p.am + p.af ∧ p.beta = 1 / 4 * (1 - p.am + p.af) ^ 2 ∧
      p.af = rho / (1 + rho) ∧ p.am = (2 * rho - 1) / (1 + rho) := by
  have hp : 0 < rho + 1 := by linarith
  refine ⟨?_, ?_, ?_, rfl, rfl, ?_, ?_⟩
  · simp only [gaPars, Option.getD_none]
    exact div_le_div_of_nonneg_right (by linarith) hp.le
  · simp only [gaPars, Option.getD_none]
    rw [div_le_iff₀ hp]
    linarith
  · simp only [gaPars, Option.getD_none]
    nlinarith [sq_nonneg (rho / (rho + 1) - (2 * rho - 1) / (rho + 1))]
  · simp only [gaPars, Option.getD_none, add_comm]
  · simp only [gaPars, Option.getD_none, add_comm]

/-- Given parameters are used as they are, and the formulas for `beta`, `gamma` use them. -/
theorem C45_generalized_alpha_given (rho am af beta gamma : K) :
    gaPars rho (some am) (some af) (some beta) (some gamma) = ⟨am, af, gamma, beta⟩ ∧
      gaPars rho (some am) (some af) none none =
        ⟨am, af, 1 / 2 - am + af, 1 / 4 * (1 - am + af) ^ 2⟩ := ⟨rfl, rfl⟩

/-- `rho_inf` is the amplification factor in the high frequency limit: for a system with
stiffness only (no mass, no damping, no load) and an injective stiffness matrix, an exact step
multiplies the displacements by `-rho_inf`. -/
theorem C45_generalized_alpha_high_frequency [LinearOrder K] [IsStrictOrderedRing K] (rho : K)
    (h0 : 0 ≤ rho)
    (nls : Nls K V) (P : Prob K V) (S : V →ₗ[K] V)
    (hS : Function.Injective S) (hP : ∀ tm t u v a, motion P tm t u v a = S u)
    (tm : K) (ts : TS K) (hts : ts.start = none) (s s' : St V) (ts' : TS K)
    (hQ : Solves nls (fun r => r = 0)
      (alphaMotion P tm ts.time (gaPars rho none none none none) ts.dt s))
    (h : gaStep nls P (gaPars rho none none none none) tm ts s = (s', ts')) :
    s'.u = -(rho • s.u) := by
  obtain ⟨-, hm, -⟩ := C45_generalized_alpha_step nls _ P _ tm ts hts s s' ts' hQ h
  rw [hP] at hm
  have h2 := hS (hm.trans (map_zero S).symm)
  have hp : rho + 1 ≠ 0 := by linarith
  simp only [gaPars, Option.getD_none] at h2
  have h3 : (1 - rho / (rho + 1) : K) = 1 / (rho + 1) := by field_simp; ring
  rw [h3] at h2
  have h4 := congrArg (fun x => (rho + 1) • x) h2
  simp only [smul_add, smul_smul, smul_zero] at h4
  rw [mul_one_div_cancel hp, mul_div_cancel₀ _ hp, one_smul] at h4
  exact eq_neg_of_add_eq_zero_left h4

/-! ### Bathe -/

/-- The value at `dt` of the derivative of the parabola through `(0, x0)`, `(dt/2, x1)`, `(dt, x)`
is the three-point formula: exact for all quadratic polynomials. -/
theorem C45_bathe_formula [CharZero K] (dt : K) (hdt : dt ≠ 0) (c0 c1 c2 : V) :
    ba3 dt c0 (c0 + (dt / 2) • c1 + ((dt / 2) ^ 2 : K) • c2) (c0 + dt • c1 + (dt ^ 2 : K) • c2)
      = c1 + (2 * dt : K) • c2 := by
  simp only [ba3, smul_add, smul_smul]
  have e1 : 4 * (1 / dt) * (dt / 2) = 2 := by field_simp; norm_num
  have e2 : 4 * (1 / dt) * (dt / 2) ^ 2 = dt := by field_simp; norm_num
  have e3 : 3 * (1 / dt) * dt = 3 := by field_simp
  have e4 : 3 * (1 / dt) * dt ^ 2 = 3 * dt := by field_simp
  rw [e1, e2, e3, e4]
  module

/-- The residual of the equation of motion in the first sub-step as a function of the unknown
displacements `x`: the velocities and accelerations are those of the trapezoidal rule of the step
`dt/2`, solved for them. -/
def trapezoidalMotion (P : Prob K V) (tm t dt : K) (s : St V) (x : V) : V :=
  motion P tm t x ((4 / dt : K) • (x - s.u) - s.v)
    ((4 / dt : K) • ((4 / dt : K) • (x - s.u) - s.v - s.v) - s.a)

/-- The three-point backward Euler derivative. -/
def threePoint (dt : K) (x0 x1 x : V) : V := (1 / dt : K) • (x0 - (4 : K) • x1 + (3 : K) • x)

/-- The residual of the equation of motion in the second sub-step. -/
def threePointMotion (P : Prob K V) (t dt : K) (s s1 : St V) (x : V) : V :=
  motion P t t x (threePoint dt s.u s1.u x) (threePoint dt s.v s1.v (threePoint dt s.u s1.u x))

theorem threePoint_eq (dt : K) (x0 x1 x : V) : ba3 dt x0 x1 x = threePoint dt x0 x1 x := by
  simp only [ba3, threePoint]; module

/-- A step of `ts.bathe`. First sub-step: the trapezoidal rule with the step `dt/2`; second
sub-step: the three-point backward Euler formula. The equation of motion is solved in both, at the
times (and with the materials) stated: the first with the *end* time `ts.time` of the step and the
second with `ts.time + dt/2`. -/
theorem C45_bathe_step [CharZero K] (nls : Nls K V) (Q : V → Prop)
    (P : Prob K V) (tm : K) (ts : TS K) (hts : ts.start = none)
    (hdt : ts.dt ≠ 0) (s s1 s' : St V) (ts' : TS K)
    (hQ1 : Solves nls Q (trapezoidalMotion P tm ts.time ts.dt s))
    (hQ2 : Solves nls Q (threePointMotion P (ts.time + ts.dt / 2) ts.dt s s1))
    (h : baStep nls P tm ts s = (s1, s', ts')) :
    NewmarkRel (1 / 2) (1 / 4) (ts.dt / 2) s.u s.v s.a s1.u s1.v s1.a ∧
      Q (motion P tm ts.time s1.u s1.v s1.a) ∧
      ts.dt • s'.v = s.u - (4 : K) • s1.u + (3 : K) • s'.u ∧
      ts.dt • s'.a = s.v - (4 : K) • s1.v + (3 : K) • s'.v ∧
      Q (motion P (ts.time + ts.dt / 2) (ts.time + ts.dt / 2) s'.u s'.v s'.a) ∧ ts' = ts := by
  simp only [baStep, Prod.mk.injEq] at h
  obtain ⟨rfl, rfl, rfl⟩ := h
  have key : ∀ x0 x1 x : V, ts.dt • ba3 ts.dt x0 x1 x = x0 - (4 : K) • x1 + (3 : K) • x := by
    intro x0 x1 x
    simp only [ba3, smul_add, smul_sub, smul_smul]
    rw [mul_one_div_cancel hdt, show ts.dt * (4 * (1 / ts.dt)) = 4 by field_simp,
      show ts.dt * (3 * (1 / ts.dt)) = 3 by field_simp, one_smul]
  refine ⟨⟨?_, ?_⟩, hQ1 _ _ rfl, key _ _ _, key _ _ _, ?_, ?_⟩
  · simp only [baV1, baA1, newmarkDisp]
    match_scalars <;> field_simp <;> ring
  · simp only [baV1, baA1, newmarkVelo]
    match_scalars <;> field_simp <;> ring
  · have ht : ts.time + ts.dt / 2 = (ts.setSubstep (1 / 2 * ts.dt)).time := by
      simp only [TS.setSubstep]; ring
    rw [ht] at hQ2 ⊢
    have := hQ2 (baNlst2 P (ts.setSubstep (1 / 2 * ts.dt)).time
        (ts.setSubstep (1 / 2 * ts.dt)).time ts.dt s.u (nls (baNlst1 P tm ts.time ts.dt s) s.u) s.v
        (baV1 ts.dt s (nls (baNlst1 P tm ts.time ts.dt s) s.u)))
      (nls (baNlst1 P tm ts.time ts.dt s) s.u) (by
        funext x
        simp only [baNlst2, baNlst, threePointMotion, threePoint_eq]
        rfl)
    simp only [threePointMotion, ← threePoint_eq] at this
    exact this
  · cases ts
    simp only at hts
    subst hts
    rfl

/-- The load of the first sub-step is that of the time `t(n) + dt/2` of its state only if the
residual does not depend on the time; already `a = t` on the line shows it: the middle
acceleration, which belongs to the time `1/2`, equals the load of the time `1`, and the final one,
which belongs to `1`, the load of `3/2`. -/
theorem C45_counterexample_bathe_time :
    ∃ (P : Prob ℚ ℚ) (ts : TS ℚ) (s : St ℚ),
      (∀ tm t u v a, motion P tm t u v a = a - t) ∧ ts.time - ts.dt = 0 ∧ ts.dt = 1 ∧
      ∀ nls : Nls ℚ ℚ,
        (∀ (c d : ℚ), c ≠ 0 → Solves nls (fun r => r = 0) fun x => c * x + d) →
        (baStep nls P ts.time ts s).1.a = 1 ∧ (baStep nls P ts.time ts s).2.1.a = 3 / 2 := by
  refine ⟨⟨fun _ t s => ⟨0, 0, s.a - t⟩, fun _ _ _ => ⟨LinearMap.id, 0, 0⟩⟩,
    ⟨0, 1, 1, 2, [0, 1], 1, 1, 1, none⟩, ⟨0, 0, 0⟩, ?_, by norm_num, rfl, ?_⟩
  · intro tm t u v a
    simp [motion]
  · intro nls hn
    generalize hr : baStep nls
      ⟨fun _ t s => ⟨0, 0, s.a - t⟩, fun _ _ _ => ⟨LinearMap.id, 0, 0⟩⟩
      1 (⟨0, 1, 1, 2, [0, 1], 1, 1, 1, none⟩ : TS ℚ) ⟨0, 0, 0⟩ = r
    obtain ⟨s1, s2, ts'⟩ := r
    have h := C45_bathe_step nls (fun r => r = 0) _ 1 _ rfl (by norm_num) ⟨0, 0, 0⟩ s1 s2 ts'
      (by
        have := hn 16 (-1) (by norm_num)
        convert this using 2
        simp only [trapezoidalMotion, motion, smul_eq_mul]; ring)
      (by
        have := hn 9 (-4 * s1.v - 12 * s1.u - 3 / 2) (by norm_num)
        convert this using 2
        simp only [threePointMotion, threePoint, motion, smul_eq_mul]; ring) hr
    obtain ⟨-, h1, -, -, h2, -⟩ := h
    simp only [motion, zero_add] at h1 h2
    refine ⟨?_, ?_⟩
    · linarith
    · linarith

/-! ### Initial acceleration -/

/-- The initial acceleration solves the equation of motion at the initial time, if the linear
solver is exact and the acceleration terms are affine with the mass matrix `M`. -/
theorem C45_initial_acceleration (P : Prob K V) (lin : V → (V →ₗ[K] V) → V) (tm t : K) (u0 v0 : V)
    (hlin : ∀ b, (P.mats tm t ⟨u0, v0, 0⟩).M (lin b (P.mats tm t ⟨u0, v0, 0⟩).M) = b)
    (hP : ∀ a, motion P tm t u0 v0 a = motion P tm t u0 v0 0 + (P.mats tm t ⟨u0, v0, 0⟩).M a) :
    motion P tm t u0 v0 (getA0 P lin tm t u0 v0) = 0 := by
  rw [hP]
  simp only [getA0, hlin, motion, St.total]
  abel

end Verif.Dyn
