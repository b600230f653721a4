import Mathlib.Algebra.Module.Basic
import Mathlib.Algebra.Module.Equiv.Basic
import Mathlib.Analysis.Convex.Basic
import Mathlib.Data.Real.Basic
import Mathlib.Tactic.Module
import Mathlib.Tactic.Linarith
import Mathlib.Tactic.NormNum

/-!
# Explicit time stepping for DG problems (solvers/ts_dg_solvers.py)

The equations of a DG problem are `dw_dot(v, p) + (terms with p[-1]) = 0`, see sfepy/examples/dg/.  The terms
written with `p[-1]` read either the history of the variable (the terms using `Term.get()`, the volume terms),
or the current vector (the flux terms, sfepy/discrete/dg/fields.py:715).
-/

namespace Dg

set_option linter.unusedSectionVars false

variable {E : Type*} [AddCommGroup E] [Module ℝ E]

/-- The discretized problem: the mass matrix, the assembled terms reading `data[1]` of the variable, those
reading `data[0]`, and the composed limiter.  Simplifications: no essential boundary conditions on the DOFs;
the linear solver is exact; the terms do not depend on time. -/
structure Prob (E : Type*) [AddCommGroup E] [Module ℝ E] where
  M : E ≃ₗ[ℝ] E
  V : E → E
  F : E → E
  lim : E → E

/-- A call of the user-visible functions of the time stepping: the time and the vector. -/
inductive Ev (E : Type*) where
  | pre (time : ℝ) (x : E)
  | post (time : ℝ) (x : E)

/-- The state of the variable (`data[0]`, `data[1]`) and of the time stepper, and the calls made. -/
structure World (E : Type*) where
  cur : E
  hist : E
  time : ℝ
  log : List (Ev E)

/-- A callback: `fun(ts, vec)`. -/
abbrev CB (E : Type*) := World E → E → E × World E

/-- `prestep_fun()` (sfepy/discrete/problem.py:1355-1365). -/
def prestep : CB E := fun w x => (x, { w with cur := x, log := w.log ++ [.pre w.time x] })

/-- `poststep_fun()`: the state is set, the step hook called, the results saved, and the history advanced
(sfepy/discrete/problem.py:1367-1394; sfepy/discrete/variables.py:1212-1230). -/
def poststep : CB E := fun w x =>
  (x, { w with cur := x, hist := x, log := w.log ++ [.post w.time x] })

/-- `nls.fun()`: `set_state()` and the assembling of the residual (sfepy/discrete/evaluate.py:77-100). -/
def evalFun (P : Prob E) (w : World E) (x : E) : E × World E :=
  (P.M x + P.V w.hist + P.F x, { w with cur := x })

/-- `lin_solver(vec_r, mtx=mtx_a)`. -/
def linSolve (P : Prob E) (r : E) : E := P.M.symm r

/-- The arguments of `solve_step()` after the vector, in the order of its definition in the subclasses:
`status`, `prestep_fun`, `poststep_fun` (sfepy/solvers/ts_dg_solvers.py:128-129, 189-190, 279-280). -/
structure StepArgs (E : Type*) where
  status : Option (CB E)
  prestepFun : Option (CB E)
  poststepFun : Option (CB E)

/-- `EulerStepSolver.solve_step()` (sfepy/solvers/ts_dg_solvers.py:128-162). -/
def eulerStep (P : Prob E) (dt : ℝ) (_ : StepArgs E) (w : World E) (x0 : E) : Option (E × World E) :=
  let (r, w) := evalFun P w x0
  let dx := linSolve P r
  let x := x0 - dt • (dx - x0)
  some (P.lim x, w)

/-- `TVDRK3StepSolver.solve_step()` (sfepy/solvers/ts_dg_solvers.py:189-255).  `prestep_fun=None` cannot be
called: no result. -/
noncomputable def tvdStep (P : Prob E) (dt : ℝ) (args : StepArgs E) (w : World E) (x : E) :
    Option (E × World E) :=
  -- 1st stage
  let (r, w) := evalFun P w x
  let dx := linSolve P r
  let x1 := x - dt • (dx - x)
  let x1 := P.lim x1
  -- 2nd stage
  let (r, w) := evalFun P w x1
  let dx := linSolve P r
  let x2 := (1 / 4 : ℝ) • ((3 : ℝ) • x + x1 - dt • (dx - x1))
  let x2 := P.lim x2
  -- 3rd stage
  let w := { w with time := w.time + 1 / 2 * dt }
  match args.prestepFun with
  | none => none
  | some cb =>
    let (x2, w) := cb w x2
    let (r, w) := evalFun P w x2
    let dx := linSolve P r
    let x3 := (1 / 3 : ℝ) • (x + (2 : ℝ) • x2 - ((2 : ℝ) * dt) • (dx - x2))
    some (P.lim x3, w)

/-- `RK4StepSolver.stage_updates` (sfepy/solvers/ts_dg_solvers.py:272-277). -/
noncomputable def stageUpdates : List (E → E → ℝ → E) :=
  [fun u _ _ => u,
   fun u k1 dt => u + (1 / 2 * dt) • k1,
   fun u k2 dt => u + (1 / 2 * dt) • k2,
   fun u k3 dt => u + dt • k3]

/-- The loop over the stages (sfepy/solvers/ts_dg_solvers.py:297-314). -/
def rk4Loop (P : Prob E) (dt : ℝ) (x0 : E) :
    List (E → E → ℝ → E) → E → List E → World E → List E × World E
  | [], _, xs, w => (xs, w)
  | upd :: rest, k, xs, w =>
    let stage := upd x0 k dt
    let (r, w) := evalFun P w stage
    let dx := linSolve P r
    let k := - dx - stage
    let k := P.lim k
    rk4Loop P dt x0 rest k (xs ++ [k]) w

/-- `RK4StepSolver.solve_step()` (sfepy/solvers/ts_dg_solvers.py:279-322).  The initial `vec_x = None` is not
used by the first stage. -/
noncomputable def rk4Step (P : Prob E) (dt : ℝ) (_ : StepArgs E) (w : World E) (x0 : E) :
    Option (E × World E) :=
  let (xs, w) := rk4Loop P dt x0 stageUpdates 0 [] w
  let fin := x0 + (1 / 6 * dt) • (xs.getD 0 0 + (2 : ℝ) • xs.getD 1 0 + (2 : ℝ) • xs.getD 2 0 + xs.getD 3 0)
  some (P.lim fin, w)

/-- The type of `solve_step()`. -/
abbrev Solver (E : Type*) [AddCommGroup E] [Module ℝ E] :=
  Prob E → ℝ → StepArgs E → World E → E → Option (E × World E)

/-- The loop over the time steps of `DGMultiStageTSS.__call__()`, over the times of the remaining steps.
`self.solve_step(ts, nls, vec, prestep_fun, poststep_fun, status)` passes the arguments by position
(sfepy/solvers/ts_dg_solvers.py:106-118; sfepy/solvers/ts.py:74-91). -/
def stepLoop (solve : Solver E) (P : Prob E) (dt : ℝ) : List ℝ → World E → E → Option (E × World E)
  | [], w, x => some (x, w)
  | t :: ts, w, x =>
    let w := { w with time := t }
    let (x, w) := prestep w x
    match solve P dt { status := some prestep, prestepFun := some poststep, poststepFun := none } w x with
    | none => none
    | some (xt, w) =>
      let (xt, w) := poststep w xt
      stepLoop solve P dt ts w xt

/-- `DGMultiStageTSS.__call__()` from the step 0: `solve_step0()` evaluates the residual and keeps the vector
(sfepy/solvers/ts_dg_solvers.py:69-75, 86-120). -/
def run (solve : Solver E) (P : Prob E) (dt t0 : ℝ) (times : List ℝ) (x0 : E) : Option (E × World E) :=
  let w : World E := { cur := x0, hist := x0, time := t0, log := [] }
  let (x, w) := prestep w x0
  let (_, w) := evalFun P w x
  let (x, w) := poststep w x
  stepLoop solve P dt times w x

/-! ## Specification -/

/-- The operator of the semi-discrete problem p' = - L(p): M p' + V(p) + F(p) = 0. -/
def Prob.rhs (P : Prob E) (x : E) : E := P.M.symm (P.V x + P.F x)

/-- The forward Euler method. -/
def eulerSpec (dt : ℝ) (lim L : E → E) (x : E) : E := lim (x - dt • L x)

/-- The TVD Runge-Kutta method of the third order, as documented
(sfepy/solvers/ts_dg_solvers.py:165-187). -/
noncomputable def tvdSpec (dt : ℝ) (lim L : E → E) (x : E) : E :=
  let x1 := lim (x - dt • L x)
  let x2 := lim ((3 / 4 : ℝ) • x + (1 / 4 : ℝ) • x1 - (1 / 4 * dt) • L x1)
  lim ((1 / 3 : ℝ) • x + (2 / 3 : ℝ) • x2 - (2 / 3 * dt) • L x2)

/-- The classical Runge-Kutta method for p' = g(p). -/
noncomputable def rk4Spec (dt : ℝ) (g : E → E) (x : E) : E :=
  let k1 := g x
  let k2 := g (x + (dt / 2) • k1)
  let k3 := g (x + (dt / 2) • k2)
  let k4 := g (x + dt • k3)
  x + (dt / 6) • (k1 + (2 : ℝ) • k2 + (2 : ℝ) • k3 + k4)

/-! ## Proofs: Euler -/

theorem solve_sub (P : Prob E) (h x : E) :
    linSolve P (P.M x + P.V h + P.F x) - x = P.M.symm (P.V h + P.F x) := by
  unfold linSolve
  rw [add_assoc, map_add, LinearEquiv.symm_apply_apply]
  abel

theorem euler_one (P : Prob E) (dt : ℝ) (args : StepArgs E) (w : World E) (x : E) (hw : w.hist = x) :
    eulerStep P dt args w x = some (eulerSpec dt P.lim P.rhs x, { w with cur := x }) := by
  unfold eulerStep evalFun eulerSpec Prob.rhs
  simp only
  rw [solve_sub, hw]

theorem euler_loop (P : Prob E) (dt : ℝ) (ts : List ℝ) (w : World E) (x : E) (hw : w.hist = x) :
    (stepLoop eulerStep P dt ts w x).map Prod.fst = some ((eulerSpec dt P.lim P.rhs)^[ts.length] x) := by
  induction ts generalizing w x with
  | nil => rfl
  | cons t ts ih =>
    rw [stepLoop]
    simp only [prestep]
    rw [euler_one _ _ _ _ _ (by exact hw)]
    simp only [poststep]
    rw [ih _ _ rfl]
    rfl

/-- C81: the Euler solver makes the forward Euler steps of the semi-discrete problem, with the limiter after each
step, for all problems, numbers of steps and initial states. -/
theorem C81_euler_run (P : Prob E) (dt t0 : ℝ) (times : List ℝ) (x0 : E) :
    (run eulerStep P dt t0 times x0).map Prod.fst =
      some ((eulerSpec dt P.lim P.rhs)^[times.length] x0) := by
  unfold run
  simp only [prestep, evalFun, poststep]
  exact euler_loop P dt times _ x0 rfl

/-! ## Proofs: TVD Runge-Kutta -/

/-- What the TVD Runge-Kutta solver computes in a step: the second stage uses the terms with the history at
the beginning of the step, the third one at the result of the second stage. -/
noncomputable def tvdCoded (P : Prob E) (dt : ℝ) (x : E) : E :=
  let x1 := P.lim (x - dt • P.M.symm (P.V x + P.F x))
  let x2 := P.lim ((3 / 4 : ℝ) • x + (1 / 4 : ℝ) • x1 - (1 / 4 * dt) • P.M.symm (P.V x + P.F x1))
  P.lim ((1 / 3 : ℝ) • x + (2 / 3 : ℝ) • x2 - (2 / 3 * dt) • P.M.symm (P.V x2 + P.F x2))

theorem tvd_one (P : Prob E) (dt : ℝ) (s : Option (CB E)) (q : Option (CB E)) (w : World E) (x : E)
    (hw : w.hist = x) :
    ∃ x2 : E, tvdStep P dt { status := s, prestepFun := some poststep, poststepFun := q } w x =
      some (tvdCoded P dt x, World.mk x2 x2 (w.time + 1 / 2 * dt)
        (w.log ++ [.post (w.time + 1 / 2 * dt) x2])) := by
  have e2 : ∀ a b c : E, (1 / 4 : ℝ) • ((3 : ℝ) • a + b - dt • c) =
      (3 / 4 : ℝ) • a + (1 / 4 : ℝ) • b - (1 / 4 * dt) • c := by
    intro a b c; module
  have e3 : ∀ a b c : E, (1 / 3 : ℝ) • (a + (2 : ℝ) • b - ((2 : ℝ) * dt) • c) =
      (1 / 3 : ℝ) • a + (2 / 3 : ℝ) • b - (2 / 3 * dt) • c := by
    intro a b c; module
  unfold tvdStep evalFun tvdCoded
  simp only [poststep]
  rw [solve_sub, solve_sub, solve_sub, e2, e3]
  subst hw
  exact ⟨_, rfl⟩

theorem tvd_loop (P : Prob E) (dt : ℝ) (ts : List ℝ) (w : World E) (x : E) (hw : w.hist = x) :
    (stepLoop tvdStep P dt ts w x).map Prod.fst = some ((tvdCoded P dt)^[ts.length] x) := by
  induction ts generalizing w x with
  | nil => rfl
  | cons t ts ih =>
    rw [stepLoop]
    simp only [prestep]
    obtain ⟨x2, h2⟩ := tvd_one P dt (some prestep) none
      { cur := x, hist := w.hist, time := t, log := w.log ++ [.pre t x] } x hw
    simp only at h2
    rw [h2]
    simp only [poststep]
    rw [ih _ _ rfl]
    rfl

/-- C81: what the TVD Runge-Kutta solver computes, for all problems, numbers of steps and initial states. -/
theorem C81_tvd_run (P : Prob E) (dt t0 : ℝ) (times : List ℝ) (x0 : E) :
    (run tvdStep P dt t0 times x0).map Prod.fst = some ((tvdCoded P dt)^[times.length] x0) := by
  unfold run
  simp only [prestep, evalFun, poststep]
  exact tvd_loop P dt times _ x0 rfl

/-- C81: when no term reads the history, the TVD Runge-Kutta solver makes the steps of the documented
method. -/
theorem C81_tvd_documented (P : Prob E) (hV : ∀ x, P.V x = 0) (dt t0 : ℝ) (times : List ℝ) (x0 : E) :
    (run tvdStep P dt t0 times x0).map Prod.fst =
      some ((tvdSpec dt P.lim P.rhs)^[times.length] x0) := by
  have : tvdCoded P dt = tvdSpec dt P.lim P.rhs := by
    funext x
    unfold tvdCoded tvdSpec Prob.rhs
    simp only [hV]
  rw [C81_tvd_run, this]

/-- C81: the documented method keeps every convex set of states kept by the Euler steps and by the limiter
(maximum principle, total variation bounds, ...). -/
theorem C81_tvd_invariant (dt : ℝ) (lim L : E → E) (S : Set E) (hS : Convex ℝ S)
    (hE : ∀ x ∈ S, x - dt • L x ∈ S) (hlim : ∀ x ∈ S, lim x ∈ S) (n : ℕ) (x : E) (hx : x ∈ S) :
    (tvdSpec dt lim L)^[n] x ∈ S := by
  have hone : ∀ x ∈ S, tvdSpec dt lim L x ∈ S := by
    intro x hx
    unfold tvdSpec
    have h1 := hlim _ (hE x hx)
    simp only
    generalize lim (x - dt • L x) = x1 at h1
    have h2 : (3 / 4 : ℝ) • x + (1 / 4 : ℝ) • x1 - (1 / 4 * dt) • L x1 ∈ S := by
      have := hS hx (hE x1 h1) (show (0 : ℝ) ≤ 3 / 4 by norm_num) (show (0 : ℝ) ≤ 1 / 4 by norm_num)
        (by norm_num)
      convert this using 1
      module
    have h2' := hlim _ h2
    generalize lim ((3 / 4 : ℝ) • x + (1 / 4 : ℝ) • x1 - (1 / 4 * dt) • L x1) = x2 at h2'
    have h3 : (1 / 3 : ℝ) • x + (2 / 3 : ℝ) • x2 - (2 / 3 * dt) • L x2 ∈ S := by
      have := hS hx (hE x2 h2') (show (0 : ℝ) ≤ 1 / 3 by norm_num) (show (0 : ℝ) ≤ 2 / 3 by norm_num)
        (by norm_num)
      convert this using 1
      module
    exact hlim _ h3
  induction n generalizing x with
  | zero => exact hx
  | succ n ih => exact ih _ (hone x hx)

/-- C81: the documented method is of the third order for linear problems: the step is the Taylor polynomial of
the exponential. -/
theorem C81_tvd_third_order (dt : ℝ) (A : E →ₗ[ℝ] E) (x : E) :
    tvdSpec dt id A x = x - dt • A x + (dt ^ 2 / 2) • A (A x) - (dt ^ 3 / 6) • A (A (A x)) := by
  unfold tvdSpec
  simp only [id, map_sub, map_add, map_smul]
  module

/-- The finding: for linear terms reading the history, as the volume terms in all the examples do, the step has
the coefficient 1/3 instead of 1/2 at dt^2: the coded method is only of the first order. -/
theorem C81_tvd_history_first_order (P : Prob E) (A : E →ₗ[ℝ] E) (hF : ∀ x, P.F x = 0)
    (hV : ∀ x, P.M.symm (P.V x) = A x) (hlim : P.lim = id) (dt : ℝ) (x : E) :
    tvdCoded P dt x = x - dt • A x + (dt ^ 2 / 3) • A (A x) := by
  unfold tvdCoded
  simp only [hF, add_zero, hV, hlim, id, map_sub, map_add, map_smul]
  module

/-! ## Proofs: RK4 -/

/-- C81: what the RK4 solver computes without terms reading the history and without limiters: the classical
method, but for p' = - L(p) - 2 p. -/
theorem C81_rk4_step (P : Prob E) (hV : ∀ x, P.V x = 0) (hlim : P.lim = id) (dt : ℝ) (args : StepArgs E)
    (w : World E) (x : E) :
    (rk4Step P dt args w x).map Prod.fst =
      some (rk4Spec dt (fun u => - P.rhs u - (2 : ℝ) • u) x) := by
  have h : ∀ u, - (P.M.symm (P.M u + P.F u)) - u = - P.M.symm (P.F u) - (2 : ℝ) • u := by
    intro u
    rw [map_add, LinearEquiv.symm_apply_apply, two_smul]
    abel
  unfold rk4Step rk4Spec Prob.rhs
  simp only [rk4Loop, stageUpdates, evalFun, linSolve, hV, hlim, id, add_zero, zero_add, h,
    Option.map_some, List.nil_append, List.cons_append, List.getD_cons_zero, List.getD_cons_succ]
  rw [show (1 / 2 * dt : ℝ) = dt / 2 by ring, show (1 / 6 * dt : ℝ) = dt / 6 by ring]

/-- The finding: a state at rest (p' = 0) is not kept by the RK4 solver. -/
theorem C81_rk4_rest_not_kept (P : Prob E) (hV : ∀ x, P.V x = 0) (hF : ∀ x, P.F x = 0)
    (hlim : P.lim = id) (dt : ℝ) (args : StepArgs E) (w : World E) (x : E) :
    (rk4Step P dt args w x).map Prod.fst =
      some ((1 - 2 * dt + 2 * dt ^ 2 - 4 / 3 * dt ^ 3 + 2 / 3 * dt ^ 4) • x) := by
  rw [C81_rk4_step P hV hlim]
  congr 1
  unfold rk4Spec Prob.rhs
  simp only [hV, hF, add_zero, map_zero, neg_zero, zero_sub]
  module

/-! ## Proofs: the calls -/

/-- The vectors given to `poststep_fun()` with their times: the saved results. -/
def posts : List (Ev E) → List (ℝ × E)
  | [] => []
  | .pre _ _ :: l => posts l
  | .post t x :: l => (t, x) :: posts l

theorem posts_append (l m : List (Ev E)) : posts (l ++ m) = posts l ++ posts m := by
  induction l with
  | nil => rfl
  | cons e l ih => cases e <;> simp [posts, ih]

/-- The results of the Euler steps at the given times. -/
def eulerPosts (P : Prob E) (dt : ℝ) : List ℝ → E → List (ℝ × E)
  | [], _ => []
  | t :: ts, x => (t, eulerSpec dt P.lim P.rhs x) :: eulerPosts P dt ts (eulerSpec dt P.lim P.rhs x)

theorem euler_log (P : Prob E) (dt : ℝ) (ts : List ℝ) (w : World E) (x : E) (hw : w.hist = x) :
    (stepLoop eulerStep P dt ts w x).map (fun r => posts r.2.log) =
      some (posts w.log ++ eulerPosts P dt ts x) := by
  induction ts generalizing w x with
  | nil => simp [stepLoop, eulerPosts]
  | cons t ts ih =>
    rw [stepLoop]
    simp only [prestep]
    rw [euler_one _ _ _ _ _ (by exact hw)]
    simp only [poststep]
    rw [ih _ _ rfl, posts_append, posts_append]
    simp [posts, eulerPosts]

/-- C81: with the Euler solver, each step is given to `poststep_fun()` (saved) once, with its time. -/
theorem C81_euler_saved (P : Prob E) (dt t0 : ℝ) (times : List ℝ) (x0 : E) :
    (run eulerStep P dt t0 times x0).map (fun r => posts r.2.log) =
      some ((t0, x0) :: eulerPosts P dt times x0) := by
  unfold run
  simp only [prestep, evalFun, poststep]
  rw [euler_log _ _ _ _ _ rfl]
  simp [posts]

theorem tvd_log (P : Prob E) (dt : ℝ) (ts : List ℝ) (w : World E) (x : E) (hw : w.hist = x) :
    ∃ l, (stepLoop tvdStep P dt ts w x).map (fun r => posts r.2.log) = some (posts w.log ++ l) ∧
      l.map Prod.fst = ts.flatMap fun t => [t + 1 / 2 * dt, t + 1 / 2 * dt] := by
  induction ts generalizing w x with
  | nil => exact ⟨[], by simp [stepLoop], rfl⟩
  | cons t ts ih =>
    rw [stepLoop]
    simp only [prestep]
    obtain ⟨x2, h2⟩ := tvd_one P dt (some prestep) none
      { cur := x, hist := w.hist, time := t, log := w.log ++ [.pre t x] } x hw
    simp only at h2
    rw [h2]
    simp only [poststep]
    obtain ⟨l, hl, hlt⟩ := ih (World.mk (tvdCoded P dt x) (tvdCoded P dt x) (t + 1 / 2 * dt)
      (w.log ++ [.pre t x] ++ [.post (t + 1 / 2 * dt) x2] ++
        [.post (t + 1 / 2 * dt) (tvdCoded P dt x)])) (tvdCoded P dt x) rfl
    refine ⟨[(t + 1 / 2 * dt, x2), (t + 1 / 2 * dt, tvdCoded P dt x)] ++ l, ?_, ?_⟩
    · rw [hl]
      simp [posts_append, posts]
    · simp [hlt]

/-- The finding: the TVD Runge-Kutta solver calls `poststep_fun()` twice in each step, both times with the time
shifted by dt/2. -/
theorem C81_tvd_saved_twice (P : Prob E) (dt t0 : ℝ) (times : List ℝ) (x0 : E) :
    (run tvdStep P dt t0 times x0).map (fun r => (posts r.2.log).map Prod.fst) =
      some (t0 :: times.flatMap fun t => [t + 1 / 2 * dt, t + 1 / 2 * dt]) := by
  unfold run
  simp only [prestep, evalFun, poststep]
  obtain ⟨l, hl, hlt⟩ := tvd_log P dt times
    { cur := x0, hist := x0, time := t0, log := ([] ++ [.pre t0 x0]) ++ [.post t0 x0] } x0 rfl
  have := congrArg (Option.map (List.map Prod.fst)) hl
  rw [Option.map_map] at this
  refine Eq.trans this ?_
  simp [posts, hlt]

end Dg
