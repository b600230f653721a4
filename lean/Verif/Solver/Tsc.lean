import Mathlib.Analysis.SpecialFunctions.Pow.Real

/-!
Model of the time step controllers of `sfepy/solvers/ts_controllers.py`.

Finite floats are real numbers (no rounding); error norms and factors can also be `inf` and `nan`.
All values are non-negative in the uses below, so `-inf` is not needed.
-/

namespace Verif.Solver.Tsc

open Classical in
section

/-- A non-negative float64: finite, infinite or not a number. -/
inductive Fl where
  | fin (r : ℝ)
  | inf
  | nan

/-- `a < b` of floats: false when one of them is nan. -/
def Fl.Lt : Fl → Fl → Prop
  | .fin a, .fin b => a < b
  | .fin _, .inf => True
  | _, _ => False

/-- `a <= b` of floats. -/
def Fl.Le : Fl → Fl → Prop
  | .fin a, .fin b => a ≤ b
  | .fin _, .inf => True
  | .inf, .inf => True
  | _, _ => False

/-- Python `max(a, b)`: `b` only if `b > a`. -/
noncomputable def pyMax (a b : Fl) : Fl := if Fl.Lt a b then b else a

/-- Python `min(a, b)`: `b` only if `b < a`. -/
noncomputable def pyMin (a b : Fl) : Fl := if Fl.Lt b a then b else a

/-- `x ** p` of NumPy floats for `x >= 0`: `0 ** p = inf` for negative `p`, `x ** 0 = 1` always. -/
noncomputable def Fl.pow (x : Fl) (p : ℝ) : Fl :=
  if p = 0 then .fin 1
  else match x with
    | .fin r => if r = 0 ∧ p < 0 then .inf else .fin (r ^ p)
    | .inf => if p < 0 then .fin 0 else .inf
    | .nan => .nan

/-- `s / x` for `s > 0`, `x >= 0` (NumPy: `s / 0 = inf`). -/
noncomputable def Fl.rdiv (s : ℝ) : Fl → Fl
  | .fin r => if r = 0 then .inf else .fin (s / r)
  | .inf => .fin 0
  | .nan => .nan

/-- `x * y` of non-negative floats (`0 * inf = nan`). -/
noncomputable def Fl.mul : Fl → Fl → Fl
  | .fin a, .fin b => .fin (a * b)
  | .fin a, .inf => if a = 0 then .nan else .inf
  | .inf, .fin b => if b = 0 then .nan else .inf
  | .inf, .inf => .inf
  | _, _ => .nan

/-- ts_controllers.py:52-56: `eval_scaled_norm`, for a vector without infs and nans.  For
`eps_a > 0`, `eps_r >= 0` and a nonempty vector there is no division by zero. -/
noncomputable def evalScaledNorm {n : ℕ} (terr : Fin n → ℝ) (epsA epsR : ℝ) : ℝ :=
  Real.sqrt (1 / (n : ℝ) * ∑ i, (terr i / (epsR * |terr i| + epsA)) ^ 2)

/-- ts_controllers.py:90-109: `get_scaled_errors` (backward Euler difference). -/
noncomputable def scaledErrors {n : ℕ} (dt : ℝ) (u0 v0 u1 v1 a1 : Fin n → ℝ)
    (epsA epsR : ℝ × ℝ) : ℝ × ℝ :=
  (evalScaledNorm (fun i => u1 i - (u0 i + dt * v1 i)) epsA.1 epsR.1,
   evalScaledNorm (fun i => v1 i - (v0 i + dt * a1 i)) epsA.2 epsR.2)

/-- The parameters of the controllers (ts_controllers.py:72-88, 192-199, 257-266). -/
structure Conf where
  fmin : ℝ
  fmax : ℝ
  fsafety : ℝ
  order : ℝ
  pcoef : ℝ
  icoef : ℝ
  dcoef : ℝ
  fred : ℝ
  incWait : Int
  minFinc : ℝ

/-- ts_controllers.py:143-168: `ElastodynamicsBasicTSC.__call__`, from the two scaled errors on.
The result is the step change factor (`new_dt = dt * factor`) and whether the step is accepted. -/
noncomputable def basic (c : Conf) (uErr vErr : Fl) : Fl × Bool :=
  let emax := pyMax uErr vErr
  if Fl.Le emax (.fin 1) then
    (pyMin (.fin c.fmax) (Fl.rdiv c.fsafety (emax.pow (1 / c.order))), true)
  else
    (pyMax (.fin c.fmin) (Fl.rdiv c.fsafety (emax.pow (1 / c.order))), false)

/-- ts_controllers.py:207-234: `ElastodynamicsPIDTSC.__call__`; the state is
`(self.emax0, self.emax00)`. -/
noncomputable def pid (c : Conf) (st : Fl × Fl) (uErr vErr : Fl) : (Fl × Bool) × (Fl × Fl) :=
  let b1 := -(c.pcoef + c.icoef + c.dcoef) / c.order
  let b2 := (c.pcoef + 2 * c.dcoef) / c.order
  let b3 := -c.dcoef / c.order
  let emax := pyMax uErr vErr
  let c1 := if b1 = 0 then .fin 1 else emax.pow b1
  let c2 := if b2 = 0 then .fin 1 else st.1.pow b2
  let c3 := if b3 = 0 then .fin 1 else st.2.pow b3
  let raw := (((Fl.fin c.fsafety).mul c1).mul c2).mul c3
  ((pyMin (.fin c.fmax) (pyMax (.fin c.fmin) raw), decide (Fl.Le emax (.fin 1))), (emax, st.1))

/-- `a >= b` of floats. -/
def Fl.Ge (a b : Fl) : Prop := Fl.Le b a

/-- ts_controllers.py:277-305: `ElastodynamicsLinearTSC.__call__`; the state is `self.count`.
The factor `new_dt / dt` is computed exactly (`dt` cancels for `dt > 0`). -/
noncomputable def linear (c : Conf) (count : ℕ) (uErr vErr : Fl) : (Fl × Bool) × ℕ :=
  let r := basic c uErr vErr
  if r.2 = false then ((r.1.mul (.fin c.fred), false), 0)
  else if (count : Int) ≥ c.incWait then
    if Fl.Ge r.1 (.fin c.minFinc) then ((r.1, true), 0)
    else ((.fin 1, true), count)
  else ((.fin 1, true), count + 1)

/-- The results of a sequence of calls of a controller with state `σ`. -/
noncomputable def runs {σ : Type} (f : σ → Fl → Fl → (Fl × Bool) × σ) :
    σ → List (Fl × Fl) → List (Fl × Bool)
  | _, [] => []
  | s, e :: es => (f s e.1 e.2).1 :: runs f (f s e.1 e.2).2 es

end

/-- ts_controllers.py:15-50: state of `TimesSequenceTSC`: the rest of the iterator. -/
structure TimesSeq (K : Type) where
  rest : List K

/-- `get_initial_dt` (ts_controllers.py:31-34): raises `StopIteration` (`none`) for an empty
sequence. -/
def TimesSeq.initialDt {K : Type} [Sub K] (s : TimesSeq K) (t0 : K) : Option (K × TimesSeq K) :=
  match s.rest with
  | [] => none
  | t :: ts => some (t - t0, ⟨ts⟩)

/-- `__call__` (ts_controllers.py:36-50): `time` is `ts.time`, `t1` is `ts.t1`; always accepts. -/
def TimesSeq.call {K : Type} [Sub K] [Zero K] [One K] [DecidableEq K] (s : TimesSeq K)
    (time t1 : K) : K × TimesSeq K :=
  let p : K × List K := match s.rest with
    | [] => (t1, [])
    | t :: ts => (t, ts)
  let dt := p.1 - time
  (if dt = 0 then 1 else dt, ⟨p.2⟩)

end Verif.Solver.Tsc
