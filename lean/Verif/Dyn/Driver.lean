/-
Model of the time loop of the elastodynamics solvers (`ElastodynamicsBaseTS.__call__`,
ts_solvers.py:696-757) with the fixed and with an adaptive time step, including the cache of the
effective matrix (`_cache()`, `clear_lin_solver()`, ts_solvers.py:533-547, 690-694).

`S` is the type of the state vectors.  `prestep_fun` and `poststep_fun` of the problem return the
vector they are given (problem.py:1355-1394); their calls are visible in the log.  The step of the
scheme is a function of the time step the cached matrix was built for, of `ts.time` and of `ts.dt`
(the time stepper itself is left unchanged by a step: C45, C20_substep).
-/
import Verif.Time.Model
import Verif.Solver.Tsc

namespace Verif.Dyn

open Verif.Time

variable {K : Type} [Field K] [LinearOrder K] {S C : Type}

/-- A `poststep_fun(ts, vect)` call: `ts.step`, `ts.time`, `ts.dt`, the previous state `vec` and the
new state `vect`. -/
structure Rec (K S : Type) where
  step : Nat
  time : K
  dt : K
  vec : S
  vect : S

/-- The loop of `__call__` with `FixedTSC` (ts_solvers.py:716-757) for at most `fuel` steps: the
returned vector and the log. -/
def fixedLoop (step : K → K → S → S) : Nat → TS K → S → Option (S × List (Rec K S))
  | 0, _, _ => none
  | f + 1, ts, vec =>
    let vect := step ts.time ts.dt vec
    let r : Rec K S := ⟨ts.step, ts.time, ts.dt, vec, vect⟩
    if ts.nt ≥ 1 then some (vec, [r])
    else (fixedLoop step f ts.advance vect).map fun p => (p.1, r :: p.2)

/-- `__call__` with `FixedTSC`: `get_initial_vec()` (ts_solvers.py:647-688) computes the initial
acceleration (`init`) and advances the time stepper in the step 0; then the loop. -/
def fixedCall (init : S → S) (step : K → K → S → S) (fuel : Nat) (ts : TS K) (vec0 : S) :
    Option (S × List (Rec K S)) :=
  if ts.step = 0 then fixedLoop step fuel ts.advance (init vec0) else fixedLoop step fuel ts vec0

/-- The two nested loops of `__call__` with a time step controller (ts_solvers.py:716-757); one
unit of fuel per attempt.  `cache` is the time step of the matrix in `self.matrix`, `linear` is
`conf.is_linear`; `tsc` returns the new step, whether the attempt is accepted, and its new state. -/
def adaptiveLoop (step : K → K → K → S → S) (tsc : C → VTS K → S → S → K × Bool × C)
    (linear : Bool) : Nat → VTS K → S → Option K → C → Option (S × List (Rec K S) × VTS K)
  | 0, _, _, _, _ => none
  | f + 1, ts, vec, cache, c =>
    let used := cache.getD ts.dt
    let vect := step used ts.time ts.dt vec
    let d := tsc c ts vec vect
    let cache' := if d.1 ≠ ts.dt then none else if linear then some used else none
    if d.2.1 = false then adaptiveLoop step tsc linear f (ts.setDt d.1 true) vec cache' d.2.2
    else
      let r : Rec K S := ⟨ts.step, ts.time, ts.dt, vec, vect⟩
      if ts.nt ≥ 1 then some (vec, [r], ts)
      else
        let ts1 := if d.1 ≠ ts.dt then ts.setDt d.1 false else ts
        (adaptiveLoop step tsc linear f ts1.advance vect cache' d.2.2).map fun p =>
          (p.1, r :: p.2.1, p.2.2)

/-- `__call__` with a time step controller from the step 0 (ts_solvers.py:706-715); `dt0` is
`tsc.get_initial_dt()`. -/
def adaptiveCall (init : S → S) (step : K → K → K → S → S)
    (tsc : C → VTS K → S → S → K × Bool × C) (linear : Bool) (fuel : Nat) (ts : VTS K) (vec0 : S)
    (dt0 : K) (c : C) : Option (S × List (Rec K S) × VTS K) :=
  adaptiveLoop step tsc linear fuel (ts.advance.setDt dt0 true) (init vec0) none c

/-- `TimesSequenceTSC` as a controller of the loop (ts_controllers.py:36-50). -/
def seqTsc (c : Solver.Tsc.TimesSeq K) (ts : VTS K) (_ _ : S) :
    K × Bool × Solver.Tsc.TimesSeq K :=
  let r := c.call ts.time ts.t1
  (r.1, true, r.2)

/-- The errors of `get_matrices`. -/
inductive MErr where
  | type | assertion
deriving DecidableEq

/-- `get_matrices(nls, vec, unpack)` (ts_solvers.py:601-632): `n` is the length of the vector, or
`none` for `vec = None`; `cst` the cached matrices; `grad` evaluates the tangent matrix (it accepts
`None`) and cuts the blocks.  Without `unpack`, `len(None)` raises TypeError. -/
def getMatrices {A : Type} (linear : Bool) (grad : Option Nat → A) (unpack : Bool)
    (n : Option Nat) (cst : Option A) : Except MErr (A × Option A) :=
  match linear, cst with
  | true, some m => .ok (m, cst)
  | _, _ =>
    let m := grad n
    let new : Option A := if linear then some m else cst
    if unpack then .ok (m, new)
    else match n with
      | none => .error .type
      | some k => if k % 3 = 0 then .ok (m, new) else .error .assertion

end Verif.Dyn
