/-
Model of the time steppers (`sfepy/solvers/ts.py`), of the simple and adaptive time-stepping
drivers (`sfepy/solvers/ts_solvers.py:141-382`) and of `is_active_bc`
(`sfepy/discrete/common/dof_info.py:207-246`).

Times are elements of an ordered field `K` (exact arithmetic instead of float64).
-/
import Mathlib.Algebra.Order.Field.Basic
import Mathlib.Algebra.Order.Floor.Ring

namespace Verif.Time

variable {K : Type} [Field K] [LinearOrder K]

inductive TErr where
  | value | zeroDivision | assertion
deriving DecidableEq, Repr

/-! ### Fixed step -/

/-- Attributes of `TimeStepper` (ts.py:17-53). -/
structure TS (K : Type) where
  t0 : K
  t1 : K
  dt : K
  nStep : Nat
  times : List K
  step : Nat
  time : K
  nt : K
  start : Option K

/-- `nm.linspace(t0, t1, n, endpoint=True)` for `n > 1`: `t0 + i * step`, the last value set to
`t1`. -/
def linspace (t0 t1 : K) (n : Nat) : List K :=
  (List.range n).map fun i =>
    if i + 1 = n then t1 else t0 + (i : K) * ((t1 - t0) / ((n : K) - 1))

/-- `_get_n_step` (ts.py:33-35). -/
def getNStep [FloorRing K] (t0 t1 dt : K) : Int := ⌊(t1 - t0) / dt + 1 / 2⌋ + 1

/-- `normalize_time` (ts.py:94-95). -/
def normalize (t0 t1 time : K) : K := (time - t0) / (t1 - t0)

/-- `set_step(step)` (ts.py:97-109) for an integer step. -/
def TS.setStep (ts : TS K) (step : Int) : Except TErr (TS K) :=
  let s := if step < 0 then (ts.nStep : Int) + step else step
  if s ≥ ts.nStep ∨ s < 0 then .error .value
  else
    let time := ts.times.getD s.toNat 0
    .ok { ts with step := s.toNat, time := time, nt := normalize ts.t0 ts.t1 time }

/-- `set_from_data(t0, t1, dt, n_step, step=None)` and `__init__` (ts.py:27-53); `set_step(None)`
means step 0 (`nt = 0.0`). `t1 = t0` gives ZeroDivisionError in `_get_n_step` (the default `dt`)
or `normalize_time`. -/
def TS.new [FloorRing K] (t0 t1 : K) (dt : Option K) (nStep : Option Int) : Except TErr (TS K) :=
  let d := dt.getD (t1 - t0)
  if d = 0 ∨ t1 = t0 then .error .zeroDivision
  else
    let n := nStep.getD (getNStep t0 t1 d)
    if n ≤ 0 then .error .value
    else
      let n' := n.toNat
      let ts : TS K :=
        if n' > 1 then
          { t0 := t0, t1 := t1, dt := (t1 - t0) / ((n' : K) - 1), nStep := n'
            times := linspace t0 t1 n', step := 0, time := t0, nt := 0, start := none }
        else
          { t0 := t0, t1 := t1, dt := t1 - t0, nStep := n', times := [t0], step := 0, time := t0
            nt := 0, start := none }
      ts.setStep 0

/-- `advance` (ts.py:74-78). -/
def TS.advance (ts : TS K) : TS K :=
  if ts.step + 1 < ts.nStep then
    let time := ts.times.getD (ts.step + 1) 0
    { ts with step := ts.step + 1, time := time, nt := normalize ts.t0 ts.t1 time }
  else ts

/-- `set_substep_time(sub_dt)` (ts.py:65-67). -/
def TS.setSubstep (ts : TS K) (d : K) : TS K :=
  { ts with start := some ts.time, time := ts.time + d }

/-- `restore_step_time()` (ts.py:69-72). -/
def TS.restore (ts : TS K) : TS K :=
  match ts.start with
  | some t => { ts with time := t, start := none }
  | none => ts

/-- Body of the generator `iter_from` (ts.py:85-92): yields `n` times. -/
def TS.iterLoop : Nat → TS K → List (Nat × K) × TS K
  | 0, ts => ([], ts)
  | n + 1, ts =>
    let r := TS.iterLoop n ts.advance
    ((ts.step, ts.time) :: r.1, r.2)

/-- Length of the Python slice `times[step:]`. -/
def sliceLen (n : Nat) (step : Int) : Nat :=
  if step < 0 then (if (n : Int) + step < 0 then n else (-step).toNat) else n - step.toNat

/-- `iter_from(step)` run to the end: the yielded pairs and the final state. -/
def TS.iterFrom (ts : TS K) (step : Int) : Except TErr (List (Nat × K) × TS K) :=
  match ts.setStep step with
  | .error e => .error e
  | .ok ts' => .ok (ts'.iterLoop (sliceLen ts'.times.length step))

/-- `get_state` / `set_state` (ts.py:59-63). -/
def TS.getState (ts : TS K) : Nat := ts.step

def TS.setState (ts : TS K) (state : Nat) : Except TErr (TS K) := ts.setStep state

/-! ### Variable step -/

/-- Attributes of `VariableTimeStepper` (ts.py:120-228). -/
structure VTS (K : Type) where
  t0 : K
  t1 : K
  dt0 : K
  dt : K
  nStep : Nat
  step : Nat
  time : K
  nt : K
  times : List K

/-- The effect of `set_step(0)` (ts.py:180-185). -/
def VTS.reset (ts : VTS K) : VTS K :=
  { ts with step := 0, time := ts.t0, nt := 0, times := [ts.t0], nStep := 1 }

/-- `set_step(step)` (ts.py:172-185). -/
def VTS.setStep (ts : VTS K) (step : Int) : Except TErr (VTS K) :=
  if step > 0 ∧ step ≠ ts.step then .error .value
  else if step = 0 then .ok ts.reset
  else .ok ts

/-- `set_from_data(t0, t1, dt, n_step)` and `__init__` (ts.py:131-150). -/
def VTS.new [FloorRing K] (t0 t1 : K) (dt : Option K) (nStep : Option Int) :
    Except TErr (VTS K) :=
  let d := dt.getD (t1 - t0)
  if d = 0 ∨ t1 = t0 then .error .zeroDivision
  else
    let n := nStep.getD (getNStep t0 t1 d)
    let dt' := if n > 1 then (t1 - t0) / ((n : K) - 1) else t1 - t0
    .ok { t0 := t0, t1 := t1, dt0 := dt', dt := dt', nStep := 1, step := 0, time := t0, nt := 0
          times := [t0] }

/-- `set_time_step(dt, update_time)` (ts.py:190-196); for step 0 `times[step - 1]` is the
last element. -/
def VTS.setDt (ts : VTS K) (dt : K) (update : Bool) : VTS K :=
  if update then
    let prev := if ts.step = 0 then ts.times.getLastD 0 else ts.times.getD (ts.step - 1) 0
    let time := prev + dt
    { ts with dt := dt, time := time, times := ts.times.set ts.step time
              nt := normalize ts.t0 ts.t1 time }
  else { ts with dt := dt }

/-- `advance` (ts.py:198-205). -/
def VTS.advance (ts : VTS K) : VTS K :=
  let time := ts.time + ts.dt
  { ts with step := ts.step + 1, time := time, nt := normalize ts.t0 ts.t1 time
            times := ts.times ++ [time], nStep := ts.step + 2 }

/-- `get_state` (ts.py:155-156). -/
def VTS.getState (ts : VTS K) : Nat × K × List K := (ts.step, ts.dt, ts.times)

/-- `set_state(step, dt, times)` (ts.py:158-166). -/
def VTS.setState (ts : VTS K) (s : Nat × K × List K) : Except TErr (VTS K) :=
  if s.2.2.length = s.1 + 1 then
    let time := s.2.2.getLastD 0
    .ok { ts with step := s.1, dt := s.2.1, times := s.2.2, time := time
                  nt := normalize ts.t0 ts.t1 time }
  else .error .assertion

/-- `iter_from_current` (ts.py:212-223), where the code using the generator calls
`set_time_step(dt, update_time)` for each item of `calls ts` in each step; at most `fuel` steps.
The result: the yielded pairs, the final state and whether the generator has stopped. -/
def VTS.iterate (calls : VTS K → List (K × Bool)) : Nat → VTS K →
    List (Nat × K) × VTS K × Bool
  | 0, ts => ([], ts, false)
  | f + 1, ts =>
    let ts' := (calls ts).foldl (fun t c => t.setDt c.1 c.2) ts
    if ts'.nt ≥ 1 then ([(ts.step, ts.time)], ts', true)
    else
      let r := VTS.iterate calls f ts'.advance
      ((ts.step, ts.time) :: r.1, r.2)

/-! ### Drivers -/

/-- Loop of `SimpleTimeSteppingSolver.__call__` (ts_solvers.py:214-223): `solve step time v` stands
for prestep_fun, solve_step and poststep_fun together, on the whole state `v`. -/
def driveLoop {V : Type} (solve : Nat → K → V → V) : Nat → TS K → V → V × TS K
  | 0, ts, v => (v, ts)
  | n + 1, ts, v => driveLoop solve n ts.advance (solve ts.step ts.time v)

/-- `SimpleTimeSteppingSolver.__call__` (ts_solvers.py:191-225) after `init_fun`. -/
def drive {V : Type} (solve0 : K → V → V) (solve : Nat → K → V → V) (ts : TS K) (v : V) :
    Except TErr (V × TS K) :=
  let p := if ts.step = 0 then (ts.advance, solve0 ts.time v) else (ts, v)
  match p.1.setStep p.1.step with
  | .error e => .error e
  | .ok ts' => .ok (driveLoop solve (sliceLen ts'.times.length p.1.step) ts' p.2)

/-- `init_fun` with `load_restart` (problem.py:1346-1351): `set_state` and `advance`. -/
def restartInit (ts : TS K) (state : Nat) : Except TErr (TS K) :=
  match ts.setState state with
  | .error e => .error e
  | .ok ts' => .ok ts'.advance

/-! ### Adaptivity -/

/-- The parameters and the state of the adaptivity (ts_solvers.py:343-352). -/
structure Adt (K : Type) where
  redFactor : K
  redMax : K
  incFactor : K
  incOnIter : Nat
  incWait : Nat
  red : K
  wait : Nat
  dt0 : K

/-- Exit status of the nonlinear solver: `condition == 0`, number of iterations. -/
structure NlsStatus where
  converged : Bool
  nIter : Nat

/-- `adapt_time_step` (ts_solvers.py:236-301): returns `is_break` and the new states. -/
def adapt (ts : VTS K) (st : NlsStatus) (a : Adt K) : Bool × VTS K × Adt K :=
  if st.converged then
    if st.nIter ≤ a.incOnIter then
      if a.wait + 1 > a.incWait then
        if a.red < 1 then
          (true, ts.setDt (a.dt0 * (a.red * a.incFactor)) false,
            { a with red := a.red * a.incFactor, wait := 0 })
        else (true, ts, { a with wait := 0 })
      else (true, ts, { a with wait := a.wait + 1 })
    else (true, ts, { a with wait := 0 })
  else if a.red * a.redFactor < a.redMax then
    (true, ts, { a with red := a.red * a.redFactor })
  else
    (false, ts.setDt (a.dt0 * (a.red * a.redFactor)) true,
      { a with red := a.red * a.redFactor, wait := 0 })

/-- The loop of `AdaptiveTimeSteppingSolver.solve_step` (ts_solvers.py:362-377): `nls` gives the
status of the solution with the given time stepper (the attempts are numbered).  `none`: more
than `fuel` attempts are needed. -/
def solveStep (nls : Nat → VTS K → NlsStatus) : Nat → Nat → VTS K → Adt K →
    Option (NlsStatus × VTS K × Adt K)
  | 0, _, _, _ => none
  | f + 1, i, ts, a =>
    let st := nls i ts
    let r := adapt ts st a
    if r.1 then some (st, r.2) else solveStep nls f (i + 1) r.2.1 r.2.2

/-! ### Activity of boundary conditions -/

/-- `bc.times` (dof_info.py:217-244): nothing, a list of intervals, or a function of the time
stepper given directly or found by its name (`none`: the name with no functions). -/
inductive BcTimes (K : Type) where
  | always
  | intervals (l : List (K × K))
  | func (f : K → Bool)
  | unknownName

/-- `is_active_bc(bc, ts, functions)` (dof_info.py:207-246); `time` is `ts.time`, `none` if
`ts` is None. -/
def isActiveBc (times : BcTimes K) (time : Option K) : Except TErr Bool :=
  match times, time with
  | .always, _ => .ok true
  | _, none => .ok true
  | .intervals l, some t => .ok (l.any fun p => p.1 ≤ t && t < p.2)
  | .func f, some t => .ok (f t)
  | .unknownName, some _ => .error .value

end Verif.Time
