import Mathlib.Algebra.Order.Field.Basic
import Mathlib.Algebra.Module.Defs
import Mathlib.Algebra.Order.Archimedean.Basic

/-!
Model of the Newton solver of `sfepy/solvers/nls.py`: `conv_test`, the backtracking line
search and the driver `Newton.__call__`.

* Scalars are elements of an ordered field `K`, vectors elements of a `K`-module `V`
  (exact arithmetic instead of float64).
* The user functions (`fun`, `fun_grad`, the linear solver, `is_new_jacobian_fun`) are arbitrary
  functions; they are assumed to be deterministic functions of the arguments shown here.
* `nla.norm` is an arbitrary function into `Option K`; `none` stands for a value that is not
  finite.
* Timers, logs, printing, `iter_hook`, `check` and the linear solver precision warning have no
  effect on the values computed and are left out.  `scale_system`/`scale_solution` are part of
  `linSolve`.
-/

namespace Verif.Solver

variable {K : Type} [Field K] [LinearOrder K]
variable {V M : Type} [AddCommGroup V] [Module K V]

/-- `conf.ls_mode`: 'residual', 'error' or anything else (nls.py:436-439). -/
inductive LsMode where
  | residual
  | error
  | other
  deriving DecidableEq, Repr

/-- The configuration parameters of `nls.newton` that are used (nls.py:385-473).
`epsOr` is `conf.get('eps_mode', '') == 'or'`. -/
structure Conf (K : Type) where
  iMax : Int
  epsA : K
  epsR : K
  epsOr : Bool
  macheps : K
  lsMode : LsMode
  lsOn : K
  lsRed : K
  lsRedWarp : K
  lsMin : K
  giveUpWarp : Bool
  stepRed : K
  isLinear : Bool

/-- nls.py:83-128: `conv_test`.  `it` is the iteration counter. -/
def convTest (conf : Conf K) (it : Nat) (err err0 : K) : Int :=
  let errR := if |err0| < conf.macheps then 0 else err / err0
  let convA : Bool := err ≤ conf.epsA
  let status : Int :=
    if it > 0 then
      let convR : Bool := errR ≤ conf.epsR
      if convA && convR then 0
      else if conf.epsOr && (convA || convR) then 0
      else -1
    else if convA then 0 else -1
  if status = -1 ∧ (it : Int) ≥ conf.iMax then 1 else status

/-- Result of the user-supplied residual function: a `ValueError` or a vector. -/
inductive FunOut (V : Type) where
  | valueError
  | ok (r : V)

/-- The environment of `apply_line_search_bt`: residual function, norm, and
`apply_lin_solver(·, resolve=True)`. -/
structure LsEnv (K V : Type) where
  f : V → FunOut V
  norm : V → Option K
  relin : V → V

/-- Local variables of the loop of `apply_line_search_bt` (nls.py:131-145): `ls`, `vec_dx`,
the pair `(vec_r, err)` - unbound before the first successful residual evaluation - and, as a
ghost, the list of the arguments of the calls of `fun`, most recent first. -/
structure LsState (K V : Type) where
  ls : K
  dx : V
  prev : Option (V × K)
  calls : List V

/-- How `apply_line_search_bt` ends: return values `(vec_x, vec_r, err, ok)`, a `ValueError`
(re-raised from `fun`, from the finiteness check or from a wrong `ls_mode`), or the Python
`UnboundLocalError` caused by `return vec_x, vec_r, err, ok` when no residual was computed. -/
inductive LsOut (K V : Type) where
  | ret (x r : V) (err : K) (ok : Bool)
  | valueError
  | unbound

/-- End of an iteration of the loop, nls.py:204-212: `if ls < conf.ls_min: break`, otherwise
reduce the step. -/
def lsTail (conf : Conf K) (dx0 x r : V) (err : K) (ok : Bool) (red : K) (st : LsState K V) :
    LsState K V ⊕ (LsOut K V × List V) :=
  if st.ls < conf.lsMin then .inr (.ret x r err ok, st.calls)
  else .inl ⟨st.ls * red, (st.ls * red) • dx0, st.prev, st.calls⟩

/-- One iteration of the `while 1` loop of `apply_line_search_bt` (nls.py:145-212). -/
def lsStep (conf : Conf K) (env : LsEnv K V) (x0 dx0 : V) (it : Nat) (errLast : K)
    (st : LsState K V) : LsState K V ⊕ (LsOut K V × List V) :=
  let x := x0 - st.dx
  let calls := x :: st.calls
  match env.f x with
  | .valueError =>
    if it = 0 ∨ st.ls < conf.lsMin then .inr (.valueError, calls)
    else if conf.giveUpWarp then
      match st.prev with
      | none => .inr (.unbound, calls)
      | some (r, err) => .inr (.ret x r err false, calls)
    else
      -- `ls < ls_min` is excluded above: nls.py:205-211 cannot break here.
      .inl ⟨st.ls * conf.lsRedWarp, (st.ls * conf.lsRedWarp) • dx0, st.prev, calls⟩
  | .ok r =>
    match env.norm r with
    | none => .inr (.valueError, calls)
    | some err =>
      if it = 0 then .inr (.ret x r err true, calls)
      else
        match conf.lsMode with
        | .residual =>
          if err < errLast * conf.lsOn then .inr (.ret x r err true, calls)
          else lsTail conf dx0 x r err true conf.lsRed ⟨st.ls, st.dx, some (r, err), calls⟩
        | .error =>
          match env.norm dx0, env.norm (env.relin r) with
          | some edx0, some edx =>
            if edx < edx0 * conf.lsOn then .inr (.ret x r err true, calls)
            else lsTail conf dx0 x r err true conf.lsRed ⟨st.ls, st.dx, some (r, err), calls⟩
          -- A comparison with nan or `inf < inf` is false (an infinite `edx0` with a finite
          -- `edx` is not distinguished and treated as false as well).
          | _, _ => lsTail conf dx0 x r err true conf.lsRed ⟨st.ls, st.dx, some (r, err), calls⟩
        | .other => .inr (.valueError, calls)

/-- The loop with a bound on the number of iterations; `none` = not finished yet. -/
def lsLoop (conf : Conf K) (env : LsEnv K V) (x0 dx0 : V) (it : Nat) (errLast : K) :
    Nat → LsState K V → Option (LsOut K V × List V)
  | 0, _ => none
  | n + 1, st =>
    match lsStep conf env x0 dx0 it errLast st with
    | .inr o => some o
    | .inl st' => lsLoop conf env x0 dx0 it errLast n st'

/-- nls.py:131-214: `apply_line_search_bt`.  The result contains the points at which the
residual function was called, in order. -/
def lineSearch (conf : Conf K) (env : LsEnv K V) (x0 dx0 : V) (it : Nat) (errLast : K)
    (fuel : Nat) : Option (LsOut K V × List V) :=
  (lsLoop conf env x0 dx0 it errLast fuel ⟨1, dx0, none, []⟩).map fun o => (o.1, o.2.reverse)

/-- User functions of the Newton solver: residual, norm, tangent matrix, `fun_grad('linear')`,
linear solver `(mtx, rhs, x0) ↦ solution` and `is_new_jacobian_fun`
`(it, it_jac, vec_r, vec_r_last, vec_x, vec_x_last)`. -/
structure NEnv (K V M : Type) where
  f : V → FunOut V
  norm : V → Option K
  grad : V → M
  gradLinear : M
  linSolve : M → V → V → V
  isNew : Nat → Nat → V → V → V → V → Bool

/-- An entry of the ghost log: one linear solve of the main loop. -/
structure SolveRec (K V M : Type) where
  it : Nat
  x : V
  r : V
  err : K
  mtx : M
  itJac : Nat
  dx : V

/-- Local variables of `Newton.__call__` (nls.py:606-622). -/
structure NState (K V M : Type) where
  it : Nat
  itJac : Nat
  x : V
  xLast : V
  rLast : V
  dx : V
  mtx : Option M
  err0 : K
  errLast : K
  log : List (SolveRec K V M)

/-- What the caller of the solver gets: the solution vector and the status, or an exception. -/
inductive NOut (K V : Type) where
  | done (x : V) (condition : Int) (nIter : Nat) (err err0 : K)
  | valueError
  | unbound

/-- One pass of the main loop of `Newton.__call__` (nls.py:623-682). `lsFuel` bounds the line
search loop; `none` = the line search did not finish within the bound.  Before the first matrix
is known (`mtx_a is None`, iteration 0) the line search does not call the linear solver
(nls.py:174), the value `0` used here is irrelevant. -/
def nStep (conf : Conf K) (env : NEnv K V M) (lsFuel : Nat) (st : NState K V M) :
    Option (NState K V M ⊕ (NOut K V × List (SolveRec K V M))) :=
  let relin := fun r => match st.mtx with
    | some m => env.linSolve m r st.x
    | none => 0
  match lineSearch conf ⟨env.f, env.norm, relin⟩ st.xLast st.dx st.it st.errLast lsFuel with
  | none => none
  | some (.valueError, _) => some (.inr (.valueError, st.log))
  | some (.unbound, _) => some (.inr (.unbound, st.log))
  | some (.ret x r err ok, _) =>
    let err0 := if st.it = 0 then err else st.err0
    let cond := convTest conf st.it err err0
    if cond ≥ 0 then some (.inr (.done x cond st.it err err0, st.log))
    else if !ok && conf.giveUpWarp then some (.inr (.done x 2 st.it err err0, st.log))
    else
      let upd : M × Nat :=
        if conf.isLinear then (env.gradLinear, st.itJac)
        else
          match st.mtx with
          | none => (env.grad x, st.it)
          | some m =>
            if env.isNew st.it st.itJac r st.rLast x st.xLast then (env.grad x, st.it)
            else (m, st.itJac)
      let dx := env.linSolve upd.1 r x
      some (.inl
        { it := st.it + 1, itJac := upd.2, x := x, xLast := x, rLast := r,
          dx := conf.stepRed • dx, mtx := some upd.1, err0 := err0, errLast := err,
          log := st.log ++ [⟨st.it, x, r, err, upd.1, upd.2, dx⟩] })

/-- The main loop with a bound on the number of passes. -/
def nLoop (conf : Conf K) (env : NEnv K V M) (lsFuel : Nat) :
    Nat → NState K V M → Option (NOut K V × List (SolveRec K V M))
  | 0, _ => none
  | n + 1, st =>
    match nStep conf env lsFuel st with
    | none => none
    | some (.inr o) => some o
    | some (.inl st') => nLoop conf env lsFuel n st'

/-- nls.py:563-705: `Newton.__call__` started from `vec_x0`. -/
def newton (conf : Conf K) (env : NEnv K V M) (x0 : V) (lsFuel fuel : Nat) :
    Option (NOut K V × List (SolveRec K V M)) :=
  nLoop conf env lsFuel fuel
    { it := 0, itJac := 0, x := x0, xLast := x0, rLast := 0, dx := 0, mtx := none,
      err0 := -1, errLast := -1, log := [] }

/-- nls.py:216-254: the step scaling of `apply_line_search_ainc`; `p` is `vec_r0 @ vec_dx0`,
`sq` the real square root.  For `lest > 0` the imaginary part of `gnorm` is nonzero iff
`p < 0`. -/
def aincAlpha (sq : K → K) (lest p : K) : K :=
  if p < 0 then 1
  else
    let g := lest * sq p
    if g = 0 then 0 else (-1 + sq (1 + 2 * g)) / g

end Verif.Solver
