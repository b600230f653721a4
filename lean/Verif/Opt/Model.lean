import Verif.Solver.Model
import Mathlib.Algebra.Module.Basic
import Mathlib.Analysis.SpecialFunctions.Pow.Real
import Mathlib.Analysis.SpecialFunctions.Sqrt

/-! # Optimization and semi-smooth solvers

Model of `FMinSteepestDescent` (sfepy/solvers/optimize.py) with the default backtracking line search, and of
`SemismoothNewton` (sfepy/solvers/semismooth_newton.py). -/

namespace Verif.Opt

open Verif.Solver (convTest)

/-! ### Steepest descent -/

section
variable {K V : Type} [Field K] [LinearOrder K] [AddCommGroup V] [Module K V]

/-- The options of `FMinSteepestDescent` (sfepy/solvers/optimize.py:91-134) used by the model. -/
structure SdConf (K : Type) where
  iMax : ℤ
  epsRd : K
  epsOf : K
  epsOfg : K
  lsOn : K
  ls0 : K
  lsRed : K
  lsRedWarp : K
  lsMin : K

/-- `conv_test()` (sfepy/solvers/optimize.py:13-39). -/
def sdConvTest (c : SdConf K) (it : ℕ) (fx fx0 gnorm : K) : ℤ :=
  let status : ℤ :=
    if |fx| < c.epsOf then 0
    else if gnorm ≠ 0 ∧ gnorm < c.epsOfg then 2
    else if it > 0 ∧ |fx0 - fx| < c.epsRd * |fx0| then 3
    else -1
  if status = -1 ∧ (it : ℤ) ≥ c.iMax then 1 else status

/-- The end of the backtracking: the step and whether it was accepted, or `RuntimeError('giving up...')`. -/
inductive BtOut (K : Type)
  | step (alpha : K) (accepted : Bool)
  | giveUp

/-- The backtracking loop (sfepy/solvers/optimize.py:205-231) with `conf.ls` and the method 'backtracking'; the fuel is the
number of passes. -/
def backtrack (c : SdConf K) (f : V → Option K) (x g : V) (fx : K) : ℕ → K → Option (BtOut K)
  | 0, _ => none
  | n + 1, alpha =>
    match f (x - alpha • g) with
    | none =>
      let alpha := alpha * c.lsRedWarp
      if alpha < c.lsMin then some .giveUp else backtrack c f x g fx n alpha
    | some aux =>
      if aux < fx * c.lsOn then some (.step alpha true)
      else
        let alpha := alpha * c.lsRed
        if alpha < c.lsMin then some (.step alpha false) else backtrack c f x g fx n alpha

/-- A pass of the main loop: the state before, the value, the step, and whether it was accepted. -/
structure SdRec (K V : Type) where
  x : V
  fx : K
  alpha : K
  accepted : Bool

/-- The end of the optimization: the result with the status and the number of iterations, `RuntimeError`, or `TypeError` (the
objective function has no value at an iterate). -/
inductive SdOut (K V : Type)
  | done (x : V) (fx : K) (ret : ℤ) (it : ℕ)
  | giveUp
  | typeError

/-- The main loop (sfepy/solvers/optimize.py:178-273); `log` are the records of the finished passes, the last one first. -/
def sdLoop (c : SdConf K) (f : V → Option K) (grad : V → V) (norm : V → K) (btFuel : ℕ) :
    ℕ → ℕ → V → Option K → List (SdRec K V) → Option (SdOut K V × List (SdRec K V))
  | 0, _, _, _, _ => none
  | n + 1, it, x, fx0, log =>
    match f x with
    | none => some (.typeError, log)
    | some fx =>
      let ret := sdConvTest c it fx (fx0.getD fx) (norm (grad x))
      if ret ≥ 0 then some (.done x fx ret it, log)
      else
        match backtrack c f x (grad x) fx btFuel c.ls0 with
        | none => none
        | some .giveUp => some (.giveUp, log)
        | some (.step alpha acc) =>
          sdLoop c f grad norm btFuel n (it + 1) (x - alpha • grad x) (some fx) (⟨x, fx, alpha, acc⟩ :: log)

/-- `FMinSteepestDescent.__call__()` (sfepy/solvers/optimize.py:157-303). -/
def fminSd (c : SdConf K) (f : V → Option K) (grad : V → V) (norm : V → K) (btFuel fuel : ℕ) (x0 : V) :
    Option (SdOut K V × List (SdRec K V)) := sdLoop c f grad norm btFuel fuel 0 x0 none []

end

/-! ### The semi-smooth residual and its matrix -/

noncomputable section

/-- An item of `vec_semismooth_r` (sfepy/solvers/semismooth_newton.py:122-130). -/
def semiRes (semismooth : Bool) (a b : ℝ) : ℝ :=
  if semismooth then √(a ^ 2 + b ^ 2) - (a + b) else if a < b then a else b

/-- `max(|v|.max(), 1.0)` of a vector of the length `n`. -/
def maxAbs1 (n : ℕ) (v : ℕ → ℝ) : ℝ := (List.range n).foldl (fun m (i : ℕ) => max m |v i|) 1

/-- `iz`: both items are zero (sfepy/solvers/semismooth_newton.py:273-276). -/
def isActive (macheps : ℝ) (n : ℕ) (a b : ℕ → ℝ) (i : ℕ) : Prop :=
  |a i| < macheps * maxAbs1 n a ∧ |b i| < macheps * maxAbs1 n b

/-- `mul_a[i]`, `mul_b[i]` in the semi-smooth mode, a non-active item (sfepy/solvers/semismooth_newton.py:285-291). -/
def mulNonactive (a b : ℝ) : ℝ × ℝ := (a / √(a ^ 2 + b ^ 2) - 1, b / √(a ^ 2 + b ^ 2) - 1)

/-- `mul_a[i]`, `mul_b[i]` in the semi-smooth mode, an active item (sfepy/solvers/semismooth_newton.py:294-308): `rowA`,
`rowB` are the rows of the matrices with `nx` columns, `z` is `vec_z`. -/
def mulActive (nx : ℕ) (rowA rowB z : ℕ → ℝ) : ℝ × ℝ :=
  let s := √(∑ j ∈ Finset.range nx, rowA j * rowA j + ∑ j ∈ Finset.range nx, rowB j * rowB j)
  ((∑ j ∈ Finset.range nx, rowA j * z j) / s - 1, (∑ j ∈ Finset.range nx, rowB j * z j) / s - 1)

/-- `mul_a[i]`, `mul_b[i]` in the brute force mode (sfepy/solvers/semismooth_newton.py:311-316). -/
def mulBrute (a b : ℝ) : ℝ × ℝ := if b < a then (1, 0) else (0, 1)

/-- An item of the row of `mtx_ns` (sfepy/solvers/semismooth_newton.py:318-321). -/
def nsRow (mul : ℝ × ℝ) (rowA rowB : ℕ → ℝ) (j : ℕ) : ℝ := mul.1 * rowA j + mul.2 * rowB j

end

/-! ### The semi-smooth Newton loop -/

section
variable {K V M R : Type} [Field K] [LinearOrder K] [AddCommGroup V] [Module K V]

/-- The step mode. -/
inductive Mode
  | regular
  | descent
  deriving DecidableEq, Repr

/-- The options of `SemismoothNewton` besides those of `conv_test()` (sfepy/solvers/semismooth_newton.py:35-62). -/
structure SsConf (K : Type) where
  base : Verif.Solver.Conf K
  redRegular : K
  redDescent : K
  lsRedWarp : K
  linRed : K

/-- The functions: the whole residual `vec_r` (no value: a `ValueError`), its norm, the Jacobian matrix, the linear solver, the
product with the transposed matrix, the error of the linear system. -/
structure SsEnv (K V M R : Type) where
  res : V → Option R
  norm : R → K
  jac : V → M
  linSolve : M → R → V
  tmul : M → R → V
  linErr : M → V → R → K

/-- The result of the residual loop: the state, its error, `vec_r`, the mode, `reuse_matrix`; or the `ValueError`. -/
inductive LsRes (K V R : Type)
  | ok (x : V) (err : K) (r : R) (mode : Mode) (reuse : Bool)
  | valueError

/-- The residual loop (sfepy/solvers/semismooth_newton.py:101-193): `r` is kept from the last evaluation, only `vec_x` and `err` are
restored.  `it = 0` has no previous state. -/
def ssSearch (c : SsConf K) (e : SsEnv K V M R) (it : ℕ) (xLast dx0 : V) (errLast : K) (mode : Mode) :
    ℕ → K → V → Option (LsRes K V R)
  | 0, _, _ => none
  | n + 1, ls, x =>
    match e.res x with
    | none =>
      if it = 0 ∨ ls < c.base.lsMin then some .valueError
      else ssSearch c e it xLast dx0 errLast mode n (ls * c.lsRedWarp) (xLast - (ls * c.lsRedWarp) • dx0)
    | some r =>
      let err := e.norm r
      if it = 0 then some (.ok x err r mode false)
      else if err < errLast * c.base.lsOn then some (.ok x err r .regular false)
      else
        let red := if mode = .regular then c.redRegular else c.redDescent
        if ls < c.base.lsMin then
          if mode = .regular then some (.ok xLast errLast r .descent true)
          else some (.ok x err r mode false)
        else ssSearch c e it xLast dx0 errLast mode n (ls * red) (xLast - (ls * red) • dx0)

/-- The state of the iteration; `log` are the errors of the finished iterations, the last one first. -/
structure SsState (K V M : Type) where
  it : ℕ
  x : V
  xLast : V
  dx : V
  errLast : K
  err0 : K
  mode : Mode
  mtx : Option M
  log : List K

/-- The end: the state, the condition, the number of iterations, the error and the initial error; the `ValueError`; the
matrix to be reused does not exist. -/
inductive SsOut (K V : Type)
  | done (x : V) (cond : ℤ) (it : ℕ) (err err0 : K)
  | valueError
  | unbound

/-- `vec_dx` and the mode (sfepy/solvers/semismooth_newton.py:226-239). -/
def ssDirection (c : SsConf K) (e : SsEnv K V M R) (mode : Mode) (m : M) (r : R) : V × Mode :=
  if mode = .regular then
    let dx := e.linSolve m r
    if e.linErr m dx r > c.base.epsA * c.linRed then (e.tmul m r, .descent) else (dx, .regular)
  else (e.tmul m r, mode)

/-- One iteration (sfepy/solvers/semismooth_newton.py:99-247). -/
def ssStep (c : SsConf K) (e : SsEnv K V M R) (lsFuel : ℕ) (s : SsState K V M) :
    Option (SsState K V M ⊕ SsOut K V) :=
  match ssSearch c e s.it s.xLast s.dx s.errLast s.mode lsFuel 1 s.x with
  | none => none
  | some .valueError => some (.inr .valueError)
  | some (.ok x err r mode reuse) =>
    let err0 := if s.it = 0 then err else s.err0
    let cond := convTest c.base s.it err err0
    if cond ≥ 0 then some (.inr (.done x cond s.it err err0))
    else
      match (if reuse then s.mtx else some (e.jac x)) with
      | none => some (.inr .unbound)
      | some m =>
        let d := ssDirection c e mode m r
        some (.inl { it := s.it + 1, x := x - d.1, xLast := x, dx := d.1, errLast := err, err0 := err0, mode := d.2,
                     mtx := some m, log := err :: s.log })

/-- The iterations. -/
def ssLoop (c : SsConf K) (e : SsEnv K V M R) (lsFuel : ℕ) : ℕ → SsState K V M → Option (SsOut K V × List K)
  | 0, _ => none
  | n + 1, s =>
    match ssStep c e lsFuel s with
    | none => none
    | some (.inr o) => some (o, s.log)
    | some (.inl s') => ssLoop c e lsFuel n s'

/-- `SemismoothNewton.__call__()` (sfepy/solvers/semismooth_newton.py:67-259). -/
def semismoothNewton (c : SsConf K) (e : SsEnv K V M R) (lsFuel fuel : ℕ) (x0 : V) : Option (SsOut K V × List K) :=
  ssLoop c e lsFuel fuel
    { it := 0, x := x0, xLast := x0, dx := 0, errLast := -1, err0 := -1, mode := .regular, mtx := none, log := [] }

end
end Verif.Opt
