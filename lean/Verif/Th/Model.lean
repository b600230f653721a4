/-
Model of the fading memory terms: `sfepy/terms/terms_th.py` and the arguments of the terms with the suffixes `_th`, `_eth`
(sfepy/terms/terms_elastic.py, terms_biot.py, terms_dot.py).

One component in one quadrature point is modelled: the kernel, the strain (or the gradient, the value) and the decay are
elements of a commutative ring; the evaluation of the state in the quadrature points is a function of the DOF vector.
The DOF vectors of the previous steps are those of the model of the variables of C24.
-/
import Verif.History.Model
import Mathlib.Algebra.Ring.Defs

namespace Verif.Th

open Verif.History

variable {K V : Type} [CommRing K]

/-- The data of a term with an exponential kernel (sfepy/terms/terms_th.py:51-54). -/
structure Eth (K : Type) where
  history : K
  values : K
  decay : K

/-- `ETHTerm.get_eth_data()` (sfepy/terms/terms_th.py:42-57): the data are made by the first evaluation, then only the
values are replaced. -/
def getEthData (c : Option (Eth K)) (decay values : K) : Eth K :=
  match c with
  | some d => { d with values := values }
  | none => { history := 0, values := values, decay := decay }

/-- The strain given to the term function: `data.history + data.values`
(sfepy/terms/terms_elastic.py:264, terms_biot.py:293, terms_dot.py:268). -/
def ethArg (d : Eth K) : K := d.history + d.values

/-- `ETHTerm.advance_eth_data()` (sfepy/terms/terms_th.py:60-61) called by `Variable.advance()`
(sfepy/discrete/variables.py:1217-1241): only when the variable has a history of a positive length. -/
def advanceEth (history : Option ℕ) (c : Option (Eth K)) : Option (Eth K) :=
  match history with
  | some (_ + 1) => c.map fun d => { d with history := d.decay * (d.history + d.values) }
  | _ => c

/-- A time step: the evaluations (of the decay and the values) of the residual, then `advance()`. -/
def ethStep (history : Option ℕ) (c : Option (Eth K)) (evals : List (K × K)) : Option (Eth K) :=
  advanceEth history (evals.foldl (fun c e => some (getEthData c e.1 e.2)) c)

/-- The residual of the term with an exponential kernel: `dw_lin_elastic` with `coef` the time step is linear in the material
and the strain (sfepy/terms/terms_elastic.py:254-270). -/
def ethResidual (dt mat0 : K) (c : Option (Eth K)) (decay values : K) : K :=
  dt * (mat0 * ethArg (getEthData c decay values))

/-- `THTerm.eval_real()` without `diff_var` (sfepy/terms/terms_th.py:12-27) with `iter_kernel()`
(sfepy/terms/terms_elastic.py:206-214): the sum over the kernel of the contributions of the previous steps; `mats` is the
kernel, `ii` its first index. -/
def thLoop (hp : Heap V) (x : Var) (ev : List V → K) (dt : K) : ℕ → List K → K → Except HErr K
  | _, [], out => .ok out
  | ii, mat :: mats, out =>
    match x.call hp (-(ii : ℤ)) with
    | .ok u => thLoop hp x ev dt (ii + 1) mats (out + dt * (mat * ev u))
    | .error e => .error e

/-- The residual of the term with a full kernel. -/
def thResidual (hp : Heap V) (x : Var) (ev : List V → K) (dt : K) (mats : List K) : Except HErr K :=
  thLoop hp x ev dt 0 mats 0

end Verif.Th
