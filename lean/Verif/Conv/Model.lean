import Mathlib.Data.Real.Basic
import Mathlib.Algebra.BigOperators.Group.Finset.Basic
import Mathlib.Analysis.SpecialFunctions.Exp
import Mathlib.Analysis.SpecialFunctions.Log.Basic

/-!
# Convolution kernels of fading memory coefficients

Models `/repo/sfepy/homogenization/convolutions.py` and `interp_conv_mat()`, `integrate_in_time()` of
`/repo/sfepy/homogenization/utils.py`.  Exact real arithmetic.  A kernel is a sequence of `n` arrays with entries
indexed by `K`: `c i k`; `t i` are the times.  Indices past the end are not used.
-/

open Finset

namespace Verif.Conv

variable {K : Type} [Fintype K]

/-- `compute_mean_decay()` - `/repo/sfepy/homogenization/convolutions.py:6-26`. -/
noncomputable def meanDecay (n : ℕ) (c : ℕ → K → ℝ) (i : ℕ) : ℝ :=
  let weights : K → ℝ := fun k => |c (n / 2) k| / ∑ l, |c (n / 2) l|
  let avgs : ℕ → ℝ := fun i => ∑ k, weights k * c i k
  avgs i / avgs 0

/-- `eval_exponential()` - `/repo/sfepy/homogenization/convolutions.py:28-30`. -/
noncomputable def evalExp (ec : ℝ × ℝ) (x : ℝ) : ℝ := ec.1 * Real.exp (-ec.2 * x)

/-- The initial guess of `approximate_exponential()` - `/repo/sfepy/homogenization/convolutions.py:50-51`; the
least squares that improve it are not modelled. -/
noncomputable def expGuess (x y : ℕ → ℝ) : ℝ × ℝ := (y 0, -Real.log (y 1 / y 0) / (x 1 - x 0))

/-- `integrate_in_time()`, the forward scheme - `/repo/sfepy/homogenization/utils.py:97-110`. -/
def integrateForward (n : ℕ) (t : ℕ → ℝ) (c : ℕ → K → ℝ) (k : K) : ℝ :=
  ∑ i ∈ range (n - 1), c i k * (t (i + 1) - t i)

/-- `integrate_in_time()`, the trapezoidal scheme - `/repo/sfepy/homogenization/utils.py:97-110`. -/
noncomputable def integrateTrapezoid (n : ℕ) (t : ℕ → ℝ) (c : ℕ → K → ℝ) (k : K) : ℝ :=
  ∑ i ∈ range (n - 1), 0.5 * (c (i + 1) k + c i k) * (t (i + 1) - t i)

/-- `ConvolutionKernel.diff_dt()` of the full kernel - `/repo/sfepy/homogenization/convolutions.py:115-120`. -/
noncomputable def diffDt (n : ℕ) (t : ℕ → ℝ) (c : ℕ → K → ℝ) (i : ℕ) (k : K) : ℝ :=
  if i + 1 < n then (c (i + 1) k - c i k) / (t (i + 1) - t i) else 0

/-- `ConvolutionKernel.get_exp()` - `/repo/sfepy/homogenization/convolutions.py:133-137`: `c0 * e`, where
`e` are the values of the exponential in the times. -/
noncomputable def getExp (t : ℕ → ℝ) (c : ℕ → K → ℝ) (ec : ℝ × ℝ) (i : ℕ) (k : K) : ℝ := c 0 k * evalExp ec (t i)

/-- `ConvolutionKernel.diff_dt(use_exp=True)` - `/repo/sfepy/homogenization/convolutions.py:112-113`. -/
noncomputable def diffDtExp (t : ℕ → ℝ) (c : ℕ → K → ℝ) (ec : ℝ × ℝ) (i : ℕ) (k : K) : ℝ :=
  -ec.2 * c 0 k * evalExp ec (t i)

/-- `ConvolutionKernel.int_dt(use_exp=True)` - `/repo/sfepy/homogenization/convolutions.py:126-127`, with
`e_c0` and `en` of the constructor, 101-103. -/
noncomputable def intDtExp (n : ℕ) (t : ℕ → ℝ) (c : ℕ → K → ℝ) (ec : ℝ × ℝ) (k : K) : ℝ :=
  let e : ℕ → ℝ := fun i => evalExp ec (t i)
  let e_c0 := c 0 k * e 0
  let en : ℕ → ℝ := fun i => e i / e 0
  (e_c0 / ec.2) * (1 - en (n - 1))

/-- `(tdiff >= td).argmax()`: the first index with the property, otherwise zero. -/
noncomputable def argmaxGe (m : ℕ) (tdiff : ℕ → ℝ) (td : ℝ) : ℕ :=
  ((List.range m).find? fun i => decide (td ≤ tdiff i)).getD 0

/-- The interpolated matrix for the lag `td` - `/repo/sfepy/homogenization/utils.py:72-78`: the index `-1` is
the last one. -/
noncomputable def interpAt (m : ℕ) (tdiff : ℕ → ℝ) (mat : ℕ → K → ℝ) (td : ℝ) (k : K) : ℝ :=
  let i1 := argmaxGe m tdiff td
  let i0 := if i1 = 0 then m - 1 else i1 - 1
  let td0 := tdiff i0
  let td1 := tdiff i1
  let dt := td1 - td0
  let c1 := (td - td0) / dt
  let c0 := (td1 - td) / dt
  c0 * mat i0 k + c1 * mat i1 k

/-- The loop over the steps `step, step - 1, ..., 1` after the first one - `/repo/sfepy/homogenization/utils.py:65-78`;
`tn` is the current time, `times` are the times of the steps. -/
noncomputable def interpLoop (m : ℕ) (tdiff : ℕ → ℝ) (mat : ℕ → K → ℝ) (tn : ℝ) (times : ℕ → ℝ) :
    ℕ → List (K → ℝ)
  | 0 => []
  | step + 1 =>
    let td := tn - times (step + 1)
    if td - 1e-12 > tdiff (m - 1) then []
    else (interpAt m tdiff mat td) :: interpLoop m tdiff mat tn times step

/-- `interp_conv_mat()` - `/repo/sfepy/homogenization/utils.py:61-92`: for the first step `mat[0]`. -/
noncomputable def interpConvMat (m : ℕ) (tdiff : ℕ → ℝ) (mat : ℕ → K → ℝ) (tn : ℝ) (times : ℕ → ℝ) (step : ℕ) :
    List (K → ℝ) :=
  mat 0 :: interpLoop m tdiff mat tn times (step - 1)

end Verif.Conv
