/-
Model of the spectral elements: `get_lgl_nodes()`, `eval_lagrange1d_basis()` and `SEMTensorProductPolySpace`
(sfepy/discrete/fem/poly_spaces.py).

The floating point numbers are the elements of a field; one point is evaluated at a time.  The while loop of
`get_lgl_nodes()` is modelled by the number of its passes, which is at least one; the properties hold for any number of
the passes.
-/
import Verif.Poly.Bern
import Mathlib.Data.Real.Basic
import Mathlib.Analysis.SpecialFunctions.Trigonometric.Basic

namespace Verif.Poly

open Verif.Fem

section
variable {K : Type} [Field K]

/-- The columns of `numpy.polynomial.legendre.legvander(xs, p)`, called in
sfepy/discrete/fem/poly_spaces.py:1253: `v[i] = (v[i-1] * x * (2 * i - 1) - v[i-2] * (i - 1)) / i`. -/
def legP : ℕ → K → K
  | 0, _ => 1
  | 1, x => x
  | n + 2, x => (legP (n + 1) x * x * (2 * ((n : K) + 2) - 1) - legP n x * ((n : K) + 2 - 1)) / ((n : K) + 2)

/-- One pass of the loop for one node (sfepy/discrete/fem/poly_spaces.py:1252-1254). -/
def lglStep (p : ℕ) (x : K) : K := x - (x * legP p x - legP (p - 1) x) / (((p : K) + 1) * legP p x)

/-- The nodes after `n` passes from the first guess `x0` (sfepy/discrete/fem/poly_spaces.py:1247-1254). -/
def lglNodes (p : ℕ) (x0 : ℕ → K) (n i : ℕ) : K := (lglStep p)^[n] (x0 i)

/-- The weights after `n` passes: `V` belongs to the nodes before the last pass
(sfepy/discrete/fem/poly_spaces.py:1256). -/
def lglWeights (p : ℕ) (x0 : ℕ → K) (n i : ℕ) : K :=
  2 / ((p : K) * ((p : K) + 1) * legP p (lglNodes p x0 (n - 1) i) ^ 2)

/-- `node_coors1d` (sfepy/discrete/fem/poly_spaces.py:1309). -/
def semCoors1 (xs : ℕ → K) (i : ℕ) : K := 1 / 2 * (1 - xs i)

/-- `weights1d` (sfepy/discrete/fem/poly_spaces.py:1310). -/
def semWeights1 (ws : ℕ → K) (i : ℕ) : K := ws i * (1 / 2)

/-- `node_coors` of a node (sfepy/discrete/fem/poly_spaces.py:1313-1314). -/
def semNodeCoor (nc : ℕ → K) (row : ℕ → ℕ) (ii : ℕ) : K := nc (oddCols row ii)

/-- `node_weights` of a node (sfepy/discrete/fem/poly_spaces.py:1312-1315). -/
def semNodeWeight (dim : ℕ) (w : ℕ → K) (row : ℕ → ℕ) : K :=
  (List.range dim).foldl (fun p (ii : ℕ) => p * w (oddCols row ii)) 1

/-- `val` of `eval_lagrange1d_basis()` in one point (sfepy/discrete/fem/poly_spaces.py:1260-1270). -/
def lag1dVal (nNod : ℕ) (nc : ℕ → K) (x : K) (ib : ℕ) : K :=
  (List.range nNod).foldl (fun v (ic : ℕ) => if ib ≠ ic then v * ((x - nc ic) / (nc ib - nc ic)) else v) 1

/-- `dval` of `eval_lagrange1d_basis()` in one point (sfepy/discrete/fem/poly_spaces.py:1272-1280). -/
def lag1dDval (nNod : ℕ) (nc : ℕ → K) (x : K) (ib : ℕ) : K :=
  (List.range nNod).foldl (fun d (ik : ℕ) =>
    if ib = ik then d
    else d + (List.range nNod).foldl (fun aux (ic : ℕ) =>
      if ib ≠ ic ∧ ik ≠ ic then aux * ((x - nc ic) / (nc ib - nc ic)) else aux) (1 / (nc ib - nc ik))) 0

/-- `SEMTensorProductPolySpace._eval_basis()` without `diff` in one point
(sfepy/discrete/fem/poly_spaces.py:1319-1339). -/
def evalSem (dim order : ℕ) (nc : ℕ → K) (nodes : List Nod) (x : ℕ → K) : List K :=
  nodes.map fun n => prodVal dim (fun ii => lag1dVal (order + 1) nc (x ii)) (oddCols n.row)

/-- `SEMTensorProductPolySpace._eval_basis()` with `diff` in one point
(sfepy/discrete/fem/poly_spaces.py:1319-1350). -/
def evalSemGrad (dim order : ℕ) (nc : ℕ → K) (nodes : List Nod) (x : ℕ → K) (iv : ℕ) : List K :=
  nodes.map fun n => prodGrad dim (fun ii => lag1dVal (order + 1) nc (x ii))
    (fun ii => lag1dDval (order + 1) nc (x ii)) (oddCols n.row) iv

end

/-- The first guess: the Chebyshev-Gauss-Lobatto nodes (sfepy/discrete/fem/poly_spaces.py:1247). -/
noncomputable def lglGuess (p i : ℕ) : ℝ := Real.cos (Real.pi * i / p)

end Verif.Poly
