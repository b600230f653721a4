/-
Model of the Bernstein elements: `BernsteinSimplexPolySpace` and `BernsteinTensorProductPolySpace`
(sfepy/discrete/fem/poly_spaces.py).

The floating point numbers are the elements of a field; one point and one node are evaluated at a time.  The values
that are not finite numbers (`inf`, `nan`) are `none`.  The factorials are exact.
-/
import Verif.Fem.Lagrange
import Verif.Iga.Bernstein
import Mathlib.Data.Nat.Factorial.Basic
import Mathlib.Algebra.Field.Basic

namespace Verif.Poly

open Verif.Fem

variable {K : Type} [Field K]

/-- `BernsteinSimplexPolySpace._get_barycentric()` (sfepy/discrete/fem/poly_spaces.py:1114-1121). -/
def bernBary (dim : ℕ) (x : ℕ → K) (i : ℕ) : K :=
  if i = 0 then 1 - (List.range dim).foldl (fun s (j : ℕ) => s + x j) 0 else x (i - 1)

/-- `coef = of / nm.prod(fs[node])` (sfepy/discrete/fem/poly_spaces.py:1147-1151, 1157). -/
def bernCoef (dim order : ℕ) (node : ℕ → ℕ) : K :=
  (order.factorial : K) / (List.range (dim + 1)).foldl (fun p (i : ℕ) => p * ((node i).factorial : K)) 1

/-- `BernsteinSimplexPolySpace._eval_basis()` without `diff` for one node
(sfepy/discrete/fem/poly_spaces.py:1141-1153). -/
def bernVal (dim order : ℕ) (bc : ℕ → K) (node : ℕ → ℕ) : K :=
  if dim = 0 then 1
  else bernCoef dim order node * (List.range (dim + 1)).foldl (fun p (i : ℕ) => p * bc i ^ node i) 1

/-- `bgrad` (sfepy/discrete/fem/poly_spaces.py:1134-1136). -/
def bernBgrad (ib ider : ℕ) : K := if ib = 0 then -1 else if ib = ider + 1 then 1 else 0

/-- `nm.power(b, e)` of a float and an integer: a negative power of zero is not a finite number
(sfepy/discrete/fem/poly_spaces.py:1166). -/
def npPower [DecidableEq K] (b : K) (e : ℤ) : Option K := if e < 0 ∧ b = 0 then none else some (b ^ e)

/-- `val`: one term of the gradient (sfepy/discrete/fem/poly_spaces.py:1161-1170). -/
def bernTerm [DecidableEq K] (dim order : ℕ) (bc : ℕ → K) (node : ℕ → ℕ) (ider ib : ℕ) : Option K :=
  (List.range (dim + 1)).foldlM (fun val (im : ℕ) =>
    if ib = im then
      (npPower (bc im) ((node ib : ℤ) - 1)).map fun p => val * ((node ib : K) * p * bernBgrad ib ider)
    else some (val * bc im ^ node im)) (bernCoef dim order node)

/-- `BernsteinSimplexPolySpace._eval_basis()` with `diff` for one node and one derivative
(sfepy/discrete/fem/poly_spaces.py:1155-1174). -/
def bernGrad [DecidableEq K] (dim order : ℕ) (bc : ℕ → K) (node : ℕ → ℕ) (ider : ℕ) : Option K :=
  (List.range (dim + 1)).foldlM (fun dval (ib : ℕ) => (bernTerm dim order bc node ider ib).map fun val => dval + val) 0

/-- The basis in one point of a simplex (sfepy/discrete/fem/poly_spaces.py:1123-1153). -/
def evalBernSimplex (dim order : ℕ) (nodes : List Nod) (x : ℕ → K) : List K :=
  nodes.map fun n => bernVal dim order (bernBary dim x) n.row

/-- The gradients in one point of a simplex: one row for each derivative
(sfepy/discrete/fem/poly_spaces.py:1123-1176). -/
def evalBernSimplexGrad [DecidableEq K] (dim order : ℕ) (nodes : List Nod) (x : ℕ → K) (ider : ℕ) : List (Option K) :=
  nodes.map fun n => bernGrad dim order (bernBary dim x) n.row ider

/-- `nodes` of `BernsteinTensorProductPolySpace` and `SEMTensorProductPolySpace`: `nn[:, 1::2]`
(sfepy/discrete/fem/poly_spaces.py:1195-1199, 1304-1305). -/
def oddCols (row : ℕ → ℕ) (ii : ℕ) : ℕ := row (2 * ii + 1)

/-- The product of the 1D functions, without `diff` (sfepy/discrete/fem/poly_spaces.py:1225-1227, 1337-1339). -/
def prodVal (dim : ℕ) (B : ℕ → ℕ → K) (node : ℕ → ℕ) : K :=
  (List.range dim).foldl (fun p (ii : ℕ) => p * B ii (node ii)) 1

/-- The product of the 1D functions, with `diff`: the derivative `iv`
(sfepy/discrete/fem/poly_spaces.py:1229-1236, 1341-1348). -/
def prodGrad (dim : ℕ) (B dB : ℕ → ℕ → K) (node : ℕ → ℕ) (iv : ℕ) : K :=
  (List.range dim).foldl (fun p (ii : ℕ) => p * if ii = iv then dB ii (node ii) else B ii (node ii)) 1

/-- `BernsteinTensorProductPolySpace._eval_basis()` without `diff` in one point
(sfepy/discrete/fem/poly_spaces.py:1201-1227). -/
def evalBernTensor (dim order : ℕ) (nodes : List Nod) (x : ℕ → K) : List K :=
  nodes.map fun n => prodVal dim (fun ii => (Iga.evalBernstein (x ii) order).1) (oddCols n.row)

/-- `BernsteinTensorProductPolySpace._eval_basis()` with `diff` in one point
(sfepy/discrete/fem/poly_spaces.py:1201-1238). -/
def evalBernTensorGrad (dim order : ℕ) (nodes : List Nod) (x : ℕ → K) (iv : ℕ) : List K :=
  nodes.map fun n => prodGrad dim (fun ii => (Iga.evalBernstein (x ii) order).1)
    (fun ii => (Iga.evalBernstein (x ii) order).2) (oddCols n.row) iv

end Verif.Poly
