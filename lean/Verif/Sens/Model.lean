import Mathlib.Data.Real.Basic
import Mathlib.Data.Matrix.Mul
import Mathlib.LinearAlgebra.Matrix.Trace

/-!
# Sensitivity (shape derivative) terms

Models the terms of `/repo/sfepy/terms/terms_sensitivity.py` in a quadrature point.  `G` is the gradient of the
mesh velocity as given by `Term.get(par_mv, 'grad')`: `G q l = dV_l / dx_q`.  Vector gradients are `v i j =
dv_i / dx_j`, scalar ones `p j = dp / dx_j`.  Exact real arithmetic, any dimension; the expressions given to
`make_function()` are evaluated as the sums they denote (see C86 - C89).
-/

open Finset Matrix

namespace Verif.Sens

/-- `get_nonsym_grad_op()` - `/repo/sfepy/terms/terms_sensitivity.py:6-19`: the matrix with `dim^2` rows, filled by
slices; for other dimensions than 2 and 3 the gradient itself. -/
def gradOpFlat (dim : ℕ) (sgrad : ℕ → ℕ → ℝ) (a b : ℕ) : ℝ :=
  if dim = 3 then
    if (0 ≤ a ∧ a < 3) ∧ (0 ≤ b ∧ b < 3) then sgrad a b
    else if (3 ≤ a ∧ a < 6) ∧ (3 ≤ b ∧ b < 6) then sgrad (a - 3) (b - 3)
    else if (6 ≤ a ∧ a < 9) ∧ (6 ≤ b ∧ b < 9) then sgrad (a - 6) (b - 6)
    else 0
  else if dim = 2 then
    if (0 ≤ a ∧ a < 2) ∧ (0 ≤ b ∧ b < 2) then sgrad a b
    else if (2 ≤ a ∧ a < 4) ∧ (2 ≤ b ∧ b < 4) then sgrad (a - 2) (b - 2)
    else 0
  else sgrad a b

variable {n : Type} [Fintype n] [DecidableEq n]

/-- The same matrix with its rows and columns `dim * i + j` numbered by the pairs `(i, j)`. -/
def gradOp (G : Matrix n n ℝ) : Matrix (n × n) (n × n) ℝ :=
  Matrix.of fun I K => if I.1 = K.1 then G I.2 K.2 else 0

/-- `sym2nonsym()` in one axis - `/repo/sfepy/terms/terms_multilinear.py:1779-1793`: the tables of positions. -/
def nonsymTab (sym : ℕ) : List ℕ :=
  if sym = 3 then [0, 2, 2, 1] else if sym = 6 then [0, 3, 4, 3, 1, 5, 4, 5, 2] else []

/-- `ESDLinearElasticTerm`, the material - `/repo/sfepy/terms/terms_sensitivity.py:60-65`. -/
def sdElastic (D : Matrix (n × n) (n × n) ℝ) (G : Matrix n n ℝ) : Matrix (n × n) (n × n) ℝ :=
  G.trace • D - D * gradOp G - (D * gradOp G)ᵀ

/-- `ESDPiezoCouplingTerm`, the material - `/repo/sfepy/terms/terms_sensitivity.py:116-122`. -/
def sdPiezo (g : Matrix n (n × n) ℝ) (G : Matrix n n ℝ) : Matrix n (n × n) ℝ :=
  G.trace • g - g * gradOp G - Gᵀ * g

/-- `ESDDiffusionTerm`, the material - `/repo/sfepy/terms/terms_sensitivity.py:164-168`. -/
def sdDiffusion (K G : Matrix n n ℝ) : Matrix n n ℝ := G.trace • K - K * G - (K * G)ᵀ

/-- `ESDStokesTerm`, `ESDVectorDotGradScalarTerm`, the material - `/repo/sfepy/terms/terms_sensitivity.py:217-223`. -/
def sdStokes (c : ℝ) (G : Matrix n n ℝ) : Matrix n n ℝ := c • (G.trace • (1 : Matrix n n ℝ) - G)

/-- `ESDDivGradTerm`, the material - `/repo/sfepy/terms/terms_sensitivity.py:265-275`. -/
def sdDivGrad (nu : ℝ) (G : Matrix n n ℝ) : Matrix (n × n) (n × n) ℝ :=
  nu • (G.trace • (1 : Matrix (n × n) (n × n) ℝ) - gradOp G - (gradOp G)ᵀ)

/-- `ESDLinearTractionTerm`, the traction vector - `/repo/sfepy/terms/terms_sensitivity.py:396-397`. -/
def sdTraction (trac G : Matrix n n ℝ) (normal : n → ℝ) : n → ℝ :=
  (G.trace • trac - trac * G) *ᵥ normal

/-- `'IK,v(i.j)->I,v(k.l)->K'`. -/
def evalElastic (M : Matrix (n × n) (n × n) ℝ) (v u : n → n → ℝ) : ℝ :=
  ∑ I : n × n, ∑ K : n × n, M I K * v I.1 I.2 * u K.1 K.2

/-- `'Ik,0.k,v(i.j)->I'`: the material has the index of the scalar gradient first. -/
def evalPiezo (M : Matrix n (n × n) ℝ) (p : n → ℝ) (v : n → n → ℝ) : ℝ :=
  ∑ k, ∑ I : n × n, M k I * p k * v I.1 I.2

/-- `'ij,0.i,0.j'`. -/
def evalDiffusion (M : Matrix n n ℝ) (q p : n → ℝ) : ℝ := ∑ i, ∑ j, M i j * q i * p j

/-- `'ij,i.j,0'`. -/
def evalStokes (M : Matrix n n ℝ) (v : n → n → ℝ) (p : ℝ) : ℝ := ∑ i, ∑ j, M i j * v i j * p

/-- `'ij,i,0.j'`. -/
def evalVDotGrad (M : Matrix n n ℝ) (v : n → ℝ) (p : n → ℝ) : ℝ := ∑ i, ∑ j, M i j * v i * p j

/-- `ESDDotTerm` with a matrix (`'ij,i,j'`) - `/repo/sfepy/terms/terms_sensitivity.py:319-330`; a scalar `c` is `c I`. -/
def evalDot (M G : Matrix n n ℝ) (v u : n → ℝ) : ℝ := ∑ i, ∑ j, (G.trace * M i j) * v i * u j

end Verif.Sens
