/-
What is said about hyperelastic terms: the deformation gradient, the invariants and the stored energies, with matrices.
-/
import Verif.Term.SpecElastic
import Mathlib.LinearAlgebra.Matrix.NonsingularInverse
import Mathlib.LinearAlgebra.Matrix.Trace
import Mathlib.Analysis.SpecialFunctions.Pow.Real
import Mathlib.Analysis.Calculus.Deriv.Basic

namespace Verif.Term

open Finset Matrix

variable {d : ℕ}

/-- The gradient of a field in a point: the row is the component, the column the direction. -/
noncomputable def gradMat (d nEP : ℕ) (G : ℕ → ℕ → ℝ) (u : ℕ → ℝ) : Matrix (Fin d) (Fin d) ℝ := fun a i => fgrad nEP G u i a

/-- The deformation gradient `F = I + ∇u`. -/
noncomputable def defGrad (d nEP : ℕ) (G : ℕ → ℕ → ℝ) (u : ℕ → ℝ) : Matrix (Fin d) (Fin d) ℝ := 1 + gradMat d nEP G u

/-- The deformation gradient in the quadrature point `q` of the cell `c`, for the displacements `state`. -/
noncomputable def cellF (vg : Mapping ℝ) (state : ℕ → ℝ) (conn : ℕ → ℕ → ℕ) (c q : ℕ) : Matrix (Fin vg.dim) (Fin vg.dim) ℝ :=
  defGrad vg.dim vg.nEP (vg.G c q) (locDofs vg.dim vg.nEP state (conn c))

/-- The right Cauchy-Green deformation tensor `C = Fᵀ F`. -/
def rightCG (F : Matrix (Fin d) (Fin d) ℝ) : Matrix (Fin d) (Fin d) ℝ := Fᵀ * F

/-- In 2D a plane strain state is meant: the third principal stretch is one. -/
def thirdStretch (d : ℕ) : ℝ := if d = 2 then 1 else 0

/-- The first invariant of a tensor. -/
def invar1 (C : Matrix (Fin d) (Fin d) ℝ) : ℝ := C.trace + thirdStretch d

/-- The second invariant `((tr C)² - tr C²) / 2`. -/
noncomputable def invar2 (C : Matrix (Fin d) (Fin d) ℝ) : ℝ :=
  (invar1 C ^ 2 - ((C * C).trace + thirdStretch d)) / 2

/-- The neo-Hookean stored energy `μ / 2 (J^(-2/3) I₁ - 3)`. -/
noncomputable def energyNeo (μ : ℝ) (F : Matrix (Fin d) (Fin d) ℝ) : ℝ :=
  μ / 2 * (F.det ^ (-2 / 3 : ℝ) * invar1 (rightCG F) - 3)

/-- The second part of the Mooney-Rivlin stored energy, `κ / 2 (J^(-4/3) I₂ - 3)`. -/
noncomputable def energyMR (κ : ℝ) (F : Matrix (Fin d) (Fin d) ℝ) : ℝ :=
  κ / 2 * (F.det ^ (-4 / 3 : ℝ) * invar2 (rightCG F) - 3)

/-- The bulk penalty energy `K / 2 (J - 1)²`. -/
noncomputable def energyBulk (K : ℝ) (F : Matrix (Fin d) (Fin d) ℝ) : ℝ := K / 2 * (F.det - 1) ^ 2

/-- The energy of the active bulk stress, `A J`. -/
def energyActive (A : ℝ) (F : Matrix (Fin d) (Fin d) ℝ) : ℝ := A * F.det

/-- The energy of the bulk pressure, `-p J`. -/
def energyPressure (p : ℝ) (F : Matrix (Fin d) (Fin d) ℝ) : ℝ := -(p * F.det)

/-- The generalized Yeoh stored energy `∑ K_k (J^(-2/3) I₁ - 3)^m_k`. -/
noncomputable def energyYeoh (K1 K2 K3 m p q : ℝ) (F : Matrix (Fin d) (Fin d) ℝ) : ℝ :=
  let x := F.det ^ (-2 / 3 : ℝ) * invar1 (rightCG F) - 3
  K1 * x ^ m + K2 * x ^ p + K3 * x ^ q

/-- The Green strain `(C - I) / 2`. -/
noncomputable def greenStrain (F : Matrix (Fin d) (Fin d) ℝ) : Matrix (Fin d) (Fin d) ℝ := (1 / 2 : ℝ) • (rightCG F - 1)

/-- The Saint Venant-Kirchhoff energy `D_ijkl E_ij E_kl / 2`, with `D` in the symmetric storage. -/
noncomputable def energySVK (D : ℕ → ℕ → ℝ) (F : Matrix (Fin d) (Fin d) ℝ) : ℝ :=
  (∑ i : Fin d, ∑ j : Fin d, ∑ k : Fin d, ∑ l : Fin d,
    D (voigt d i j) (voigt d k l) * greenStrain F i j * greenStrain F k l) / 2

/-- No cell is turned over: the volume ratio is positive in all the quadrature points (and its square is greater than
the number `eps = 1e-55` of the inversion of small matrices). -/
def NotWarped (vg : Mapping ℝ) (nEl : ℕ) (state : ℕ → ℝ) (conn : ℕ → ℕ → ℕ) : Prop :=
  ∀ c < nEl, ∀ q < vg.nQP, 0 < (cellF vg state conn c q).det ∧ 1e-55 < (cellF vg state conn c q).det ^ 2

/-- The vector `b` of the cell `c` is the first variation of the energy of the cell, `W q` is the energy density: for all
the test functions `v`, `d/dt ∫ W(F(u + t v)) = vᵀ b` at `t = 0`. -/
def IsFirstVariation (vg : Mapping ℝ) (W : ℕ → Matrix (Fin vg.dim) (Fin vg.dim) ℝ → ℝ) (state : ℕ → ℝ)
    (conn : ℕ → ℕ → ℕ) (c : ℕ) (b : ℕ → ℕ → ℝ) : Prop :=
  ∀ v, HasDerivAt (fun t => integ vg.nQP (vg.w c) fun q => W q
    (defGrad vg.dim vg.nEP (vg.G c q) fun s => locDofs vg.dim vg.nEP state (conn c) s + t * v s))
    (lin (vg.dim * vg.nEP) v b) 0

/-- The matrix `A` of the cell `c` is the derivative of the residual `res` with respect to the state, in all the
directions. -/
def IsJacobian (vg : Mapping ℝ) (res : (ℕ → ℝ) → Option (ℕ → ℕ → ℝ)) (state : ℕ → ℝ) (conn : ℕ → ℕ → ℕ) (c : ℕ)
    (A : ℕ → ℕ → ℝ) : Prop :=
  ∀ u : ℕ → ℝ, ∃ R : ℝ → ℕ → ℕ → ℝ, (∀ᶠ t in nhds 0, res (fun i => state i + t * u i) = some (R t)) ∧
    ∀ r < vg.dim * vg.nEP, HasDerivAt (fun t => R t r 0)
      (∑ s ∈ range (vg.dim * vg.nEP), A r s * u (vg.dim * conn c (s % vg.nEP) + s / vg.nEP)) 0

end Verif.Term
