/-
What is said about the reference mappings: gradients, the physical mapping of a cell.
-/
import Mathlib.Analysis.Calculus.FDeriv.Basic
import Mathlib.Analysis.Calculus.FDeriv.Prod
import Mathlib.Analysis.Normed.Module.FiniteDimension
import Mathlib.Algebra.BigOperators.Group.Finset.Basic
import Mathlib.MeasureTheory.Constructions.Pi
import Mathlib.MeasureTheory.Measure.Lebesgue.Basic
import Mathlib.MeasureTheory.Integral.Bochner.Set

namespace Verif.Term

open Finset

/-- The function `f` of `d` real variables is differentiable in `x` and `g` are its partial derivatives. -/
def IsGradAt {d : ℕ} (f : (Fin d → ℝ) → ℝ) (x g : Fin d → ℝ) : Prop :=
  ∃ L : (Fin d → ℝ) →L[ℝ] ℝ, HasFDerivAt f L x ∧ ∀ i, L (Pi.single i 1) = g i

/-- The same with a strict derivative, as for each continuously differentiable function. -/
def IsStrictGradAt {d : ℕ} (f : (Fin d → ℝ) → ℝ) (x g : Fin d → ℝ) : Prop :=
  ∃ L : (Fin d → ℝ) →L[ℝ] ℝ, HasStrictFDerivAt f L x ∧ ∀ i, L (Pi.single i 1) = g i

/-- The image of the reference point `ξ` in the cell with the nodes `x j`: the interpolation of the nodes by
the functions `φ j`. -/
def physMap {d : ℕ} (nEP : ℕ) (φ : ℕ → (Fin d → ℝ) → ℝ) (x : ℕ → Fin d → ℝ) (ξ : Fin d → ℝ) : Fin d → ℝ :=
  fun k => ∑ j ∈ range nEP, φ j ξ * x j k

/-- The function with the coefficients `u` in the functions `ψ k` of a reference point. -/
def interp {d : ℕ} (nF : ℕ) (ψ : ℕ → (Fin d → ℝ) → ℝ) (u : ℕ → ℝ) (ξ : Fin d → ℝ) : ℝ :=
  ∑ k ∈ range nF, ψ k ξ * u k

end Verif.Term
