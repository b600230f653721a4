/-
What is said about the elasticity kernels: strains as full tensors and the symmetric storage of tensors.
-/
import Verif.Term.SpecWeak

namespace Verif.Term

open Finset

variable {K : Type} [Field K]

/-- The position of the component `ij` of a symmetric tensor in the symmetric storage: [11, 22, 33, 12, 13, 23] in
3D, [11, 22, 12] in 2D (the indices start from zero here). -/
def voigt (dim i j : ℕ) : ℕ := if i = j then i else dim + (i + j) - 1

example : (voigt 3 0 0, voigt 3 1 1, voigt 3 2 2) = (0, 1, 2) ∧ (voigt 3 0 1, voigt 3 1 0) = (3, 3) ∧
    (voigt 3 0 2, voigt 3 2 0) = (4, 4) ∧ (voigt 3 1 2, voigt 3 2 1) = (5, 5) := by decide

example : (voigt 2 0 0, voigt 2 1 1, voigt 2 0 1, voigt 2 1 0) = (0, 1, 2, 2) := by decide

/-- The small strain tensor `e_ij(u) = (∂u_i/∂x_j + ∂u_j/∂x_i) / 2`. -/
def strain (nEP : ℕ) (G : ℕ → ℕ → K) (u : ℕ → K) (i j : ℕ) : K := (fgrad nEP G u j i + fgrad nEP G u i j) / 2

/-- The wave strain `g_ij(u) = (u_i κ_j + κ_i u_j) / 2`. -/
def waveStrain (nEP : ℕ) (φ : ℕ → K) (κ : ℕ → K) (u : ℕ → K) (i j : ℕ) : K :=
  (fval nEP φ u i * κ j + κ i * fval nEP φ u j) / 2

/-- `D_ijkl a_ij b_kl`, with `D_ijkl` in the symmetric storage. -/
def tensorForm (dim : ℕ) (D : ℕ → ℕ → K) (a b : ℕ → ℕ → K) : K :=
  ∑ i ∈ range dim, ∑ j ∈ range dim, ∑ k ∈ range dim, ∑ l ∈ range dim, D (voigt dim i j) (voigt dim k l) * a i j * b k l

end Verif.Term
