/-
What is said about flow terms: the convective derivative.
-/
import Verif.Term.SpecElastic

namespace Verif.Term

open Finset

variable {K : Type} [Field K]

/-- The `a`-th component of `(b · ∇) u`. -/
def fconv (dim nEP : ℕ) (G : ℕ → ℕ → K) (b u : ℕ → K) (a : ℕ) : K := ∑ i ∈ range dim, b i * fgrad nEP G u i a

/-- `∇v : ∇u`. -/
def gradDouble (dim nEP : ℕ) (G : ℕ → ℕ → K) (v u : ℕ → K) : K :=
  ∑ i ∈ range dim, ∑ a ∈ range dim, fgrad nEP G v i a * fgrad nEP G u i a

end Verif.Term
