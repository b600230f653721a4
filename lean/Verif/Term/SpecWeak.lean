/-
What is said about the term kernels: the discrete weak forms.

The degrees of freedom of a cell are ordered by components: the value of the `a`-th component in the `k`-th node
of a cell with `nEP` nodes is `u (nEP * a + k)`. The values `φ k` and the derivatives `G i k` (in the direction `i`)
of the basis functions in a quadrature point, the determinants multiplied by the weights `w q`, are data of the
mapping (see C60).
-/
import Verif.Term.Fm

namespace Verif.Term

open Finset

variable {K : Type} [Field K]

/-- The `a`-th component of the field with the degrees of freedom `u` in a point. -/
def fval (nEP : ℕ) (φ : ℕ → K) (u : ℕ → K) (a : ℕ) : K := ∑ k ∈ range nEP, φ k * u (nEP * a + k)

/-- The derivative of the `a`-th component in the direction `i`. -/
def fgrad (nEP : ℕ) (G : ℕ → ℕ → K) (u : ℕ → K) (i a : ℕ) : K := ∑ k ∈ range nEP, G i k * u (nEP * a + k)

/-- The divergence. -/
def fdiv (dim nEP : ℕ) (G : ℕ → ℕ → K) (u : ℕ → K) : K := ∑ i ∈ range dim, fgrad nEP G u i i

/-- The quadrature of a function given in the quadrature points. -/
def integ (nQP : ℕ) (w f : ℕ → K) : K := ∑ q ∈ range nQP, w q * f q

/-- `vᵀ A u`. -/
def bil (n m : ℕ) (v : ℕ → K) (A : ℕ → ℕ → K) (u : ℕ → K) : K := ∑ r ∈ range n, ∑ s ∈ range m, v r * A r s * u s

/-- `vᵀ b` for a column `b`. -/
def lin (n : ℕ) (v : ℕ → K) (b : ℕ → ℕ → K) : K := ∑ r ∈ range n, v r * b r 0

/-- The matrix of the cell is the one of the bilinear form `∫ B(v, u)`. -/
def IsForm (n m nQP : ℕ) (w : ℕ → K) (A : ℕ → ℕ → K) (B : ℕ → (ℕ → K) → (ℕ → K) → K) : Prop :=
  ∀ v u, bil n m v A u = integ nQP w fun q => B q v u

/-- The vector of the cell is the one of the linear form `∫ B(v)`. -/
def IsLin (n nQP : ℕ) (w : ℕ → K) (b : ℕ → ℕ → K) (B : ℕ → (ℕ → K) → K) : Prop :=
  ∀ v, lin n v b = integ nQP w fun q => B q v

/-- The degrees of freedom of a cell with the nodes `conn` in a global vector with `n` components in each node,
ordered by nodes. -/
def locDofs (n nEP : ℕ) (state : ℕ → K) (conn : ℕ → ℕ) (s : ℕ) : K := state (n * conn (s % nEP) + s / nEP)

/-- The values of an array in a quadrature point of a cell; an array with one cell is shared by all the cells. -/
def Fld.at {K : Type} (f : Fld K) (c q i j : ℕ) : K := if f.nCell ≤ 1 then f.val 0 q i j else f.val c q i j

/-- The values of the basis functions. -/
def Mapping.phi (m : Mapping K) (c q k : ℕ) : K := m.bf.at c q 0 k

/-- The derivatives of the basis functions. -/
def Mapping.G (m : Mapping K) (c q i k : ℕ) : K := m.bfGM c q i k

/-- The quadrature weights of a cell. -/
def Mapping.w (m : Mapping K) (c q : ℕ) : K := m.det c q 0 0

/-- The normal of a face. -/
def Mapping.n (m : Mapping K) (c q i : ℕ) : K := m.normal c q i 0

end Verif.Term
