import Verif.Lcbc.Rigid
import Mathlib.LinearAlgebra.Matrix.NonsingularInverse

/-!
# The average force (RBE3) operator

Model of `AverageForceOperator` (sfepy/discrete/fem/lcbc_operators.py:227-336).  The index
type of the dependent DOFs is `Fin dim ⊕ Fin s` (displacements and rotations).
-/

noncomputable section

namespace Verif.Lcbc

open Matrix

variable {K : Type*} [Field K] {dim s : ℕ}

/-- `mtx_s` for one independent node with the relative coordinates `x`
(lcbc_operators.py:298-300): the identity with the spin matrix in the upper right block. -/
def avgS (spin : (Fin dim → K) → Matrix (Fin dim) (Fin s) K) (x : Fin dim → K) :
    Matrix (Fin dim ⊕ Fin s) (Fin dim ⊕ Fin s) K :=
  fromBlocks 1 (spin x) 0 1

/-- The node weights after `sweights[:, dim:] *= length**2` (lcbc_operators.py:292-295);
`len2` is the square of the mean distance. -/
def avgW (len2 : K) (w : Fin dim ⊕ Fin s → K) : Fin dim ⊕ Fin s → K
  | .inl i => w (.inl i)
  | .inr b => w (.inr b) * len2

/-- `mtx_ix` (lcbc_operators.py:306-307): `X⁻¹ = Σ_k S_kᵀ W_k S_k`. -/
def avgIX (spin : (Fin dim → K) → Matrix (Fin dim) (Fin s) K) (n : ℕ) (x : ℕ → Fin dim → K)
    (w : ℕ → Fin dim ⊕ Fin s → K) : Matrix (Fin dim ⊕ Fin s) (Fin dim ⊕ Fin s) K :=
  ∑ k ∈ Finset.range n, (avgS spin (x k))ᵀ * (diagonal (w k) * avgS spin (x k))

/-- `mtx_g[k]` (lcbc_operators.py:309-312): `G_k = W_k S_k X`. -/
def avgG (spin : (Fin dim → K) → Matrix (Fin dim) (Fin s) K) (n : ℕ) (x : ℕ → Fin dim → K)
    (w : ℕ → Fin dim ⊕ Fin s → K) (k : ℕ) : Matrix (Fin dim ⊕ Fin s) (Fin dim ⊕ Fin s) K :=
  diagonal (w k) * avgS spin (x k) * (avgIX spin n x w)⁻¹

/-- The dependent DOFs `mtx @ u` with `mtx = mtx_g[:, :dim, :].reshape((-1, sym)).T`
(lcbc_operators.py:315): the rotations of the independent nodes are ignored. -/
def avgValue (spin : (Fin dim → K) → Matrix (Fin dim) (Fin s) K) (n : ℕ) (x : ℕ → Fin dim → K)
    (w : ℕ → Fin dim ⊕ Fin s → K) (u : ℕ → Fin dim → K) (a : Fin dim ⊕ Fin s) : K :=
  ∑ k ∈ Finset.range n, ∑ i, avgG spin n x w k (.inl i) a * u k i

/-- The force on node `k` from the generalized force `F` on the dependent node: the transposed
operator, `mtx.T @ F`, as applied to residuals (evaluate.py:94). -/
def avgForce (spin : (Fin dim → K) → Matrix (Fin dim) (Fin s) K) (n : ℕ) (x : ℕ → Fin dim → K)
    (w : ℕ → Fin dim ⊕ Fin s → K) (F : Fin dim ⊕ Fin s → K) (k : ℕ) (i : Fin dim) : K :=
  ∑ a, avgG spin n x w k (.inl i) a * F a

/-- numpy broadcasting of two axis lengths. -/
def broadcastable (a b : ℕ) : Bool := a = b || a = 1 || b = 1

/-- The branch without rotations multiplies `nm.eye(dim)` of shape `(dim, dim)` by
`sweights[..., None]` of shape `(n_nod, cols, 1)` (lcbc_operators.py:319): whether the shapes
can be broadcast. -/
def avgPlainShapesOk (dim cols : ℕ) : Bool := broadcastable dim cols && broadcastable dim 1

/-- The values in the branch without rotations (lcbc_operators.py:317-325), for weights with
`dim` columns. -/
def avgPlain (n : ℕ) (w : ℕ → Fin dim → K) (u : ℕ → Fin dim → K) (a : Fin dim) : K :=
  ∑ k ∈ Finset.range n, ∑ i,
    (diagonal (w k) * (∑ l ∈ Finset.range n, diagonal (w l))⁻¹) i a * u k i

/-- `dim2sym` (mechanics/tensors.py): the number of columns of the default weights
(lcbc_operators.py:287-291). -/
def dim2sym (dim : ℕ) : ℕ := dim * (dim + 1) / 2

end Verif.Lcbc
