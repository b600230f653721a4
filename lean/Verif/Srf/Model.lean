import Mathlib.Data.Real.Basic
import Mathlib.Algebra.BigOperators.Group.Finset.Basic

/-!
# Surface constraint, jump and traction terms

Models the Python functions of `/repo/sfepy/terms/terms_constraints.py` and of `LinearTractionTerm`,
`SufaceNormalDotTerm`, `SurfaceJumpTerm` in `/repo/sfepy/terms/terms_surface.py` in one facet.  Exact real arithmetic.
A quadrature point `q` has the weight `wt q` (`sg.integrate()`), the normal `nrm q i`, the basis functions of the vector
variable `bv q a` and of the scalar one `bs q b`.  The columns of a local vector of a vector variable are
`component * n_ep + node`.
-/

open Finset

namespace Verif.Srf

/-- `expand_basis()` of a basis with one row in a quadrature point - `/repo/sfepy/discrete/variables.py:156-168`. -/
def ebf (nep : ℕ) (N : ℕ → ℝ) (i k : ℕ) : ℝ :=
  if i * nep ≤ k ∧ k < (i + 1) * nep then N (k - i * nep) else 0

/-- `self.get(var, 'val')` of a vector variable: the interpolation by the expanded basis -
`/repo/sfepy/discrete/variables.py:156-168`. -/
def valV (dim nep : ℕ) (N u : ℕ → ℝ) (i : ℕ) : ℝ := ∑ k ∈ range (dim * nep), ebf nep N i k * u k

/-- `self.get(var, 'val')` of a scalar variable. -/
def valS (nep : ℕ) (N p : ℕ → ℝ) : ℝ := ∑ b ∈ range nep, N b * p b

/-- `dot_sequences(ebf_t, normals)` - `/repo/sfepy/terms/terms_constraints.py:66`. -/
def ebfN (dim nep : ℕ) (N n : ℕ → ℝ) (k : ℕ) : ℝ := ∑ i ∈ range dim, ebf nep N i k * n i

/-- `NonPenetrationTerm.function()`, mode `'grad'`, the vector - `/repo/sfepy/terms/terms_constraints.py:47-52`. -/
def npGradVec (nq dim nep nes : ℕ) (wt mat : ℕ → ℝ) (nrm bv bs : ℕ → ℕ → ℝ) (p : ℕ → ℝ) (k : ℕ) : ℝ :=
  ∑ q ∈ range nq, wt q * (mat q * ∑ i ∈ range dim, ebf nep (bv q) i k * (nrm q i * valS nes (bs q) p))

/-- `NonPenetrationTerm.function()`, mode `'div'`, the vector - `/repo/sfepy/terms/terms_constraints.py:54-60`. -/
def npDivVec (nq dim nep : ℕ) (wt mat : ℕ → ℝ) (nrm bv bs : ℕ → ℕ → ℝ) (u : ℕ → ℝ) (b : ℕ) : ℝ :=
  ∑ q ∈ range nq, wt q * (mat q * (bs q b * ∑ i ∈ range dim, nrm q i * valV dim nep (bv q) u i))

/-- `NonPenetrationTerm.function()`, mode `'grad'`, the matrix - `/repo/sfepy/terms/terms_constraints.py:62-70`. -/
def npGradMat (nq dim nep : ℕ) (wt mat : ℕ → ℝ) (nrm bv bs : ℕ → ℕ → ℝ) (k b : ℕ) : ℝ :=
  ∑ q ∈ range nq, wt q * (mat q * ebfN dim nep (bv q) (nrm q) k * bs q b)

/-- `NonPenetrationTerm.function()`, mode `'div'`, the matrix - `/repo/sfepy/terms/terms_constraints.py:62-67, 72-74`. -/
def npDivMat (nq dim nep : ℕ) (wt mat : ℕ → ℝ) (nrm bv bs : ℕ → ℕ → ℝ) (b k : ℕ) : ℝ :=
  ∑ q ∈ range nq, wt q * (mat q * ebfN dim nep (bv q) (nrm q) k * bs q b)

/-- `NonPenetrationPenaltyTerm.function()`, the vector - `/repo/sfepy/terms/terms_constraints.py:128-132`. -/
def npPenVec (nq dim nep : ℕ) (wt mat : ℕ → ℝ) (nrm bv : ℕ → ℕ → ℝ) (u : ℕ → ℝ) (k : ℕ) : ℝ :=
  ∑ q ∈ range nq, wt q * (mat q * ebfN dim nep (bv q) (nrm q) k *
    ∑ i ∈ range dim, nrm q i * valV dim nep (bv q) u i)

/-- `NonPenetrationPenaltyTerm.function()`, the matrix - `/repo/sfepy/terms/terms_constraints.py:134-137`. -/
def npPenMat (nq dim nep : ℕ) (wt mat : ℕ → ℝ) (nrm bv : ℕ → ℕ → ℝ) (k l : ℕ) : ℝ :=
  ∑ q ∈ range nq, wt q * (mat q * (ebfN dim nep (bv q) (nrm q) k * ebfN dim nep (bv q) (nrm q) l))

/-- `SurfaceJumpTerm.function()` - `/repo/sfepy/terms/terms_surface.py:602-621`: `fmode` 0 is the vector, 1 and 2 the
matrices of the two states; `mul = none` when the material is not given. -/
def jumpVec (nq nes1 nes2 : ℕ) (wt : ℕ → ℝ) (mul : Option (ℕ → ℝ)) (bs bs1 bs2 : ℕ → ℕ → ℝ) (p1 p2 : ℕ → ℝ)
    (a : ℕ) : ℝ :=
  let vec := fun q => bs q a * (valS nes1 (bs1 q) p1 - valS nes2 (bs2 q) p2)
  match mul with
  | none => ∑ q ∈ range nq, wt q * vec q
  | some m => ∑ q ∈ range nq, wt q * (m q * vec q)

/-- `SurfaceJumpTerm.function()`, `fmode` 1 and 2 - `/repo/sfepy/terms/terms_surface.py:602-621`. -/
def jumpMat (fmode nq : ℕ) (wt : ℕ → ℝ) (mul : Option (ℕ → ℝ)) (bs bs1 bs2 : ℕ → ℕ → ℝ) (a b : ℕ) : ℝ :=
  let vec := fun q => if fmode = 1 then bs q a * bs1 q b else -(bs q a) * bs2 q b
  match mul with
  | none => ∑ q ∈ range nq, wt q * vec q
  | some m => ∑ q ∈ range nq, wt q * (m q * vec q)

/-- `SufaceNormalDotTerm.dw_fun()` - `/repo/sfepy/terms/terms_surface.py:501-507`. -/
def ndotVec (nq dim : ℕ) (wt : ℕ → ℝ) (c nrm bs : ℕ → ℕ → ℝ) (a : ℕ) : ℝ :=
  ∑ q ∈ range nq, wt q * (bs q a * ∑ i ∈ range dim, c q i * nrm q i)

/-- `SufaceNormalDotTerm.d_fun()` - `/repo/sfepy/terms/terms_surface.py:509-513`. -/
def ndotEval (nq dim nes : ℕ) (wt : ℕ → ℝ) (c nrm bs : ℕ → ℕ → ℝ) (p : ℕ → ℝ) : ℝ :=
  ∑ q ∈ range nq, wt q * (valS nes (bs q) p * ∑ i ∈ range dim, c q i * nrm q i)

/-- The shapes of the traction argument of `LinearTractionTerm` - `/repo/sfepy/terms/terms_surface.py:40-44`. -/
inductive Traction where
  | none
  | pressure (p : ℕ → ℝ)
  | vector (f : ℕ → ℕ → ℝ)
  | sym (s : ℕ → ℕ → ℝ)
  | full (m : ℕ → ℕ → ℕ → ℝ)

/-- `get_full_indices()` - `/repo/sfepy/mechanics/tensors.py:29-36`. -/
def fullIdx (dim i j : ℕ) : ℕ :=
  if dim = 2 then ([0, 2, 2, 1] : List ℕ).getD (2 * i + j) 0
  else ([0, 3, 4, 3, 1, 5, 4, 5, 2] : List ℕ).getD (3 * i + j) 0

/-- The vector multiplied by the values in `LinearTractionTerm.d_fun()` - `/repo/sfepy/terms/terms_surface.py:51-66`;
`geme_mulAVSB3py()` as given by its tables (`/repo/sfepy/discrete/common/extmods/geommech.c:398-440`). -/
def tracD (dim : ℕ) (t : Traction) (nrm : ℕ → ℕ → ℝ) (q i : ℕ) : ℝ :=
  match t with
  | .none => nrm q i
  | .pressure p => p q * nrm q i
  | .vector f => f q i
  | .full m => ∑ j ∈ range dim, m q j i * nrm q j
  | .sym s => ∑ j ∈ range dim, s q (fullIdx dim i j) * nrm q j

/-- `LinearTractionTerm.d_fun()` - `/repo/sfepy/terms/terms_surface.py:45-69`. -/
def ltrEval (nq dim nep : ℕ) (wt : ℕ → ℝ) (t : Traction) (nrm bv : ℕ → ℕ → ℝ) (u : ℕ → ℝ) : ℝ :=
  ∑ q ∈ range nq, wt q * ∑ i ∈ range dim, valV dim nep (bv q) u i * tracD dim t nrm q i

/-- `trac` and `val2` of `SDLinearTractionTerm.d_fun()` - `/repo/sfepy/terms/terms_surface.py:133-155`. -/
def sdTrac (dim : ℕ) (t : Traction) (nrm : ℕ → ℕ → ℝ) (q : ℕ) : (ℕ → ℕ → ℝ) × (ℕ → ℝ) :=
  match t with
  | .none => (fun i j => if i = j then 1 else 0, nrm q)
  | .pressure p => (fun i j => (if i = j then 1 else 0) * p q, nrm q)
  | .vector f => (fun i j => if i = j then 1 else 0, f q)
  | .full m => (m q, nrm q)
  | .sym s => (fun i j => s q (fullIdx dim i j), nrm q)

/-- `SDLinearTractionTerm.d_fun()` - `/repo/sfepy/terms/terms_surface.py:130-164`; `grad q k j` is the gradient of the
mesh velocity in the storage of the code, `div q` its divergence. -/
def sdLtrEval (nq dim nep : ℕ) (wt : ℕ → ℝ) (t : Traction) (nrm bv : ℕ → ℕ → ℝ) (grad : ℕ → ℕ → ℕ → ℝ) (div : ℕ → ℝ)
    (u : ℕ → ℝ) : ℝ :=
  ∑ q ∈ range nq, wt q * ∑ j ∈ range dim,
    (∑ i ∈ range dim, valV dim nep (bv q) u i *
      ((sdTrac dim t nrm q).1 i j * div q - ∑ k ∈ range dim, (sdTrac dim t nrm q).1 i k * grad q k j)) *
      (sdTrac dim t nrm q).2 j

end Verif.Srf
