import Mathlib.Tactic.Linarith
import Mathlib.Tactic.Positivity
import Mathlib.Algebra.Order.BigOperators.Group.Finset
import Mathlib.Data.Fin.VecNotation
import Verif.Srf.Model
import Verif.Ct.PropsTan

/-!
# Properties of the surface terms

C147: the non-penetration, penalty, jump and normal terms.  C148: the tractions and their sensitivities.
-/

open Finset

namespace Verif.Srf

/-! ## Specification: the fields of the weak forms -/

/-- The vector field of a local vector, by nodes. -/
def field (nep : ℕ) (N u : ℕ → ℝ) (i : ℕ) : ℝ := ∑ a ∈ range nep, N a * u (i * nep + a)

/-- The scalar product of two vectors. -/
def dot (dim : ℕ) (a b : ℕ → ℝ) : ℝ := ∑ i ∈ range dim, a i * b i

/-- The evaluation of a scalar variable. -/
def sfield (nep : ℕ) (N p : ℕ → ℝ) : ℝ := ∑ a ∈ range nep, N a * p a

/-! ## C147 -/

/-- The expanded basis interpolates component-wise. -/
theorem C147_value (dim nep : ℕ) (N u : ℕ → ℝ) (i : ℕ) (hi : i < dim) : valV dim nep N u i = field nep N u i := by
  have h : valV dim nep N u i = ∑ k ∈ range (dim * nep), Ct.vb nep N i k * u k := rfl
  rw [h, Ct.sum_flat, Finset.sum_eq_single i]
  · refine Finset.sum_congr rfl fun a ha => ?_
    rw [Ct.vb_flat nep N i i a (Finset.mem_range.1 ha), if_pos rfl]
  · intro j _ hj
    refine Finset.sum_eq_zero fun a ha => ?_
    rw [Ct.vb_flat nep N i j a (Finset.mem_range.1 ha), if_neg (fun h => hj h.symm), zero_mul]
  · intro h; exact absurd (Finset.mem_range.2 hi) h

theorem dot_val (dim nep : ℕ) (N n u : ℕ → ℝ) :
    ∑ i ∈ range dim, n i * valV dim nep N u i = dot dim n (field nep N u) :=
  Finset.sum_congr rfl fun i hi => by rw [C147_value dim nep N u i (Finset.mem_range.1 hi)]

theorem ebfN_sum (dim nep : ℕ) (N n u : ℕ → ℝ) :
    ∑ k ∈ range (dim * nep), ebfN dim nep N n k * u k = dot dim n (field nep N u) := by
  rw [← dot_val]
  simp only [ebfN, valV, Finset.sum_mul, Finset.mul_sum]
  rw [Finset.sum_comm]
  exact Finset.sum_congr rfl fun i _ => Finset.sum_congr rfl fun k _ => by ring

theorem npGradVec_eq (nq dim nep nes : ℕ) (wt mat : ℕ → ℝ) (nrm bv bs : ℕ → ℕ → ℝ) (p : ℕ → ℝ) (k : ℕ) :
    npGradVec nq dim nep nes wt mat nrm bv bs p k =
      ∑ q ∈ range nq, wt q * (mat q * (ebfN dim nep (bv q) (nrm q) k * sfield nes (bs q) p)) := by
  simp only [npGradVec]
  refine Finset.sum_congr rfl fun q _ => ?_
  congr 2
  rw [ebfN, Finset.sum_mul]
  exact Finset.sum_congr rfl fun i _ => by simp only [valS, sfield]; ring

/-- The `'grad'` vector tested by `v` is the integral of `c λ n . v`. -/
theorem C147_non_penetration_grad (nq dim nep nes : ℕ) (wt mat : ℕ → ℝ) (nrm bv bs : ℕ → ℕ → ℝ) (p v : ℕ → ℝ) :
    ∑ k ∈ range (dim * nep), npGradVec nq dim nep nes wt mat nrm bv bs p k * v k =
      ∑ q ∈ range nq, wt q * (mat q * sfield nes (bs q) p * dot dim (nrm q) (field nep (bv q) v)) := by
  simp only [npGradVec_eq, Finset.sum_mul]
  rw [Finset.sum_comm]
  refine Finset.sum_congr rfl fun q _ => ?_
  rw [← ebfN_sum, Finset.mul_sum, Finset.mul_sum]
  exact Finset.sum_congr rfl fun k _ => by ring

/-- The `'div'` vector tested by `r` is the integral of `c r n . u`. -/
theorem C147_non_penetration_div (nq dim nep nes : ℕ) (wt mat : ℕ → ℝ) (nrm bv bs : ℕ → ℕ → ℝ) (u r : ℕ → ℝ) :
    ∑ b ∈ range nes, npDivVec nq dim nep wt mat nrm bv bs u b * r b =
      ∑ q ∈ range nq, wt q * (mat q * sfield nes (bs q) r * dot dim (nrm q) (field nep (bv q) u)) := by
  simp only [npDivVec, dot_val, Finset.sum_mul]
  rw [Finset.sum_comm]
  refine Finset.sum_congr rfl fun q _ => ?_
  rw [sfield, Finset.mul_sum, Finset.sum_mul, Finset.mul_sum]
  exact Finset.sum_congr rfl fun k _ => by ring

/-- The two modes are adjoint. -/
theorem C147_saddle_point (nq dim nep nes : ℕ) (wt mat : ℕ → ℝ) (nrm bv bs : ℕ → ℕ → ℝ) (u p : ℕ → ℝ) :
    ∑ b ∈ range nes, npDivVec nq dim nep wt mat nrm bv bs u b * p b =
      ∑ k ∈ range (dim * nep), npGradVec nq dim nep nes wt mat nrm bv bs p k * u k := by
  rw [C147_non_penetration_div, C147_non_penetration_grad]

/-- The matrices of both modes give the vectors. -/
theorem C147_non_penetration_matrices (nq dim nep nes : ℕ) (wt mat : ℕ → ℝ) (nrm bv bs : ℕ → ℕ → ℝ)
    (u p : ℕ → ℝ) (k b : ℕ) :
    npGradVec nq dim nep nes wt mat nrm bv bs p k =
        ∑ c ∈ range nes, npGradMat nq dim nep wt mat nrm bv bs k c * p c ∧
      npDivVec nq dim nep wt mat nrm bv bs u b =
        ∑ l ∈ range (dim * nep), npDivMat nq dim nep wt mat nrm bv bs b l * u l := by
  constructor
  · rw [npGradVec_eq]
    simp only [npGradMat, Finset.sum_mul]
    rw [Finset.sum_comm]
    refine Finset.sum_congr rfl fun q _ => ?_
    rw [sfield, Finset.mul_sum, Finset.mul_sum, Finset.mul_sum]
    exact Finset.sum_congr rfl fun c _ => by ring
  · simp only [npDivVec, dot_val, npDivMat, Finset.sum_mul]
    rw [Finset.sum_comm]
    refine Finset.sum_congr rfl fun q _ => ?_
    rw [← ebfN_sum, Finset.mul_sum, Finset.mul_sum, Finset.mul_sum]
    exact Finset.sum_congr rfl fun c _ => by ring

/-- The penalty vector tested by `v` is the integral of `c (n . v) (n . u)`, and the matrix gives the vector. -/
theorem C147_penalty (nq dim nep : ℕ) (wt mat : ℕ → ℝ) (nrm bv : ℕ → ℕ → ℝ) (u v : ℕ → ℝ) :
    (∑ k ∈ range (dim * nep), npPenVec nq dim nep wt mat nrm bv u k * v k =
      ∑ q ∈ range nq, wt q * (mat q * dot dim (nrm q) (field nep (bv q) v) * dot dim (nrm q) (field nep (bv q) u))) ∧
    ∀ k, npPenVec nq dim nep wt mat nrm bv u k =
      ∑ l ∈ range (dim * nep), npPenMat nq dim nep wt mat nrm bv k l * u l := by
  constructor
  · simp only [npPenVec, dot_val, Finset.sum_mul]
    rw [Finset.sum_comm]
    refine Finset.sum_congr rfl fun q _ => ?_
    rw [← ebfN_sum dim nep (bv q) (nrm q) v, Finset.mul_sum, Finset.sum_mul, Finset.mul_sum]
    exact Finset.sum_congr rfl fun k _ => by ring
  · intro k
    simp only [npPenVec, dot_val, npPenMat, Finset.sum_mul]
    rw [Finset.sum_comm]
    refine Finset.sum_congr rfl fun q _ => ?_
    rw [← ebfN_sum, Finset.mul_sum, Finset.mul_sum]
    exact Finset.sum_congr rfl fun c _ => by ring

/-- For a non-negative penalty and weights, the matrix is symmetric and positive semi-definite, and a field tangential in
the quadrature points is not penalized. -/
theorem C147_penalty_psd (nq dim nep : ℕ) (wt mat : ℕ → ℝ) (nrm bv : ℕ → ℕ → ℝ) (u : ℕ → ℝ)
    (hw : ∀ q < nq, 0 ≤ wt q) (hm : ∀ q < nq, 0 ≤ mat q) :
    (∀ k l, npPenMat nq dim nep wt mat nrm bv k l = npPenMat nq dim nep wt mat nrm bv l k) ∧
    0 ≤ ∑ k ∈ range (dim * nep), (∑ l ∈ range (dim * nep), npPenMat nq dim nep wt mat nrm bv k l * u l) * u k ∧
    ((∀ q < nq, dot dim (nrm q) (field nep (bv q) u) = 0) → ∀ k, npPenVec nq dim nep wt mat nrm bv u k = 0) := by
  refine ⟨fun k l => Finset.sum_congr rfl fun q _ => by ring, ?_, ?_⟩
  · have h := C147_penalty nq dim nep wt mat nrm bv u u
    simp only [h.2] at h
    rw [h.1]
    refine Finset.sum_nonneg fun q hq => mul_nonneg (hw q (Finset.mem_range.1 hq)) ?_
    rw [mul_assoc]
    exact mul_nonneg (hm q (Finset.mem_range.1 hq)) (mul_self_nonneg _)
  · intro h k
    simp only [npPenVec, dot_val]
    exact Finset.sum_eq_zero fun q hq => by rw [h q (Finset.mem_range.1 hq)]; ring

/-- The jump: the vector tested by `r` is the integral of `c r (p1 - p2)`, and it is the sum of the products of the two
matrices with the states. -/
theorem C147_jump (nq nes nes1 nes2 : ℕ) (wt : ℕ → ℝ) (mul : Option (ℕ → ℝ)) (bs bs1 bs2 : ℕ → ℕ → ℝ)
    (p1 p2 r : ℕ → ℝ) :
    (∑ a ∈ range nes, jumpVec nq nes1 nes2 wt mul bs bs1 bs2 p1 p2 a * r a =
      ∑ q ∈ range nq, wt q * (mul.getD (fun _ => 1) q * sfield nes (bs q) r *
        (sfield nes1 (bs1 q) p1 - sfield nes2 (bs2 q) p2))) ∧
    ∀ a, jumpVec nq nes1 nes2 wt mul bs bs1 bs2 p1 p2 a =
      ∑ b ∈ range nes1, jumpMat 1 nq wt mul bs bs1 bs2 a b * p1 b +
        ∑ b ∈ range nes2, jumpMat 2 nq wt mul bs bs1 bs2 a b * p2 b := by
  have hv : ∀ a, jumpVec nq nes1 nes2 wt mul bs bs1 bs2 p1 p2 a =
      ∑ q ∈ range nq, wt q * (mul.getD (fun _ => 1) q * (bs q a *
        (sfield nes1 (bs1 q) p1 - sfield nes2 (bs2 q) p2))) := by
    intro a
    cases mul <;> simp [jumpVec, valS, sfield]
  have h1 : ∀ a b, jumpMat 1 nq wt mul bs bs1 bs2 a b =
      ∑ q ∈ range nq, wt q * (mul.getD (fun _ => 1) q * (bs q a * bs1 q b)) := by
    intro a b
    cases mul <;> simp [jumpMat]
  have h2 : ∀ a b, jumpMat 2 nq wt mul bs bs1 bs2 a b =
      ∑ q ∈ range nq, wt q * (mul.getD (fun _ => 1) q * (-(bs q a) * bs2 q b)) := by
    intro a b
    cases mul <;> simp [jumpMat]
  constructor
  · simp only [hv, Finset.sum_mul]
    rw [Finset.sum_comm]
    refine Finset.sum_congr rfl fun q _ => ?_
    conv_rhs => rw [sfield, Finset.mul_sum, Finset.sum_mul, Finset.mul_sum]
    exact Finset.sum_congr rfl fun k _ => by ring
  · intro a
    rw [hv]
    simp only [h1, h2, Finset.sum_mul]
    rw [Finset.sum_comm, Finset.sum_comm (s := range nes2), ← Finset.sum_add_distrib]
    refine Finset.sum_congr rfl fun q _ => ?_
    have e1 : ∑ b ∈ range nes1, wt q * (mul.getD (fun _ => 1) q * (bs q a * bs1 q b)) * p1 b =
        wt q * (mul.getD (fun _ => 1) q * (bs q a * sfield nes1 (bs1 q) p1)) := by
      rw [sfield, Finset.mul_sum, Finset.mul_sum, Finset.mul_sum]; exact Finset.sum_congr rfl fun b _ => by ring
    have e2 : ∑ b ∈ range nes2, wt q * (mul.getD (fun _ => 1) q * (-(bs q a) * bs2 q b)) * p2 b =
        wt q * (mul.getD (fun _ => 1) q * (-(bs q a) * sfield nes2 (bs2 q) p2)) := by
      rw [sfield, Finset.mul_sum, Finset.mul_sum, Finset.mul_sum]; exact Finset.sum_congr rfl fun b _ => by ring
    rw [e1, e2]; ring

/-- The normal flux: the vector tested by `r` is the evaluation, which is the integral of `r c . n`. -/
theorem C147_ndot (nq dim nes : ℕ) (wt : ℕ → ℝ) (c nrm bs : ℕ → ℕ → ℝ) (r : ℕ → ℝ) :
    ∑ a ∈ range nes, ndotVec nq dim wt c nrm bs a * r a = ndotEval nq dim nes wt c nrm bs r ∧
      ndotEval nq dim nes wt c nrm bs r = ∑ q ∈ range nq, wt q * (sfield nes (bs q) r * dot dim (c q) (nrm q)) := by
  refine ⟨?_, rfl⟩
  simp only [ndotVec, ndotEval, Finset.sum_mul]
  rw [Finset.sum_comm]
  refine Finset.sum_congr rfl fun q _ => ?_
  rw [valS, Finset.sum_mul, Finset.mul_sum]
  exact Finset.sum_congr rfl fun k _ => by ring

/-! ## C148 -/

/-- The documented traction vector: `n`, `p n`, `f`, `σ n`. -/
def docTraction (dim : ℕ) (t : Traction) (σ : ℕ → ℕ → ℕ → ℝ) (nrm : ℕ → ℕ → ℝ) (q i : ℕ) : ℝ :=
  match t with
  | .none => nrm q i
  | .pressure p => p q * nrm q i
  | .vector f => f q i
  | _ => ∑ j ∈ range dim, σ q i j * nrm q j

/-- What the symmetric storage stores: `11, 22, 12` in 2D, `11, 22, 33, 12, 13, 23` in 3D. -/
def Stores (dim nq : ℕ) (s : ℕ → ℕ → ℝ) (σ : ℕ → ℕ → ℕ → ℝ) : Prop :=
  ∀ q < nq, (∀ i j, σ q i j = σ q j i) ∧
    (dim = 2 → s q 0 = σ q 0 0 ∧ s q 1 = σ q 1 1 ∧ s q 2 = σ q 0 1) ∧
    (dim = 3 → s q 0 = σ q 0 0 ∧ s q 1 = σ q 1 1 ∧ s q 2 = σ q 2 2 ∧ s q 3 = σ q 0 1 ∧ s q 4 = σ q 0 2 ∧
      s q 5 = σ q 1 2)

theorem stores_get {dim nq : ℕ} {s : ℕ → ℕ → ℝ} {σ : ℕ → ℕ → ℕ → ℝ} (hd : dim = 2 ∨ dim = 3)
    (h : Stores dim nq s σ) {q i j : ℕ} (hq : q < nq) (hi : i < dim) (hj : j < dim) :
    s q (fullIdx dim i j) = σ q i j := by
  obtain ⟨hs, h2, h3⟩ := h q hq
  rcases hd with rfl | rfl
  · obtain ⟨a, b, c⟩ := h2 rfl
    have : i = 0 ∨ i = 1 := by omega
    have : j = 0 ∨ j = 1 := by omega
    rcases ‹i = 0 ∨ i = 1› with rfl | rfl <;> rcases ‹j = 0 ∨ j = 1› with rfl | rfl <;>
      simp [fullIdx, a, b, c, hs 1 0]
  · obtain ⟨a, b, c, d, e, f⟩ := h3 rfl
    have : i = 0 ∨ i = 1 ∨ i = 2 := by omega
    have : j = 0 ∨ j = 1 ∨ j = 2 := by omega
    rcases ‹i = 0 ∨ i = 1 ∨ i = 2› with rfl | rfl | rfl <;>
      rcases ‹j = 0 ∨ j = 1 ∨ j = 2› with rfl | rfl | rfl <;>
      simp [fullIdx, a, b, c, d, e, f, hs 1 0, hs 2 0, hs 2 1]

/-- The traction argument is not a full tensor, and a symmetric one stores `σ`. -/
def Shaped (dim nq : ℕ) (t : Traction) (σ : ℕ → ℕ → ℕ → ℝ) : Prop :=
  match t with
  | .full _ => False
  | .sym s => Stores dim nq s σ
  | _ => True

/-- The evaluation of the traction term is the integral of `v` times the documented traction. -/
theorem C148_eval (nq dim nep : ℕ) (wt : ℕ → ℝ) (t : Traction) (σ : ℕ → ℕ → ℕ → ℝ) (nrm bv : ℕ → ℕ → ℝ)
    (u : ℕ → ℝ) (hd : dim = 2 ∨ dim = 3) (ht : Shaped dim nq t σ) :
    ltrEval nq dim nep wt t nrm bv u =
      ∑ q ∈ range nq, wt q * dot dim (field nep (bv q) u) (docTraction dim t σ nrm q) := by
  simp only [ltrEval]
  refine Finset.sum_congr rfl fun q hq => ?_
  congr 1
  refine Finset.sum_congr rfl fun i hi => ?_
  rw [C147_value dim nep _ u i (Finset.mem_range.1 hi)]
  congr 1
  cases t with
  | full m => exact ht.elim
  | sym s =>
      refine Finset.sum_congr rfl fun j hj => ?_
      rw [stores_get hd ht (Finset.mem_range.1 hq) (Finset.mem_range.1 hi) (Finset.mem_range.1 hj)]
  | _ => rfl

/-- A full tensor is transposed: the evaluation is the integral of `v . σᵀ n`. -/
theorem C148_eval_full (nq dim nep : ℕ) (wt : ℕ → ℝ) (m : ℕ → ℕ → ℕ → ℝ) (nrm bv : ℕ → ℕ → ℝ) (u : ℕ → ℝ) :
    ltrEval nq dim nep wt (.full m) nrm bv u =
      ∑ q ∈ range nq, wt q * ∑ i ∈ range dim, ∑ j ∈ range dim, field nep (bv q) u i * m q j i * nrm q j := by
  simp only [ltrEval, tracD]
  refine Finset.sum_congr rfl fun q _ => ?_
  congr 1
  refine Finset.sum_congr rfl fun i hi => ?_
  rw [C147_value dim nep _ u i (Finset.mem_range.1 hi), Finset.mul_sum]
  exact Finset.sum_congr rfl fun j _ => by ring

/-- Hence, it is not the documented `v . σ n` for a nonsymmetric tensor. -/
theorem C148_eval_full_transposed : ∃ (m : ℕ → ℕ → ℕ → ℝ) (nrm bv : ℕ → ℕ → ℝ) (u : ℕ → ℝ),
    ltrEval 1 2 1 (fun _ => 1) (.full m) nrm bv u = 0 ∧
      dot 2 (field 1 (bv 0) u) (fun i => ∑ j ∈ range 2, m 0 i j * nrm 0 j) = 1 := by
  refine ⟨fun _ i j => if i = 0 ∧ j = 1 then 1 else 0, fun _ j => if j = 1 then 1 else 0, fun _ _ => 1,
    fun k => if k = 0 then 1 else 0, ?_, ?_⟩
  · rw [C148_eval_full]
    simp [Finset.sum_range_succ, field]
  · simp [field, dot]
    rfl

/-- The sensitivity: for a tensor, or a pressure or nothing (`σ = p I`, `σ = I`), it is the integral of
`v . σ (div V I - (grad V)ᵀ) n`, where `grad q k j` is the derivative of `V_j` in the direction `k`. -/
theorem C148_sensitivity (nq dim nep : ℕ) (wt : ℕ → ℝ) (t : Traction) (σ : ℕ → ℕ → ℕ → ℝ) (nrm bv : ℕ → ℕ → ℝ)
    (grad : ℕ → ℕ → ℕ → ℝ) (div : ℕ → ℝ) (u : ℕ → ℝ) (hd : dim = 2 ∨ dim = 3)
    (ht : match t with
      | .none => ∀ q i j, σ q i j = if i = j then 1 else 0
      | .pressure p => ∀ q i j, σ q i j = if i = j then p q else 0
      | .vector _ => False
      | .sym s => Stores dim nq s σ
      | .full m => m = σ) :
    sdLtrEval nq dim nep wt t nrm bv grad div u =
      ∑ q ∈ range nq, wt q * ∑ i ∈ range dim, ∑ j ∈ range dim, field nep (bv q) u i *
        (σ q i j * div q - ∑ k ∈ range dim, σ q i k * grad q k j) * nrm q j := by
  simp only [sdLtrEval]
  refine Finset.sum_congr rfl fun q hq => ?_
  congr 1
  rw [Finset.sum_comm (s := range dim) (t := range dim)]
  refine Finset.sum_congr rfl fun j hj => ?_
  have hn : (sdTrac dim t nrm q).2 j = nrm q j := by
    cases t <;> first | rfl | exact ht.elim
  rw [hn, Finset.sum_mul]
  refine Finset.sum_congr rfl fun i hi => ?_
  rw [C147_value dim nep _ u i (Finset.mem_range.1 hi)]
  have hσ : ∀ l, l < dim → (sdTrac dim t nrm q).1 i l = σ q i l := by
    intro l hl
    cases t with
    | none => simp only [sdTrac]; rw [ht]
    | pressure p => simp only [sdTrac]; rw [ht]; split_ifs <;> simp
    | vector f => exact ht.elim
    | sym s => exact stores_get hd ht (Finset.mem_range.1 hq) (Finset.mem_range.1 hi) hl
    | full m => simp only [sdTrac]; rw [ht]
  rw [hσ j (Finset.mem_range.1 hj)]
  congr 3
  exact Finset.sum_congr rfl fun k hk => by rw [hσ k (Finset.mem_range.1 hk)]

/-- A traction vector in the direction of the normal is as the pressure. -/
theorem C148_sensitivity_vector (nq dim nep : ℕ) (wt p : ℕ → ℝ) (nrm bv : ℕ → ℕ → ℝ) (grad : ℕ → ℕ → ℕ → ℝ)
    (div u : ℕ → ℝ) : sdLtrEval nq dim nep wt (.vector fun q i => p q * nrm q i) nrm bv grad div u =
      sdLtrEval nq dim nep wt (.pressure p) nrm bv grad div u := by
  simp only [sdLtrEval, sdTrac]
  refine Finset.sum_congr rfl fun q _ => ?_
  congr 1
  refine Finset.sum_congr rfl fun j _ => ?_
  rw [Finset.sum_mul, Finset.sum_mul]
  refine Finset.sum_congr rfl fun i _ => ?_
  have : ∑ k ∈ range dim, (if i = k then (1:ℝ) else 0) * p q * grad q k j =
      p q * ∑ k ∈ range dim, (if i = k then (1:ℝ) else 0) * grad q k j := by
    rw [Finset.mul_sum]; exact Finset.sum_congr rfl fun k _ => by ring
  rw [this]; ring

/-- A general traction vector `f = σ n` does not have the sensitivity of the tensor `σ`. -/
theorem C148_sensitivity_vector_differs : ∃ (m : ℕ → ℕ → ℕ → ℝ) (nrm bv : ℕ → ℕ → ℝ) (grad : ℕ → ℕ → ℕ → ℝ)
    (u : ℕ → ℝ), (∀ q i j, m q i j = m q j i) ∧
    sdLtrEval 1 2 1 (fun _ => 1) (.full m) nrm bv grad (fun q => ∑ i ∈ range 2, grad q i i) u = 0 ∧
    sdLtrEval 1 2 1 (fun _ => 1) (.vector fun q i => ∑ j ∈ range 2, m q i j * nrm q j) nrm bv grad
      (fun q => ∑ i ∈ range 2, grad q i i) u = 1 := by
  refine ⟨fun _ i j => if i = j then 0 else 1, fun _ j => if j = 1 then 1 else 0, fun _ _ => 1,
    fun _ k j => if k = 1 ∧ j = 1 then 1 else 0, fun k => if k = 0 then 1 else 0, ?_, ?_, ?_⟩
  · intro q i j; simp only [eq_comm]
  · simp [sdLtrEval, sdTrac, Finset.sum_range_succ, valV, ebf]
  · simp [sdLtrEval, sdTrac, Finset.sum_range_succ, valV, ebf]

/-! ## The hypotheses are met -/

example : Stores 2 1 (fun _ k => k) (fun _ i j => if i = j then i else 2) := by
  intro q _
  refine ⟨fun i j => ?_, fun _ => by norm_num, fun h => by omega⟩
  by_cases h : i = j
  · subst h; rfl
  · have h2 : ¬ j = i := fun h2 => h h2.symm
    simp only [h, h2, if_false]

example : (∀ q < 2, (0 : ℝ) ≤ (fun _ => 1 : ℕ → ℝ) q) ∧ ∃ u : ℕ → ℝ, u ≠ 0 ∧
    ∀ q < 2, dot 2 (fun i => if i = 1 then 1 else 0) (field 1 (fun _ => 1) u) = 0 := by
  refine ⟨fun _ _ => by norm_num, fun k => if k = 0 then 1 else 0, ?_, ?_⟩
  · intro h; have := congrFun h 0; simp at this
  · intro q _; simp [dot, field, Finset.sum_range_succ]

end Verif.Srf
