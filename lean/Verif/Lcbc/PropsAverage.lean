import Verif.Lcbc.Average
import Mathlib.Tactic.LinearCombination
import Mathlib.Tactic.FieldSimp
import Mathlib.Algebra.BigOperators.Field
import Mathlib.LinearAlgebra.Matrix.NonsingularInverse

namespace Verif.Lcbc

open Matrix

variable {K : Type*} [Field K] {dim s : ℕ}

theorem avgIX_symm (spin : (Fin dim → K) → Matrix (Fin dim) (Fin s) K) (n : ℕ)
    (x : ℕ → Fin dim → K) (w : ℕ → Fin dim ⊕ Fin s → K) :
    (avgIX spin n x w)ᵀ = avgIX spin n x w := by
  unfold avgIX
  rw [transpose_sum]
  refine Finset.sum_congr rfl fun k _ => ?_
  rw [transpose_mul, transpose_mul, transpose_transpose, diagonal_transpose, Matrix.mul_assoc]

/-- The value is `X Σ_k S_kᵀ W_k (u_k, 0)`. -/
theorem avgValue_eq (spin : (Fin dim → K) → Matrix (Fin dim) (Fin s) K) (n : ℕ)
    (x : ℕ → Fin dim → K) (w : ℕ → Fin dim ⊕ Fin s → K) (u : ℕ → Fin dim → K) :
    avgValue spin n x w u = (avgIX spin n x w)⁻¹ *ᵥ
      ∑ k ∈ Finset.range n, (avgS spin (x k))ᵀ *ᵥ (diagonal (w k) *ᵥ (Sum.elim (u k) 0)) := by
  have h1 : ∀ k, (fun a => ∑ i, avgG spin n x w k (.inl i) a * u k i)
      = (avgIX spin n x w)⁻¹ *ᵥ
        ((avgS spin (x k))ᵀ *ᵥ (diagonal (w k) *ᵥ (Sum.elim (u k) 0))) := by
    intro k
    have e : (fun a => ∑ i, avgG spin n x w k (.inl i) a * u k i)
        = (avgG spin n x w k)ᵀ *ᵥ (Sum.elim (u k) 0) := by
      funext a
      simp [Matrix.mulVec, dotProduct, Fintype.sum_sum_type]
    rw [e, avgG, transpose_mul, transpose_mul, diagonal_transpose, transpose_nonsing_inv,
      avgIX_symm, Matrix.mulVec_mulVec, Matrix.mulVec_mulVec, Matrix.mul_assoc]
  have h2 : avgValue spin n x w u
      = ∑ k ∈ Finset.range n, (fun a => ∑ i, avgG spin n x w k (.inl i) a * u k i) := by
    funext a
    rw [Finset.sum_apply]; rfl
  rw [h2]
  simp only [h1]
  rw [Matrix.mulVec_sum]

/-- C71: when the independent nodes move by the rigid motion `q = (t, r)`, the dependent DOFs
are `q` minus the part due to the ignored rotations, which is proportional to the rotation
weights. -/
theorem C71_average_rigid (spin : (Fin dim → K) → Matrix (Fin dim) (Fin s) K) (n : ℕ)
    (x : ℕ → Fin dim → K) (w : ℕ → Fin dim ⊕ Fin s → K) (hd : (avgIX spin n x w).det ≠ 0)
    (t : Fin dim → K) (r : Fin s → K) :
    avgValue spin n x w (fun k => t + spin (x k) *ᵥ r)
      = Sum.elim t r - (avgIX spin n x w)⁻¹ *ᵥ
          (Sum.elim 0 fun b => (∑ k ∈ Finset.range n, w k (.inr b)) * r b) := by
  have hu : IsUnit (avgIX spin n x w).det := isUnit_iff_ne_zero.2 hd
  have hS : ∀ k, avgS spin (x k) *ᵥ (Sum.elim t r) = Sum.elim (t + spin (x k) *ᵥ r) r := by
    intro k
    rw [avgS, fromBlocks_mulVec]
    simp
  have hT : ∀ k, (avgS spin (x k))ᵀ *ᵥ (diagonal (w k) *ᵥ (Sum.elim (t + spin (x k) *ᵥ r) 0))
      = ((avgS spin (x k))ᵀ * (diagonal (w k) * avgS spin (x k))) *ᵥ (Sum.elim t r)
        - Sum.elim (0 : Fin dim → K) (fun b => w k (.inr b) * r b) := by
    intro k
    have e : (Sum.elim (t + spin (x k) *ᵥ r) 0 : Fin dim ⊕ Fin s → K)
        = avgS spin (x k) *ᵥ (Sum.elim t r) - Sum.elim (0 : Fin dim → K) r := by
      rw [hS]
      funext a
      cases a <;> simp
    rw [e, Matrix.mulVec_sub, Matrix.mulVec_sub, Matrix.mulVec_mulVec, Matrix.mulVec_mulVec,
      Matrix.mul_assoc]
    congr 1
    have e2 : diagonal (w k) *ᵥ (Sum.elim (0 : Fin dim → K) r)
        = Sum.elim (0 : Fin dim → K) (fun b => w k (.inr b) * r b) := by
      funext a
      rw [mulVec_diagonal]
      cases a <;> simp
    rw [e2, avgS, fromBlocks_transpose, fromBlocks_mulVec]
    simp
  rw [avgValue_eq]
  simp only [hT]
  rw [Finset.sum_sub_distrib, ← Matrix.sum_mulVec]
  change (avgIX spin n x w)⁻¹ *ᵥ ((avgIX spin n x w) *ᵥ (Sum.elim t r) - _) = _
  rw [Matrix.mulVec_sub, Matrix.mulVec_mulVec, nonsing_inv_mul _ hu, Matrix.one_mulVec]
  congr 2
  funext a
  rw [Finset.sum_apply]
  cases a with
  | inl i => simp
  | inr b => simp [Finset.sum_mul]

/-- C71: translations of the independent nodes are passed exactly to the dependent node, with
no rotation. -/
theorem C71_average_translation (spin : (Fin dim → K) → Matrix (Fin dim) (Fin s) K) (n : ℕ)
    (x : ℕ → Fin dim → K) (w : ℕ → Fin dim ⊕ Fin s → K) (hd : (avgIX spin n x w).det ≠ 0)
    (t : Fin dim → K) : avgValue spin n x w (fun _ => t) = Sum.elim t 0 := by
  have := C71_average_rigid spin n x w hd t 0
  simp only [Matrix.mulVec_zero, add_zero, Pi.zero_apply, mul_zero] at this
  rw [this]
  have e : (Sum.elim 0 fun _ => 0 : Fin dim ⊕ Fin s → K) = 0 := by
    funext a; cases a <;> rfl
  rw [e, Matrix.mulVec_zero, sub_zero]

/-- C71: a rigid motion with the rotation `r` is passed exactly only when the rotation weights
of the rotating directions sum to zero. -/
theorem C71_average_rigid_iff (spin : (Fin dim → K) → Matrix (Fin dim) (Fin s) K) (n : ℕ)
    (x : ℕ → Fin dim → K) (w : ℕ → Fin dim ⊕ Fin s → K) (hd : (avgIX spin n x w).det ≠ 0)
    (t : Fin dim → K) (r : Fin s → K) :
    avgValue spin n x w (fun k => t + spin (x k) *ᵥ r) = Sum.elim t r ↔
      ∀ b, (∑ k ∈ Finset.range n, w k (.inr b)) * r b = 0 := by
  have hu : IsUnit (avgIX spin n x w).det := isUnit_iff_ne_zero.2 hd
  rw [C71_average_rigid spin n x w hd, sub_eq_self]
  constructor
  · intro h b
    have h1 : avgIX spin n x w *ᵥ ((avgIX spin n x w)⁻¹ *ᵥ
        (Sum.elim 0 fun b => (∑ k ∈ Finset.range n, w k (.inr b)) * r b)) = 0 := by
      rw [h, Matrix.mulVec_zero]
    rw [Matrix.mulVec_mulVec, mul_nonsing_inv _ hu, Matrix.one_mulVec] at h1
    exact congrFun h1 (.inr b)
  · intro h
    have e : (Sum.elim 0 fun b => (∑ k ∈ Finset.range n, w k (.inr b)) * r b :
        Fin dim ⊕ Fin s → K) = 0 := by
      funext a
      cases a with
      | inl i => rfl
      | inr b => exact h b
    rw [e, Matrix.mulVec_zero]

/-- C71: with the default weights (ones, scaled by the squared mean distance `len2`) no
nonzero rotation of the independent nodes is passed exactly to the dependent node. -/
theorem C71_average_default_loses_rotation [CharZero K]
    (spin : (Fin dim → K) → Matrix (Fin dim) (Fin s) K) (n : ℕ) (hn : n ≠ 0)
    (x : ℕ → Fin dim → K) (len2 : K) (hl : len2 ≠ 0)
    (hd : (avgIX spin n x (fun _ => avgW len2 fun _ => 1)).det ≠ 0)
    (t : Fin dim → K) (r : Fin s → K) (hr : r ≠ 0) :
    avgValue spin n x (fun _ => avgW len2 fun _ => 1) (fun k => t + spin (x k) *ᵥ r)
      ≠ Sum.elim t r := by
  intro h
  rw [C71_average_rigid_iff spin n x _ hd] at h
  apply hr
  funext b
  have := h b
  simp only [avgW, one_mul, Finset.sum_const, Finset.card_range, nsmul_eq_mul] at this
  rcases mul_eq_zero.1 this with h1 | h1
  · rcases mul_eq_zero.1 h1 with h2 | h2
    · exact absurd (Nat.cast_eq_zero.1 h2) hn
    · exact absurd h2 hl
  · exact h1

/-- C71: the force acting on the dependent node is distributed to the independent nodes
without loss. -/
theorem C71_average_force_balance (spin : (Fin dim → K) → Matrix (Fin dim) (Fin s) K) (n : ℕ)
    (x : ℕ → Fin dim → K) (w : ℕ → Fin dim ⊕ Fin s → K) (hd : (avgIX spin n x w).det ≠ 0)
    (F : Fin dim ⊕ Fin s → K) (i : Fin dim) :
    ∑ k ∈ Finset.range n, avgForce spin n x w F k i = F (.inl i) := by
  -- test the transposed operator with a unit translation
  have h := C71_average_translation spin n x w hd (Pi.single i 1)
  have h1 : ∑ a, F a * avgValue spin n x w (fun _ => Pi.single i 1) a = F (.inl i) := by
    rw [h, Fintype.sum_sum_type]
    simp [Pi.single_apply]
  rw [← h1]
  unfold avgForce avgValue
  simp only [Pi.single_apply, mul_ite, mul_one, mul_zero, Finset.sum_ite_eq', Finset.mem_univ,
    if_true, Finset.mul_sum]
  rw [Finset.sum_comm]
  refine Finset.sum_congr rfl fun a _ => Finset.sum_congr rfl fun k _ => ?_
  ring

/-- C71: the moment of the distributed forces is the applied one less the part carried by the
ignored rotation DOFs. -/
theorem C71_average_moment (spin : (Fin dim → K) → Matrix (Fin dim) (Fin s) K) (n : ℕ)
    (x : ℕ → Fin dim → K) (w : ℕ → Fin dim ⊕ Fin s → K) (hd : (avgIX spin n x w).det ≠ 0)
    (F : Fin dim ⊕ Fin s → K) (b : Fin s) :
    ∑ k ∈ Finset.range n, ∑ i, spin (x k) i b * avgForce spin n x w F k i
      = F (.inr b) - (∑ k ∈ Finset.range n, w k (.inr b))
          * ((avgIX spin n x w)⁻¹ *ᵥ F) (.inr b) := by
  have h := C71_average_rigid spin n x w hd 0 (Pi.single b 1)
  have hsp : ∀ k, (0 : Fin dim → K) + spin (x k) *ᵥ Pi.single b 1 = fun i => spin (x k) i b := by
    intro k; funext i; simp
  simp only [hsp] at h
  have h1 : ∑ a, F a * avgValue spin n x w (fun k i => spin (x k) i b) a
      = ∑ k ∈ Finset.range n, ∑ i, spin (x k) i b * avgForce spin n x w F k i := by
    unfold avgForce avgValue
    simp only [Finset.mul_sum]
    rw [Finset.sum_comm]
    refine Finset.sum_congr rfl fun k _ => ?_
    rw [Finset.sum_comm]
    refine Finset.sum_congr rfl fun i _ => Finset.sum_congr rfl fun a _ => ?_
    ring
  rw [← h1, h]
  have h2 : ∀ v : Fin dim ⊕ Fin s → K, ∑ a, F a * ((avgIX spin n x w)⁻¹ *ᵥ v) a
      = ∑ a, ((avgIX spin n x w)⁻¹ *ᵥ F) a * v a := by
    intro v
    have := Matrix.dotProduct_mulVec F (avgIX spin n x w)⁻¹ v
    simp only [dotProduct] at this
    rw [this]
    refine Finset.sum_congr rfl fun a _ => ?_
    congr 1
    have hs : ((avgIX spin n x w)⁻¹)ᵀ = (avgIX spin n x w)⁻¹ := by
      rw [transpose_nonsing_inv, avgIX_symm]
    rw [← Matrix.mulVec_transpose, hs]
  simp only [Pi.sub_apply, mul_sub, Finset.sum_sub_distrib]
  rw [h2, Fintype.sum_sum_type, Fintype.sum_sum_type]
  simp [Pi.single_apply]
  ring

/-- C71: without the rotation DOFs and with `dim` weight columns the dependent displacement is
the weighted mean. -/
theorem C71_average_plain (n : ℕ) (w u : ℕ → Fin dim → K)
    (hw : ∀ i, ∑ k ∈ Finset.range n, w k i ≠ 0) (a : Fin dim) :
    avgPlain n w u a
      = (∑ k ∈ Finset.range n, w k a * u k a) / ∑ k ∈ Finset.range n, w k a := by
  have hsum : (∑ l ∈ Finset.range n, diagonal (w l))
      = diagonal (fun i => ∑ l ∈ Finset.range n, w l i) := by
    ext i j
    rw [Matrix.sum_apply]
    by_cases h : i = j
    · subst h; simp
    · simp [h]
  have hinv : (∑ l ∈ Finset.range n, diagonal (w l))⁻¹
      = diagonal (fun i => (∑ l ∈ Finset.range n, w l i)⁻¹) := by
    apply Matrix.inv_eq_right_inv
    rw [hsum, diagonal_mul_diagonal]
    have : (fun i => (∑ l ∈ Finset.range n, w l i) * (∑ l ∈ Finset.range n, w l i)⁻¹)
        = fun _ => (1 : K) := by
      funext i; exact mul_inv_cancel₀ (hw i)
    rw [this, diagonal_one]
  unfold avgPlain
  rw [hinv, Finset.sum_div]
  refine Finset.sum_congr rfl fun k _ => ?_
  rw [diagonal_mul_diagonal, Finset.sum_eq_single a]
  · simp; ring
  · intro b _ hb; simp [hb]
  · intro h; exact absurd (Finset.mem_univ _) h

/-- C71: the default weights have `dim2sym(dim)` columns, so without the rotation DOFs the
product with `nm.eye(dim)` raises ValueError in 2D and 3D. -/
theorem C71_average_plain_default_fails (dim : ℕ) (h : dim = 2 ∨ dim = 3) :
    avgPlainShapesOk dim (dim2sym dim) = false := by
  rcases h with rfl | rfl <;> decide

end Verif.Lcbc
