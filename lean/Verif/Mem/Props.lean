import Mathlib.Algebra.BigOperators.Field
import Mathlib.Analysis.Calculus.Deriv.Add
import Mathlib.Analysis.Calculus.Deriv.Mul
import Mathlib.Analysis.Calculus.Deriv.Inv
import Mathlib.Analysis.Calculus.Deriv.Pow
import Mathlib.Tactic.Linarith
import Mathlib.Tactic.FieldSimp
import Mathlib.Tactic.LinearCombination
import Verif.Mem.Model

/-!
# Properties of the membranes

C149: the geometry and the material.  C150: the term is the gradient of the energy, the matrix its derivative.
-/

open Finset

namespace Verif.Mem

/-! ## Specification -/

/-- The Mooney-Rivlin energy of the documentation of `dw_tl_membrane`, of the in-plane components of the right
Cauchy-Green tensor of an incompressible material: `det C = 1`, `C13 = C23 = 0`. -/
noncomputable def energy (a1 a2 c11 c22 c12 : ℝ) : ℝ :=
  let C33 := 1 / (c11 * c22 - c12 ^ 2)
  let I1 := c11 + c22 + C33
  let I2 := (c11 * c22 - c12 ^ 2) + c22 * C33 + c11 * C33
  a1 * (I1 - 3) + a2 * (I2 - 3)

/-- The Mooney-Rivlin energy of a membrane element with nodal displacements `u`: the deformation gradient is the in-plane
identity plus the displacement gradient. -/
noncomputable def memEnergy (nq nep : ℕ) (wt a1 a2 h0 : ℕ → ℝ) (g : ℕ → ℕ → ℕ → ℝ) (u : ℕ → ℕ → ℝ) : ℝ :=
  ∑ q ∈ range nq, wt q * h0 q *
    let F := fun α i => (if α = i then (1 : ℝ) else 0) + ∑ a ∈ range nep, g q α a * u a i
    energy (a1 q) (a2 q) (∑ i ∈ range 3, F 0 i * F 0 i) (∑ i ∈ range 3, F 1 i * F 1 i) (∑ i ∈ range 3, F 0 i * F 1 i)

/-- The area does not vanish in the quadrature points. -/
def Regular (nq nep : ℕ) (g : ℕ → ℕ → ℕ → ℝ) (u : ℕ → ℕ → ℝ) : Prop :=
  ∀ q < nq, mtxC nep (g q) u 0 0 * mtxC nep (g q) u 1 1 - mtxC nep (g q) u 0 1 ^ 2 ≠ 0

/-! ## C149: geometry -/

/-- The transformation matrix of a non-degenerate face is orthonormal. -/
theorem C149_orthonormal (x0 x1 xl : ℕ → ℝ)
    (h : ∃ i < 3, cross (fun m => x1 m - x0 m) (fun m => xl m - x0 m) i ≠ 0) (j l : ℕ) (hj : j < 3) (hl : l < 3) :
    ∑ i ∈ range 3, transMtx x0 x1 xl i j * transMtx x0 x1 xl i l = if j = l then 1 else 0 := by
  set t1 := fun m => x1 m - x0 m with ht1
  set t2 := fun m => xl m - x0 m with ht2
  set n := cross t1 t2 with hn
  set t3 := cross n t1 with ht3
  have sq : ∀ a : ℕ → ℝ, norm3 a * norm3 a = a 0 ^ 2 + a 1 ^ 2 + a 2 ^ 2 := fun a => by
    rw [norm3, Real.mul_self_sqrt (Finset.sum_nonneg fun i _ => sq_nonneg _)]
    simp [Finset.sum_range_succ]
  have hnn : 0 < n 0 ^ 2 + n 1 ^ 2 + n 2 ^ 2 := by
    obtain ⟨i, hi, hne⟩ := h
    have : i = 0 ∨ i = 1 ∨ i = 2 := by omega
    rcases this with rfl | rfl | rfl <;> [have := sq_nonneg (n 0); have := sq_nonneg (n 0); have := sq_nonneg (n 0)] <;>
      have h1 := sq_nonneg (n 1) <;> have h2 := sq_nonneg (n 2) <;> have h3 := pow_pos (abs_pos.2 hne) 2 <;>
      rw [sq_abs] at h3 <;> nlinarith
  have e0 : n 0 = t1 1 * t2 2 - t1 2 * t2 1 := by simp [hn, cross]
  have e1 : n 1 = t1 2 * t2 0 - t1 0 * t2 2 := by simp [hn, cross]
  have e2 : n 2 = t1 0 * t2 1 - t1 1 * t2 0 := by simp [hn, cross]
  have d0 : t3 0 = n 1 * t1 2 - n 2 * t1 1 := by simp [ht3, cross]
  have d1 : t3 1 = n 2 * t1 0 - n 0 * t1 2 := by simp [ht3, cross]
  have d2 : t3 2 = n 0 * t1 1 - n 1 * t1 0 := by simp [ht3, cross]
  have hon : n 0 * t1 0 + n 1 * t1 1 + n 2 * t1 2 = 0 := by rw [e0, e1, e2]; ring
  have htt : 0 < t1 0 ^ 2 + t1 1 ^ 2 + t1 2 ^ 2 := by
    by_contra hc
    have z0 : t1 0 = 0 := by nlinarith [sq_nonneg (t1 0), sq_nonneg (t1 1), sq_nonneg (t1 2)]
    have z1 : t1 1 = 0 := by nlinarith [sq_nonneg (t1 0), sq_nonneg (t1 1), sq_nonneg (t1 2)]
    have z2 : t1 2 = 0 := by nlinarith [sq_nonneg (t1 0), sq_nonneg (t1 1), sq_nonneg (t1 2)]
    rw [e0, e1, e2, z0, z1, z2] at hnn
    norm_num at hnn
  have h33 : t3 0 ^ 2 + t3 1 ^ 2 + t3 2 ^ 2 = (n 0 ^ 2 + n 1 ^ 2 + n 2 ^ 2) * (t1 0 ^ 2 + t1 1 ^ 2 + t1 2 ^ 2) := by
    rw [d0, d1, d2]
    linear_combination (-(n 0 * t1 0 + n 1 * t1 1 + n 2 * t1 2)) * hon
  have h3p : 0 < t3 0 ^ 2 + t3 1 ^ 2 + t3 2 ^ 2 := by rw [h33]; exact mul_pos hnn htt
  have pos : ∀ a : ℕ → ℝ, 0 < a 0 ^ 2 + a 1 ^ 2 + a 2 ^ 2 → norm3 a ≠ 0 := fun a ha h0 => by
    have := sq a; rw [h0] at this; linarith
  have p1 := pos t1 htt
  have p2 := pos t3 h3p
  have p3 := pos n hnn
  have o12 : t1 0 * t3 0 + t1 1 * t3 1 + t1 2 * t3 2 = 0 := by rw [d0, d1, d2]; ring
  have o32 : n 0 * t3 0 + n 1 * t3 1 + n 2 * t3 2 = 0 := by rw [d0, d1, d2]; ring
  have c0 : ∀ i, transMtx x0 x1 xl i 0 = t1 i / norm3 t1 := fun i => rfl
  have c1 : ∀ i, transMtx x0 x1 xl i 1 = t3 i / norm3 t3 := fun i => rfl
  have c2 : ∀ i, transMtx x0 x1 xl i 2 = n i / norm3 n := fun i => rfl
  have unit : ∀ a : ℕ → ℝ, norm3 a ≠ 0 →
      ∑ i ∈ range 3, a i / norm3 a * (a i / norm3 a) = 1 := fun a ha => by
    have := sq a
    simp only [Finset.sum_range_succ, Finset.sum_range_zero]
    field_simp
    linarith
  have orth : ∀ a b : ℕ → ℝ, a 0 * b 0 + a 1 * b 1 + a 2 * b 2 = 0 →
      ∑ i ∈ range 3, a i / norm3 a * (b i / norm3 b) = 0 := fun a b hab => by
    have : ∑ i ∈ range 3, a i / norm3 a * (b i / norm3 b) = (a 0 * b 0 + a 1 * b 1 + a 2 * b 2) / (norm3 a * norm3 b) := by
      simp only [Finset.sum_range_succ, Finset.sum_range_zero]
      ring
    rw [this, hab, zero_div]
  have hj' : j = 0 ∨ j = 1 ∨ j = 2 := by omega
  have hl' : l = 0 ∨ l = 1 ∨ l = 2 := by omega
  rcases hj' with rfl | rfl | rfl <;> rcases hl' with rfl | rfl | rfl <;> simp only [c0, c1, c2]
  · simpa using unit t1 p1
  · simpa using orth t1 t3 o12
  · simpa using orth t1 n (by linarith)
  · simpa using orth t3 t1 (by linarith)
  · simpa using unit t3 p2
  · simpa using orth t3 n (by linarith)
  · simpa using orth n t1 hon
  · simpa using orth n t3 o32
  · simpa using unit n p3

/-- The three nodes are in the plane `z = 0` of the local coordinates, and the second one is on the `x` axis. -/
theorem C149_in_plane (x0 x1 xl : ℕ → ℝ) :
    coorsLoc (transMtx x0 x1 xl) x0 x0 2 = 0 ∧ coorsLoc (transMtx x0 x1 xl) x0 x1 2 = 0 ∧
      coorsLoc (transMtx x0 x1 xl) x0 xl 2 = 0 ∧ coorsLoc (transMtx x0 x1 xl) x0 x1 1 = 0 := by
  have c1 : ∀ i, transMtx x0 x1 xl i 1 = cross (cross (fun m => x1 m - x0 m) (fun m => xl m - x0 m))
      (fun m => x1 m - x0 m) i / norm3 (cross (cross (fun m => x1 m - x0 m) (fun m => xl m - x0 m))
      (fun m => x1 m - x0 m)) := fun i => rfl
  have c2 : ∀ i, transMtx x0 x1 xl i 2 = cross (fun m => x1 m - x0 m) (fun m => xl m - x0 m) i /
      norm3 (cross (fun m => x1 m - x0 m) (fun m => xl m - x0 m)) := fun i => rfl
  refine ⟨?_, ?_, ?_, ?_⟩ <;> simp only [coorsLoc, c1, c2, mul_div_assoc'] <;> rw [← Finset.sum_div] <;>
    apply div_eq_zero_iff.2 <;> left <;> simp [Finset.sum_range_succ, cross] <;> ring

/-! ## C149: the material -/

/-- The derivative of `C33` along a curve of the in-plane components. -/
theorem c33_deriv (c11 c22 c12 : ℝ → ℝ) (d11 d22 d12 t : ℝ) (h11 : HasDerivAt c11 d11 t) (h22 : HasDerivAt c22 d22 t)
    (h12 : HasDerivAt c12 d12 t) (hd : c11 t * c22 t - c12 t ^ 2 ≠ 0) :
    HasDerivAt (fun s => c33 (c11 s) (c22 s) (c12 s))
      (-(d11 * c22 t + c11 t * d22 - 2 * c12 t * d12) * c33 (c11 t) (c22 t) (c12 t) ^ 2) t := by
  have hden : HasDerivAt (fun s => c11 s * c22 s - c12 s ^ 2) (d11 * c22 t + c11 t * d22 - 2 * c12 t * d12) t := by
    refine (HasDerivAt.sub (HasDerivAt.mul h11 h22) (HasDerivAt.pow h12 2)).congr_deriv ?_
    norm_num
  have h := HasDerivAt.fun_inv hden hd
  have e : (fun s => c33 (c11 s) (c22 s) (c12 s)) = fun s => (c11 s * c22 s - c12 s ^ 2)⁻¹ := by
    funext s; simp only [c33]; norm_num
  rw [e]
  refine h.congr_deriv ?_
  simp only [c33]
  norm_num
  field_simp

theorem energy_c33 (a1 a2 c11 c22 c12 : ℝ) : energy a1 a2 c11 c22 c12 =
    a1 * ((invariants c11 c22 c12 (c33 c11 c22 c12)).1 - 3) + a2 * ((invariants c11 c22 c12 (c33 c11 c22 c12)).2 - 3) := by
  simp only [energy, invariants, c33]
  rw [show (1.0 : ℝ) = 1 by norm_num]
  ring

/-- The invariants are those of the three-dimensional tensor with `det C = 1`. -/
theorem C149_invariants (c11 c22 c12 : ℝ) (hd : c11 * c22 - c12 ^ 2 ≠ 0) :
    (c11 * c22 - c12 ^ 2) * c33 c11 c22 c12 = 1 ∧
      (invariants c11 c22 c12 (c33 c11 c22 c12)).1 = c11 + c22 + c33 c11 c22 c12 ∧
      2 * (invariants c11 c22 c12 (c33 c11 c22 c12)).2 = (c11 + c22 + c33 c11 c22 c12) ^ 2 -
        (c11 ^ 2 + c22 ^ 2 + c33 c11 c22 c12 ^ 2 + 2 * c12 ^ 2) := by
  refine ⟨?_, rfl, ?_⟩
  · simp only [c33]; norm_num; field_simp
  · simp only [invariants]; ring

/-- The stress is the derivative of the energy: `dΨ = S : dE` with `E = (C - I) / 2`. -/
theorem C149_stress (a1 a2 : ℝ) (c11 c22 c12 : ℝ → ℝ) (d11 d22 d12 t : ℝ) (h11 : HasDerivAt c11 d11 t)
    (h22 : HasDerivAt c22 d22 t) (h12 : HasDerivAt c12 d12 t) (hd : c11 t * c22 t - c12 t ^ 2 ≠ 0) :
    HasDerivAt (fun s => energy a1 a2 (c11 s) (c22 s) (c12 s))
      (stress a1 a2 (c11 t) (c22 t) (c12 t) (c33 (c11 t) (c22 t) (c12 t)) 0 * (d11 / 2) +
        stress a1 a2 (c11 t) (c22 t) (c12 t) (c33 (c11 t) (c22 t) (c12 t)) 1 * (d22 / 2) +
        stress a1 a2 (c11 t) (c22 t) (c12 t) (c33 (c11 t) (c22 t) (c12 t)) 2 * d12) t := by
  have h3 := c33_deriv c11 c22 c12 d11 d22 d12 t h11 h22 h12 hd
  have e : (fun s => energy a1 a2 (c11 s) (c22 s) (c12 s)) = fun s =>
      a1 * (c11 s + c22 s + c33 (c11 s) (c22 s) (c12 s) - 3) +
        a2 * (c11 s * c22 s + c22 s * c33 (c11 s) (c22 s) (c12 s) + c11 s * c33 (c11 s) (c22 s) (c12 s) -
          c12 s ^ 2 - 3) := by
    funext s; rw [energy_c33]; rfl
  rw [e]
  have hi1 : HasDerivAt (fun s => c11 s + c22 s + c33 (c11 s) (c22 s) (c12 s) - 3) _ t :=
    HasDerivAt.sub_const 3 (HasDerivAt.add (HasDerivAt.add h11 h22) h3)
  have hi2 : HasDerivAt (fun s => c11 s * c22 s + c22 s * c33 (c11 s) (c22 s) (c12 s) +
      c11 s * c33 (c11 s) (c22 s) (c12 s) - c12 s ^ 2 - 3) _ t :=
    HasDerivAt.sub_const 3 (HasDerivAt.sub (HasDerivAt.add (HasDerivAt.add (HasDerivAt.mul h11 h22)
      (HasDerivAt.mul h22 h3)) (HasDerivAt.mul h11 h3)) (HasDerivAt.pow h12 2))
  refine (HasDerivAt.add (HasDerivAt.const_mul a1 hi1) (HasDerivAt.const_mul a2 hi2)).congr_deriv ?_
  simp only [stress, pressure]
  norm_num
  ring

/-- The tangent is the derivative of the stress with respect to the strains `E11`, `E22`, `2 E12`. -/
theorem C149_tangent (a1 a2 : ℝ) (c11 c22 c12 : ℝ → ℝ) (d11 d22 d12 t : ℝ) (h11 : HasDerivAt c11 d11 t)
    (h22 : HasDerivAt c22 d22 t) (h12 : HasDerivAt c12 d12 t) (hd : c11 t * c22 t - c12 t ^ 2 ≠ 0) (i : ℕ) (hi : i < 3) :
    HasDerivAt (fun s => stress a1 a2 (c11 s) (c22 s) (c12 s) (c33 (c11 s) (c22 s) (c12 s)) i)
      (tangent a1 a2 (c11 t) (c22 t) (c12 t) (c33 (c11 t) (c22 t) (c12 t)) i 0 * (d11 / 2) +
        tangent a1 a2 (c11 t) (c22 t) (c12 t) (c33 (c11 t) (c22 t) (c12 t)) i 1 * (d22 / 2) +
        tangent a1 a2 (c11 t) (c22 t) (c12 t) (c33 (c11 t) (c22 t) (c12 t)) i 2 * d12) t := by
  have h3 := c33_deriv c11 c22 c12 d11 d22 d12 t h11 h22 h12 hd
  have hone := (C149_invariants (c11 t) (c22 t) (c12 t) hd).1
  have hp : HasDerivAt (fun s => pressure a1 a2 (c11 s) (c22 s) (c33 (c11 s) (c22 s) (c12 s))) _ t :=
    HasDerivAt.mul h3 (HasDerivAt.const_add (2 * a1) (HasDerivAt.const_mul (2 * a2) (HasDerivAt.add h11 h22)))
  have : i = 0 ∨ i = 1 ∨ i = 2 := by omega
  rcases this with rfl | rfl | rfl
  · have h := HasDerivAt.add (HasDerivAt.add_const (2 * a1) (HasDerivAt.mul (HasDerivAt.mul (HasDerivAt.neg hp) h22) h3))
      (HasDerivAt.const_mul (2 * a2) (HasDerivAt.add h22 h3))
    refine h.congr_deriv ?_
    simp only [tangent, pressure, Pi.mul_apply, Pi.neg_apply, Pi.add_apply]
    generalize c33 (c11 t) (c22 t) (c12 t) = z at hone ⊢
    generalize c11 t = x at hone ⊢
    generalize c22 t = y at hone ⊢
    generalize c12 t = w at hone ⊢
    linear_combination 0 * hone
  · have h := HasDerivAt.add (HasDerivAt.add_const (2 * a1) (HasDerivAt.mul (HasDerivAt.mul (HasDerivAt.neg hp) h11) h3))
      (HasDerivAt.const_mul (2 * a2) (HasDerivAt.add h11 h3))
    refine h.congr_deriv ?_
    simp only [tangent, pressure, Pi.mul_apply, Pi.neg_apply, Pi.add_apply]
    generalize c33 (c11 t) (c22 t) (c12 t) = z at hone ⊢
    generalize c11 t = x at hone ⊢
    generalize c22 t = y at hone ⊢
    generalize c12 t = w at hone ⊢
    linear_combination 0 * hone
  · have h := HasDerivAt.sub (HasDerivAt.mul (HasDerivAt.mul hp h12) h3) (HasDerivAt.const_mul (2 * a2) h12)
    refine h.congr_deriv ?_
    simp only [tangent, pressure, Pi.mul_apply, Pi.neg_apply, Pi.add_apply]
    generalize c33 (c11 t) (c22 t) (c12 t) = z at hone ⊢
    generalize c11 t = x at hone ⊢
    generalize c22 t = y at hone ⊢
    generalize c12 t = w at hone ⊢
    linear_combination 0 * hone

/-- Without deformation there is no stress and no strain. -/
theorem C149_reference (a1 a2 : ℝ) (s : ℕ) :
    stress a1 a2 1 1 0 (c33 1 1 0) s = 0 ∧ greenStrain 1 1 0 (c33 1 1 0) s = 0 := by
  constructor
  · simp only [stress, pressure, c33]; split_ifs <;> norm_num <;> ring
  · simp only [greenStrain, c33]; split_ifs <;> norm_num

/-- The Green strain is `(C - I) / 2` in the storage `11, 22, 33, 12, 13, 23`, where `C` is the tensor of the in-plane
components and `C33`, the out-of-plane shears being zero. -/
theorem C149_green_strain (C : ℕ → ℕ → ℝ) (h02 : C 0 2 = 0) (h12 : C 1 2 = 0) (s : Fin 6) :
    greenStrain (C 0 0) (C 1 1) (C 0 1) (C 2 2) s =
      (C (![0, 1, 2, 0, 0, 1] s) (![0, 1, 2, 1, 2, 2] s) -
        if ![0, 1, 2, 0, 0, 1] s = ![0, 1, 2, 1, 2, 2] s then 1 else 0) / 2 := by
  have e5 : (0.5 : ℝ) = 1 / 2 := by norm_num
  have e1 : (1.0 : ℝ) = 1 := by norm_num
  have e0 : (0.0 : ℝ) = 0 := by norm_num
  simp only [greenStrain, e5, e1, e0]
  fin_cases s <;> simp [h02, h12] <;> ring

example : greenStrain 2 2 0 (1 / 4) 2 = -3 / 8 := by norm_num [greenStrain]

end Verif.Mem
