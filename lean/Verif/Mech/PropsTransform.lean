/-
C39 (small inverses), C49 (coordinate transformations of tensors), C51 (stress measures).
-/
import Verif.Mech.PropsTensor
import Mathlib.LinearAlgebra.UnitaryGroup
import Mathlib.LinearAlgebra.Matrix.Determinant.Basic

namespace Verif.Mech

open Matrix

section field
variable {K : Type} [Field K]

/-! ### C39 -/

/-- `invs_fast()` with the determinant computed inside: a two-sided inverse of every 1x1, 2x2 and
3x3 matrix with a non-zero determinant. -/
theorem C39_invs_fast (a1 : Matrix (Fin 1) (Fin 1) K) (a2 : Matrix (Fin 2) (Fin 2) K)
    (a3 : Matrix (Fin 3) (Fin 3) K) :
    (a1.det ≠ 0 → invsFast1 a1 a1.det * a1 = 1 ∧ a1 * invsFast1 a1 a1.det = 1) ∧
    (a2.det ≠ 0 → invsFast2 a2 a2.det * a2 = 1 ∧ a2 * invsFast2 a2 a2.det = 1) ∧
    (a3.det ≠ 0 → invsFast3 a3 a3.det * a3 = 1 ∧ a3 * invsFast3 a3 a3.det = 1) := by
  refine ⟨fun h => ?_, fun h => ?_, fun h => ?_⟩
  · have : invsFast1 a1 a1.det * a1 = 1 := by
      rw [Matrix.det_fin_one] at *
      ext i j
      fin_cases i; fin_cases j
      simp [invsFast1, Matrix.mul_apply]
      field_simp
    exact ⟨this, mul_eq_one_comm.1 this⟩
  · have : invsFast2 a2 a2.det * a2 = 1 := by
      have e : invsFast2 a2 a2.det = a2.det⁻¹ • invsFast2 a2 1 := by
        ext i j
        simp only [invsFast2, Matrix.of_apply, Matrix.smul_apply, smul_eq_mul, div_one]
        field_simp
      have e2 : invsFast2 a2 1 * a2 = a2.det • (1 : Matrix (Fin 2) (Fin 2) K) := by
        rw [Matrix.det_fin_two]
        ext i j
        fin_cases i <;> fin_cases j <;>
          simp [invsFast2, Matrix.mul_apply, Fin.sum_univ_succ] <;> ring
      rw [e, Matrix.smul_mul, e2, smul_smul, inv_mul_cancel₀ h, one_smul]
    exact ⟨this, mul_eq_one_comm.1 this⟩
  · have : invsFast3 a3 a3.det * a3 = 1 := by
      have e : invsFast3 a3 a3.det = a3.det⁻¹ • invsFast3 a3 1 := by
        ext i j
        simp only [invsFast3, Matrix.of_apply, Matrix.smul_apply, smul_eq_mul, div_one]
        field_simp
      have e2 : invsFast3 a3 1 * a3 = a3.det • (1 : Matrix (Fin 3) (Fin 3) K) := by
        rw [Matrix.det_fin_three]
        ext i j
        fin_cases i <;> fin_cases j <;>
          simp [invsFast3, Matrix.mul_apply, Fin.sum_univ_succ] <;> ring
      rw [e, Matrix.smul_mul, e2, smul_smul, inv_mul_cancel₀ h, one_smul]
    exact ⟨this, mul_eq_one_comm.1 this⟩

example : invsFast3 !![1, 2, 3; 0, 1, 4; 5, 6, 0] (1 : ℚ) = !![-24, 18, 5; 20, -15, -4; -5, 4, 1]
    := by
  ext i j
  fin_cases i <;> fin_cases j <;> simp [invsFast3] <;> norm_num

/-- A wrong `det` argument scales the result by the ratio of the determinants: the caller is
responsible for it. -/
theorem C39_det_argument (a : Matrix (Fin 3) (Fin 3) K) (det : K) (hd : det ≠ 0)
    (ha : a.det ≠ 0) : invsFast3 a det * a = (a.det / det) • 1 := by
  have e : invsFast3 a det = (a.det / det) • invsFast3 a a.det := by
    ext i j
    simp only [invsFast3, Matrix.of_apply, Matrix.smul_apply, smul_eq_mul]
    field_simp
  rw [e, Matrix.smul_mul, ((C39_invs_fast (K := K) 0 0 a).2.2 ha).1]

/-! ### C49: transformations -/

theorem toFull3_toSym3 {a : Matrix (Fin 3) (Fin 3) K} (h : aᵀ = a) : toFull3 (toSym3 a) = a :=
  (C29_full_sym_full (α := K) 0 a).2.2 h

omit [Field K] in
theorem toFull3_transpose (t : Fin 6 → K) : (toFull3 t)ᵀ = toFull3 t := by
  ext i j; fin_cases i <;> fin_cases j <;> rfl

omit [Field K] in
theorem toFull2_transpose (t : Fin 3 → K) : (toFull2 t)ᵀ = toFull2 t := by
  ext i j; fin_cases i <;> fin_cases j <;> rfl

theorem toFull3_injective {s t : Fin 6 → K} (h : toFull3 s = toFull3 t) : s = t := by
  rw [← (C29_sym_full_sym (α := K) 0 s).2, h, (C29_sym_full_sym (α := K) 0 t).2]

theorem conj_symm (m : Matrix (Fin 3) (Fin 3) K) (t : Fin 6 → K) :
    (m * toFull3 t * mᵀ)ᵀ = m * toFull3 t * mᵀ := by
  rw [Matrix.transpose_mul, Matrix.transpose_mul, Matrix.transpose_transpose, toFull3_transpose,
    Matrix.mul_assoc]

/-- The transformed symmetric storage is the storage of `M t M^T`, for every matrix `M`. -/
theorem C49_second_order (m : Matrix (Fin 3) (Fin 3) K) (t : Fin 6 → K) :
    toFull3 (transformSym m t) = m * toFull3 t * mᵀ :=
  toFull3_toSym3 (conj_symm m t)

/-- The documented index form `t'_ij = M_ip M_jq t_pq`. -/
theorem C49_second_order_index (m : Matrix (Fin 3) (Fin 3) K) (t : Fin 6 → K) (i j : Fin 3) :
    toFull3 (transformSym m t) i j = ∑ p, ∑ q, m i p * m j q * toFull3 t p q := by
  rw [C49_second_order, Matrix.mul_apply, Finset.sum_comm]
  refine Finset.sum_congr rfl fun q _ => ?_
  rw [Matrix.mul_apply, Finset.sum_mul]
  refine Finset.sum_congr rfl fun p _ => ?_
  rw [Matrix.transpose_apply]
  ring

/-- The transformation is functorial: transforming by `M` and then by `N` is transforming by
`N M`; the identity does nothing; for orthogonal `M` the transpose undoes it. Vectors and second
order tensors. -/
theorem C49_group (m n : Matrix (Fin 3) (Fin 3) K) (v : Fin 3 → K) (t : Fin 6 → K) :
    transformVec n (transformVec m v) = transformVec (n * m) v ∧
    transformSym n (transformSym m t) = transformSym (n * m) t ∧
    transformVec 1 v = v ∧ transformSym 1 t = t ∧
    (mᵀ * m = 1 → transformVec mᵀ (transformVec m v) = v ∧
      transformSym mᵀ (transformSym m t) = t) := by
  have hv : ∀ n m : Matrix (Fin 3) (Fin 3) K,
      transformVec n (transformVec m v) = transformVec (n * m) v := by
    intro n m
    simp [transformVec, Matrix.mulVec_mulVec]
  have ht : ∀ n m : Matrix (Fin 3) (Fin 3) K,
      transformSym n (transformSym m t) = transformSym (n * m) t := by
    intro n m
    apply toFull3_injective
    rw [C49_second_order, C49_second_order, C49_second_order, Matrix.transpose_mul]
    simp only [Matrix.mul_assoc]
  have hv1 : transformVec 1 v = v := by simp [transformVec]
  have ht1 : transformSym 1 t = t := by
    apply toFull3_injective
    rw [C49_second_order]
    simp
  refine ⟨hv n m, ht n m, hv1, ht1, fun h => ⟨?_, ?_⟩⟩
  · rw [hv, h, hv1]
  · rw [ht, h, ht1]

/-- Consistency between vectors and tensors: the transform of `t v` is the transformed tensor
applied to the transformed vector, for orthogonal `M`. -/
theorem C49_vec_tensor (m : Matrix (Fin 3) (Fin 3) K) (hm : mᵀ * m = 1) (v : Fin 3 → K)
    (t : Fin 6 → K) :
    toFull3 (transformSym m t) *ᵥ transformVec m v = transformVec m (toFull3 t *ᵥ v) := by
  rw [C49_second_order, transformVec, transformVec, Matrix.mulVec_mulVec, Matrix.mulVec_mulVec,
    Matrix.mul_assoc, Matrix.mul_assoc, hm, Matrix.mul_one]

/-- Orthogonal transformations keep the trace and the determinant (the invariants) of a tensor and
the dot products of vectors. -/
theorem C49_invariants (m : Matrix (Fin 3) (Fin 3) K) (hm : mᵀ * m = 1) (t : Fin 6 → K)
    (u v : Fin 3 → K) :
    getTraceSym (transformSym m t) = getTraceSym t ∧
    (toFull3 (transformSym m t)).det = (toFull3 t).det ∧
    transformVec m u ⬝ᵥ transformVec m v = u ⬝ᵥ v := by
  refine ⟨?_, ?_, ?_⟩
  · rw [((C30_storages_agree (K := K) 0 (transformSym m t)).2).1,
      ((C30_storages_agree (K := K) 0 t).2).1, C49_second_order]
    congr 1
    change Matrix.trace _ = Matrix.trace _
    rw [Matrix.trace_mul_comm, ← Matrix.mul_assoc, hm, Matrix.one_mul]
    rfl
  · rw [C49_second_order, Matrix.det_mul, Matrix.det_mul, mul_comm, ← mul_assoc, ← Matrix.det_mul,
      hm, Matrix.det_one, one_mul]
  · rw [transformVec, transformVec, Matrix.dotProduct_mulVec, Matrix.vecMul_mulVec, hm,
      Matrix.vecMul_one]

/-- Fourth order tensors: the transformed storage is the storage of
`t'_ijkl = M_ip M_jq M_kr M_ls t_pqrs`, for every `M`. -/
theorem C49_fourth_order (m : Matrix (Fin 3) (Fin 3) K) (t : Matrix (Fin 6) (Fin 6) K)
    (i j k l : Fin 3) :
    t4FromT2s3 (transformSym4 m t) i j k l =
      ∑ p, ∑ q, ∑ r, ∑ s, m i p * m j q * m k r * m l s * t4FromT2s3 t p q r s := by
  have mi : ∀ i j k l, transformT4 m (t4FromT2s3 t) i j k l
      = transformT4 m (t4FromT2s3 t) j i k l := by
    intro i j k l
    unfold transformT4
    rw [Finset.sum_comm]
    refine Finset.sum_congr rfl fun q _ => Finset.sum_congr rfl fun p _ =>
      Finset.sum_congr rfl fun r _ => Finset.sum_congr rfl fun s _ => ?_
    rw [((C29_t4 (α := K) 0 t).2.1 p q r s).1]
    ring
  have mk : ∀ i j k l, transformT4 m (t4FromT2s3 t) i j k l
      = transformT4 m (t4FromT2s3 t) i j l k := by
    intro i j k l
    unfold transformT4
    refine Finset.sum_congr rfl fun p _ => Finset.sum_congr rfl fun q _ => ?_
    rw [Finset.sum_comm]
    refine Finset.sum_congr rfl fun s _ => Finset.sum_congr rfl fun r _ => ?_
    rw [((C29_t4 (α := K) 0 t).2.1 p q r s).2]
    ring
  have e : t4FromT2s3 (transformSym4 m t) i j k l = transformT4 m (t4FromT2s3 t) i j k l := by
    have h1 : ∀ (T : Fin 3 → Fin 3 → K), (∀ a b, T a b = T b a) → ∀ a b,
        flat3 (Matrix.of T) (symIdx3 (fullIdx3 a b)) = T a b := by
      intro T hT a b
      fin_cases a <;> fin_cases b <;> first | rfl | exact hT _ _
    unfold t4FromT2s3 transformSym4 t4ToSym
    simp only [Matrix.of_apply]
    rw [h1 (fun i j => flat3 (Matrix.of fun k l => transformT4 m (t4FromT2s3 t) i j k l)
      (symIdx3 (fullIdx3 k l)))]
    · exact h1 _ (fun a b => mk i j a b) k l
    · intro a b
      rw [h1 _ (fun c d => mk a b c d), h1 _ (fun c d => mk b a c d)]
      exact mi a b k l
  rw [e]
  unfold transformT4
  refine Finset.sum_congr rfl fun p _ => Finset.sum_congr rfl fun q _ =>
    Finset.sum_congr rfl fun r _ => Finset.sum_congr rfl fun s _ => ?_
  ring

/-- Specification: full double contraction `(D : e)_ij = D_ijkl e_kl`. -/
def contract4 (t : Fin 3 → Fin 3 → Fin 3 → Fin 3 → K) (e : Matrix (Fin 3) (Fin 3) K) :
    Matrix (Fin 3) (Fin 3) K :=
  Matrix.of fun i j => ∑ k, ∑ l, t i j k l * e k l

/-- Constitutive consistency: for orthogonal `M`, the transformed stiffness gives, for the
transformed strain, the transformed stress. -/
theorem C49_constitutive (m : Matrix (Fin 3) (Fin 3) K) (hm : mᵀ * m = 1)
    (d : Matrix (Fin 6) (Fin 6) K) (e : Matrix (Fin 3) (Fin 3) K) :
    contract4 (t4FromT2s3 (transformSym4 m d)) (m * e * mᵀ) =
      m * contract4 (t4FromT2s3 d) e * mᵀ := by
  -- matrices over pairs of indices
  have hm' : ∀ p q, ∑ k, m k p * m k q = if p = q then 1 else 0 := by
    intro p q
    have := congrFun (congrFun hm p) q
    rw [Matrix.mul_apply, Matrix.one_apply] at this
    simpa [Matrix.transpose_apply] using this
  have pull : ∀ r s, ∑ k, ∑ l, m k r * m l s * (m * e * mᵀ) k l = e r s := by
    intro r s
    have h : mᵀ * (m * e * mᵀ) * m = e := by
      rw [← Matrix.mul_assoc, ← Matrix.mul_assoc, hm, Matrix.one_mul, Matrix.mul_assoc, hm,
        Matrix.mul_one]
    have h2 := congrFun (congrFun h r) s
    rw [← h2, Matrix.mul_apply, Finset.sum_comm]
    refine Finset.sum_congr rfl fun l _ => ?_
    rw [Matrix.mul_apply, Finset.sum_mul]
    refine Finset.sum_congr rfl fun k _ => ?_
    rw [Matrix.transpose_apply]
    ring
  ext i j
  have lhs : contract4 (t4FromT2s3 (transformSym4 m d)) (m * e * mᵀ) i j
      = ∑ p, ∑ q, ∑ r, ∑ s, m i p * m j q * t4FromT2s3 d p q r s * e r s := by
    simp only [contract4, Matrix.of_apply, C49_fourth_order]
    calc ∑ k, ∑ l, (∑ p, ∑ q, ∑ r, ∑ s, m i p * m j q * m k r * m l s * t4FromT2s3 d p q r s)
            * (m * e * mᵀ) k l
        = ∑ k, ∑ l, ∑ p, ∑ q, ∑ r, ∑ s, m i p * m j q * t4FromT2s3 d p q r s
            * (m k r * m l s * (m * e * mᵀ) k l) := by
          refine Finset.sum_congr rfl fun k _ => Finset.sum_congr rfl fun l _ => ?_
          simp only [Finset.sum_mul]
          refine Finset.sum_congr rfl fun p _ => Finset.sum_congr rfl fun q _ =>
            Finset.sum_congr rfl fun r _ => Finset.sum_congr rfl fun s _ => ?_
          ring
      _ = ∑ p, ∑ q, ∑ r, ∑ s, ∑ k, ∑ l, m i p * m j q * t4FromT2s3 d p q r s
            * (m k r * m l s * (m * e * mᵀ) k l) := by
          have sw : ∀ f : Fin 3 → Fin 3 → Fin 3 → Fin 3 → Fin 3 → Fin 3 → K,
              ∑ k, ∑ l, ∑ p, ∑ q, ∑ r, ∑ s, f k l p q r s
              = ∑ p, ∑ q, ∑ r, ∑ s, ∑ k, ∑ l, f k l p q r s := by
            intro f
            have mv : ∀ g : Fin 3 → Fin 3 → Fin 3 → Fin 3 → Fin 3 → K,
                ∑ l, ∑ p, ∑ q, ∑ r, ∑ s, g l p q r s = ∑ p, ∑ q, ∑ r, ∑ s, ∑ l, g l p q r s := by
              intro g
              rw [Finset.sum_comm]
              refine Finset.sum_congr rfl fun p _ => ?_
              rw [Finset.sum_comm]
              refine Finset.sum_congr rfl fun q _ => ?_
              rw [Finset.sum_comm]
              refine Finset.sum_congr rfl fun r _ => ?_
              rw [Finset.sum_comm]
            rw [← mv fun k p q r s => ∑ l, f k l p q r s]
            exact Finset.sum_congr rfl fun k _ => mv (f k)
          exact sw _
      _ = ∑ p, ∑ q, ∑ r, ∑ s, m i p * m j q * t4FromT2s3 d p q r s * e r s := by
          refine Finset.sum_congr rfl fun p _ => Finset.sum_congr rfl fun q _ =>
            Finset.sum_congr rfl fun r _ => Finset.sum_congr rfl fun s _ => ?_
          simp only [← Finset.mul_sum]
          rw [pull]
  rw [lhs, Matrix.mul_apply, Finset.sum_comm]
  refine Finset.sum_congr rfl fun q _ => ?_
  rw [Matrix.mul_apply, Finset.sum_mul]
  refine Finset.sum_congr rfl fun p _ => ?_
  simp only [contract4, Matrix.of_apply, Matrix.transpose_apply, Finset.mul_sum, Finset.sum_mul]
  refine Finset.sum_congr rfl fun r _ => Finset.sum_congr rfl fun s _ => ?_
  ring

/-! ### C51: stress measures -/

/-- `P = F S` and `J sigma = F S F^T = P F^T`, the documented relations; the symmetry assertion
never fails. 3D. -/
theorem C51_cauchy3 [DecidableEq K] (f : Matrix (Fin 3) (Fin 3) K) (s : Fin 6 → K) :
    pk1From2pk3 f s = f * toFull3 s ∧
    ∃ c, cauchyFrom2pk3 f s = some c ∧
      toFull3 c = f.det⁻¹ • (f * toFull3 s * fᵀ) ∧
      (f.det ≠ 0 → f.det • toFull3 c = pk1From2pk3 f s * fᵀ) := by
  have hs : (f.det⁻¹ • (f * toFull3 s * fᵀ))ᵀ = f.det⁻¹ • (f * toFull3 s * fᵀ) := by
    rw [Matrix.transpose_smul, conj_symm]
  refine ⟨rfl, toSym3 (f.det⁻¹ • (f * toFull3 s * fᵀ)), ?_, toFull3_toSym3 hs, fun h => ?_⟩
  · unfold cauchyFrom2pk3
    simp only
    rw [if_pos]
    set o := f.det⁻¹ • (f * toFull3 s * fᵀ) with ho
    have e1 : o 0 1 = o 1 0 := congrFun (congrFun hs 1) 0
    have e2 : o 0 2 = o 2 0 := congrFun (congrFun hs 2) 0
    have e3 : o 1 2 = o 2 1 := congrFun (congrFun hs 2) 1
    change [o 0 1, o 0 2, o 1 2] = [o 1 0, o 2 0, o 2 1]
    rw [e1, e2, e3]
  · rw [toFull3_toSym3 hs, smul_smul, mul_inv_cancel₀ h, one_smul]
    rfl

/-- The same in 2D. -/
theorem C51_cauchy2 [DecidableEq K] (f : Matrix (Fin 2) (Fin 2) K) (s : Fin 3 → K) :
    pk1From2pk2 f s = f * toFull2 s ∧
    ∃ c, cauchyFrom2pk2 f s = some c ∧
      toFull2 c = f.det⁻¹ • (f * toFull2 s * fᵀ) ∧
      (f.det ≠ 0 → f.det • toFull2 c = pk1From2pk2 f s * fᵀ) := by
  have hs0 : (f * toFull2 s * fᵀ)ᵀ = f * toFull2 s * fᵀ := by
    rw [Matrix.transpose_mul, Matrix.transpose_mul, Matrix.transpose_transpose, toFull2_transpose,
      Matrix.mul_assoc]
  have hs : (f.det⁻¹ • (f * toFull2 s * fᵀ))ᵀ = f.det⁻¹ • (f * toFull2 s * fᵀ) := by
    rw [Matrix.transpose_smul, hs0]
  have hb : toFull2 (toSym2 (f.det⁻¹ • (f * toFull2 s * fᵀ))) = f.det⁻¹ • (f * toFull2 s * fᵀ) :=
    (C29_full_sym_full (α := K) _ 0).1.2 hs
  refine ⟨rfl, toSym2 (f.det⁻¹ • (f * toFull2 s * fᵀ)), ?_, hb, fun h => ?_⟩
  · unfold cauchyFrom2pk2
    simp only
    rw [if_pos]
    set o := f.det⁻¹ • (f * toFull2 s * fᵀ) with ho
    have e1 : o 0 1 = o 1 0 := congrFun (congrFun hs 1) 0
    change [o 0 1] = [o 1 0]
    rw [e1]
  · rw [hb, smul_smul, mul_inv_cancel₀ h, one_smul]
    rfl

/-- Push-forward then pull-back: the second Piola-Kirchhoff stress is recovered as
`J F^-1 sigma F^-T`, i.e. no information is lost; without deformation all measures agree. -/
theorem C51_pull_back [DecidableEq K] (f : Matrix (Fin 3) (Fin 3) K) (h : f.det ≠ 0)
    (s c : Fin 6 → K) (hc : cauchyFrom2pk3 f s = some c) :
    f.det • (f⁻¹ * toFull3 c * (f⁻¹)ᵀ) = toFull3 s ∧
    cauchyFrom2pk3 1 s = some s ∧ pk1From2pk3 1 s = toFull3 s := by
  obtain ⟨-, c', h1, h2, -⟩ := C51_cauchy3 f s
  have hcc : c' = c := by rw [h1] at hc; exact Option.some.inj hc
  subst hcc
  have hu : IsUnit f.det := isUnit_iff_ne_zero.2 h
  obtain ⟨-, c1, g1, g2, -⟩ := C51_cauchy3 (1 : Matrix (Fin 3) (Fin 3) K) s
  refine ⟨?_, ?_, by simp [pk1From2pk3]⟩
  · rw [h2, Matrix.mul_smul, Matrix.smul_mul, smul_smul, mul_inv_cancel₀ h, one_smul,
      ← Matrix.mul_assoc, ← Matrix.mul_assoc, Matrix.nonsing_inv_mul _ hu, Matrix.one_mul,
      Matrix.mul_assoc, ← Matrix.transpose_mul, Matrix.nonsing_inv_mul _ hu,
      Matrix.transpose_one, Matrix.mul_one]
  · rw [g1]
    congr 1
    apply toFull3_injective
    rw [g2]
    simp

example : ∃ c, cauchyFrom2pk3 (!![2, 1, 0; 0, 1, 0; 0, 0, 3] : Matrix (Fin 3) (Fin 3) ℚ)
    ![1, 2, 3, 4, 5, 6] = some c ∧ c 0 = 22 / 6 := by
  obtain ⟨-, c, h1, h2, -⟩ := C51_cauchy3
    (!![2, 1, 0; 0, 1, 0; 0, 0, 3] : Matrix (Fin 3) (Fin 3) ℚ) ![1, 2, 3, 4, 5, 6]
  refine ⟨c, h1, ?_⟩
  have := congrFun (congrFun h2 0) 0
  change c 0 = _ at this
  rw [this, Matrix.det_fin_three]
  simp only [Matrix.smul_apply, Matrix.mul_apply, Fin.sum_univ_succ, toFull3, fullIdx3,
    Matrix.of_apply, Matrix.transpose_apply]
  simp
  norm_num

end field

/-! ### C49: rotations -/

/-- The von Mises stress does not depend on the coordinate system. -/
theorem C49_vonMises (m : Matrix (Fin 3) (Fin 3) ℝ) (hm : mᵀ * m = 1) (s : Fin 6 → ℝ) :
    getVonMisesSym (transformSym m s) = getVonMisesSym s := by
  -- von Mises^2 = 3/2 (t:t) - 1/2 tr^2
  have key : ∀ s : Fin 6 → ℝ, getVonMisesSym s =
      some (√(3 / 2 * Matrix.trace (toFull3 s * toFull3 s) - 1 / 2 * Matrix.trace (toFull3 s) ^ 2)) := by
    intro s
    rw [getVonMisesSym3, vonMises3]
    congr 2
    simp [Matrix.trace, Matrix.mul_apply, toFull3, fullIdx3, Fin.sum_univ_succ]
    ring
  rw [key, key, C49_second_order]
  have t1 : Matrix.trace (m * toFull3 s * mᵀ) = Matrix.trace (toFull3 s) := by
    rw [Matrix.trace_mul_comm, ← Matrix.mul_assoc, hm, Matrix.one_mul]
  have t2 : m * toFull3 s * mᵀ * (m * toFull3 s * mᵀ) = m * (toFull3 s * toFull3 s) * mᵀ := by
    calc m * toFull3 s * mᵀ * (m * toFull3 s * mᵀ)
        = m * toFull3 s * (mᵀ * m) * toFull3 s * mᵀ := by simp only [Matrix.mul_assoc]
      _ = m * (toFull3 s * toFull3 s) * mᵀ := by rw [hm]; simp only [Matrix.mul_one, Matrix.mul_assoc]
  have t3 : Matrix.trace (m * (toFull3 s * toFull3 s) * mᵀ)
      = Matrix.trace (toFull3 s * toFull3 s) := by
    rw [Matrix.trace_mul_comm, ← Matrix.mul_assoc, hm, Matrix.one_mul]
  rw [t1, t2, t3]

/-- The unit vector of `make_axis_rotation_matrix()`. -/
theorem unit_dir (d : Fin 3 → ℝ) (h : d ≠ 0) :
    let n := √(d 0 ^ 2 + d 1 ^ 2 + d 2 ^ 2)
    n ≠ 0 ∧ (d 0 / n) ^ 2 + (d 1 / n) ^ 2 + (d 2 / n) ^ 2 = 1 := by
  intro n
  have hp : 0 < d 0 ^ 2 + d 1 ^ 2 + d 2 ^ 2 := by
    have : ∃ i, d i ≠ 0 := by
      by_contra hc
      push Not at hc
      exact h (funext hc)
    obtain ⟨i, hi⟩ := this
    have hi2 : 0 < d i ^ 2 := by positivity
    fin_cases i <;> simp at hi2 <;> nlinarith [sq_nonneg (d 0), sq_nonneg (d 1), sq_nonneg (d 2)]
  have hn : n ^ 2 = d 0 ^ 2 + d 1 ^ 2 + d 2 ^ 2 := Real.sq_sqrt hp.le
  have hn0 : n ≠ 0 := (Real.sqrt_pos.2 hp).ne'
  refine ⟨hn0, ?_⟩
  rw [div_pow, div_pow, div_pow, ← add_div, ← add_div, ← hn]
  field_simp

/-- `make_axis_rotation_matrix()` gives, for every non-zero direction and every angle, a proper
rotation matrix that keeps the axis; the angles add; a negative angle gives the transpose. -/
theorem C49_rotation (d : Fin 3 → ℝ) (hd : d ≠ 0) (a b : ℝ) :
    (axisRotation d a)ᵀ * axisRotation d a = 1 ∧
    (axisRotation d a).det = 1 ∧
    axisRotation d a *ᵥ d = d ∧
    axisRotation d a * axisRotation d b = axisRotation d (a + b) ∧
    axisRotation d (-a) = (axisRotation d a)ᵀ ∧
    axisRotation d 0 = 1 := by
  obtain ⟨hn, hu⟩ := unit_dir d hd
  set n := √(d 0 ^ 2 + d 1 ^ 2 + d 2 ^ 2) with hndef
  set x := d 0 / n
  set y := d 1 / n
  set z := d 2 / n
  have hx : x ^ 2 = 1 - y ^ 2 - z ^ 2 := by linarith
  have mat : ∀ a, axisRotation d a =
      !![x * x + Real.cos a * (1 - x * x), x * y - Real.cos a * (x * y) + Real.sin a * z,
          x * z - Real.cos a * (x * z) - Real.sin a * y;
         y * x - Real.cos a * (y * x) - Real.sin a * z, y * y + Real.cos a * (1 - y * y),
          y * z - Real.cos a * (y * z) + Real.sin a * x;
         z * x - Real.cos a * (z * x) + Real.sin a * y,
          z * y - Real.cos a * (z * y) - Real.sin a * x, z * z + Real.cos a * (1 - z * z)] := by
    intro a
    ext i j
    fin_cases i <;> fin_cases j <;>
      simp [axisRotation, ← hndef] <;> ring
  have hz0 : axisRotation d 0 = 1 := by
    rw [mat, Real.cos_zero, Real.sin_zero]
    ext i j
    fin_cases i <;> fin_cases j <;> simp
  have hneg : ∀ a, axisRotation d (-a) = (axisRotation d a)ᵀ := by
    intro a
    rw [mat, mat, Real.cos_neg, Real.sin_neg]
    ext i j
    fin_cases i <;> fin_cases j <;> simp <;> ring
  have hadd : ∀ a b, axisRotation d a * axisRotation d b = axisRotation d (a + b) := by
    intro a b
    rw [mat, mat, mat, Real.cos_add, Real.sin_add]
    set c := Real.cos a
    set s := Real.sin a
    set c' := Real.cos b
    set s' := Real.sin b
    ext i j
    fin_cases i <;> fin_cases j <;> simp [Matrix.mul_apply, Fin.sum_univ_succ]
    · linear_combination (x ^ 2 * (c - 1) * (c' - 1) - s * s') * hu
    · linear_combination (x * y * (c - 1) * (c' - 1)) * hu
    · linear_combination (x * z * (c - 1) * (c' - 1)) * hu
    · linear_combination (x * y * (c - 1) * (c' - 1)) * hu
    · linear_combination (y ^ 2 * (c - 1) * (c' - 1) - s * s') * hu
    · linear_combination (y * z * (c - 1) * (c' - 1)) * hu
    · linear_combination (x * z * (c - 1) * (c' - 1)) * hu
    · linear_combination (y * z * (c - 1) * (c' - 1)) * hu
    · linear_combination (z ^ 2 * (c - 1) * (c' - 1) - s * s') * hu
  have horth : (axisRotation d a)ᵀ * axisRotation d a = 1 := by
    rw [← hneg, hadd, neg_add_cancel, hz0]
  refine ⟨horth, ?_, ?_, hadd a b, hneg a, hz0⟩
  · -- det R(a) = det R(a/2)^2 = 1
    have h2 : (axisRotation d (a / 2)).det * (axisRotation d (a / 2)).det = 1 := by
      have : (axisRotation d (a / 2))ᵀ * axisRotation d (a / 2) = 1 := by
        rw [← hneg, hadd, neg_add_cancel, hz0]
      have h3 := congrArg Matrix.det this
      rwa [Matrix.det_mul, Matrix.det_transpose, Matrix.det_one] at h3
    have h4 := congrArg Matrix.det (hadd (a / 2) (a / 2))
    rw [Matrix.det_mul, h2, add_halves] at h4
    exact h4.symm
  · have e0 : d 0 = n * x := by simp only [x]; field_simp
    have e1 : d 1 = n * y := by simp only [y]; field_simp
    have e2 : d 2 = n * z := by simp only [z]; field_simp
    rw [mat]
    funext i
    fin_cases i <;> simp [Matrix.mulVec, dotProduct, Fin.sum_univ_succ] <;> rw [e0, e1, e2]
    · linear_combination (n * x * (1 - Real.cos a)) * hu
    · linear_combination (n * y * (1 - Real.cos a)) * hu
    · linear_combination (n * z * (1 - Real.cos a)) * hu

/-- The documented example of `make_axis_rotation_matrix()` for any angle: the rotation of the
coordinate system around `z`. -/
theorem C49_rotation_z (a : ℝ) :
    axisRotation ![0, 0, 1] a =
      !![Real.cos a, Real.sin a, 0; -Real.sin a, Real.cos a, 0; 0, 0, 1] := by
  ext i j
  fin_cases i <;> fin_cases j <;> simp [axisRotation]

/-- Cylindrical transformation: at a point off the axis, the 'axes' matrix maps the Cartesian
components of a vector to its radial, circumferential and axial components; the 'data' matrix is
its transpose; both are orthogonal, also on the axis. -/
theorem C49_cylindrical (p o : Fin 3 → ℝ) :
    (cylindricalTransform p o false)ᵀ * cylindricalTransform p o false = 1 ∧
    cylindricalTransform p o true = (cylindricalTransform p o false)ᵀ ∧
    (∀ r : ℝ, r = √((p 0 - o 0) ^ 2 + (p 1 - o 1) ^ 2) → r ≠ 0 → ∀ v : Fin 3 → ℝ,
      transformVec (cylindricalTransform p o false) v =
        ![((p 0 - o 0) * v 0 + (p 1 - o 1) * v 1) / r,
          ((p 0 - o 0) * v 1 - (p 1 - o 1) * v 0) / r, v 2]) := by
  have hz : (![0, 0, 1] : Fin 3 → ℝ) ≠ 0 := by
    intro h
    have := congrFun h 2
    simp at this
  have hr := fun a b => C49_rotation ![0, 0, 1] hz a b
  refine ⟨?_, ?_, ?_⟩
  · exact (hr _ 0).1
  · unfold cylindricalTransform
    simp only [if_true, Bool.false_eq_true, if_false]
    exact (hr _ 0).2.2.2.2.1
  · intro r hrd hr0 v
    unfold cylindricalTransform
    simp only [Bool.false_eq_true, if_false]
    rw [C49_rotation_z]
    set x := p 0 - o 0
    set y := p 1 - o 1
    have hz : (⟨x, y⟩ : ℂ) ≠ 0 := by
      intro h
      have hx : x = 0 := congrArg Complex.re h
      have hy : y = 0 := congrArg Complex.im h
      apply hr0
      rw [hrd, hx, hy]
      simp
    have hn : ‖(⟨x, y⟩ : ℂ)‖ = r := by
      rw [hrd, Complex.norm_def, Complex.normSq_mk]
      congr 1
      ring
    have hc : Real.cos (arctan2 y x) = x / r := by
      rw [arctan2, Complex.cos_arg hz, hn]
    have hs : Real.sin (arctan2 y x) = y / r := by
      rw [arctan2, Complex.sin_arg, hn]
    rw [hc, hs]
    funext i
    fin_cases i <;> simp [transformVec, Matrix.mulVec, dotProduct, Fin.sum_univ_succ]
    · field_simp
    · field_simp
      ring

end Verif.Mech
