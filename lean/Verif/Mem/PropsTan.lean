import Verif.Mem.Props

/-!
# Properties of the membrane term

C150: the vector is the gradient of the energy, the matrix is the derivative of the vector.
-/

open Finset

namespace Verif.Mem

theorem decode {nep a : ℕ} (ha : a < nep) (i : ℕ) : (i * nep + a) / nep = i ∧ (i * nep + a) % nep = a := by
  constructor
  · rw [Nat.mul_comm, Nat.mul_add_div (by omega), Nat.div_eq_of_lt ha, add_zero]
  · rw [Nat.mul_comm, Nat.mul_add_mod, Nat.mod_eq_of_lt ha]

theorem mtxF_line (nep : ℕ) (g u w : ℕ → ℕ → ℝ) (t : ℝ) (α i : ℕ) :
    mtxF nep g (fun a i => u a i + t * w a i) α i = mtxF nep g u α i + t * du nep g w α i := by
  have : du nep g (fun a i => u a i + t * w a i) α i = du nep g u α i + t * du nep g w α i := by
    simp only [du]
    rw [Finset.mul_sum, ← Finset.sum_add_distrib]
    exact Finset.sum_congr rfl fun a _ => by ring
  simp only [mtxF, this]; ring

theorem mtxF_deriv (nep : ℕ) (g u w : ℕ → ℕ → ℝ) (α i : ℕ) :
    HasDerivAt (fun t => mtxF nep g (fun a i => u a i + t * w a i) α i) (du nep g w α i) 0 := by
  simp only [mtxF_line]
  have := HasDerivAt.const_add (mtxF nep g u α i) (HasDerivAt.mul_const (hasDerivAt_id (0 : ℝ)) (du nep g w α i))
  simpa using this

theorem line_zero (u w : ℕ → ℕ → ℝ) : (fun a i => u a i + (0 : ℝ) * w a i) = u := by funext a i; ring

/-- The change of the Cauchy-Green tensor. -/
noncomputable def dC (nep : ℕ) (g u w : ℕ → ℕ → ℝ) (α β : ℕ) : ℝ :=
  ∑ k ∈ range 3, (du nep g w α k * mtxF nep g u β k + mtxF nep g u α k * du nep g w β k)

theorem mtxC_deriv (nep : ℕ) (g u w : ℕ → ℕ → ℝ) (α β : ℕ) :
    HasDerivAt (fun t => mtxC nep g (fun a i => u a i + t * w a i) α β) (dC nep g u w α β) 0 := by
  simp only [mtxC]
  refine HasDerivAt.fun_sum fun k _ => ?_
  refine (HasDerivAt.mul (mtxF_deriv nep g u w α k) (mtxF_deriv nep g u w β k)).congr_deriv ?_
  rw [line_zero]

/-- The sum of a local vector times nodal values. -/
noncomputable def pair (nep : ℕ) (v : ℕ → ℝ) (w : ℕ → ℕ → ℝ) : ℝ :=
  ∑ i ∈ range 3, ∑ a ∈ range nep, v (i * nep + a) * w a i

/-- The operator `B` gives the change of the strains `E11`, `E22`, `2 E12`. -/
theorem C150_strain_operator (nep : ℕ) (g u w : ℕ → ℕ → ℝ) :
    pair nep (mtxB nep g u 0) w = dC nep g u w 0 0 / 2 ∧ pair nep (mtxB nep g u 1) w = dC nep g u w 1 1 / 2 ∧
      pair nep (mtxB nep g u 2) w = dC nep g u w 0 1 := by
  have e : ∀ s, pair nep (mtxB nep g u s) w = ∑ i ∈ range 3, ∑ a ∈ range nep,
      (if s = 0 then g 0 a * mtxF nep g u 0 i else if s = 1 then g 1 a * mtxF nep g u 1 i
        else g 1 a * mtxF nep g u 0 i + g 0 a * mtxF nep g u 1 i) * w a i := fun s =>
    Finset.sum_congr rfl fun i _ => Finset.sum_congr rfl fun a ha => by
      obtain ⟨h1, h2⟩ := decode (Finset.mem_range.1 ha) i
      simp only [mtxB, h1, h2]
  refine ⟨?_, ?_, ?_⟩ <;> rw [e] <;> simp only [dC, Finset.sum_div] <;> refine Finset.sum_congr rfl fun i _ => ?_
  · simp only [if_true, du]
    have : ∑ a ∈ range nep, g 0 a * mtxF nep g u 0 i * w a i = (∑ a ∈ range nep, g 0 a * w a i) * mtxF nep g u 0 i := by
      rw [Finset.sum_mul]; exact Finset.sum_congr rfl fun a _ => by ring
    rw [this]; ring
  · simp only [one_ne_zero, if_false, if_true, du]
    have : ∑ a ∈ range nep, g 1 a * mtxF nep g u 1 i * w a i = (∑ a ∈ range nep, g 1 a * w a i) * mtxF nep g u 1 i := by
      rw [Finset.sum_mul]; exact Finset.sum_congr rfl fun a _ => by ring
    rw [this]; ring
  · simp only [du]
    norm_num
    rw [Finset.sum_mul, Finset.mul_sum, ← Finset.sum_add_distrib]
    exact Finset.sum_congr rfl fun a _ => by ring

theorem pair_add (nep : ℕ) (v v' : ℕ → ℝ) (w : ℕ → ℕ → ℝ) :
    pair nep (fun k => v k + v' k) w = pair nep v w + pair nep v' w := by
  simp only [pair, ← Finset.sum_add_distrib]
  exact Finset.sum_congr rfl fun i _ => Finset.sum_congr rfl fun a _ => by ring

theorem pair_mul (nep : ℕ) (c : ℝ) (v : ℕ → ℝ) (w : ℕ → ℕ → ℝ) :
    pair nep (fun k => c * v k) w = c * pair nep v w := by
  simp only [pair, Finset.mul_sum]
  exact Finset.sum_congr rfl fun i _ => Finset.sum_congr rfl fun a _ => by ring

theorem pair_sum (nep : ℕ) (s : Finset ℕ) (v : ℕ → ℕ → ℝ) (w : ℕ → ℕ → ℝ) :
    pair nep (fun k => ∑ q ∈ s, v q k) w = ∑ q ∈ s, pair nep (v q) w := by
  classical
  induction s using Finset.induction_on with
  | empty => simp [pair]
  | insert a s ha ih => simp only [Finset.sum_insert ha]; rw [pair_add, ih]

theorem memEnergy_eq (nq nep : ℕ) (wt a1 a2 h0 : ℕ → ℝ) (g : ℕ → ℕ → ℕ → ℝ) (u : ℕ → ℕ → ℝ) :
    memEnergy nq nep wt a1 a2 h0 g u = ∑ q ∈ range nq, wt q * h0 q * energy (a1 q) (a2 q) (mtxC nep (g q) u 0 0)
      (mtxC nep (g q) u 1 1) (mtxC nep (g q) u 0 1) := by
  have e : ∀ q α i, (if α = i then (1 : ℝ) else 0) + ∑ a ∈ range nep, g q α a * u a i = mtxF nep (g q) u α i :=
    fun q α i => by simp only [mtxF, du]; ring
  simp only [memEnergy, e, mtxC]

/-- The local vector is the gradient of the energy. -/
theorem locVec_gradient (nq nep : ℕ) (wt a1 a2 h0 : ℕ → ℝ) (g : ℕ → ℕ → ℕ → ℝ) (u w : ℕ → ℕ → ℝ)
    (hr : Regular nq nep g u) :
    HasDerivAt (fun t => memEnergy nq nep wt a1 a2 h0 g fun a i => u a i + t * w a i)
      (pair nep (locVec nq nep wt a1 a2 h0 g u) w) 0 := by
  simp only [memEnergy_eq]
  have hv : pair nep (locVec nq nep wt a1 a2 h0 g u) w = ∑ q ∈ range nq, wt q * h0 q *
      (qpStress nep (a1 q) (a2 q) (g q) u 0 * (dC nep (g q) u w 0 0 / 2) +
        qpStress nep (a1 q) (a2 q) (g q) u 1 * (dC nep (g q) u w 1 1 / 2) +
        qpStress nep (a1 q) (a2 q) (g q) u 2 * dC nep (g q) u w 0 1) := by
    have e : locVec nq nep wt a1 a2 h0 g u = fun k => ∑ q ∈ range nq, wt q * h0 q *
        (qpStress nep (a1 q) (a2 q) (g q) u 0 * mtxB nep (g q) u 0 k +
          qpStress nep (a1 q) (a2 q) (g q) u 1 * mtxB nep (g q) u 1 k +
          qpStress nep (a1 q) (a2 q) (g q) u 2 * mtxB nep (g q) u 2 k) := by
      funext k
      simp only [locVec]
      refine Finset.sum_congr rfl fun q _ => ?_
      simp only [Finset.sum_range_succ, Finset.sum_range_zero]; ring
    rw [e, pair_sum]
    refine Finset.sum_congr rfl fun q _ => ?_
    rw [pair_mul, pair_add, pair_add, pair_mul, pair_mul, pair_mul]
    obtain ⟨b0, b1, b2⟩ := C150_strain_operator nep (g q) u w
    rw [b0, b1, b2]
  rw [hv]
  refine HasDerivAt.fun_sum fun q hq => HasDerivAt.const_mul _ ?_
  have hd := hr q (Finset.mem_range.1 hq)
  have := C149_stress (a1 q) (a2 q) _ _ _ _ _ _ 0 (mtxC_deriv nep (g q) u w 0 0) (mtxC_deriv nep (g q) u w 1 1)
    (mtxC_deriv nep (g q) u w 0 1) (by simp only [line_zero]; exact hd)
  refine this.congr_deriv ?_
  simp only [line_zero, qpStress]

theorem mtxB_deriv (nep : ℕ) (g u w : ℕ → ℕ → ℝ) (s k : ℕ) :
    HasDerivAt (fun t => mtxB nep g (fun a i => u a i + t * w a i) s k)
      (if s = 0 then g 0 (k % nep) * du nep g w 0 (k / nep) else if s = 1 then g 1 (k % nep) * du nep g w 1 (k / nep)
        else g 1 (k % nep) * du nep g w 0 (k / nep) + g 0 (k % nep) * du nep g w 1 (k / nep)) 0 := by
  simp only [mtxB]
  split_ifs
  · exact HasDerivAt.const_mul _ (mtxF_deriv nep g u w 0 _)
  · exact HasDerivAt.const_mul _ (mtxF_deriv nep g u w 1 _)
  · exact HasDerivAt.add (HasDerivAt.const_mul _ (mtxF_deriv nep g u w 0 _))
      (HasDerivAt.const_mul _ (mtxF_deriv nep g u w 1 _))

theorem qpStress_deriv (nep : ℕ) (a1 a2 : ℝ) (g u w : ℕ → ℕ → ℝ) (s : ℕ) (hs : s < 3)
    (hd : mtxC nep g u 0 0 * mtxC nep g u 1 1 - mtxC nep g u 0 1 ^ 2 ≠ 0) :
    HasDerivAt (fun t => qpStress nep a1 a2 g (fun a i => u a i + t * w a i) s)
      (∑ r ∈ range 3, qpTangent nep a1 a2 g u s r * pair nep (mtxB nep g u r) w) 0 := by
  have := C149_tangent a1 a2 _ _ _ _ _ _ 0 (mtxC_deriv nep g u w 0 0) (mtxC_deriv nep g u w 1 1)
    (mtxC_deriv nep g u w 0 1) (by simp only [line_zero]; exact hd) s hs
  refine this.congr_deriv ?_
  obtain ⟨b0, b1, b2⟩ := C150_strain_operator nep g u w
  simp only [Finset.sum_range_succ, Finset.sum_range_zero, b0, b1, b2, line_zero, qpTangent]
  ring

/-- The geometric part of the matrix. -/
theorem tangentStress_pair (nep : ℕ) (S : ℕ → ℝ) (g w : ℕ → ℕ → ℝ) (k : ℕ) (hk : k / nep < 3) :
    pair nep (tangentStress nep S g k) w =
      S 0 * (g 0 (k % nep) * du nep g w 0 (k / nep)) + S 1 * (g 1 (k % nep) * du nep g w 1 (k / nep)) +
        S 2 * (g 1 (k % nep) * du nep g w 0 (k / nep) + g 0 (k % nep) * du nep g w 1 (k / nep)) := by
  rw [pair, Finset.sum_eq_single (k / nep)]
  · have e : ∀ a ∈ range nep, tangentStress nep S g k (k / nep * nep + a) * w a (k / nep) =
        S 0 * g 0 (k % nep) * (g 0 a * w a (k / nep)) + S 1 * g 1 (k % nep) * (g 1 a * w a (k / nep)) +
          (S 2 * g 1 (k % nep) * (g 0 a * w a (k / nep)) + S 2 * g 0 (k % nep) * (g 1 a * w a (k / nep))) := by
      intro a ha
      obtain ⟨h1, h2⟩ := decode (Finset.mem_range.1 ha) (k / nep)
      simp only [tangentStress, h1, h2, if_true]; ring
    rw [Finset.sum_congr rfl e]
    simp only [Finset.sum_add_distrib, ← Finset.mul_sum, du]
    ring
  · intro i _ hi
    refine Finset.sum_eq_zero fun a ha => ?_
    obtain ⟨h1, h2⟩ := decode (Finset.mem_range.1 ha) i
    simp only [tangentStress, h1]
    rw [if_neg (fun h => hi h.symm), zero_mul]
  · intro h; exact absurd (Finset.mem_range.2 hk) h

/-- The local matrix is the derivative of the local vector. -/
theorem locMat_deriv (nq nep : ℕ) (wt a1 a2 h0 : ℕ → ℝ) (g : ℕ → ℕ → ℕ → ℝ) (u w : ℕ → ℕ → ℝ) (k : ℕ)
    (hk : k / nep < 3) (hr : Regular nq nep g u) :
    HasDerivAt (fun t => locVec nq nep wt a1 a2 h0 g (fun a i => u a i + t * w a i) k)
      (pair nep (locMat nq nep wt a1 a2 h0 g u k) w) 0 := by
  have hval : pair nep (locMat nq nep wt a1 a2 h0 g u k) w = ∑ q ∈ range nq, wt q * h0 q *
      (pair nep (tangentStress nep (qpStress nep (a1 q) (a2 q) (g q) u) (g q) k) w +
        ∑ r ∈ range 3, (∑ s ∈ range 3, mtxB nep (g q) u s k * qpTangent nep (a1 q) (a2 q) (g q) u s r) *
          pair nep (mtxB nep (g q) u r) w) := by
    have e : locMat nq nep wt a1 a2 h0 g u k = fun l => ∑ q ∈ range nq, wt q * h0 q *
        (tangentStress nep (qpStress nep (a1 q) (a2 q) (g q) u) (g q) k l +
          ∑ r ∈ range 3, (∑ s ∈ range 3, mtxB nep (g q) u s k * qpTangent nep (a1 q) (a2 q) (g q) u s r) *
            mtxB nep (g q) u r l) := by
      funext l
      simp only [locMat]
      exact Finset.sum_congr rfl fun q _ => by ring
    rw [e, pair_sum]
    refine Finset.sum_congr rfl fun q _ => ?_
    rw [pair_mul, pair_add, pair_sum]
    congr 2
    exact Finset.sum_congr rfl fun r _ => pair_mul _ _ _ _
  rw [hval]
  have hvec : (fun t => locVec nq nep wt a1 a2 h0 g (fun a i => u a i + t * w a i) k) = fun t =>
      ∑ q ∈ range nq, wt q * h0 q * ∑ s ∈ range 3, mtxB nep (g q) (fun a i => u a i + t * w a i) s k *
        qpStress nep (a1 q) (a2 q) (g q) (fun a i => u a i + t * w a i) s := by
    funext t
    simp only [locVec]
    exact Finset.sum_congr rfl fun q _ => by ring
  rw [hvec]
  refine HasDerivAt.fun_sum fun q hq => HasDerivAt.const_mul _ ?_
  have hd := hr q (Finset.mem_range.1 hq)
  have h : HasDerivAt (fun t => ∑ s ∈ range 3, mtxB nep (g q) (fun a i => u a i + t * w a i) s k *
        qpStress nep (a1 q) (a2 q) (g q) (fun a i => u a i + t * w a i) s) _ 0 :=
    HasDerivAt.fun_sum fun s hs => HasDerivAt.mul (mtxB_deriv nep (g q) u w s k)
      (qpStress_deriv nep (a1 q) (a2 q) (g q) u w s (Finset.mem_range.1 hs) hd)
  refine h.congr_deriv ?_
  rw [tangentStress_pair nep _ (g q) w k hk]
  simp only [Finset.sum_range_succ, Finset.sum_range_zero, line_zero]
  norm_num
  ring

/-! ## The transformations -/

theorem uLoc_line (T u w : ℕ → ℕ → ℝ) (t : ℝ) :
    uLoc T (fun a i => u a i + t * w a i) = fun a i => uLoc T u a i + t * uLoc T w a i := by
  funext a i
  simp only [uLoc]
  rw [Finset.mul_sum, ← Finset.sum_add_distrib]
  exact Finset.sum_congr rfl fun j _ => by ring

/-- The transformation of the vectors is the transpose of that of the displacements. -/
theorem pair_trans (T : ℕ → ℕ → ℝ) (nep : ℕ) (v : ℕ → ℝ) (w : ℕ → ℕ → ℝ) :
    pair nep (transVec T nep v) w = pair nep v (uLoc T w) := by
  have e1 : pair nep (transVec T nep v) w =
      ∑ i ∈ range 3, ∑ a ∈ range nep, ∑ j ∈ range 3, T i j * v (j * nep + a) * w a i :=
    Finset.sum_congr rfl fun i _ => Finset.sum_congr rfl fun a ha => by
      obtain ⟨h1, h2⟩ := decode (Finset.mem_range.1 ha) i
      simp only [transVec, h1, h2, Finset.sum_mul]
  have e2 : pair nep v (uLoc T w) =
      ∑ j ∈ range 3, ∑ a ∈ range nep, ∑ i ∈ range 3, T i j * v (j * nep + a) * w a i :=
    Finset.sum_congr rfl fun j _ => Finset.sum_congr rfl fun a _ => by
      simp only [uLoc, Finset.mul_sum]
      exact Finset.sum_congr rfl fun i _ => by ring
  rw [e1, e2, Finset.sum_comm]
  conv_rhs => rw [Finset.sum_comm]
  exact Finset.sum_congr rfl fun a _ => Finset.sum_comm

/-- `dw_tl_membrane`: the vector is the gradient of the energy of the displacements in the local coordinates. -/
theorem C150_gradient (T : ℕ → ℕ → ℝ) (nq nep : ℕ) (wt a1 a2 h0 : ℕ → ℝ) (g : ℕ → ℕ → ℕ → ℝ) (u w : ℕ → ℕ → ℝ)
    (hr : Regular nq nep g (uLoc T u)) :
    HasDerivAt (fun t => memEnergy nq nep wt a1 a2 h0 g (uLoc T fun a i => u a i + t * w a i))
      (∑ i ∈ range 3, ∑ a ∈ range nep, termVec T nq nep wt a1 a2 h0 g u (i * nep + a) * w a i) 0 := by
  simp only [uLoc_line]
  refine (locVec_gradient nq nep wt a1 a2 h0 g (uLoc T u) (uLoc T w) hr).congr_deriv ?_
  exact (pair_trans T nep _ w).symm

/-- `dw_tl_membrane`: the matrix is the derivative of the vector. -/
theorem C150_tangent (T : ℕ → ℕ → ℝ) (nq nep : ℕ) (wt a1 a2 h0 : ℕ → ℝ) (g : ℕ → ℕ → ℕ → ℝ) (u w : ℕ → ℕ → ℝ)
    (i a : ℕ) (ha : a < nep) (hr : Regular nq nep g (uLoc T u)) :
    HasDerivAt (fun t => termVec T nq nep wt a1 a2 h0 g (fun a i => u a i + t * w a i) (i * nep + a))
      (∑ j ∈ range 3, ∑ b ∈ range nep, termMat T nq nep wt a1 a2 h0 g u (i * nep + a) (j * nep + b) * w b j) 0 := by
  obtain ⟨h1, h2⟩ := decode ha i
  simp only [termVec, transVec, h1, h2, uLoc_line]
  have hval : ∑ j ∈ range 3, ∑ b ∈ range nep, termMat T nq nep wt a1 a2 h0 g u (i * nep + a) (j * nep + b) * w b j =
      ∑ j ∈ range 3, T i j * pair nep (locMat nq nep wt a1 a2 h0 g (uLoc T u) (j * nep + a)) (uLoc T w) := by
    have e : ∀ l, termMat T nq nep wt a1 a2 h0 g u (i * nep + a) l =
        transVec T nep (fun l => ∑ j ∈ range 3, T i j * locMat nq nep wt a1 a2 h0 g (uLoc T u) (j * nep + a) l) l := by
      intro l
      simp only [termMat, transMat, transVec, h1, h2]
      exact Finset.sum_congr rfl fun m _ => by ring
    have e2 : ∑ j ∈ range 3, ∑ b ∈ range nep, termMat T nq nep wt a1 a2 h0 g u (i * nep + a) (j * nep + b) * w b j =
        pair nep (transVec T nep fun l => ∑ j ∈ range 3, T i j *
          locMat nq nep wt a1 a2 h0 g (uLoc T u) (j * nep + a) l) w := by
      simp only [pair, e]
    rw [e2, pair_trans, pair_sum]
    exact Finset.sum_congr rfl fun j _ => pair_mul _ _ _ _
  rw [hval]
  refine HasDerivAt.fun_sum fun j hj => HasDerivAt.const_mul _ ?_
  exact locMat_deriv nq nep wt a1 a2 h0 g (uLoc T u) (uLoc T w) (j * nep + a)
    (by rw [(decode ha j).1]; exact Finset.mem_range.1 hj) hr

/-- The matrix is symmetric. -/
theorem C150_symmetric (T : ℕ → ℕ → ℝ) (nq nep : ℕ) (wt a1 a2 h0 : ℕ → ℝ) (g : ℕ → ℕ → ℕ → ℝ) (u : ℕ → ℕ → ℝ)
    (k l : ℕ) : termMat T nq nep wt a1 a2 h0 g u k l = termMat T nq nep wt a1 a2 h0 g u l k := by
  have ht : ∀ q, ∀ s < 3, ∀ r < 3, qpTangent nep (a1 q) (a2 q) (g q) (uLoc T u) s r =
      qpTangent nep (a1 q) (a2 q) (g q) (uLoc T u) r s := by
    intro q s hs r hr
    have h1 : s = 0 ∨ s = 1 ∨ s = 2 := by omega
    have h2 : r = 0 ∨ r = 1 ∨ r = 2 := by omega
    rcases h1 with rfl | rfl | rfl <;> rcases h2 with rfl | rfl | rfl <;> rfl
  have hloc : ∀ k l, locMat nq nep wt a1 a2 h0 g (uLoc T u) k l = locMat nq nep wt a1 a2 h0 g (uLoc T u) l k := by
    intro k l
    simp only [locMat]
    refine Finset.sum_congr rfl fun q _ => ?_
    have e1 : tangentStress nep (qpStress nep (a1 q) (a2 q) (g q) (uLoc T u)) (g q) k l =
        tangentStress nep (qpStress nep (a1 q) (a2 q) (g q) (uLoc T u)) (g q) l k := by
      simp only [tangentStress]
      by_cases h : k / nep = l / nep
      · rw [if_pos h, if_pos h.symm]; ring
      · rw [if_neg h, if_neg (fun h2 => h h2.symm)]
    have e2 := ht q 0 (by omega) 1 (by omega)
    have e3 := ht q 0 (by omega) 2 (by omega)
    have e4 := ht q 1 (by omega) 2 (by omega)
    rw [e1]
    simp only [Finset.sum_range_succ, Finset.sum_range_zero, e2, e3, e4]
    ring
  simp only [termMat, transMat, Finset.sum_mul]
  rw [Finset.sum_comm]
  refine Finset.sum_congr rfl fun j _ => Finset.sum_congr rfl fun m _ => ?_
  rw [hloc]; ring

/-! ## The hypotheses are met -/

/-- The reference configuration of a triangle: the gradients of the linear basis. -/
example : Regular 1 3 (fun _ α a => if a = 0 then -1 else if a = α + 1 then 1 else 0) (fun _ _ => 0) := by
  intro q _
  simp [mtxC, mtxF, du, Finset.sum_range_succ]

example : ∃ i < 3, cross (fun m => if m = 0 then 1 else 0) (fun m => if m = 1 then 1 else 0) i ≠ (0 : ℝ) :=
  ⟨2, by omega, by simp [cross]⟩

/-- A stretched membrane has a tension. -/
example : 0 < stress 1 0 4 1 0 (c33 4 1 0) 0 := by
  simp only [stress, pressure, c33]; norm_num

end Verif.Mem
