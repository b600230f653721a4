/-
Lemmas on the hyperelastic kernels: the small tensors in the symmetric storage are the matrices of the specification.
-/
import Verif.Term.KerHyper
import Verif.Term.HyperMath
import Verif.Term.PropsElastic
import Verif.Term.PropsFlow

namespace Verif.Term

open Finset Matrix Filter Topology

variable {d : ℕ}

/-- A small matrix of the model as a matrix. -/
def toMat (d : ℕ) (m : ℕ → ℕ → ℝ) : Matrix (Fin d) (Fin d) ℝ := fun i j => m i j

/-- The vector `v` stores the symmetric matrix `M`. -/
def Stores (d : ℕ) (v : ℕ → ℝ) (M : Matrix (Fin d) (Fin d) ℝ) : Prop := ∀ i j : Fin d, v (voigt d i j) = M i j

theorem gemeDet_eq (hd : 1 ≤ d ∧ d ≤ 3) (j : ℕ → ℕ → ℝ) : gemeDet d j = some (toMat d j).det := by
  obtain ⟨h1, h2⟩ := hd
  interval_cases d
  · simp [gemeDet, toMat]
  · simp [gemeDet, toMat, det_fin_two]
  · simp [gemeDet, toMat, det_fin_three]
    ring

theorem tensor2vec_eq (hd : 1 ≤ d ∧ d ≤ 3) (m : ℕ → ℕ → ℝ) (hs : (toMat d m)ᵀ = toMat d m) :
    ∃ v, tensor2vec d m = some v ∧ Stores d v (toMat d m) := by
  have hs' : ∀ i j : Fin d, m i j = m j i := fun i j => congrFun (congrFun hs j) i
  obtain ⟨h1, h2⟩ := hd
  interval_cases d
  · refine ⟨_, rfl, fun i j => ?_⟩
    fin_cases i; fin_cases j; rfl
  · refine ⟨_, rfl, fun i j => ?_⟩
    have e := hs' 0 1
    fin_cases i <;> fin_cases j <;> first | rfl | exact e
  · refine ⟨_, rfl, fun i j => ?_⟩
    have e1 := hs' 0 1
    have e2 := hs' 0 2
    have e3 := hs' 1 2
    fin_cases i <;> fin_cases j <;> first | rfl | exact e1 | exact e2 | exact e3

theorem gemeInvar1_eq (hd : 1 ≤ d ∧ d ≤ 3) (m : ℕ → ℕ → ℝ) : gemeInvar1 d m = some (invar1 (toMat d m)) := by
  obtain ⟨h1, h2⟩ := hd
  interval_cases d
  · simp [gemeInvar1, invar1, toMat, thirdStretch, Matrix.trace]
  · simp [gemeInvar1, invar1, toMat, thirdStretch, Matrix.trace]
    ring
  · simp [gemeInvar1, invar1, toMat, thirdStretch, Matrix.trace, Fin.sum_univ_succ]
    ring

theorem gemeInvar2_eq (hd : 1 ≤ d ∧ d ≤ 3) (m : ℕ → ℕ → ℝ) (hs : (toMat d m)ᵀ = toMat d m) :
    gemeInvar2 d m = some (invar2 (toMat d m)) := by
  have hs' : ∀ i j : Fin d, m i j = m j i := fun i j => congrFun (congrFun hs j) i
  obtain ⟨h1, h2⟩ := hd
  interval_cases d
  · simp [gemeInvar2, invar2, invar1, toMat, thirdStretch, Matrix.trace, Matrix.mul_apply]
    ring
  · have e : m 1 0 = m 0 1 := hs' 1 0
    simp [gemeInvar2, invar2, invar1, toMat, thirdStretch, Matrix.trace, Matrix.mul_apply, e]
    ring
  · have e1 : m 1 0 = m 0 1 := hs' 1 0
    have e2 : m 2 0 = m 0 2 := hs' 2 0
    have e3 : m 2 1 = m 1 2 := hs' 2 1
    simp [gemeInvar2, invar2, invar1, toMat, thirdStretch, Matrix.trace, Matrix.mul_apply, Fin.sum_univ_succ, e1, e2, e3]
    ring

/-- `geme_invert3x3` gives the inverse, if the determinant is not smaller than `eps`, and zeros otherwise. -/
theorem gemeInvert_eq (hd : 1 ≤ d ∧ d ≤ 3) (j : ℕ → ℕ → ℝ) :
    ∃ m, gemeInvert d j = some m ∧ toMat d m = if |(toMat d j).det| < gemeEps then 0 else (toMat d j)⁻¹ := by
  obtain ⟨h1, h2⟩ := hd
  interval_cases d
  · refine ⟨_, rfl, ?_⟩
    have hdet : (toMat 1 j).det = j 0 0 := by simp [toMat]
    rw [hdet]
    split_ifs with h
    · ext a b
      simp [toMat, gemeRecip, h]
    · ext a b
      fin_cases a; fin_cases b
      simp [toMat, gemeRecip, h, Matrix.inv_def, adjugate_fin_one]
  · refine ⟨_, rfl, ?_⟩
    have hdet : (toMat 2 j).det = j 0 0 * j 1 1 - j 0 1 * j 1 0 := by simp [toMat, det_fin_two]
    rw [hdet]
    split_ifs with h
    · ext a b
      fin_cases a <;> fin_cases b <;> simp [toMat, gemeRecip, h]
    · ext a b
      rw [Matrix.inv_def, adjugate_fin_two, hdet, Ring.inverse_eq_inv']
      fin_cases a <;> fin_cases b <;> simp [toMat, gemeRecip, h, mul_comm]
  · refine ⟨_, rfl, ?_⟩
    have hdet : (toMat 3 j).det = j 0 0 * (j 1 1 * j 2 2 - j 2 1 * j 1 2)
        + j 0 1 * -(j 1 0 * j 2 2 - j 1 2 * j 2 0) + j 0 2 * (j 1 0 * j 2 1 - j 1 1 * j 2 0) := by
      simp [toMat, det_fin_three]
      ring
    rw [hdet]
    split_ifs with h
    · ext a b
      simp only [toMat, gemeRecip, h, if_true, mul_zero, Matrix.zero_apply]
    · ext a b
      rw [Matrix.inv_def, adjugate_fin_three, hdet, Ring.inverse_eq_inv']
      simp only [toMat, gemeRecip, h, if_false]
      fin_cases a <;> fin_cases b <;> simp [toMat] <;> ring

/-- What `dq_finite_strain` computes in a quadrature point. -/
theorem finStrain_tl (hd : 1 ≤ d ∧ d ≤ 3) (nEP : ℕ) (g st : ℕ → ℕ → ℝ) :
    ∃ fd, finStrainQp false d nEP g st = some fd ∧ fd.mtxF = defGradQp nEP g st ∧
      (let F := toMat d (defGradQp nEP g st)
       fd.detF = F.det ∧ Stores d fd.symC (rightCG F) ∧ fd.trC = invar1 (rightCG F) ∧ fd.in2C = invar2 (rightCG F) ∧
       Stores d fd.symInvC (if F.det ^ 2 < gemeEps then 0 else (rightCG F)⁻¹) ∧
       fd.green = strainGreen d (defGradQp nEP g st)) := by
  set F := toMat d (defGradQp nEP g st) with hF
  set C : ℕ → ℕ → ℝ := fun i j => ∑ k ∈ range d, defGradQp nEP g st k i * defGradQp nEP g st k j with hC
  have hCm : toMat d C = rightCG F := by
    ext i j
    simp [toMat, rightCG, Matrix.mul_apply, hC, hF, Finset.sum_range]
  have hsym : (toMat d C)ᵀ = toMat d C := by rw [hCm, rightCG_symm]
  obtain ⟨v, hv, hvs⟩ := tensor2vec_eq hd C hsym
  obtain ⟨m, hm, hmm⟩ := gemeInvert_eq hd C
  rw [hCm, rightCG_det, abs_of_nonneg (sq_nonneg _)] at hmm
  have hmsym : (toMat d m)ᵀ = toMat d m := by
    rw [hmm]
    split_ifs
    · simp
    · rw [transpose_nonsing_inv, rightCG_symm]
  obtain ⟨v2, hv2, hvs2⟩ := tensor2vec_eq hd m hmsym
  refine ⟨⟨defGradQp nEP g st, F.det, v, invar1 (rightCG F), invar2 (rightCG F), v2, strainGreen d (defGradQp nEP g st)⟩,
    ?_, rfl, rfl, hCm ▸ hvs, rfl, rfl, hmm ▸ hvs2, rfl⟩
  have e1 := gemeInvar1_eq hd C
  have e2 := gemeInvar2_eq hd C hsym
  rw [hCm] at e1 e2
  simp only [finStrainQp, gemeDet_eq hd, Bool.false_eq_true, if_false, Option.bind_eq_bind, Option.bind_some]
  rw [← hC, hv, e1, e2, hm]
  simp [hv2, hF]

/-- The same for the updated Lagrangian formulation. -/
theorem finStrain_ul (hd : 1 ≤ d ∧ d ≤ 3) (nEP : ℕ) (g st : ℕ → ℕ → ℝ) :
    ∃ fd, finStrainQp true d nEP g st = some fd ∧ fd.mtxF = defGradQp nEP g st ∧
      (let F := toMat d (defGradQp nEP g st)
       fd.detF = F.det ∧ Stores d fd.symC (F * Fᵀ) ∧ fd.trC = invar1 (F * Fᵀ) ∧ fd.in2C = invar2 (F * Fᵀ)) := by
  set F := toMat d (defGradQp nEP g st) with hF
  set C : ℕ → ℕ → ℝ := fun i j => ∑ k ∈ range d, defGradQp nEP g st i k * defGradQp nEP g st j k with hC
  have hCm : toMat d C = F * Fᵀ := by
    ext i j
    simp [toMat, Matrix.mul_apply, hC, hF, Finset.sum_range]
  have hsym : (toMat d C)ᵀ = toMat d C := by rw [hCm, transpose_mul, transpose_transpose]
  obtain ⟨v, hv, hvs⟩ := tensor2vec_eq hd C hsym
  obtain ⟨m, hm, hmm⟩ := gemeInvert_eq hd C
  have hmsym : (toMat d m)ᵀ = toMat d m := by
    rw [hmm]
    split_ifs
    · simp
    · rw [transpose_nonsing_inv, hsym]
  obtain ⟨v2, hv2, hvs2⟩ := tensor2vec_eq hd m hmsym
  refine ⟨⟨defGradQp nEP g st, F.det, v, invar1 (F * Fᵀ), invar2 (F * Fᵀ), fun _ => 0,
    strainGreen d (defGradQp nEP g st)⟩, ?_, rfl, rfl, hCm ▸ hvs, rfl, rfl⟩
  have e1 := gemeInvar1_eq hd C
  have e2 := gemeInvar2_eq hd C hsym
  rw [hCm] at e1 e2
  simp only [finStrainQp, gemeDet_eq hd, if_true, Option.bind_eq_bind, Option.bind_some]
  rw [← hC, hv, e1, e2, hm]
  simp [hv2, hF]

/-- The deformation gradient in a quadrature point. -/
theorem defGradQp_eq (vg : Mapping ℝ) (state : ℕ → ℝ) (conn : ℕ → ℕ → ℕ) (c q : ℕ) :
    toMat vg.dim (defGradQp vg.nEP (vg.bfGM c q) (extractNBN vg.dim state (conn c) 0)) =
      defGrad vg.dim vg.nEP (vg.G c q) (locDofs vg.dim vg.nEP state (conn c)) := by
  ext a i
  have h : ∑ k ∈ range vg.nEP, extractNBN vg.dim state (conn c) 0 k a * vg.bfGM c q i k =
      fgrad vg.nEP (vg.G c q) (locDofs vg.dim vg.nEP state (conn c)) i a := by
    refine sum_congr rfl fun k hk => ?_
    obtain ⟨e1, e2⟩ := divmod_block (a := (a : ℕ)) (mem_range.1 hk)
    simp only [extractNBN, locDofs, e1, e2, Mapping.G]
    ring
  simp only [toMat, defGradQp, defGrad, gradMat, Matrix.add_apply, Matrix.one_apply, h]
  rw [add_comm]
  simp [Fin.ext_iff]

/-- `Fᵀ ∇u`: `δE` before symmetrization. -/
noncomputable def pull (d nEP : ℕ) (F : ℕ → ℕ → ℝ) (g : ℕ → ℕ → ℝ) (u : ℕ → ℝ) (k l : ℕ) : ℝ :=
  ∑ a ∈ range d, F a k * fgrad nEP g u l a

/-- The operator `B` contracted with a vector in the symmetric storage. -/
theorem buildOpB_sum (hd : 1 ≤ d ∧ d ≤ 3) (nEP : ℕ) (F g : ℕ → ℕ → ℝ) :
    ∃ b, buildOpB d nEP F g = some b ∧ ∀ (f u : ℕ → ℝ),
      ∑ s ∈ range (symOf d), f s * ∑ c ∈ range (d * nEP), b s c * u c =
        ∑ k ∈ range d, ∑ l ∈ range d, f (voigt d k l) * pull d nEP F g u k l := by
  have key : ∀ (u : ℕ → ℝ) (i j : ℕ), ∑ c ∈ range (d * nEP), F (c / nEP) i * g j (c % nEP) * u c =
      pull d nEP F g u i j := by
    intro u i j
    rw [sum_blocks]
    refine sum_congr rfl fun a _ => ?_
    rw [fgrad, mul_sum]
    refine sum_congr rfl fun k hk => ?_
    obtain ⟨e1, e2⟩ := divmod_block (a := a) (mem_range.1 hk)
    rw [e1, e2]
    ring
  obtain ⟨h1, h2⟩ := hd
  interval_cases d
  · refine ⟨_, rfl, fun f u => ?_⟩
    simp only [symOf, sum_range_succ, sum_range_zero, key, voigt]
    norm_num
  · refine ⟨_, rfl, fun f u => ?_⟩
    simp only [symOf, sum_range_succ, sum_range_zero, add_mul, sum_add_distrib, key, voigt]
    norm_num [sum_add_distrib, key]
    ring
  · refine ⟨_, rfl, fun f u => ?_⟩
    have e : (3 + 1) * 3 / 2 = 6 := rfl
    simp only [symOf, e]
    rw [sum_range_succ, sum_range_succ, sum_range_succ, sum_range_succ, sum_range_succ, sum_range_one]
    simp only [add_mul, sum_add_distrib, key]
    simp only [sum_range_succ, sum_range_zero, voigt]
    norm_num
    ring

theorem buildOpKtsC_sum (hd : 1 ≤ d ∧ d ≤ 3) (tau : ℕ → ℝ) (g : ℕ → ℕ → ℝ) :
    ∃ k, buildOpKtsC d tau g = some k ∧ ∀ r s, k r s =
      ∑ i ∈ range d, ∑ j ∈ range d, tau (voigt d i j) * g i r * g j s := by
  obtain ⟨h1, h2⟩ := hd
  interval_cases d <;> refine ⟨_, rfl, fun r s => ?_⟩ <;> simp [sum_range_succ, voigt] <;> ring

end Verif.Term
