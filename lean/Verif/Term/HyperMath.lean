/-
Derivatives of the determinant, of the inverse, of the invariants and of the stored energies along a curve of matrices.
-/
import Verif.Term.SpecHyper
import Mathlib.Analysis.Calculus.Deriv.Mul
import Mathlib.Analysis.Calculus.Deriv.Add
import Mathlib.Analysis.Calculus.Deriv.Inv
import Mathlib.Analysis.SpecialFunctions.Pow.Deriv
import Mathlib.Analysis.Calculus.FDeriv.Mul
import Mathlib.Analysis.Calculus.Deriv.Pow
import Mathlib.Tactic.IntervalCases

namespace Verif.Term

open Finset Matrix Filter Topology

variable {d : ℕ}

/-- The entries of the curve `A` of matrices have in `t` the derivatives `A'`. -/
def MatDeriv (A : ℝ → Matrix (Fin d) (Fin d) ℝ) (A' : Matrix (Fin d) (Fin d) ℝ) (t : ℝ) : Prop :=
  ∀ i j, HasDerivAt (fun s => A s i j) (A' i j) t

theorem MatDeriv.const (A : Matrix (Fin d) (Fin d) ℝ) (t : ℝ) : MatDeriv (fun _ => A) 0 t :=
  fun _ _ => hasDerivAt_const _ _

theorem MatDeriv.line (A H : Matrix (Fin d) (Fin d) ℝ) (t : ℝ) : MatDeriv (fun s => A + s • H) H t := by
  intro i j
  have := ((hasDerivAt_id t).mul_const (H i j)).const_add (A i j)
  simpa using this

theorem MatDeriv.add {A B : ℝ → Matrix (Fin d) (Fin d) ℝ} {A' B' : Matrix (Fin d) (Fin d) ℝ} {t : ℝ}
    (hA : MatDeriv A A' t) (hB : MatDeriv B B' t) : MatDeriv (fun s => A s + B s) (A' + B') t :=
  fun i j => (hA i j).add (hB i j)

theorem MatDeriv.sub {A B : ℝ → Matrix (Fin d) (Fin d) ℝ} {A' B' : Matrix (Fin d) (Fin d) ℝ} {t : ℝ}
    (hA : MatDeriv A A' t) (hB : MatDeriv B B' t) : MatDeriv (fun s => A s - B s) (A' - B') t :=
  fun i j => (hA i j).sub (hB i j)

theorem MatDeriv.smul {c : ℝ → ℝ} {c' : ℝ} {A : ℝ → Matrix (Fin d) (Fin d) ℝ} {A' : Matrix (Fin d) (Fin d) ℝ} {t : ℝ}
    (hc : HasDerivAt c c' t) (hA : MatDeriv A A' t) : MatDeriv (fun s => c s • A s) (c' • A t + c t • A') t :=
  fun i j => hc.mul (hA i j)

theorem MatDeriv.transpose {A : ℝ → Matrix (Fin d) (Fin d) ℝ} {A' : Matrix (Fin d) (Fin d) ℝ} {t : ℝ}
    (hA : MatDeriv A A' t) : MatDeriv (fun s => (A s)ᵀ) A'ᵀ t :=
  fun i j => hA j i

theorem MatDeriv.mul {A B : ℝ → Matrix (Fin d) (Fin d) ℝ} {A' B' : Matrix (Fin d) (Fin d) ℝ} {t : ℝ}
    (hA : MatDeriv A A' t) (hB : MatDeriv B B' t) : MatDeriv (fun s => A s * B s) (A' * B t + A t * B') t := by
  intro i j
  have := HasDerivAt.fun_sum (u := univ) fun k (_ : k ∈ univ) => (hA i k).mul (hB k j)
  simpa [Matrix.mul_apply, sum_add_distrib] using this

theorem MatDeriv.trace {A : ℝ → Matrix (Fin d) (Fin d) ℝ} {A' : Matrix (Fin d) (Fin d) ℝ} {t : ℝ}
    (hA : MatDeriv A A' t) : HasDerivAt (fun s => (A s).trace) A'.trace t :=
  HasDerivAt.fun_sum (u := univ) fun k _ => hA k k

theorem MatDeriv.congr {A B : ℝ → Matrix (Fin d) (Fin d) ℝ} {A' B' : Matrix (Fin d) (Fin d) ℝ} {t : ℝ}
    (hA : MatDeriv A A' t) (h : B =ᶠ[𝓝 t] A) (h' : A' = B') : MatDeriv B B' t := by
  subst h'
  exact fun i j => (hA i j).congr_of_eventuallyEq (h.mono fun s hs => congrFun (congrFun hs i) j)

theorem MatDeriv.unique {A : ℝ → Matrix (Fin d) (Fin d) ℝ} {A' B' : Matrix (Fin d) (Fin d) ℝ} {t : ℝ}
    (hA : MatDeriv A A' t) (hB : MatDeriv A B' t) : A' = B' := by
  ext i j
  exact (hA i j).unique (hB i j)

theorem differentiableAt_det {A : ℝ → Matrix (Fin d) (Fin d) ℝ} {t : ℝ}
    (hA : ∀ i j, DifferentiableAt ℝ (fun s => A s i j) t) : DifferentiableAt ℝ (fun s => (A s).det) t := by
  simp only [Matrix.det_apply]
  refine DifferentiableAt.fun_sum fun σ _ => ?_
  refine DifferentiableAt.const_smul ?_ (Equiv.Perm.sign σ)
  exact DifferentiableAt.fun_finsetProd fun i _ => hA _ _

/-- Jacobi's formula in the dimensions 1, 2, 3. -/
theorem MatDeriv.det (hd : 1 ≤ d ∧ d ≤ 3) {A : ℝ → Matrix (Fin d) (Fin d) ℝ} {A' : Matrix (Fin d) (Fin d) ℝ} {t : ℝ}
    (hA : MatDeriv A A' t) : HasDerivAt (fun s => (A s).det) ((adjugate (A t) * A').trace) t := by
  obtain ⟨h1, h2⟩ := hd
  interval_cases d
  · simp only [Matrix.det_fin_one]
    convert hA 0 0 using 1
    simp [Matrix.trace, adjugate_fin_one]
  · simp only [Matrix.det_fin_two]
    have := ((hA 0 0).mul (hA 1 1)).sub ((hA 0 1).mul (hA 1 0))
    refine HasDerivAt.congr_deriv this ?_
    simp [Matrix.trace, adjugate_fin_two, vecMul, dotProduct, Fin.sum_univ_succ]
    ring
  · simp only [Matrix.det_fin_three]
    have := ((((((hA 0 0).mul (hA 1 1)).mul (hA 2 2)).sub (((hA 0 0).mul (hA 1 2)).mul (hA 2 1))).sub
      (((hA 0 1).mul (hA 1 0)).mul (hA 2 2))).add (((hA 0 1).mul (hA 1 2)).mul (hA 2 0))).add
      (((hA 0 2).mul (hA 1 0)).mul (hA 2 1)) |>.sub (((hA 0 2).mul (hA 1 1)).mul (hA 2 0))
    refine HasDerivAt.congr_deriv this ?_
    simp [Matrix.trace, adjugate_fin_three, vecMul, dotProduct, Fin.sum_univ_succ]
    ring

theorem MatDeriv.inv {A : ℝ → Matrix (Fin d) (Fin d) ℝ} {A' : Matrix (Fin d) (Fin d) ℝ} {t : ℝ}
    (hA : MatDeriv A A' t) (h0 : (A t).det ≠ 0) :
    MatDeriv (fun s => (A s)⁻¹) (-((A t)⁻¹ * A' * (A t)⁻¹)) t := by
  have hdet : DifferentiableAt ℝ (fun s => (A s).det) t := differentiableAt_det fun i j => (hA i j).differentiableAt
  have hev : ∀ᶠ s in 𝓝 t, (A s).det ≠ 0 := hdet.continuousAt.eventually_ne h0
  have hdiff : ∀ i j, DifferentiableAt ℝ (fun s => (A s)⁻¹ i j) t := by
    intro i j
    have h1 : DifferentiableAt ℝ (fun s => adjugate (A s) i j) t := by
      simp only [adjugate_apply]
      refine differentiableAt_det fun k l => ?_
      by_cases hk : k = j
      · subst hk
        simp only [updateRow_self]
        exact differentiableAt_const _
      · simp only [updateRow_ne hk]
        exact (hA k l).differentiableAt
    have h2 : (fun s => (A s)⁻¹ i j) = fun s => ((A s).det)⁻¹ * adjugate (A s) i j := by
      funext s
      simp [Matrix.inv_def, Ring.inverse_eq_inv']
    rw [h2]
    exact (hdet.inv h0).mul h1
  set B' : Matrix (Fin d) (Fin d) ℝ := fun i j => deriv (fun s => (A s)⁻¹ i j) t with hB'
  have hB : MatDeriv (fun s => (A s)⁻¹) B' t := fun i j => (hdiff i j).hasDerivAt
  have h1 := hA.mul hB
  have h2 : MatDeriv (fun s => A s * (A s)⁻¹) 0 t := by
    refine (MatDeriv.const 1 t).congr ?_ rfl
    filter_upwards [hev] with s hs
    exact Matrix.mul_nonsing_inv _ (isUnit_iff_ne_zero.2 hs)
  have h3 := h1.unique h2
  have hu : IsUnit (A t).det := isUnit_iff_ne_zero.2 h0
  have h4 : B' = -((A t)⁻¹ * A' * (A t)⁻¹) := by
    have : (A t)⁻¹ * (A' * (A t)⁻¹ + A t * B') = 0 := by rw [h3, Matrix.mul_zero]
    rw [Matrix.mul_add, Matrix.nonsing_inv_mul_cancel_left _ _ hu] at this
    rw [eq_neg_iff_add_eq_zero, add_comm, Matrix.mul_assoc]
    exact this
  rw [← h4]
  exact hB

/-- The derivative of `C = Fᵀ F`. -/
def dCG (F F' : Matrix (Fin d) (Fin d) ℝ) : Matrix (Fin d) (Fin d) ℝ := F'ᵀ * F + Fᵀ * F'

theorem MatDeriv.cg {F : ℝ → Matrix (Fin d) (Fin d) ℝ} {F' : Matrix (Fin d) (Fin d) ℝ} {t : ℝ}
    (hF : MatDeriv F F' t) : MatDeriv (fun s => rightCG (F s)) (dCG (F t) F') t := hF.transpose.mul hF

theorem rightCG_det (F : Matrix (Fin d) (Fin d) ℝ) : (rightCG F).det = F.det ^ 2 := by
  simp [rightCG, sq]

theorem rightCG_symm (F : Matrix (Fin d) (Fin d) ℝ) : (rightCG F)ᵀ = rightCG F := by
  simp [rightCG, transpose_mul]

/-- `J' = J C⁻¹ : C' / 2`. -/
theorem MatDeriv.jac (hd : 1 ≤ d ∧ d ≤ 3) {F : ℝ → Matrix (Fin d) (Fin d) ℝ} {F' : Matrix (Fin d) (Fin d) ℝ} {t : ℝ}
    (hF : MatDeriv F F' t) (h0 : (F t).det ≠ 0) :
    HasDerivAt (fun s => (F s).det) ((F t).det / 2 * ((rightCG (F t))⁻¹ * dCG (F t) F').trace) t := by
  convert hF.det hd using 1
  have hu : IsUnit (F t).det := isUnit_iff_ne_zero.2 h0
  have hut : IsUnit (F t)ᵀ.det := by rw [det_transpose]; exact hu
  have e1 : (rightCG (F t))⁻¹ = (F t)⁻¹ * ((F t)ᵀ)⁻¹ := Matrix.mul_inv_rev _ _
  have e2 : ((rightCG (F t))⁻¹ * dCG (F t) F').trace = 2 * ((F t)⁻¹ * F').trace := by
    rw [e1, dCG, Matrix.mul_add, trace_add, two_mul]
    congr 1
    · rw [← trace_transpose ((F t)⁻¹ * F'), transpose_mul, transpose_nonsing_inv]
      rw [Matrix.mul_assoc, trace_mul_comm, Matrix.mul_assoc, Matrix.mul_assoc, Matrix.mul_nonsing_inv _ hu,
        Matrix.mul_one, trace_mul_comm]
    · rw [Matrix.mul_assoc, Matrix.nonsing_inv_mul_cancel_left _ _ hut]
  rw [e2]
  have e3 : adjugate (F t) = (F t).det • (F t)⁻¹ := by
    rw [Matrix.inv_def, smul_smul, Ring.mul_inverse_cancel _ hu, one_smul]
  rw [e3, smul_mul, trace_smul, smul_eq_mul]
  ring

theorem MatDeriv.jacPow (hd : 1 ≤ d ∧ d ≤ 3) {F : ℝ → Matrix (Fin d) (Fin d) ℝ} {F' : Matrix (Fin d) (Fin d) ℝ} {t : ℝ}
    (hF : MatDeriv F F' t) (h0 : 0 < (F t).det) (p : ℝ) :
    HasDerivAt (fun s => (F s).det ^ p)
      (p * (F t).det ^ p / 2 * ((rightCG (F t))⁻¹ * dCG (F t) F').trace) t := by
  have h := (hF.jac hd h0.ne').rpow_const (p := p) (Or.inl h0.ne')
  convert h using 1
  rw [Real.rpow_sub_one h0.ne']
  field_simp

theorem MatDeriv.inv1 {C : ℝ → Matrix (Fin d) (Fin d) ℝ} {C' : Matrix (Fin d) (Fin d) ℝ} {t : ℝ}
    (hC : MatDeriv C C' t) : HasDerivAt (fun s => invar1 (C s)) C'.trace t :=
  hC.trace.add_const _

theorem MatDeriv.inv2 {C : ℝ → Matrix (Fin d) (Fin d) ℝ} {C' : Matrix (Fin d) (Fin d) ℝ} {t : ℝ}
    (hC : MatDeriv C C' t) :
    HasDerivAt (fun s => invar2 (C s)) (invar1 (C t) * C'.trace - (C t * C').trace) t := by
  have h := ((hC.inv1.pow 2).sub ((hC.mul hC).trace.add_const (thirdStretch d))).div_const 2
  refine (h.congr_deriv ?_)
  rw [trace_add, trace_mul_comm C']
  simp
  ring

/-! ### The second Piola-Kirchhoff stresses and the derivatives of the energies -/

/-- `μ J^(-2/3) (I - I₁ / 3 C⁻¹)`. -/
noncomputable def pkNeo (μ : ℝ) (F : Matrix (Fin d) (Fin d) ℝ) : Matrix (Fin d) (Fin d) ℝ :=
  (μ * F.det ^ (-2 / 3 : ℝ)) • (1 - (invar1 (rightCG F) / 3) • (rightCG F)⁻¹)

/-- `κ J^(-4/3) (I₁ I - C - 2 / 3 I₂ C⁻¹)`. -/
noncomputable def pkMR (κ : ℝ) (F : Matrix (Fin d) (Fin d) ℝ) : Matrix (Fin d) (Fin d) ℝ :=
  (κ * F.det ^ (-4 / 3 : ℝ)) • (invar1 (rightCG F) • (1 : Matrix (Fin d) (Fin d) ℝ) - rightCG F
    - (2 / 3 * invar2 (rightCG F)) • (rightCG F)⁻¹)

/-- `a(J) C⁻¹` with `a(J) = K J (J - 1)`. -/
noncomputable def pkBulk (K : ℝ) (F : Matrix (Fin d) (Fin d) ℝ) : Matrix (Fin d) (Fin d) ℝ :=
  (K * F.det * (F.det - 1)) • (rightCG F)⁻¹

/-- `a J C⁻¹`. -/
noncomputable def pkJ (a : ℝ) (F : Matrix (Fin d) (Fin d) ℝ) : Matrix (Fin d) (Fin d) ℝ :=
  (a * F.det) • (rightCG F)⁻¹

section

variable (hd : 1 ≤ d ∧ d ≤ 3) {F : ℝ → Matrix (Fin d) (Fin d) ℝ} {F' : Matrix (Fin d) (Fin d) ℝ} {t : ℝ}
  (hF : MatDeriv F F' t) (h0 : 0 < (F t).det)

include hd hF h0

theorem energyNeo_deriv (μ : ℝ) :
    HasDerivAt (fun s => energyNeo μ (F s)) ((pkNeo μ (F t) * dCG (F t) F').trace / 2) t := by
  have h := (((hF.jacPow hd h0 (-2 / 3)).mul hF.cg.inv1).sub_const 3).const_mul (μ / 2)
  refine HasDerivAt.congr_deriv h ?_
  simp only [pkNeo, smul_mul, Matrix.sub_mul, Matrix.one_mul, trace_smul, trace_sub, smul_eq_mul]
  ring

theorem energyMR_deriv (κ : ℝ) :
    HasDerivAt (fun s => energyMR κ (F s)) ((pkMR κ (F t) * dCG (F t) F').trace / 2) t := by
  have h := (((hF.jacPow hd h0 (-4 / 3)).mul hF.cg.inv2).sub_const 3).const_mul (κ / 2)
  refine HasDerivAt.congr_deriv h ?_
  simp only [pkMR, smul_mul, Matrix.sub_mul, Matrix.one_mul, trace_smul, trace_sub, smul_eq_mul]
  ring

theorem energyBulk_deriv (K : ℝ) :
    HasDerivAt (fun s => energyBulk K (F s)) ((pkBulk K (F t) * dCG (F t) F').trace / 2) t := by
  have h := (((hF.jac hd h0.ne').sub_const 1).pow 2).const_mul (K / 2)
  refine HasDerivAt.congr_deriv h ?_
  simp only [pkBulk, smul_mul, trace_smul, smul_eq_mul]
  simp
  ring

theorem energyJ_deriv (a : ℝ) :
    HasDerivAt (fun s => a * (F s).det) ((pkJ a (F t) * dCG (F t) F').trace / 2) t := by
  have h := (hF.jac hd h0.ne').const_mul a
  refine HasDerivAt.congr_deriv h ?_
  simp only [pkJ, smul_mul, trace_smul, smul_eq_mul]
  ring

theorem MatDeriv.cgInv :
    MatDeriv (fun s => (rightCG (F s))⁻¹) (-((rightCG (F t))⁻¹ * dCG (F t) F' * (rightCG (F t))⁻¹)) t := by
  refine hF.cg.inv ?_
  rw [rightCG_det]
  exact pow_ne_zero 2 h0.ne'

theorem pkNeo_deriv (μ : ℝ) : MatDeriv (fun s => pkNeo μ (F s))
    (let C := rightCG (F t); let Ci := C⁻¹; let X := dCG (F t) F'
     (μ * (F t).det ^ (-2 / 3 : ℝ)) • ((invar1 C / 9 * (Ci * X).trace) • Ci
      - (1 / 3 * X.trace) • Ci - (1 / 3 * (Ci * X).trace) • (1 : Matrix (Fin d) (Fin d) ℝ)
      + (invar1 C / 3) • (Ci * X * Ci))) t := by
  have h := MatDeriv.smul ((hF.jacPow hd h0 (-2 / 3)).const_mul μ)
    ((MatDeriv.const 1 t).sub (MatDeriv.smul (hF.cg.inv1.div_const 3) (MatDeriv.cgInv hd hF h0)))
  refine h.congr (Eventually.of_forall fun s => rfl) ?_
  ext i j
  simp only [Matrix.add_apply, Matrix.sub_apply, Matrix.smul_apply, Matrix.neg_apply, smul_eq_mul, Matrix.zero_apply]
  ring

theorem pkMR_deriv (κ : ℝ) : MatDeriv (fun s => pkMR κ (F s))
    (let C := rightCG (F t); let Ci := C⁻¹; let X := dCG (F t) F'
     (κ * (F t).det ^ (-4 / 3 : ℝ)) • ((4 / 9 * invar2 C * (Ci * X).trace) • Ci
      - (2 / 3 * invar1 C * X.trace) • Ci - (2 / 3 * invar1 C * (Ci * X).trace) • (1 : Matrix (Fin d) (Fin d) ℝ)
      + (2 / 3 * invar2 C) • (Ci * X * Ci) + X.trace • (1 : Matrix (Fin d) (Fin d) ℝ) - X
      + (2 / 3 * (Ci * X).trace) • C + (2 / 3 * (C * X).trace) • Ci)) t := by
  have h := MatDeriv.smul ((hF.jacPow hd h0 (-4 / 3)).const_mul κ)
    (((MatDeriv.smul hF.cg.inv1 (MatDeriv.const 1 t)).sub hF.cg).sub
      (MatDeriv.smul (hF.cg.inv2.const_mul (2 / 3)) (MatDeriv.cgInv hd hF h0)))
  refine h.congr (Eventually.of_forall fun s => rfl) ?_
  ext i j
  simp only [Matrix.add_apply, Matrix.sub_apply, Matrix.smul_apply, Matrix.neg_apply, smul_eq_mul, Matrix.zero_apply]
  ring

theorem pkBulk_deriv (K : ℝ) : MatDeriv (fun s => pkBulk K (F s))
    (let J := (F t).det; let Ci := (rightCG (F t))⁻¹; let X := dCG (F t) F'
     ((K * J * (J - 1) + K * J * J) / 2 * (Ci * X).trace) • Ci - (K * J * (J - 1)) • (Ci * X * Ci)) t := by
  have hJ := hF.jac hd h0.ne'
  have h := MatDeriv.smul ((hJ.const_mul K).mul (hJ.sub_const 1)) (MatDeriv.cgInv hd hF h0)
  refine h.congr (Eventually.of_forall fun s => rfl) ?_
  ext i j
  simp only [Matrix.add_apply, Matrix.sub_apply, Matrix.smul_apply, Matrix.neg_apply, smul_eq_mul, Pi.mul_apply]
  ring

theorem pkJ_deriv (a : ℝ) : MatDeriv (fun s => pkJ a (F s))
    (let J := (F t).det; let Ci := (rightCG (F t))⁻¹; let X := dCG (F t) F'
     (a * J / 2 * (Ci * X).trace) • Ci - (a * J) • (Ci * X * Ci)) t := by
  have h := MatDeriv.smul ((hF.jac hd h0.ne').const_mul a) (MatDeriv.cgInv hd hF h0)
  refine h.congr (Eventually.of_forall fun s => rfl) ?_
  ext i j
  simp only [Matrix.add_apply, Matrix.sub_apply, Matrix.smul_apply, Matrix.neg_apply, smul_eq_mul]
  ring

end

end Verif.Term
