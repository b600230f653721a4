/-
Concrete cases for C64: a linear triangle and a deformed state, a stretched cell in 3D, and the cases in which the code
does not do what is expected.
-/
import Verif.Term.PropsHyper4

namespace Verif.Term

open Finset Matrix Filter Topology

/-- The gradients of the basis of a linear triangle. -/
noncomputable def heTriG (i k : ℕ) : ℝ :=
  match i, k with
  | 0, 0 => -1
  | 0, 1 => 1
  | 1, 0 => -1
  | 1, 2 => 1
  | _, _ => 0

/-- A triangle with one quadrature point. -/
noncomputable def heTri : Mapping ℝ :=
  ⟨2, 1, 3, ⟨1, 1, 3, fun _ _ _ _ => 1 / 3⟩, fun _ _ => heTriG, fun _ _ _ _ => 1 / 2, fun _ _ _ _ => 0, fun _ _ _ _ => 1 / 2⟩

/-- The displacements: `F` is `((3/2, 1/4), (0, 11/10))`. -/
noncomputable def heTriU (i : ℕ) : ℝ :=
  match i with
  | 2 => 1 / 2
  | 4 => 1 / 4
  | 5 => 1 / 10
  | _ => 0

/-- The same, rotated by the right angle. -/
noncomputable def heTriU' (i : ℕ) : ℝ :=
  match i with
  | 2 => -1
  | 3 => 3 / 2
  | 4 => -11 / 10
  | 5 => -3 / 4
  | _ => 0

theorem heTri_F (c q : ℕ) : cellF heTri heTriU (fun _ k => k) c q = (!![3 / 2, 1 / 4; 0, 11 / 10] : Matrix (Fin 2) (Fin 2) ℝ) := by
  change defGrad 2 3 heTriG (locDofs 2 3 heTriU fun k => k) = _
  ext i j
  fin_cases i <;> fin_cases j <;>
    norm_num [defGrad, gradMat, fgrad, locDofs, heTriG, heTriU, sum_range_succ]

theorem heTri_F' (c q : ℕ) :
    cellF heTri heTriU' (fun _ k => k) c q = (!![0, -11 / 10; 3 / 2, 1 / 4] : Matrix (Fin 2) (Fin 2) ℝ) := by
  change defGrad 2 3 heTriG (locDofs 2 3 heTriU' fun k => k) = _
  ext i j
  fin_cases i <;> fin_cases j <;>
    norm_num [defGrad, gradMat, fgrad, locDofs, heTriG, heTriU', sum_range_succ]

theorem heTri_notWarped : NotWarped heTri 1 heTriU fun _ k => k := by
  intro c _ q _
  rw [heTri_F]
  change 0 < Matrix.det (!![3 / 2, 1 / 4; 0, 11 / 10] : Matrix (Fin 2) (Fin 2) ℝ) ∧
    1e-55 < Matrix.det (!![3 / 2, 1 / 4; 0, 11 / 10] : Matrix (Fin 2) (Fin 2) ℝ) ^ 2
  rw [det_fin_two]
  norm_num

theorem heTri_notWarped' : NotWarped heTri 1 heTriU' fun _ k => k := by
  intro c _ q _
  rw [heTri_F']
  change 0 < Matrix.det (!![0, -11 / 10; 3 / 2, 1 / 4] : Matrix (Fin 2) (Fin 2) ℝ) ∧
    1e-55 < Matrix.det (!![0, -11 / 10; 3 / 2, 1 / 4] : Matrix (Fin 2) (Fin 2) ℝ) ^ 2
  rw [det_fin_two]
  norm_num

/-- A material array that is constant in the cells. -/
noncomputable def heMat1 (x : ℝ) : Fld ℝ := ⟨1, 1, 1, fun _ _ _ _ => x⟩

/-- C64, energies and derivatives: the deformed triangle meets the hypotheses. -/
example : ∃ b A, heResidual false stressNeoTL (heMat1 4) 1 heTri heTri heTriU (fun _ k => k) 0 = some b ∧
    heMatrix false stressNeoTL tanNeoTL (heMat1 4) 1 heTri heTri heTriU (fun _ k => k) 0 = some A ∧
    IsFirstVariation heTri (fun _ => energyNeo 4) heTriU (fun _ k => k) 0 b := by
  obtain ⟨b, hb, hb'⟩ := C64_neo_energy heTri ⟨by norm_num [heTri], by norm_num [heTri]⟩ (heMat1 4) 1 heTriU
    (fun _ k => k) 0 one_pos heTri_notWarped
  obtain ⟨A, hA, -⟩ := C64_neo_jacobian heTri ⟨by norm_num [heTri], by norm_num [heTri]⟩ (heMat1 4) 1 heTriU
    (fun _ k => k) 0 one_pos heTri_notWarped
  refine ⟨b, A, hb, hA, ?_⟩
  simpa [Fld.at, heMat1] using hb'

/-- `C64_objective`: the rotated triangle. -/
example : ∃ s s', heStress false stressMRTL (heMat1 4) 1 heTri heTriU (fun _ k => k) 0 = some s ∧
    heStress false stressMRTL (heMat1 4) 1 heTri heTriU' (fun _ k => k) 0 = some s' ∧
    ∀ q < 1, ∀ i j : Fin 2, s' q (voigt 2 i j) = s q (voigt 2 i j) := by
  refine C64_objective heTri ⟨by norm_num [heTri], by norm_num [heTri]⟩ (heMat1 4) 1 heTriU heTriU' (fun _ k => k) 0
    one_pos heTri_notWarped heTri_notWarped' (fun _ => (!![0, -1; 1, 0] : Matrix (Fin 2) (Fin 2) ℝ)) (fun q => ?_)
    (fun q _ => ?_) stressMRTL (by tauto)
  · change (!![0, -1; 1, 0] : Matrix (Fin 2) (Fin 2) ℝ)ᵀ * (!![0, -1; 1, 0] : Matrix (Fin 2) (Fin 2) ℝ) = 1
    ext i j
    fin_cases i <;> fin_cases j <;> simp [Matrix.mul_apply, Fin.sum_univ_two]
  · rw [heTri_F, heTri_F']
    change (!![0, -11 / 10; 3 / 2, 1 / 4] : Matrix (Fin 2) (Fin 2) ℝ) =
      (!![0, -1; 1, 0] : Matrix (Fin 2) (Fin 2) ℝ) * (!![3 / 2, 1 / 4; 0, 11 / 10] : Matrix (Fin 2) (Fin 2) ℝ)
    ext i j
    fin_cases i <;> fin_cases j <;> norm_num [Matrix.mul_apply, Fin.sum_univ_two]

/-- The coordinates of the triangle. -/
noncomputable def heTriX (n : ℕ) (k : Fin 2) : ℝ :=
  match n, k with
  | 1, 0 => 1
  | 2, 1 => 1
  | _, _ => 0

/-- `C64_moved`: the mappings of the triangle and of the moved triangle exist. -/
example : ∃ m m' : MapData ℝ 2,
    evalMapping 2 1 1 3 (fun _ => heTriX) (fun _ _ i => heTriG i) (fun _ => 1 / 2) 1 (fun _ _ i => heTriG i) = .ok m ∧
    evalMapping 2 1 1 3 (fun _ n k => heTriX n k + heTriU (2 * n + k)) (fun _ _ i => heTriG i) (fun _ => 1 / 2) 1
      (fun _ _ i => heTriG i) = .ok m' := by
  have h1 := (C60_warp (dim := 2) (nEl := 1) (nQp := 1) (nEP := 3) (ecoors := fun _ => heTriX)
    (bfg := fun _ _ i => heTriG i) (weights := fun _ => (1 / 2 : ℝ)) (nE := 1) (ebfg := fun _ _ i => heTriG i)
    (by norm_num)).2 (by
      intro c _ q _
      rw [det_fin_two]
      norm_num [heTriG, heTriX, sum_range_succ])
  have h2 := (C60_warp (dim := 2) (nEl := 1) (nQp := 1) (nEP := 3)
    (ecoors := fun _ n k => heTriX n k + heTriU (2 * n + k))
    (bfg := fun _ _ i => heTriG i) (weights := fun _ => (1 / 2 : ℝ)) (nE := 1) (ebfg := fun _ _ i => heTriG i)
    (by norm_num)).2 (by
      intro c _ q _
      rw [det_fin_two]
      norm_num [heTriG, heTriX, heTriU, sum_range_succ])
  obtain ⟨m, hm⟩ := h1
  obtain ⟨m', hm'⟩ := h2
  exact ⟨m, m', hm, hm'⟩

/-- A cell in 3D with one basis function, for a stretch in one direction. -/
noncomputable def heCell3 : Mapping ℝ :=
  ⟨3, 1, 1, ⟨1, 1, 1, fun _ _ _ _ => 1⟩, fun _ _ i _ => if i = 0 then 1 else 0, fun _ _ _ _ => 1, fun _ _ _ _ => 0,
    fun _ _ _ _ => 1⟩

theorem heCell3_F (c q : ℕ) : cellF heCell3 (fun i => if i = 0 then 1 else 0) (fun _ k => k) c q =
    (!![2, 0, 0; 0, 1, 0; 0, 0, 1] : Matrix (Fin 3) (Fin 3) ℝ) := by
  change defGrad 3 1 (fun i _ => if i = 0 then 1 else 0) (locDofs 3 1 (fun i => if i = 0 then 1 else 0) fun k => k) = _
  ext i j
  rw [defGrad, Matrix.add_apply, gradMat, fgrad, sum_range_one]
  fin_cases i <;> fin_cases j <;> simp [locDofs] <;> norm_num

/-- `C64_yeoh_energy`: the hypotheses are met by a stretch. -/
example : NotWarped heCell3 1 (fun i => if i = 0 then 1 else 0) (fun _ k => k) ∧
    ∀ q < 1, 3 < (cellF heCell3 (fun i => if i = 0 then 1 else 0) (fun _ k => k) 0 q).det ^ (-2 / 3 : ℝ) *
      invar1 (rightCG (cellF heCell3 (fun i => if i = 0 then 1 else 0) (fun _ k => k) 0 q)) := by
  have hdet : Matrix.det (!![2, 0, 0; 0, 1, 0; 0, 0, 1] : Matrix (Fin 3) (Fin 3) ℝ) = 2 := by
    rw [det_fin_three]
    simp
  constructor
  · intro c _ q _
    rw [heCell3_F]
    change 0 < Matrix.det (!![2, 0, 0; 0, 1, 0; 0, 0, 1] : Matrix (Fin 3) (Fin 3) ℝ) ∧
      1e-55 < Matrix.det (!![2, 0, 0; 0, 1, 0; 0, 0, 1] : Matrix (Fin 3) (Fin 3) ℝ) ^ 2
    rw [hdet]
    norm_num
  · intro q _
    rw [heCell3_F]
    change 3 < Matrix.det (!![2, 0, 0; 0, 1, 0; 0, 0, 1] : Matrix (Fin 3) (Fin 3) ℝ) ^ (-2 / 3 : ℝ) *
      invar1 (rightCG (!![2, 0, 0; 0, 1, 0; 0, 0, 1] : Matrix (Fin 3) (Fin 3) ℝ))
    have hI : invar1 (rightCG (!![2, 0, 0; 0, 1, 0; 0, 0, 1] : Matrix (Fin 3) (Fin 3) ℝ)) = 6 := by
      simp [invar1, rightCG, thirdStretch, Matrix.trace, Fin.sum_univ_three, Matrix.mul_apply]
      norm_num
    rw [hdet, hI]
    have : (2 : ℝ) ^ (-1 : ℝ) < (2 : ℝ) ^ (-2 / 3 : ℝ) := Real.rpow_lt_rpow_of_exponent_lt (by norm_num) (by norm_num)
    rw [Real.rpow_neg_one] at this
    linarith

/-! ### What the code does not do -/

/-- The neo-Hookean stress of an undeformed bar (1D) is not zero. -/
theorem C64_neo_1d_counterexample : ∃ s, heStress false stressNeoTL (heMat1 3) 1
    ⟨1, 1, 1, ⟨1, 1, 1, fun _ _ _ _ => 1⟩, fun _ _ _ _ => 1, fun _ _ _ _ => 1, fun _ _ _ _ => 0, fun _ _ _ _ => 1⟩
    (fun _ => 0) (fun _ k => k) 0 = some s ∧ s 0 0 = 2 := by
  set vg : Mapping ℝ :=
    ⟨1, 1, 1, ⟨1, 1, 1, fun _ _ _ _ => 1⟩, fun _ _ _ _ => 1, fun _ _ _ _ => 1, fun _ _ _ _ => 0, fun _ _ _ _ => 1⟩ with hvg
  have hd : 1 ≤ vg.dim ∧ vg.dim ≤ 3 := by simp [hvg]
  have hw := notWarped_zero vg 1 fun _ k => k
  have ha := admissible_of vg (heMat1 3) 1 _ _ 0 one_pos hw (fun _ _ => True) fun _ _ => trivial
  refine ⟨fun q => stressNeoTL ((heMat1 3).x1 0 q) vg.dim ((dqFinStrain false vg (fun _ => 0) (fun _ k => k) 0 q).getD
    FamData.zero), ?_, ?_⟩
  · unfold heStress
    rw [familyData_some vg hd false 1 _ _ fun c hc q hq => (ha.pos c hc q hq).le]
    rfl
  · have hr := ha.regular 0 (by simp [hvg])
    have h := (lawNeo hd).stress ((heMat1 3).x1 0 0) _ _ (famOf_cell vg hd _ _ 0 0 hr) hr trivial (0 : Fin 1) (0 : Fin 1)
    rw [cellF_zero] at h
    refine h.trans ?_
    change pkNeo (d := 1) 3 1 0 0 = 2
    norm_num [pkNeo, rightCG_one, invar1, thirdStretch]

/-- The square of a symmetric tensor in 3D with shear components is not what `mulT2SAA` gives. -/
theorem C64_square_counterexample : ∃ (a : ℕ → ℝ) (A : Matrix (Fin 3) (Fin 3) ℝ), Stores 3 a A ∧ Aᵀ = A ∧
    mulT2SAA 3 a 0 = 1 ∧ (A * A) 0 0 = 2 := by
  refine ⟨fun r => if r < 4 then 1 else 0, !![1, 1, 0; 1, 1, 0; 0, 0, 1], fun i j => ?_, ?_, ?_, ?_⟩
  · fin_cases i <;> fin_cases j <;> simp [voigt]
  · ext i j
    fin_cases i <;> fin_cases j <;> simp
  · simp [mulT2SAA]
  · simp [Matrix.mul_apply, Fin.sum_univ_three]
    norm_num

theorem dpkMR_one {d : ℕ} (hd : d = 2) (κ : ℝ) (X : Matrix (Fin d) (Fin d) ℝ) :
    dpkMR κ 1 X = κ • (X - (X.trace / 3) • (1 : Matrix (Fin d) (Fin d) ℝ)) := by
  have h2 : 2 ≤ d ∧ d ≤ 3 := by omega
  simp only [dpkMR, rightCG_one, invar1_one h2, invar2_one h2, inv_one, det_one, Real.one_rpow, Matrix.one_mul,
    Matrix.mul_one, mul_one]
  ext i j
  simp only [Matrix.smul_apply, Matrix.add_apply, Matrix.sub_apply, smul_eq_mul]
  ring

/-- `dw_ul_he_mooney_rivlin` on the undeformed triangle: an entry of the matrix is 4/3, the entry of the derivative of
the residual is 2/3. -/
theorem C64_ul_mr_counterexample : ∃ A A', heMatrix false stressMRTL tanMRTL (heMat1 1) 1 heTri heTri (fun _ => 0)
      (fun _ k => k) 0 = some A ∧
    IsJacobian heTri (fun u => heResidual false stressMRTL (heMat1 1) 1 heTri heTri u (fun _ k => k) 0) (fun _ => 0)
      (fun _ k => k) 0 A ∧
    heMatrix true stressMRUL tanMRUL (heMat1 1) 1 heTri heTri (fun _ => 0) (fun _ k => k) 0 = some A' ∧
    A 1 1 = 2 / 3 ∧ A' 1 1 = 4 / 3 := by
  have hd : 1 ≤ heTri.dim ∧ heTri.dim ≤ 3 := ⟨by norm_num [heTri], by norm_num [heTri]⟩
  obtain ⟨A, A', hA, hA', h2⟩ := C64_ul_mr_rest heTri rfl (heMat1 1) 1 (fun _ k => k) 0 one_pos
  obtain ⟨A1, hA1, hJ, -⟩ := C64_mr_jacobian heTri hd (heMat1 1) 1 (fun _ => 0) (fun _ k => k) 0 one_pos
    (notWarped_zero _ _ _)
  have ha := admissible_of heTri (heMat1 1) 1 (fun _ => 0) (fun _ k => k) 0 one_pos (notWarped_zero _ _ _)
    (fun _ _ => True) fun _ _ => trivial
  obtain ⟨A2, hA2, hf⟩ := matrix_form (lawMR hd) hd ha
  obtain rfl : A1 = A := Option.some.inj (hA1.symm.trans hA)
  obtain rfl : A2 = A1 := Option.some.inj (hA2.symm.trans hA)
  have e : A2 1 1 = 2 / 3 := by
    have h1 : 1 < heTri.dim * heTri.nEP := by norm_num [heTri]
    rw [← bil_single h1 h1 A2, hf]
    have hg : gradMat heTri.dim heTri.nEP (heTri.G 0 0) (Pi.single 1 1) = (!![1, 0; 0, 0] : Matrix (Fin 2) (Fin 2) ℝ) := by
      change gradMat 2 3 heTriG (Pi.single 1 1) = _
      ext i j
      fin_cases i <;> fin_cases j <;> norm_num [gradMat, fgrad, heTriG, sum_range_succ, Pi.single_apply]
    have hpk : pkMR ((heMat1 1).x1 0 0 0 0) (1 : Matrix (Fin heTri.dim) (Fin heTri.dim) ℝ) = 0 := by
      have h2 : 2 ≤ heTri.dim ∧ heTri.dim ≤ 3 := ⟨by norm_num [heTri], by norm_num [heTri]⟩
      simp only [pkMR, rightCG_one, invar1_one h2, invar2_one h2, inv_one]
      ext i j
      simp only [Matrix.smul_apply, Matrix.sub_apply, smul_eq_mul, Matrix.zero_apply]
      ring
    have hQ : heTri.nQP = 1 := rfl
    rw [hQ, integ, sum_range_one]
    beta_reduce
    rw [cellF_zero, hpk, dpkMR_one (d := heTri.dim) rfl, Matrix.zero_mul, trace_zero, hg]
    change 1 / 2 * ((((1 : ℝ) • (dCG (1 : Matrix (Fin 2) (Fin 2) ℝ) !![1, 0; 0, 0] -
      ((dCG (1 : Matrix (Fin 2) (Fin 2) ℝ) !![1, 0; 0, 0]).trace / 3) • (1 : Matrix (Fin 2) (Fin 2) ℝ))) *
      dCG (1 : Matrix (Fin 2) (Fin 2) ℝ) !![1, 0; 0, 0]).trace / 2 + 0 / 2) = 2 / 3
    have hX : dCG (1 : Matrix (Fin 2) (Fin 2) ℝ) !![1, 0; 0, 0] = !![2, 0; 0, 0] := by
      ext i j
      fin_cases i <;> fin_cases j <;> norm_num [dCG]
    rw [hX]
    norm_num [Matrix.trace, Fin.sum_univ_two, Matrix.mul_apply]
  have h1 : 1 < heTri.dim * heTri.nEP := by norm_num [heTri]
  refine ⟨A2, A', hA, hJ, hA', e, ?_⟩
  rw [h2 1 h1 1 h1, e]
  norm_num

/-- The array of a material with the shear modulus 1. -/
noncomputable def heShear : Fld ℝ := ⟨1, 3, 3, fun _ _ r s => if r = 2 ∧ s = 2 then 1 else 0⟩

/-- `dw_tl_he_svk` on the undeformed triangle: the matrix differs from the derivative of the residual. -/
theorem C64_svk_counterexample : ∃ A A', heMatrix false stressSVK tanSVK heShear 2 heTri heTri (fun _ => 0)
      (fun _ k => k) 0 = some A' ∧
    IsJacobian heTri (fun u => heResidual false stressSVK heShear 2 heTri heTri u (fun _ k => k) 0) (fun _ => 0)
      (fun _ k => k) 0 A ∧ A' 2 2 = A 2 2 + 1 / 2 := by
  have hd : 1 ≤ heTri.dim ∧ heTri.dim ≤ 3 := ⟨by norm_num [heTri], by norm_num [heTri]⟩
  obtain ⟨A, A', E, hA', hJ, hE, he⟩ := C64_svk_tangent heTri hd heShear 2 (fun _ => 0) (fun _ k => k) 0 two_pos
    (notWarped_zero _ _ _) (by
      intro q _ r s
      change (if r = 2 ∧ s = 2 then (1 : ℝ) else 0) = if s = 2 ∧ r = 2 then 1 else 0
      simp only [and_comm])
  have h2 : 2 < heTri.dim * heTri.nEP := by norm_num [heTri]
  refine ⟨A, A', hA', hJ, ?_⟩
  rw [he 2 h2 2 h2, ← bil_single h2 h2 E, hE]
  have hg : gradMat heTri.dim heTri.nEP (heTri.G 0 0) (Pi.single 2 1) = (!![0, 1; 0, 0] : Matrix (Fin 2) (Fin 2) ℝ) := by
    change gradMat 2 3 heTriG (Pi.single 2 1) = _
    ext i j
    fin_cases i <;> fin_cases j <;> norm_num [gradMat, fgrad, heTriG, sum_range_succ, Pi.single_apply]
  have hQ : heTri.nQP = 1 := rfl
  rw [hQ, integ, sum_range_one]
  beta_reduce
  rw [cellF_zero, transpose_one, Matrix.one_mul, hg]
  congr 1
  change 1 / 2 * (∑ i : Fin 2, ∑ j : Fin 2, if i = j then 0 else
      (∑ k : Fin 2, ∑ l : Fin 2, heShear.x1 0 0 (voigt 2 i j) (voigt 2 k l) *
        (!![0, 1; 0, 0] : Matrix (Fin 2) (Fin 2) ℝ) k l) * (!![0, 1; 0, 0] : Matrix (Fin 2) (Fin 2) ℝ) i j) = 1 / 2
  simp [Fin.sum_univ_two, Fld.x1, heShear, voigt]

/-- A history in which the matrix is evaluated with the stress of another state. -/
theorem C64_stress_cache_counterexample :
    stressRun (fun u : ℕ => u) none [(1, false), (2, true)] = [1, 1] := rfl

end Verif.Term
