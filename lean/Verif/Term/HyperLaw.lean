/-
The stresses and the tangent moduli in the symmetric storage against the matrices of the specification.
-/
import Verif.Term.LemHyper2

namespace Verif.Term

open Finset Matrix Filter Topology

variable {d : ℕ}

/-- The family data of the total Lagrangian formulation for the deformation gradient `F`. -/
structure FamOf (d : ℕ) (fd : FamData) (F : Matrix (Fin d) (Fin d) ℝ) : Prop where
  mtx : toMat d fd.mtxF = F
  det : fd.detF = F.det
  symC : Stores d fd.symC (rightCG F)
  tr : fd.trC = invar1 (rightCG F)
  in2 : fd.in2C = invar2 (rightCG F)
  inv : Stores d fd.symInvC (rightCG F)⁻¹
  green : Stores d fd.green (greenStrain F)

/-- `D_ijkl P_kl` is the linear operator `L` of the symmetric matrix `P + Pᵀ`. -/
def TanOf (d : ℕ) (D : ℕ → ℕ → ℝ) (L : Matrix (Fin d) (Fin d) ℝ → Matrix (Fin d) (Fin d) ℝ) : Prop :=
  ∀ (P : Matrix (Fin d) (Fin d) ℝ) (i j : Fin d),
    ∑ k : Fin d, ∑ l : Fin d, D (voigt d i j) (voigt d k l) * P k l = L (P + Pᵀ) i j

theorem TanOf.add {D D' : ℕ → ℕ → ℝ} {L L' : Matrix (Fin d) (Fin d) ℝ → Matrix (Fin d) (Fin d) ℝ} (h : TanOf d D L)
    (h' : TanOf d D' L') : TanOf d (fun r s => D r s + D' r s) (fun X => L X + L' X) := by
  intro P i j
  simp only [add_mul, sum_add_distrib, h P i j, h' P i j, Matrix.add_apply]

theorem TanOf.smul {D : ℕ → ℕ → ℝ} {L : Matrix (Fin d) (Fin d) ℝ → Matrix (Fin d) (Fin d) ℝ} (c : ℝ) (h : TanOf d D L) :
    TanOf d (fun r s => c * D r s) (fun X => c • L X) := by
  intro P i j
  simp only [mul_assoc, ← mul_sum, h P i j, Matrix.smul_apply, smul_eq_mul]

theorem TanOf.congr {D D' : ℕ → ℕ → ℝ} {L L' : Matrix (Fin d) (Fin d) ℝ → Matrix (Fin d) (Fin d) ℝ} (h : TanOf d D L)
    (hD : ∀ r s, D' r s = D r s) (hL : ∀ X i j, L' X i j = L X i j) : TanOf d D' L' := by
  intro P i j
  simp only [hD, hL, h P i j]

theorem sum_contract (M P : Matrix (Fin d) (Fin d) ℝ) (hM : Mᵀ = M) :
    ∑ k : Fin d, ∑ l : Fin d, M k l * P k l = (M * (P + Pᵀ)).trace / 2 := by
  have h1 : (M * Pᵀ).trace = ∑ k : Fin d, ∑ l : Fin d, M k l * P k l := by
    simp only [Matrix.trace, Matrix.diag_apply, Matrix.mul_apply, Matrix.transpose_apply]
  have h2 : (M * P).trace = (M * Pᵀ).trace := by
    rw [← trace_transpose, transpose_mul, hM, trace_mul_comm]
  rw [Matrix.mul_add, trace_add, h2, h1]
  ring

theorem TanOf.outer {a b : ℕ → ℝ} {A B : Matrix (Fin d) (Fin d) ℝ} (ha : Stores d a A) (hb : Stores d b B) (hB : Bᵀ = B) :
    TanOf d (fun r s => a r * b s) (fun X => ((B * X).trace / 2) • A) := by
  intro P i j
  have := sum_contract B P hB
  simp only [ha i j, hb _ _, Matrix.smul_apply, smul_eq_mul, mul_assoc, ← mul_sum]
  rw [this, mul_comm]

theorem mulT2_stores (hd : 1 ≤ d ∧ d ≤ 3) {a : ℕ → ℝ} {A : Matrix (Fin d) (Fin d) ℝ} (ha : Stores d a A) (i j k l : Fin d) :
    mulT2ikjl d a a (voigt d i j) (voigt d k l) + mulT2iljk d a a (voigt d i j) (voigt d k l) =
      A i k * A j l + A i l * A j k := by
  simp only [← ha _ _]
  obtain ⟨h1, h2⟩ := hd
  unfold mulT2ikjl mulT2iljk
  interval_cases d
  · fin_cases i; fin_cases j; fin_cases k; fin_cases l; rfl
  · fin_cases i <;> fin_cases j <;> fin_cases k <;> fin_cases l <;> first | rfl | (simp [voigt, t2i, t2j, t4s]; done) | (simp [voigt, t2i, t2j, t4s]; ring)
  · fin_cases i <;> fin_cases j <;> fin_cases k <;> fin_cases l <;> first | rfl | (simp [voigt, t2i, t2j, t4s]; done) | (simp [voigt, t2i, t2j, t4s]; ring)

theorem TanOf.mulT2 (hd : 1 ≤ d ∧ d ≤ 3) {a : ℕ → ℝ} {A : Matrix (Fin d) (Fin d) ℝ} (ha : Stores d a A) (hA : Aᵀ = A) :
    TanOf d (fun r s => mulT2ikjl d a a r s + mulT2iljk d a a r s) (fun X => A * X * A) := by
  intro P i j
  have hs : ∀ i j, A i j = A j i := fun i j => congrFun (congrFun hA j) i
  simp only [mulT2_stores hd ha, add_mul, sum_add_distrib, Matrix.mul_add, Matrix.add_mul, Matrix.add_apply]
  congr 1
  · simp only [Matrix.mul_apply, sum_mul]
    rw [sum_comm]
    refine sum_congr rfl fun k _ => sum_congr rfl fun l _ => ?_
    rw [hs j k]
    ring
  · simp only [Matrix.mul_apply, sum_mul, Matrix.transpose_apply]
    refine sum_congr rfl fun k _ => sum_congr rfl fun l _ => ?_
    rw [hs j k]
    ring

theorem TanOf.diag (hd : 1 ≤ d ∧ d ≤ 3) (c : ℝ) :
    TanOf d (fun r s => if r = s then (if r < d then 2 * c else c) else 0) (fun X => c • X) := by
  intro P i j
  obtain ⟨h1, h2⟩ := hd
  interval_cases d
  · fin_cases i; fin_cases j; simp [voigt]; ring
  · fin_cases i <;> fin_cases j <;> simp [voigt] <;> ring
  · fin_cases i <;> fin_cases j <;> simp [voigt, Fin.sum_univ_succ] <;> ring

theorem getTrace_stores (hd : 1 ≤ d ∧ d ≤ 3) : Stores d (getTrace d) (1 : Matrix (Fin d) (Fin d) ℝ) := by
  intro i j
  obtain ⟨h1, h2⟩ := hd
  interval_cases d <;> fin_cases i <;> fin_cases j <;> simp [voigt, getTrace]

theorem green_stores (hd : 1 ≤ d ∧ d ≤ 3) (m : ℕ → ℕ → ℝ) : Stores d (strainGreen d m) (greenStrain (toMat d m)) := by
  intro i j
  obtain ⟨h1, h2⟩ := hd
  interval_cases d <;> fin_cases i <;> fin_cases j <;>
    simp [voigt, strainGreen, greenStrain, rightCG, toMat, Matrix.mul_apply, t2i, t2j, sum_range_succ, Fin.sum_univ_succ] <;>
    ring

theorem detF23_eq {J : ℝ} (h : 0 < J) : detF23 J = J ^ (-2 / 3 : ℝ) := by
  rw [detF23, Real.rpow_def_of_pos h]
  norm_num [mul_comm]

theorem detF23_sq {J : ℝ} (h : 0 < J) : detF23 J * detF23 J = J ^ (-4 / 3 : ℝ) := by
  rw [detF23_eq h, ← Real.rpow_add h]
  norm_num

theorem rightCG_inv_symm (F : Matrix (Fin d) (Fin d) ℝ) : ((rightCG F)⁻¹)ᵀ = (rightCG F)⁻¹ := by
  rw [transpose_nonsing_inv, rightCG_symm]

/-- The reduced set of deformation gradients: the volume ratio is positive and not so small that its square is replaced
by zero in `geme_invert3x3`. -/
def Regular (F : Matrix (Fin d) (Fin d) ℝ) : Prop := 0 < F.det ∧ gemeEps < F.det ^ 2

theorem famOf_finStrain (hd : 1 ≤ d ∧ d ≤ 3) (nEP : ℕ) (g st : ℕ → ℕ → ℝ)
    (hF : Regular (toMat d (defGradQp nEP g st))) :
    ∃ fd, finStrainQp false d nEP g st = some fd ∧ fd.mtxF = defGradQp nEP g st ∧
      FamOf d fd (toMat d (defGradQp nEP g st)) := by
  obtain ⟨fd, h1, h2, h3, h4, h5, h6, h7, h8⟩ := finStrain_tl hd nEP g st
  rw [if_neg (not_lt.2 hF.2.le)] at h7
  exact ⟨fd, h1, h2, by rw [h2], h3, h4, h5, h6, h7, h8 ▸ green_stores hd _⟩

/-- A hyperelastic law in the total Lagrangian formulation: the functions of the code `sf`, `tf` compute the second
Piola-Kirchhoff stress `pk` and its derivative `dpk` (as a function of the derivative of `C`), `W` is the energy. -/
structure HyperLaw (d : ℕ) (sf : StressFn) (tf : TanFn) (Dom : (ℕ → ℕ → ℝ) → Matrix (Fin d) (Fin d) ℝ → Prop)
    (W : (ℕ → ℕ → ℝ) → Matrix (Fin d) (Fin d) ℝ → ℝ)
    (pk : (ℕ → ℕ → ℝ) → Matrix (Fin d) (Fin d) ℝ → Matrix (Fin d) (Fin d) ℝ)
    (dpk : (ℕ → ℕ → ℝ) → Matrix (Fin d) (Fin d) ℝ → Matrix (Fin d) (Fin d) ℝ → Matrix (Fin d) (Fin d) ℝ) : Prop where
  near : ∀ mat (F : ℝ → Matrix (Fin d) (Fin d) ℝ) (F' : Matrix (Fin d) (Fin d) ℝ) (t : ℝ), MatDeriv F F' t →
    Regular (F t) → Dom mat (F t) → ∀ᶠ s in 𝓝 t, Dom mat (F s)
  stress : ∀ mat fd F, FamOf d fd F → Regular F → Dom mat F → Stores d (sf mat d fd) (pk mat F)
  tan : ∀ mat fd F, FamOf d fd F → Regular F → Dom mat F → TanOf d (tf mat d fd) (dpk mat F)
  symm : ∀ mat F, (pk mat F)ᵀ = pk mat F
  adj : ∀ mat F (X Y : Matrix (Fin d) (Fin d) ℝ), Dom mat F → (dpk mat F X * Y).trace = (dpk mat F Y * X).trace
  dsymm : ∀ mat F (X : Matrix (Fin d) (Fin d) ℝ), Xᵀ = X → (dpk mat F X)ᵀ = dpk mat F X
  energy : ∀ mat (F : ℝ → Matrix (Fin d) (Fin d) ℝ) (F' : Matrix (Fin d) (Fin d) ℝ) (t : ℝ), MatDeriv F F' t →
    Regular (F t) → Dom mat (F t) → HasDerivAt (fun s => W mat (F s)) ((pk mat (F t) * dCG (F t) F').trace / 2) t
  deriv : ∀ mat (F : ℝ → Matrix (Fin d) (Fin d) ℝ) (F' : Matrix (Fin d) (Fin d) ℝ) (t : ℝ), MatDeriv F F' t →
    Regular (F t) → Dom mat (F t) → MatDeriv (fun s => pk mat (F s)) (dpk mat (F t) (dCG (F t) F')) t

theorem stores_lin {a b : ℕ → ℝ} {A B : Matrix (Fin d) (Fin d) ℝ} (x y : ℝ) (ha : Stores d a A) (hb : Stores d b B) :
    Stores d (fun r => x * a r + y * b r) (x • A + y • B) := by
  intro i j
  simp only [ha i j, hb i j, Matrix.add_apply, Matrix.smul_apply, smul_eq_mul]

/-! ### The laws -/

/-- The derivative of `pkNeo`. -/
noncomputable def dpkNeo (μ : ℝ) (F X : Matrix (Fin d) (Fin d) ℝ) : Matrix (Fin d) (Fin d) ℝ :=
  (μ * F.det ^ (-2 / 3 : ℝ)) • ((invar1 (rightCG F) / 9 * ((rightCG F)⁻¹ * X).trace) • (rightCG F)⁻¹
      - (1 / 3 * X.trace) • (rightCG F)⁻¹ - (1 / 3 * ((rightCG F)⁻¹ * X).trace) • (1 : Matrix (Fin d) (Fin d) ℝ)
      + (invar1 (rightCG F) / 3) • ((rightCG F)⁻¹ * X * (rightCG F)⁻¹))

/-- The derivative of `pkMR`. -/
noncomputable def dpkMR (κ : ℝ) (F X : Matrix (Fin d) (Fin d) ℝ) : Matrix (Fin d) (Fin d) ℝ :=
  (κ * F.det ^ (-4 / 3 : ℝ)) • ((4 / 9 * invar2 (rightCG F) * ((rightCG F)⁻¹ * X).trace) • (rightCG F)⁻¹
      - (2 / 3 * invar1 (rightCG F) * X.trace) • (rightCG F)⁻¹
      - (2 / 3 * invar1 (rightCG F) * ((rightCG F)⁻¹ * X).trace) • (1 : Matrix (Fin d) (Fin d) ℝ)
      + (2 / 3 * invar2 (rightCG F)) • ((rightCG F)⁻¹ * X * (rightCG F)⁻¹)
      + X.trace • (1 : Matrix (Fin d) (Fin d) ℝ) - X
      + (2 / 3 * ((rightCG F)⁻¹ * X).trace) • rightCG F + (2 / 3 * (rightCG F * X).trace) • (rightCG F)⁻¹)

/-- The derivative of `pkBulk`. -/
noncomputable def dpkBulk (K : ℝ) (F X : Matrix (Fin d) (Fin d) ℝ) : Matrix (Fin d) (Fin d) ℝ :=
  ((K * F.det * (F.det - 1) + K * F.det * F.det) / 2 * ((rightCG F)⁻¹ * X).trace) • (rightCG F)⁻¹
    - (K * F.det * (F.det - 1)) • ((rightCG F)⁻¹ * X * (rightCG F)⁻¹)

/-- The derivative of `pkJ`. -/
noncomputable def dpkJ (a : ℝ) (F X : Matrix (Fin d) (Fin d) ℝ) : Matrix (Fin d) (Fin d) ℝ :=
  (a * F.det / 2 * ((rightCG F)⁻¹ * X).trace) • (rightCG F)⁻¹ - (a * F.det) • ((rightCG F)⁻¹ * X * (rightCG F)⁻¹)

theorem trace_sandwich (A X Y : Matrix (Fin d) (Fin d) ℝ) : (A * X * A * Y).trace = (A * Y * A * X).trace := by
  rw [Matrix.mul_assoc (A * X), trace_mul_comm, Matrix.mul_assoc (A * Y)]

theorem symm_sandwich (A X : Matrix (Fin d) (Fin d) ℝ) (hA : Aᵀ = A) (hX : Xᵀ = X) : (A * X * A)ᵀ = A * X * A := by
  rw [transpose_mul, transpose_mul, hA, hX, Matrix.mul_assoc]

theorem lawNeo (hd : 1 ≤ d ∧ d ≤ 3) : HyperLaw d stressNeoTL tanNeoTL (fun _ _ => True)
    (fun mat F => energyNeo (mat 0 0) F) (fun mat F => pkNeo (mat 0 0) F) (fun mat F => dpkNeo (mat 0 0) F) where
  near := fun _ _ _ _ _ _ _ => Eventually.of_forall fun _ => trivial
  stress := by
    intro mat fd F h hF _ i j
    simp only [stressNeoTL, h.det, h.tr, h.inv i j, getTrace_stores hd i j, detF23_eq hF.1, pkNeo, Matrix.smul_apply,
      Matrix.sub_apply, smul_eq_mul]
  tan := by
    intro mat fd F h hF _
    have h1 := getTrace_stores hd
    have hs := rightCG_inv_symm F
    refine (((TanOf.outer h.inv h.inv hs).smul (2 / 9 * (mat 0 0 * detF23 fd.detF) * fd.trC)).add
      ((((TanOf.outer h.inv h1 transpose_one).add (TanOf.outer h1 h.inv hs)).smul (-2 / 3 * (mat 0 0 * detF23 fd.detF))).add
      ((TanOf.mulT2 hd h.inv hs).smul (mat 0 0 * detF23 fd.detF / 3 * fd.trC)))).congr ?_ ?_
    · intro r s
      unfold tanNeoTL
      norm_num
      ring
    · intro X i j
      simp only [dpkNeo, h.det, h.tr, detF23_eq hF.1, Matrix.smul_apply, Matrix.add_apply, Matrix.sub_apply, smul_eq_mul,
        Matrix.one_mul]
      ring
  symm := by
    intro mat F
    simp only [pkNeo, transpose_smul, transpose_sub, transpose_one, rightCG_inv_symm]
  adj := by
    intro mat F X Y _
    simp only [dpkNeo, smul_mul, Matrix.add_mul, Matrix.sub_mul, trace_smul, trace_add, trace_sub, Matrix.one_mul,
      smul_eq_mul, trace_sandwich _ X Y]
    ring
  dsymm := by
    intro mat F X hX
    simp only [dpkNeo, transpose_smul, transpose_sub, transpose_add, transpose_one, rightCG_inv_symm,
      symm_sandwich _ _ (rightCG_inv_symm F) hX]
  energy := fun mat F F' t hF h0 _ => energyNeo_deriv hd hF h0.1 (mat 0 0)
  deriv := fun mat F F' t hF h0 _ => pkNeo_deriv hd hF h0.1 (mat 0 0)

theorem lawMR (hd : 1 ≤ d ∧ d ≤ 3) : HyperLaw d stressMRTL tanMRTL (fun _ _ => True)
    (fun mat F => energyMR (mat 0 0) F) (fun mat F => pkMR (mat 0 0) F) (fun mat F => dpkMR (mat 0 0) F) where
  near := fun _ _ _ _ _ _ _ => Eventually.of_forall fun _ => trivial
  stress := by
    intro mat fd F h hF _ i j
    have e := detF23_sq hF.1
    simp only [stressMRTL, h.det, h.tr, h.in2, h.inv i j, h.symC i j, getTrace_stores hd i j, pkMR, Matrix.smul_apply,
      Matrix.sub_apply, smul_eq_mul, ← e]
    rw [show (2.0 / 3.0 : ℝ) = 2 / 3 by norm_num]
    ring
  tan := by
    intro mat fd F h hF _
    have h1 := getTrace_stores hd
    have hs := rightCG_inv_symm F
    have hc := rightCG_symm F
    have e := detF23_sq hF.1
    set k := mat 0 0 * (detF23 fd.detF * detF23 fd.detF) with hk
    refine (((TanOf.outer h.inv h.inv hs).smul (8 / 9 * k * fd.in2C)).add
      ((((TanOf.outer h.inv h1 transpose_one).add (TanOf.outer h1 h.inv hs)).smul (-4 / 3 * k * fd.trC)).add
      (((TanOf.mulT2 hd h.inv hs).smul (2 / 3 * k * fd.in2C)).add
      (((TanOf.outer h1 h1 transpose_one).smul (2 * k)).add
      ((((TanOf.outer h.symC h.inv hs).add (TanOf.outer h.inv h.symC hc)).smul (4 / 3 * k)).add
      (TanOf.diag hd (-k))))))).congr ?_ ?_
    · intro r s
      unfold tanMRTL
      norm_num
      rw [hk]
      split_ifs <;> ring
    · intro X i j
      simp only [dpkMR, hk, h.det, h.tr, h.in2, e, Matrix.smul_apply, Matrix.add_apply, Matrix.sub_apply, smul_eq_mul,
        Matrix.one_mul]
      ring
  symm := by
    intro mat F
    simp only [pkMR, transpose_smul, transpose_sub, transpose_one, rightCG_inv_symm, rightCG_symm]
  adj := by
    intro mat F X Y _
    simp only [dpkMR, smul_mul, Matrix.add_mul, Matrix.sub_mul, trace_smul, trace_add, trace_sub, Matrix.one_mul,
      smul_eq_mul, trace_sandwich _ X Y, trace_mul_comm X Y]
    ring
  dsymm := by
    intro mat F X hX
    simp only [dpkMR, transpose_smul, transpose_sub, transpose_add, transpose_one, rightCG_inv_symm, rightCG_symm, hX,
      symm_sandwich _ _ (rightCG_inv_symm F) hX]
  energy := fun mat F F' t hF h0 _ => energyMR_deriv hd hF h0.1 (mat 0 0)
  deriv := fun mat F F' t hF h0 _ => pkMR_deriv hd hF h0.1 (mat 0 0)

theorem lawBulk (hd : 1 ≤ d ∧ d ≤ 3) : HyperLaw d stressBulkTL tanBulkTL (fun _ _ => True)
    (fun mat F => energyBulk (mat 0 0) F) (fun mat F => pkBulk (mat 0 0) F) (fun mat F => dpkBulk (mat 0 0) F) where
  near := fun _ _ _ _ _ _ _ => Eventually.of_forall fun _ => trivial
  stress := by
    intro mat fd F h hF _ i j
    simp only [stressBulkTL, h.det, h.inv i j, pkBulk, Matrix.smul_apply, smul_eq_mul]
  tan := by
    intro mat fd F h hF _
    have hs := rightCG_inv_symm F
    refine (((TanOf.outer h.inv h.inv hs).smul
        (mat 0 0 * fd.detF * (fd.detF - 1) + mat 0 0 * fd.detF * fd.detF)).add
      ((TanOf.mulT2 hd h.inv hs).smul (-(mat 0 0 * fd.detF * (fd.detF - 1))))).congr ?_ ?_
    · intro r s
      unfold tanBulkTL
      norm_num
      ring
    · intro X i j
      simp only [dpkBulk, h.det, Matrix.smul_apply, Matrix.add_apply, Matrix.sub_apply, smul_eq_mul]
      ring
  symm := by
    intro mat F
    simp only [pkBulk, transpose_smul, rightCG_inv_symm]
  adj := by
    intro mat F X Y _
    simp only [dpkBulk, smul_mul, Matrix.add_mul, Matrix.sub_mul, trace_smul, trace_add, trace_sub, Matrix.one_mul,
      smul_eq_mul, trace_sandwich _ X Y]
    ring
  dsymm := by
    intro mat F X hX
    simp only [dpkBulk, transpose_smul, transpose_sub, rightCG_inv_symm, symm_sandwich _ _ (rightCG_inv_symm F) hX]
  energy := fun mat F F' t hF h0 _ => energyBulk_deriv hd hF h0.1 (mat 0 0)
  deriv := fun mat F F' t hF h0 _ => pkBulk_deriv hd hF h0.1 (mat 0 0)

theorem lawActive (hd : 1 ≤ d ∧ d ≤ 3) : HyperLaw d stressActiveTL tanActiveTL (fun _ _ => True)
    (fun mat F => energyActive (mat 0 0) F) (fun mat F => pkJ (mat 0 0) F) (fun mat F => dpkJ (mat 0 0) F) where
  near := fun _ _ _ _ _ _ _ => Eventually.of_forall fun _ => trivial
  stress := by
    intro mat fd F h hF _ i j
    simp only [stressActiveTL, h.det, h.inv i j, pkJ, Matrix.smul_apply, smul_eq_mul]
  tan := by
    intro mat fd F h hF _
    have hs := rightCG_inv_symm F
    refine (((TanOf.outer h.inv h.inv hs).smul (mat 0 0 * fd.detF)).add
      ((TanOf.mulT2 hd h.inv hs).smul (-(mat 0 0 * fd.detF)))).congr ?_ ?_
    · intro r s
      unfold tanActiveTL
      norm_num
      ring
    · intro X i j
      simp only [dpkJ, h.det, Matrix.smul_apply, Matrix.add_apply, Matrix.sub_apply, smul_eq_mul]
      ring
  symm := by
    intro mat F
    simp only [pkJ, transpose_smul, rightCG_inv_symm]
  adj := by
    intro mat F X Y _
    simp only [dpkJ, smul_mul, Matrix.add_mul, Matrix.sub_mul, trace_smul, trace_add, trace_sub, Matrix.one_mul,
      smul_eq_mul, trace_sandwich _ X Y]
    ring
  dsymm := by
    intro mat F X hX
    simp only [dpkJ, transpose_smul, transpose_sub, rightCG_inv_symm, symm_sandwich _ _ (rightCG_inv_symm F) hX]
  energy := fun mat F F' t hF h0 _ => energyJ_deriv hd hF h0.1 (mat 0 0)
  deriv := fun mat F F' t hF h0 _ => pkJ_deriv hd hF h0.1 (mat 0 0)

theorem lawPressure (hd : 1 ≤ d ∧ d ≤ 3) : HyperLaw d stressPressureTL tanPressureTL (fun _ _ => True)
    (fun mat F => energyPressure (mat 0 0) F) (fun mat F => pkJ (-(mat 0 0)) F) (fun mat F => dpkJ (-(mat 0 0)) F) where
  near := fun _ _ _ _ _ _ _ => Eventually.of_forall fun _ => trivial
  stress := by
    intro mat fd F h hF _ i j
    simp only [stressPressureTL, h.det, h.inv i j, pkJ, Matrix.smul_apply, smul_eq_mul]
  tan := by
    intro mat fd F h hF _
    have hs := rightCG_inv_symm F
    refine (((TanOf.outer h.inv h.inv hs).smul (-(fd.detF * mat 0 0))).add
      ((TanOf.mulT2 hd h.inv hs).smul (fd.detF * mat 0 0))).congr ?_ ?_
    · intro r s
      unfold tanPressureTL
      norm_num
      ring
    · intro X i j
      simp only [dpkJ, h.det, Matrix.smul_apply, Matrix.add_apply, Matrix.sub_apply, smul_eq_mul]
      ring
  symm := by
    intro mat F
    simp only [pkJ, transpose_smul, rightCG_inv_symm]
  adj := by
    intro mat F X Y _
    simp only [dpkJ, smul_mul, Matrix.add_mul, Matrix.sub_mul, trace_smul, trace_add, trace_sub, Matrix.one_mul,
      smul_eq_mul, trace_sandwich _ X Y]
    ring
  dsymm := by
    intro mat F X hX
    simp only [dpkJ, transpose_smul, transpose_sub, rightCG_inv_symm, symm_sandwich _ _ (rightCG_inv_symm F) hX]
  energy := fun mat F F' t hF h0 _ => by
    have := energyJ_deriv hd hF h0.1 (-(mat 0 0))
    refine this.congr_of_eventuallyEq (Eventually.of_forall fun s => ?_)
    simp [energyPressure]
  deriv := fun mat F F' t hF h0 _ => pkJ_deriv hd hF h0.1 (-(mat 0 0))

end Verif.Term
