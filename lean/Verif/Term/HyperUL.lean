/-
The updated Lagrangian formulation: the stress and the tangent modulus are the push-forwards of those of the total
Lagrangian formulation.
-/
import Verif.Term.PropsHyper

namespace Verif.Term

open Finset Matrix Filter Topology

variable {d : ℕ}

/-- The family data of the updated Lagrangian formulation for the deformation gradient `F`. -/
structure FamOfUL (d : ℕ) (fd : FamData) (F : Matrix (Fin d) (Fin d) ℝ) : Prop where
  det : fd.detF = F.det
  symB : Stores d fd.symC (F * Fᵀ)
  tr : fd.trC = invar1 (F * Fᵀ)
  in2 : fd.in2C = invar2 (F * Fᵀ)

theorem famOfUL_cell (vg : Mapping ℝ) (hd : 1 ≤ vg.dim ∧ vg.dim ≤ 3) (state : ℕ → ℝ) (conn : ℕ → ℕ → ℕ) (c q : ℕ) :
    FamOfUL vg.dim ((dqFinStrain true vg state conn c q).getD FamData.zero) (cellF vg state conn c q) := by
  have e := defGradQp_eq vg state conn c q
  obtain ⟨fd, h1, -, h3, h4, h5, h6⟩ := finStrain_ul hd vg.nEP (vg.bfGM c q) (extractNBN vg.dim state (conn c) 0)
  rw [e] at h3 h4 h5 h6
  rw [dqFinStrain, h1]
  exact ⟨h3, h4, h5, h6⟩

/-- The functions `sfU`, `tfU` of the code compute the push-forwards of `pk` and, up to the factor `k`, of `dpk`. -/
structure PushLaw (d : ℕ) (sfU : StressFn) (tfU : TanFn) (k : ℝ)
    (pk : (ℕ → ℕ → ℝ) → Matrix (Fin d) (Fin d) ℝ → Matrix (Fin d) (Fin d) ℝ)
    (dpk : (ℕ → ℕ → ℝ) → Matrix (Fin d) (Fin d) ℝ → Matrix (Fin d) (Fin d) ℝ → Matrix (Fin d) (Fin d) ℝ) : Prop where
  stress : ∀ mat fd F, FamOfUL d fd F → Regular F → Stores d (sfU mat d fd) (F * pk mat F * Fᵀ)
  tan : ∀ mat fd F, FamOfUL d fd F → Regular F → TanOf d (tfU mat d fd) fun X => k • (F * dpk mat F (Fᵀ * X * F) * Fᵀ)

section

variable {F : Matrix (Fin d) (Fin d) ℝ} (h0 : F.det ≠ 0)

include h0

theorem push_inv : F * (rightCG F)⁻¹ * Fᵀ = 1 := by
  have hu : IsUnit F.det := isUnit_iff_ne_zero.2 h0
  have hut : IsUnit Fᵀ.det := by rw [det_transpose]; exact hu
  rw [rightCG, Matrix.mul_inv_rev, Matrix.mul_nonsing_inv_cancel_left _ _ hu, Matrix.nonsing_inv_mul _ hut]

theorem push_tr (X : Matrix (Fin d) (Fin d) ℝ) : ((rightCG F)⁻¹ * (Fᵀ * X * F)).trace = X.trace := by
  rw [← Matrix.mul_assoc, trace_mul_comm, ← Matrix.mul_assoc, ← Matrix.mul_assoc, push_inv h0, Matrix.one_mul]

theorem push_sandwich (X : Matrix (Fin d) (Fin d) ℝ) :
    F * ((rightCG F)⁻¹ * (Fᵀ * X * F) * (rightCG F)⁻¹) * Fᵀ = X := by
  have e : F * ((rightCG F)⁻¹ * (Fᵀ * X * F) * (rightCG F)⁻¹) * Fᵀ =
      (F * (rightCG F)⁻¹ * Fᵀ) * X * (F * (rightCG F)⁻¹ * Fᵀ) := by
    simp only [Matrix.mul_assoc]
  rw [e, push_inv h0, Matrix.one_mul, Matrix.mul_one]

end

theorem push_tr1 (F X : Matrix (Fin d) (Fin d) ℝ) : (Fᵀ * X * F).trace = (F * Fᵀ * X).trace := by
  rw [trace_mul_comm, Matrix.mul_assoc]

theorem push_tr2 (F X : Matrix (Fin d) (Fin d) ℝ) :
    (rightCG F * (Fᵀ * X * F)).trace = (F * Fᵀ * (F * Fᵀ) * X).trace := by
  rw [rightCG, ← Matrix.mul_assoc, trace_mul_comm]
  simp only [Matrix.mul_assoc]

theorem push_pair (F S X : Matrix (Fin d) (Fin d) ℝ) : (F * S * Fᵀ * X).trace = (S * (Fᵀ * X * F)).trace := by
  rw [Matrix.mul_assoc F, Matrix.mul_assoc F, trace_mul_comm F]
  simp only [Matrix.mul_assoc]

theorem invar1_comm (F : Matrix (Fin d) (Fin d) ℝ) : invar1 (F * Fᵀ) = invar1 (rightCG F) := by
  rw [invar1, invar1, rightCG, trace_mul_comm]

theorem invar2_comm (F : Matrix (Fin d) (Fin d) ℝ) : invar2 (F * Fᵀ) = invar2 (rightCG F) := by
  rw [invar2, invar2, invar1_comm, rightCG]
  congr 3
  rw [← Matrix.mul_assoc, trace_mul_comm]
  simp only [Matrix.mul_assoc]

theorem symm_ffT (F : Matrix (Fin d) (Fin d) ℝ) : (F * Fᵀ)ᵀ = F * Fᵀ := by
  rw [transpose_mul, transpose_transpose]

theorem pushNeo (hd : 1 ≤ d ∧ d ≤ 3) : PushLaw d stressNeoUL tanNeoUL 1 (fun mat F => pkNeo (mat 0 0) F)
    (fun mat F => dpkNeo (mat 0 0) F) where
  stress := by
    intro mat fd F h hF i j
    have e : F * pkNeo (mat 0 0) F * Fᵀ = (mat 0 0 * F.det ^ (-2 / 3 : ℝ)) • (F * Fᵀ - (invar1 (rightCG F) / 3) • 1) := by
      simp only [pkNeo, Matrix.mul_smul, Matrix.smul_mul, Matrix.mul_sub, Matrix.sub_mul, Matrix.mul_one,
        push_inv hF.1.ne']
    rw [e]
    simp only [stressNeoUL, h.det, h.tr, h.symB i j, getTrace_stores hd i j, detF23_eq hF.1, Matrix.smul_apply,
      Matrix.sub_apply, smul_eq_mul, invar1_comm]
  tan := by
    intro mat fd F h hF
    have h1 := getTrace_stores hd
    have hs := symm_ffT F
    refine (((TanOf.outer h1 h1 transpose_one).smul (2 / 9 * (mat 0 0 * detF23 fd.detF) * fd.trC)).add
      ((((TanOf.outer h.symB h1 transpose_one).add (TanOf.outer h1 h.symB hs)).smul
        (-2 / 3 * (mat 0 0 * detF23 fd.detF))).add
      ((TanOf.mulT2 hd h1 transpose_one).smul (mat 0 0 * detF23 fd.detF / 3 * fd.trC)))).congr ?_ ?_
    · intro r s
      unfold tanNeoUL
      norm_num
      ring
    · intro X i j
      simp only [dpkNeo, Matrix.mul_smul, Matrix.smul_mul, Matrix.mul_sub, Matrix.sub_mul, Matrix.mul_add, Matrix.add_mul,
        Matrix.mul_one, Matrix.one_mul, push_inv hF.1.ne', push_tr hF.1.ne', push_sandwich hF.1.ne', push_tr1]
      simp only [h.det, h.tr, detF23_eq hF.1, Matrix.smul_apply, Matrix.add_apply, Matrix.sub_apply, smul_eq_mul, invar1_comm]
      ring

theorem pushBulk (hd : 1 ≤ d ∧ d ≤ 3) : PushLaw d stressBulkUL tanBulkUL 1 (fun mat F => pkBulk (mat 0 0) F)
    (fun mat F => dpkBulk (mat 0 0) F) where
  stress := by
    intro mat fd F h hF i j
    simp only [pkBulk, Matrix.mul_smul, Matrix.smul_mul, push_inv hF.1.ne']
    simp only [stressBulkUL, h.det, getTrace_stores hd i j, Matrix.smul_apply, smul_eq_mul]
  tan := by
    intro mat fd F h hF
    have h1 := getTrace_stores hd
    refine (((TanOf.outer h1 h1 transpose_one).smul
        (mat 0 0 * fd.detF * (fd.detF - 1) + mat 0 0 * fd.detF * fd.detF)).add
      ((TanOf.mulT2 hd h1 transpose_one).smul (-(mat 0 0 * fd.detF * (fd.detF - 1))))).congr ?_ ?_
    · intro r s
      unfold tanBulkUL
      norm_num
      ring
    · intro X i j
      simp only [dpkBulk, Matrix.mul_smul, Matrix.smul_mul, Matrix.mul_sub, Matrix.sub_mul,
        Matrix.mul_one, Matrix.one_mul, push_inv hF.1.ne', push_tr hF.1.ne', push_sandwich hF.1.ne']
      simp only [h.det, Matrix.smul_apply, Matrix.add_apply, Matrix.sub_apply, smul_eq_mul]
      ring

theorem pushPressure (hd : 1 ≤ d ∧ d ≤ 3) : PushLaw d stressPressureUL tanPressureUL 1
    (fun mat F => pkJ (-(mat 0 0)) F) (fun mat F => dpkJ (-(mat 0 0)) F) where
  stress := by
    intro mat fd F h hF i j
    simp only [pkJ, Matrix.mul_smul, Matrix.smul_mul, push_inv hF.1.ne']
    simp only [stressPressureUL, h.det, getTrace_stores hd i j, Matrix.smul_apply, smul_eq_mul]
  tan := by
    intro mat fd F h hF
    have h1 := getTrace_stores hd
    refine (((TanOf.outer h1 h1 transpose_one).smul (-(fd.detF * mat 0 0))).add
      ((TanOf.mulT2 hd h1 transpose_one).smul (fd.detF * mat 0 0))).congr ?_ ?_
    · intro r s
      unfold tanPressureUL
      norm_num
      ring
    · intro X i j
      simp only [dpkJ, Matrix.mul_smul, Matrix.smul_mul, Matrix.mul_sub, Matrix.sub_mul,
        Matrix.mul_one, Matrix.one_mul, push_inv hF.1.ne', push_tr hF.1.ne', push_sandwich hF.1.ne']
      simp only [h.det, Matrix.smul_apply, Matrix.add_apply, Matrix.sub_apply, smul_eq_mul]
      ring

theorem mulT2SAA_stores (hd : 1 ≤ d ∧ d ≤ 2) {a : ℕ → ℝ} {A : Matrix (Fin d) (Fin d) ℝ} (h : Stores d a A) :
    Stores d (mulT2SAA d a) (A * A) := by
  intro i j
  obtain ⟨h1, h2⟩ := hd
  simp only [Matrix.mul_apply, ← h _ _]
  interval_cases d
  · fin_cases i; fin_cases j; simp [mulT2SAA, voigt]
  · fin_cases i <;> fin_cases j <;> simp [mulT2SAA, voigt] <;> ring

/-- In 1D and 2D the stress of the Mooney-Rivlin law is the push-forward, the tangent modulus is twice the
push-forward. -/
theorem pushMR (hd : 1 ≤ d ∧ d ≤ 2) : PushLaw d stressMRUL tanMRUL 2 (fun mat F => pkMR (mat 0 0) F)
    (fun mat F => dpkMR (mat 0 0) F) where
  stress := by
    intro mat fd F h hF i j
    have e : F * pkMR (mat 0 0) F * Fᵀ = (mat 0 0 * F.det ^ (-4 / 3 : ℝ)) • (invar1 (rightCG F) • (F * Fᵀ)
        - F * Fᵀ * (F * Fᵀ) - (2 / 3 * invar2 (rightCG F)) • 1) := by
      have e' : F * rightCG F * Fᵀ = F * Fᵀ * (F * Fᵀ) := by
        rw [rightCG]
        simp only [Matrix.mul_assoc]
      simp only [pkMR, Matrix.mul_smul, Matrix.smul_mul, Matrix.mul_sub, Matrix.sub_mul, Matrix.mul_one,
        push_inv hF.1.ne', e']
    rw [e]
    simp only [stressMRUL, h.det, h.tr, h.in2, h.symB i j, mulT2SAA_stores hd h.symB i j,
      getTrace_stores ⟨hd.1, by omega⟩ i j, ← detF23_sq hF.1, Matrix.smul_apply,
      Matrix.sub_apply, smul_eq_mul, invar1_comm, invar2_comm]
    rw [show (2.0 / 3.0 : ℝ) = 2 / 3 by norm_num]
    ring
  tan := by
    intro mat fd F h hF
    have hd3 : 1 ≤ d ∧ d ≤ 3 := ⟨hd.1, by omega⟩
    have h1 := getTrace_stores hd3
    have hs := symm_ffT F
    have hb := mulT2SAA_stores hd h.symB
    have hbs : (F * Fᵀ * (F * Fᵀ))ᵀ = F * Fᵀ * (F * Fᵀ) := by
      rw [transpose_mul, hs]
    have e := detF23_sq hF.1
    set k := mat 0 0 * (detF23 fd.detF * detF23 fd.detF) with hk
    refine (((TanOf.outer h1 h1 transpose_one).smul (16 / 9 * k * fd.in2C)).add
      ((((TanOf.outer h.symB h1 transpose_one).add (TanOf.outer h1 h.symB hs)).smul (-8 / 3 * k * fd.trC)).add
      (((TanOf.mulT2 hd3 h1 transpose_one).smul (4 / 3 * k * fd.in2C)).add
      (((TanOf.outer h.symB h.symB hs).smul (4 * k)).add
      (((TanOf.mulT2 hd3 h.symB hs).smul (-2 * k)).add
      (((TanOf.outer hb h1 transpose_one).add (TanOf.outer h1 hb hbs)).smul (8 / 3 * k))))))).congr ?_ ?_
    · intro r s
      unfold tanMRUL
      norm_num
      rw [hk]
      ring
    · intro X i j
      have e' : F * rightCG F * Fᵀ = F * Fᵀ * (F * Fᵀ) := by
        rw [rightCG]
        simp only [Matrix.mul_assoc]
      have e'' : F * (Fᵀ * X * F) * Fᵀ = F * Fᵀ * X * (F * Fᵀ) := by
        simp only [Matrix.mul_assoc]
      simp only [dpkMR, Matrix.mul_smul, Matrix.smul_mul, Matrix.mul_sub, Matrix.sub_mul, Matrix.mul_add, Matrix.add_mul,
        push_inv hF.1.ne', push_tr hF.1.ne', push_sandwich hF.1.ne', push_tr1, push_tr2, e', e'']
      simp only [Matrix.mul_one, Matrix.one_mul, hk, h.det, h.tr, h.in2, e, Matrix.smul_apply, Matrix.add_apply,
        Matrix.sub_apply, smul_eq_mul, invar1_comm, invar2_comm]
      ring

/-- The mapping of the moved mesh: `F` times the gradients with respect to the current coordinates are the gradients
with respect to the initial coordinates, the weights are multiplied by the volume ratio. -/
structure Moved (vg : Mapping ℝ) (bfGM' det' : ℕ → Lev ℝ) (state : ℕ → ℝ) (conn : ℕ → ℕ → ℕ) (c : ℕ) : Prop where
  grad : ∀ q < vg.nQP, ∀ j : Fin vg.dim, ∀ k < vg.nEP,
    vg.bfGM c q j k = ∑ i : Fin vg.dim, cellF vg state conn c q i j * bfGM' c q i k
  weight : ∀ q < vg.nQP, det' c q 0 0 = (cellF vg state conn c q).det * vg.det c q 0 0

section

variable {sfU : StressFn} {tfU : TanFn} {k : ℝ} {vg : Mapping ℝ}
    {pk : (ℕ → ℕ → ℝ) → Matrix (Fin vg.dim) (Fin vg.dim) ℝ → Matrix (Fin vg.dim) (Fin vg.dim) ℝ}
    {dpk : (ℕ → ℕ → ℝ) → Matrix (Fin vg.dim) (Fin vg.dim) ℝ → Matrix (Fin vg.dim) (Fin vg.dim) ℝ →
      Matrix (Fin vg.dim) (Fin vg.dim) ℝ} {bfGM' det' : ℕ → Lev ℝ}

theorem Moved.gradMat {state : ℕ → ℝ} {conn : ℕ → ℕ → ℕ} {c : ℕ} (h : Moved vg bfGM' det' state conn c) (q : ℕ)
    (hq : q < vg.nQP) (u : ℕ → ℝ) : gradMat vg.dim vg.nEP (vg.G c q) u =
      gradMat vg.dim vg.nEP (bfGM' c q) u * cellF vg state conn c q := by
  ext a j
  simp only [Verif.Term.gradMat, Matrix.mul_apply, fgrad, Mapping.G, sum_mul]
  rw [sum_comm]
  refine sum_congr rfl fun l hl => ?_
  rw [h.grad q hq j l (mem_range.1 hl), sum_mul]
  refine sum_congr rfl fun i _ => by ring

theorem contract_grad {f : ℕ → ℝ} {M : Matrix (Fin d) (Fin d) ℝ} (h : Stores d f M) (hM : Mᵀ = M) (nEP : ℕ) (g : ℕ → ℕ → ℝ)
    (u : ℕ → ℝ) : ∑ i ∈ range d, ∑ a ∈ range d, f (voigt d i a) * fgrad nEP g u i a =
      (M * (gradMat d nEP g u + (gradMat d nEP g u)ᵀ)).trace / 2 := by
  rw [← sum_contract M _ hM, sum_comm]
  simp only [Finset.sum_range]
  refine sum_congr rfl fun i _ => sum_congr rfl fun j _ => ?_
  rw [voigt_comm d (j : ℕ) i, h i j]
  rfl

theorem tan_grad {D : ℕ → ℕ → ℝ} {L : Matrix (Fin d) (Fin d) ℝ → Matrix (Fin d) (Fin d) ℝ} (h : TanOf d D L)
    (nEP : ℕ) (g : ℕ → ℕ → ℝ) (u : ℕ → ℝ) (i j : Fin d) :
    ∑ m ∈ range d, ∑ b ∈ range d, D (voigt d i j) (voigt d m b) * fgrad nEP g u m b =
      L (gradMat d nEP g u + (gradMat d nEP g u)ᵀ) i j := by
  rw [← h _ i j, sum_comm]
  simp only [Finset.sum_range]
  refine sum_congr rfl fun k _ => sum_congr rfl fun l _ => ?_
  rw [voigt_comm d (l : ℕ) k]
  rfl

theorem ul_residual_form (law : PushLaw vg.dim sfU tfU k pk dpk) (hd : 1 ≤ vg.dim ∧ vg.dim ≤ 3)
    (hpk : ∀ mat F, (pk mat F)ᵀ = pk mat F) {mat : Fld ℝ} {nEl : ℕ}
    {state : ℕ → ℝ} {conn : ℕ → ℕ → ℕ} {c : ℕ} (h : Admissible vg (fun _ _ => True) mat nEl state conn c)
    (hm : Moved vg bfGM' det' state conn c) :
    ∃ b, heResidual true sfU mat nEl vg { vg with bfGM := bfGM', det := det' } state conn c = some b ∧
      ∀ v, lin (vg.dim * vg.nEP) v b =
      integ vg.nQP (vg.w c) fun q => (pk (mat.x1 c q) (cellF vg state conn c q) *
        dCG (cellF vg state conn c q) (gradMat vg.dim vg.nEP (vg.G c q) v)).trace / 2 := by
  set fd : ℕ → FamData := fun q => (dqFinStrain true vg state conn c q).getD FamData.zero with hfd
  obtain ⟨b, hb, hb'⟩ := heRtmVector_ul hd vg.nEP vg.nQP (bfGM' c) (ptr (det' c))
    (fun q => sfU (mat.x1 c q) vg.dim (fd q)) (fun q => (fd q).mtxF) fun q => (fd q).detF
  refine ⟨b, ?_, fun v => ?_⟩
  · rw [heResidual, familyData_some vg hd true nEl state conn fun c hc q hq => (h.pos c hc q hq).le]
    exact hb
  · rw [hb']
    refine integ_congr (fun q hq => ?_) fun q hq => ?_
    · have hr := h.regular q hq
      have hf := famOfUL_cell vg hd state conn c q
      have e : (fd q).detF = (cellF vg state conn c q).det := hf.det
      rw [e, ptr, hm.weight q hq, mul_div_cancel_left₀ _ hr.1.ne']
      rfl
    · have hr := h.regular q hq
      have hf := famOfUL_cell vg hd state conn c q
      set F := cellF vg state conn c q
      have hsym : (F * pk (mat.x1 c q) F * Fᵀ)ᵀ = F * pk (mat.x1 c q) F * Fᵀ := by
        rw [transpose_mul, transpose_mul, transpose_transpose, hpk, Matrix.mul_assoc]
      have := contract_grad (law.stress (mat.x1 c q) _ _ hf hr) hsym vg.nEP (bfGM' c q) v
      rw [this, hm.gradMat q hq v]
      congr 1
      rw [dCG, transpose_mul]
      have e : Fᵀ * (gradMat vg.dim vg.nEP (bfGM' c q) v)ᵀ * F + Fᵀ * (gradMat vg.dim vg.nEP (bfGM' c q) v * F) =
          Fᵀ * (gradMat vg.dim vg.nEP (bfGM' c q) v + (gradMat vg.dim vg.nEP (bfGM' c q) v)ᵀ) * F := by
        simp only [Matrix.mul_add, Matrix.add_mul, Matrix.mul_assoc]
        rw [add_comm]
      rw [e, push_pair]

theorem ul_matrix_form (law : PushLaw vg.dim sfU tfU k pk dpk) (hd : 1 ≤ vg.dim ∧ vg.dim ≤ 3)
    (hpk : ∀ mat F, (pk mat F)ᵀ = pk mat F)
    (hdpk : ∀ mat F (X : Matrix (Fin vg.dim) (Fin vg.dim) ℝ), Xᵀ = X → (dpk mat F X)ᵀ = dpk mat F X)
    {mat : Fld ℝ} {nEl : ℕ}
    {state : ℕ → ℝ} {conn : ℕ → ℕ → ℕ} {c : ℕ} (h : Admissible vg (fun _ _ => True) mat nEl state conn c)
    (hm : Moved vg bfGM' det' state conn c) :
    ∃ A, heMatrix true sfU tfU mat nEl vg { vg with bfGM := bfGM', det := det' } state conn c = some A ∧
      IsForm (vg.dim * vg.nEP) (vg.dim * vg.nEP) vg.nQP (vg.w c) A fun q v u =>
        k * ((dpk (mat.x1 c q) (cellF vg state conn c q)
            (dCG (cellF vg state conn c q) (gradMat vg.dim vg.nEP (vg.G c q) u)) *
          dCG (cellF vg state conn c q) (gradMat vg.dim vg.nEP (vg.G c q) v)).trace / 2) +
        (pk (mat.x1 c q) (cellF vg state conn c q) *
          dCG (gradMat vg.dim vg.nEP (vg.G c q) u) (gradMat vg.dim vg.nEP (vg.G c q) v)).trace / 2 := by
  set fd : ℕ → FamData := fun q => (dqFinStrain true vg state conn c q).getD FamData.zero with hfd
  obtain ⟨A, hA, hA'⟩ := heRtmMatrix_ul hd vg.nEP vg.nQP (bfGM' c) (ptr (det' c))
    (fun q => sfU (mat.x1 c q) vg.dim (fd q)) (fun q => tfU (mat.x1 c q) vg.dim (fd q)) (fun q => (fd q).mtxF)
    fun q => (fd q).detF
  refine ⟨A, ?_, fun v u => ?_⟩
  · unfold heMatrix heStress heMatrixWith
    rw [familyData_some vg hd true nEl state conn fun c hc q hq => (h.pos c hc q hq).le]
    exact hA
  · rw [hA']
    refine integ_congr (fun q hq => ?_) fun q hq => ?_
    · have hr := h.regular q hq
      have hf := famOfUL_cell vg hd state conn c q
      have e : (fd q).detF = (cellF vg state conn c q).det := hf.det
      rw [e, ptr, hm.weight q hq, mul_div_cancel_left₀ _ hr.1.ne']
      rfl
    · beta_reduce
      have hr := h.regular q hq
      have hf := famOfUL_cell vg hd state conn c q
      have hT := law.tan (mat.x1 c q) _ _ hf hr
      have hS := law.stress (mat.x1 c q) _ _ hf hr
      set F := cellF vg state conn c q
      have hsym : (F * pk (mat.x1 c q) F * Fᵀ)ᵀ = F * pk (mat.x1 c q) F * Fᵀ := by
        rw [transpose_mul, transpose_mul, transpose_transpose, hpk, Matrix.mul_assoc]
      have e1 := geomForm_eq hS hsym vg.nEP (bfGM' c q) v u
      set U := gradMat vg.dim vg.nEP (bfGM' c q) u
      set V := gradMat vg.dim vg.nEP (bfGM' c q) v
      have pullX : ∀ Y : Matrix (Fin vg.dim) (Fin vg.dim) ℝ, dCG F (Y * F) = Fᵀ * (Y + Yᵀ) * F := by
        intro Y
        rw [dCG, transpose_mul]
        simp only [Matrix.mul_add, Matrix.add_mul, Matrix.mul_assoc]
        rw [add_comm]
      have hsX : (Fᵀ * (U + Uᵀ) * F)ᵀ = Fᵀ * (U + Uᵀ) * F := by
        rw [transpose_mul, transpose_mul, transpose_transpose, transpose_add, transpose_transpose, add_comm Uᵀ,
          Matrix.mul_assoc]
      have hdX := hdpk (mat.x1 c q) F _ hsX
      have e2 : ∑ i ∈ range vg.dim, ∑ a ∈ range vg.dim, (∑ m ∈ range vg.dim, ∑ b ∈ range vg.dim,
          tfU (mat.x1 c q) vg.dim (fd q) (voigt vg.dim i a) (voigt vg.dim m b) * fgrad vg.nEP (bfGM' c q) u m b) *
            fgrad vg.nEP (bfGM' c q) v i a =
          k * ((dpk (mat.x1 c q) F (Fᵀ * (U + Uᵀ) * F) * (Fᵀ * (V + Vᵀ) * F)).trace / 2) := by
        have step : ∀ i a : Fin vg.dim, (∑ m ∈ range vg.dim, ∑ b ∈ range vg.dim,
          tfU (mat.x1 c q) vg.dim (fd q) (voigt vg.dim i a) (voigt vg.dim m b) * fgrad vg.nEP (bfGM' c q) u m b) =
            (k • (F * dpk (mat.x1 c q) F (Fᵀ * (U + Uᵀ) * F) * Fᵀ)) i a :=
          fun i a => tan_grad hT vg.nEP (bfGM' c q) u i a
        have hsP : (F * dpk (mat.x1 c q) F (Fᵀ * (U + Uᵀ) * F) * Fᵀ)ᵀ =
            F * dpk (mat.x1 c q) F (Fᵀ * (U + Uᵀ) * F) * Fᵀ := by
          rw [transpose_mul, transpose_mul, transpose_transpose, hdX, ← Matrix.mul_assoc]
        rw [← push_pair, ← sum_contract _ _ hsP, mul_sum, sum_comm, Finset.sum_range]
        refine sum_congr rfl fun a _ => ?_
        rw [Finset.sum_range, mul_sum]
        refine sum_congr rfl fun i _ => ?_
        rw [step i a]
        have hsP' := congrFun (congrFun hsP a) i
        rw [Matrix.transpose_apply] at hsP'
        rw [Matrix.smul_apply, smul_eq_mul, hsP', mul_assoc]
        rfl
      rw [hm.gradMat q hq u, hm.gradMat q hq v, pullX, pullX, e2, e1]
      congr 2
      have e3 : dCG (U * F) (V * F) = Fᵀ * dCG U V * F := by
        rw [dCG, dCG, transpose_mul, transpose_mul]
        simp only [Matrix.mul_add, Matrix.add_mul, Matrix.mul_assoc]
      rw [e3, push_pair]

end

end Verif.Term
