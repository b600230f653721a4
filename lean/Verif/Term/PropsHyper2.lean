/-
C64: hyperelastic terms.
-/
import Verif.Term.HyperUL

namespace Verif.Term

open Finset Matrix Filter Topology

variable {d : ℕ}

section

variable (vg : Mapping ℝ) (hd : 1 ≤ vg.dim ∧ vg.dim ≤ 3) (mat : Fld ℝ) (nEl : ℕ) (state : ℕ → ℝ) (conn : ℕ → ℕ → ℕ) (c : ℕ)
  (hc : c < nEl) (hw : NotWarped vg nEl state conn)

include hc hw in
theorem admissible_of (Dom : (ℕ → ℕ → ℝ) → Matrix (Fin vg.dim) (Fin vg.dim) ℝ → Prop)
    (hD : ∀ q < vg.nQP, Dom (mat.x1 c q) (cellF vg state conn c q)) : Admissible vg Dom mat nEl state conn c :=
  ⟨fun c hc q hq => (hw c hc q hq).1, fun q hq => (hw c hc q hq).2, hc, hD⟩

theorem x1_at (c q : ℕ) : mat.x1 c q 0 0 = mat.at c q 0 0 := by
  rw [Fld.x1, Fld.at]
  split_ifs <;> first | rfl | omega

include hd hc hw

/-- `dw_tl_he_neohook`: the residual is the first variation of `∫ μ / 2 (J^(-2/3) I₁ - 3)`. -/
theorem C64_neo_energy : ∃ b, heResidual false stressNeoTL mat nEl vg vg state conn c = some b ∧
    IsFirstVariation vg (fun q => energyNeo (mat.at c q 0 0)) state conn c b := by
  have := residual_energy (lawNeo hd) hd (admissible_of vg mat nEl state conn c hc hw _ fun _ _ => trivial)
  simp only [x1_at] at this
  exact this

/-- `dw_tl_he_neohook`: the matrix is the derivative of the residual and it is symmetric. -/
theorem C64_neo_jacobian : ∃ A, heMatrix false stressNeoTL tanNeoTL mat nEl vg vg state conn c = some A ∧
    IsJacobian vg (fun u => heResidual false stressNeoTL mat nEl vg vg u conn c) state conn c A ∧
    ∀ r < vg.dim * vg.nEP, ∀ s < vg.dim * vg.nEP, A r s = A s r := by
  have ha := admissible_of vg mat nEl state conn c hc hw (fun _ _ => True) fun _ _ => trivial
  obtain ⟨A, hA, h⟩ := matrix_derivative (lawNeo hd) hd ha
  exact ⟨A, hA, h, fun r hr s hs => matrix_symmetric (lawNeo hd) hd ha A hA r s hr hs⟩

/-- `dw_tl_he_mooney_rivlin`: the residual is the first variation of `∫ κ / 2 (J^(-4/3) I₂ - 3)`. -/
theorem C64_mr_energy : ∃ b, heResidual false stressMRTL mat nEl vg vg state conn c = some b ∧
    IsFirstVariation vg (fun q => energyMR (mat.at c q 0 0)) state conn c b := by
  have := residual_energy (lawMR hd) hd (admissible_of vg mat nEl state conn c hc hw _ fun _ _ => trivial)
  simp only [x1_at] at this
  exact this

/-- `dw_tl_he_mooney_rivlin`: the matrix is the derivative of the residual and it is symmetric. -/
theorem C64_mr_jacobian : ∃ A, heMatrix false stressMRTL tanMRTL mat nEl vg vg state conn c = some A ∧
    IsJacobian vg (fun u => heResidual false stressMRTL mat nEl vg vg u conn c) state conn c A ∧
    ∀ r < vg.dim * vg.nEP, ∀ s < vg.dim * vg.nEP, A r s = A s r := by
  have ha := admissible_of vg mat nEl state conn c hc hw (fun _ _ => True) fun _ _ => trivial
  obtain ⟨A, hA, h⟩ := matrix_derivative (lawMR hd) hd ha
  exact ⟨A, hA, h, fun r hr s hs => matrix_symmetric (lawMR hd) hd ha A hA r s hr hs⟩

/-- `dw_tl_bulk_penalty`: the residual is the first variation of `∫ K / 2 (J - 1)²`. -/
theorem C64_bulk_energy : ∃ b, heResidual false stressBulkTL mat nEl vg vg state conn c = some b ∧
    IsFirstVariation vg (fun q => energyBulk (mat.at c q 0 0)) state conn c b := by
  have := residual_energy (lawBulk hd) hd (admissible_of vg mat nEl state conn c hc hw _ fun _ _ => trivial)
  simp only [x1_at] at this
  exact this

/-- `dw_tl_bulk_penalty`: the matrix is the derivative of the residual and it is symmetric. -/
theorem C64_bulk_jacobian : ∃ A, heMatrix false stressBulkTL tanBulkTL mat nEl vg vg state conn c = some A ∧
    IsJacobian vg (fun u => heResidual false stressBulkTL mat nEl vg vg u conn c) state conn c A ∧
    ∀ r < vg.dim * vg.nEP, ∀ s < vg.dim * vg.nEP, A r s = A s r := by
  have ha := admissible_of vg mat nEl state conn c hc hw (fun _ _ => True) fun _ _ => trivial
  obtain ⟨A, hA, h⟩ := matrix_derivative (lawBulk hd) hd ha
  exact ⟨A, hA, h, fun r hr s hs => matrix_symmetric (lawBulk hd) hd ha A hA r s hr hs⟩

/-- `dw_tl_bulk_active`: the residual is the first variation of `∫ A J`. -/
theorem C64_active_energy : ∃ b, heResidual false stressActiveTL mat nEl vg vg state conn c = some b ∧
    IsFirstVariation vg (fun q => energyActive (mat.at c q 0 0)) state conn c b := by
  have := residual_energy (lawActive hd) hd (admissible_of vg mat nEl state conn c hc hw _ fun _ _ => trivial)
  simp only [x1_at] at this
  exact this

/-- `dw_tl_bulk_active`: the matrix is the derivative of the residual and it is symmetric. -/
theorem C64_active_jacobian : ∃ A, heMatrix false stressActiveTL tanActiveTL mat nEl vg vg state conn c = some A ∧
    IsJacobian vg (fun u => heResidual false stressActiveTL mat nEl vg vg u conn c) state conn c A ∧
    ∀ r < vg.dim * vg.nEP, ∀ s < vg.dim * vg.nEP, A r s = A s r := by
  have ha := admissible_of vg mat nEl state conn c hc hw (fun _ _ => True) fun _ _ => trivial
  obtain ⟨A, hA, h⟩ := matrix_derivative (lawActive hd) hd ha
  exact ⟨A, hA, h, fun r hr s hs => matrix_symmetric (lawActive hd) hd ha A hA r s hr hs⟩

/-- `dw_tl_bulk_pressure`: the residual is the first variation of `-∫ p J` with the pressure fixed. -/
theorem C64_pressure_energy : ∃ b, heResidual false stressPressureTL mat nEl vg vg state conn c = some b ∧
    IsFirstVariation vg (fun q => energyPressure (mat.at c q 0 0)) state conn c b := by
  have := residual_energy (lawPressure hd) hd (admissible_of vg mat nEl state conn c hc hw _ fun _ _ => trivial)
  simp only [x1_at] at this
  exact this

/-- `dw_tl_bulk_pressure`: the matrix of the displacements is the derivative of the residual and it is symmetric. -/
theorem C64_pressure_jacobian : ∃ A, heMatrix false stressPressureTL tanPressureTL mat nEl vg vg state conn c = some A ∧
    IsJacobian vg (fun u => heResidual false stressPressureTL mat nEl vg vg u conn c) state conn c A ∧
    ∀ r < vg.dim * vg.nEP, ∀ s < vg.dim * vg.nEP, A r s = A s r := by
  have ha := admissible_of vg mat nEl state conn c hc hw (fun _ _ => True) fun _ _ => trivial
  obtain ⟨A, hA, h⟩ := matrix_derivative (lawPressure hd) hd ha
  exact ⟨A, hA, h, fun r hr s hs => matrix_symmetric (lawPressure hd) hd ha A hA r s hr hs⟩

/-- `dw_tl_he_svk`: the residual is the first variation of `∫ D_ijkl E_ij E_kl / 2`, if `mat` is symmetric. -/
theorem C64_svk_energy (hs : ∀ q < vg.nQP, ∀ r s, mat.x1 c q r s = mat.x1 c q s r) :
    ∃ b, heResidual false stressSVK mat nEl vg vg state conn c = some b ∧
      IsFirstVariation vg (fun q => energySVK (mat.x1 c q)) state conn c b :=
  residual_energy (lawSVK hd) hd (admissible_of vg mat nEl state conn c hc hw _ hs)

end

/-- `dw_tl_he_genyeoh`: the residual is the first variation of `∫ ∑ K_k (J^(-2/3) I₁ - 3)^m_k` in the states where
`J^(-2/3) I₁ > 3`; the parameters are `K_1, K_2, K_3, m, p, q`, or `K_1, m` with two columns. -/
theorem C64_yeoh_energy (nQP nEP : ℕ) (bf : Fld ℝ) (bfGM det normal volume : ℕ → Lev ℝ) (mat : Fld ℝ) (nCol nEl : ℕ)
    (state : ℕ → ℝ) (conn : ℕ → ℕ → ℕ) (c : ℕ) (hc : c < nEl) :
    let vg : Mapping ℝ := ⟨3, nQP, nEP, bf, bfGM, det, normal, volume⟩
    NotWarped vg nEl state conn → (∀ q < nQP, 3 < (cellF vg state conn c q).det ^ (-2 / 3 : ℝ) *
      invar1 (rightCG (cellF vg state conn c q))) →
    ∃ b, heResidual false (stressYeoh nCol) mat nEl vg vg state conn c = some b ∧
      IsFirstVariation vg (fun q => if nCol = 2 then
          energyYeoh (mat.x1 c q 0 0) 0 0 (mat.x1 c q 0 1) 1 1
        else energyYeoh (mat.x1 c q 0 0) (mat.x1 c q 0 1) (mat.x1 c q 0 2) (mat.x1 c q 0 3) (mat.x1 c q 0 4)
          (mat.x1 c q 0 5)) state conn c b := by
  intro vg hw hx
  have ha := admissible_of vg mat nEl state conn c hc hw (fun _ F => 0 < yeohX F)
    fun q hq => sub_pos.2 (hx q hq)
  obtain ⟨b, hb, hb'⟩ := residual_energy (lawYeoh nCol) (by norm_num) ha
  refine ⟨b, hb, fun v => ?_⟩
  have := hb' v
  refine this.congr_of_eventuallyEq (Eventually.of_forall fun t => ?_)
  refine integ_congr (fun _ _ => rfl) fun q _ => ?_
  by_cases h2 : nCol = 2 <;> simp [h2, yeohCoef]

/-- `dw_tl_he_genyeoh`: in these states the matrix is the derivative of the residual and it is symmetric. -/
theorem C64_yeoh_jacobian (nQP nEP : ℕ) (bf : Fld ℝ) (bfGM det normal volume : ℕ → Lev ℝ) (mat : Fld ℝ) (nCol nEl : ℕ)
    (state : ℕ → ℝ) (conn : ℕ → ℕ → ℕ) (c : ℕ) (hc : c < nEl) :
    let vg : Mapping ℝ := ⟨3, nQP, nEP, bf, bfGM, det, normal, volume⟩
    NotWarped vg nEl state conn → (∀ q < nQP, 3 < (cellF vg state conn c q).det ^ (-2 / 3 : ℝ) *
      invar1 (rightCG (cellF vg state conn c q))) →
    ∃ A, heMatrix false (stressYeoh nCol) (tanYeoh nCol) mat nEl vg vg state conn c = some A ∧
      IsJacobian vg (fun u => heResidual false (stressYeoh nCol) mat nEl vg vg u conn c) state conn c A ∧
      ∀ r < 3 * nEP, ∀ s < 3 * nEP, A r s = A s r := by
  intro vg hw hx
  have ha := admissible_of vg mat nEl state conn c hc hw (fun _ F => 0 < yeohX F)
    fun q hq => sub_pos.2 (hx q hq)
  obtain ⟨A, hA, h⟩ := matrix_derivative (lawYeoh nCol) (by norm_num) ha
  exact ⟨A, hA, h, fun r hr s hs => matrix_symmetric (lawYeoh nCol) (by norm_num) ha A hA r s hr hs⟩

/-! ### The updated Lagrangian formulation -/

theorem form_unique {n nQP : ℕ} {w : ℕ → ℝ} {A A' : ℕ → ℕ → ℝ} {B : ℕ → (ℕ → ℝ) → (ℕ → ℝ) → ℝ}
    (h : IsForm n n nQP w A B) (h' : IsForm n n nQP w A' B) (r s : ℕ) (hr : r < n) (hs : s < n) : A r s = A' r s := by
  rw [← bil_single hr hs A, ← bil_single hr hs A', h, h']

theorem lin_unique {n : ℕ} {b b' : ℕ → ℕ → ℝ} (h : ∀ v : ℕ → ℝ, lin n v b = lin n v b') (r : ℕ) (hr : r < n) :
    b r 0 = b' r 0 := by
  have := h fun s => if s = r then 1 else 0
  simpa [lin, hr] using this

section

variable (vg : Mapping ℝ) (bfGM' det' : ℕ → Lev ℝ) (hd : 1 ≤ vg.dim ∧ vg.dim ≤ 3) (mat : Fld ℝ) (nEl : ℕ)
  (state : ℕ → ℝ) (conn : ℕ → ℕ → ℕ) (c : ℕ) (hc : c < nEl) (hw : NotWarped vg nEl state conn)
  (hm : Moved vg bfGM' det' state conn c)

include hc hw hm

theorem ul_eq_tl {sf sfU : StressFn} {tf tfU : TanFn} {W : (ℕ → ℕ → ℝ) → Matrix (Fin vg.dim) (Fin vg.dim) ℝ → ℝ}
    {pk : (ℕ → ℕ → ℝ) → Matrix (Fin vg.dim) (Fin vg.dim) ℝ → Matrix (Fin vg.dim) (Fin vg.dim) ℝ}
    {dpk : (ℕ → ℕ → ℝ) → Matrix (Fin vg.dim) (Fin vg.dim) ℝ → Matrix (Fin vg.dim) (Fin vg.dim) ℝ →
      Matrix (Fin vg.dim) (Fin vg.dim) ℝ} (hd : 1 ≤ vg.dim ∧ vg.dim ≤ 3)
    (law : HyperLaw vg.dim sf tf (fun _ _ => True) W pk dpk) (lawU : PushLaw vg.dim sfU tfU 1 pk dpk) :
    ∃ b b' A A', heResidual false sf mat nEl vg vg state conn c = some b ∧
      heResidual true sfU mat nEl vg { vg with bfGM := bfGM', det := det' } state conn c = some b' ∧
      heMatrix false sf tf mat nEl vg vg state conn c = some A ∧
      heMatrix true sfU tfU mat nEl vg { vg with bfGM := bfGM', det := det' } state conn c = some A' ∧
      (∀ r < vg.dim * vg.nEP, b' r 0 = b r 0) ∧
      ∀ r < vg.dim * vg.nEP, ∀ s < vg.dim * vg.nEP, A' r s = A r s := by
  have ha := admissible_of vg mat nEl state conn c hc hw (fun _ _ => True) fun _ _ => trivial
  obtain ⟨b, hb, hbv⟩ := residual_form law hd ha
  obtain ⟨b', hb', hbv'⟩ := ul_residual_form lawU hd law.symm ha hm
  obtain ⟨A, hA, hAf⟩ := matrix_form law hd ha
  obtain ⟨A', hA', hAf'⟩ := ul_matrix_form lawU hd law.symm law.dsymm ha hm
  refine ⟨b, b', A, A', hb, hb', hA, hA', fun r hr => lin_unique (fun v => ?_) r hr, fun r hr s hs => ?_⟩
  · rw [hbv, hbv']
  · simp only [one_mul] at hAf'
    exact form_unique hAf' hAf r s hr hs

include hd

/-- `dw_ul_he_neohook` on the moved mesh gives the same residual and matrix as `dw_tl_he_neohook`. -/
theorem C64_ul_neo :
    ∃ b b' A A', heResidual false stressNeoTL mat nEl vg vg state conn c = some b ∧
      heResidual true stressNeoUL mat nEl vg { vg with bfGM := bfGM', det := det' } state conn c = some b' ∧
      heMatrix false stressNeoTL tanNeoTL mat nEl vg vg state conn c = some A ∧
      heMatrix true stressNeoUL tanNeoUL mat nEl vg { vg with bfGM := bfGM', det := det' } state conn c = some A' ∧
      (∀ r < vg.dim * vg.nEP, b' r 0 = b r 0) ∧
      ∀ r < vg.dim * vg.nEP, ∀ s < vg.dim * vg.nEP, A' r s = A r s :=
  ul_eq_tl vg bfGM' det' mat nEl state conn c hc hw hm hd (lawNeo hd) (pushNeo hd)

/-- `dw_ul_bulk_penalty` on the moved mesh gives the same residual and matrix as `dw_tl_bulk_penalty`. -/
theorem C64_ul_bulk :
    ∃ b b' A A', heResidual false stressBulkTL mat nEl vg vg state conn c = some b ∧
      heResidual true stressBulkUL mat nEl vg { vg with bfGM := bfGM', det := det' } state conn c = some b' ∧
      heMatrix false stressBulkTL tanBulkTL mat nEl vg vg state conn c = some A ∧
      heMatrix true stressBulkUL tanBulkUL mat nEl vg { vg with bfGM := bfGM', det := det' } state conn c = some A' ∧
      (∀ r < vg.dim * vg.nEP, b' r 0 = b r 0) ∧
      ∀ r < vg.dim * vg.nEP, ∀ s < vg.dim * vg.nEP, A' r s = A r s :=
  ul_eq_tl vg bfGM' det' mat nEl state conn c hc hw hm hd (lawBulk hd) (pushBulk hd)

/-- `dw_ul_bulk_pressure` on the moved mesh gives the same residual and matrix as `dw_tl_bulk_pressure`. -/
theorem C64_ul_pressure :
    ∃ b b' A A', heResidual false stressPressureTL mat nEl vg vg state conn c = some b ∧
      heResidual true stressPressureUL mat nEl vg { vg with bfGM := bfGM', det := det' } state conn c = some b' ∧
      heMatrix false stressPressureTL tanPressureTL mat nEl vg vg state conn c = some A ∧
      heMatrix true stressPressureUL tanPressureUL mat nEl vg { vg with bfGM := bfGM', det := det' } state conn c
        = some A' ∧
      (∀ r < vg.dim * vg.nEP, b' r 0 = b r 0) ∧
      ∀ r < vg.dim * vg.nEP, ∀ s < vg.dim * vg.nEP, A' r s = A r s :=
  ul_eq_tl vg bfGM' det' mat nEl state conn c hc hw hm hd (lawPressure hd) (pushPressure hd)

omit hd in
/-- `dw_ul_he_mooney_rivlin` on the moved mesh in 2D gives the same residual as `dw_tl_he_mooney_rivlin`, but the
constitutive part of its matrix is taken twice: the matrix minus the one of the total Lagrangian formulation is the
constitutive part of the latter (the one with the geometric part, from the same stress, removed). -/
theorem C64_ul_mr_doubled (hd2 : 1 ≤ vg.dim ∧ vg.dim ≤ 2) :
    ∃ b b' A A' G, heResidual false stressMRTL mat nEl vg vg state conn c = some b ∧
      heResidual true stressMRUL mat nEl vg { vg with bfGM := bfGM', det := det' } state conn c = some b' ∧
      heMatrix false stressMRTL tanMRTL mat nEl vg vg state conn c = some A ∧
      heMatrix false stressMRTL (fun _ _ _ _ _ => 0) mat nEl vg vg state conn c = some G ∧
      heMatrix true stressMRUL tanMRUL mat nEl vg { vg with bfGM := bfGM', det := det' } state conn c = some A' ∧
      (∀ r < vg.dim * vg.nEP, b' r 0 = b r 0) ∧
      ∀ r < vg.dim * vg.nEP, ∀ s < vg.dim * vg.nEP, A' r s = A r s + (A r s - G r s) := by
  have hd : 1 ≤ vg.dim ∧ vg.dim ≤ 3 := ⟨hd2.1, by omega⟩
  have ha := admissible_of vg mat nEl state conn c hc hw (fun _ _ => True) fun _ _ => trivial
  have law := lawMR hd
  obtain ⟨b, hb, hbv⟩ := residual_form law hd ha
  obtain ⟨b', hb', hbv'⟩ := ul_residual_form (pushMR hd2) hd law.symm ha hm
  obtain ⟨A, hA, hAf⟩ := matrix_form law hd ha
  obtain ⟨A', hA', hAf'⟩ := ul_matrix_form (pushMR hd2) hd law.symm law.dsymm ha hm
  set fd : ℕ → FamData := fun q => (dqFinStrain false vg state conn c q).getD FamData.zero with hfd
  obtain ⟨G, hG, hG'⟩ := heRtmMatrix_tl hd vg.nEP vg.nQP (vg.bfGM c) (ptr (vg.det c))
    (fun q => stressMRTL (mat.x1 c q) vg.dim (fd q)) (fun _ _ _ => 0) (fun q => (fd q).mtxF)
    fun q => (fd q).detF
  refine ⟨b, b', A, A', G, hb, hb', hA, ?_, hA', fun r hr => lin_unique (fun v => ?_) r hr, fun r hr s hs => ?_⟩
  · unfold heMatrix heStress heMatrixWith
    rw [familyData_some vg hd false nEl state conn fun c hc q hq => (ha.pos c hc q hq).le]
    exact hG
  · rw [hbv, hbv']
  · have e1 := hAf (Pi.single r 1) (Pi.single s 1)
    have e2 := hAf' (Pi.single r 1) (Pi.single s 1)
    have e3 := hG' (Pi.single r 1) (Pi.single s 1)
    rw [bil_single hr hs] at e1 e2 e3
    rw [e1, e2, e3]
    unfold integ
    rw [← sum_sub_distrib, ← sum_add_distrib]
    refine sum_congr rfl fun q hq => ?_
    have hq' := mem_range.1 hq
    have hr' := ha.regular q hq'
    have hS := law.stress (mat.x1 c q) _ _ (famOf_cell vg hd state conn c q hr') hr' trivial
    have e4 := geomForm_eq hS (law.symm _ _) vg.nEP (vg.bfGM c q) (Pi.single r 1)
      (Pi.single s 1)
    simp only [zero_mul, sum_const_zero, zero_add]
    rw [e4]
    have eG : vg.G c q = vg.bfGM c q := rfl
    simp only [ptr, Mapping.w, eG]
    ring

end

end Verif.Term
