/-
C64: hyperelastic terms, continued: rotations, the history of evaluations.
-/
import Verif.Term.PropsHyper3

namespace Verif.Term

open Finset Matrix Filter Topology

variable {d : ℕ}

/-! ### Rotations -/

theorem rightCG_rotated {F Q : Matrix (Fin d) (Fin d) ℝ} (hQ : Qᵀ * Q = 1) : rightCG (Q * F) = rightCG F := by
  rw [rightCG, rightCG, transpose_mul, Matrix.mul_assoc, ← Matrix.mul_assoc Qᵀ, hQ, Matrix.one_mul]

theorem det_rotated {F Q : Matrix (Fin d) (Fin d) ℝ} (hQ : Qᵀ * Q = 1) (h : 0 < F.det) (h' : 0 < (Q * F).det) :
    (Q * F).det = F.det := by
  have e : Q.det * Q.det = 1 := by
    have := congrArg Matrix.det hQ
    rwa [det_mul, det_transpose, det_one] at this
  rw [det_mul] at h' ⊢
  have hp : 0 < Q.det := pos_of_mul_pos_left h' h.le
  have : Q.det = 1 := by nlinarith
  rw [this, one_mul]

theorem stress_rotated {sf : StressFn} {tf : TanFn} {vg : Mapping ℝ}
    {Dom : (ℕ → ℕ → ℝ) → Matrix (Fin vg.dim) (Fin vg.dim) ℝ → Prop}
    {W : (ℕ → ℕ → ℝ) → Matrix (Fin vg.dim) (Fin vg.dim) ℝ → ℝ}
    {pk : (ℕ → ℕ → ℝ) → Matrix (Fin vg.dim) (Fin vg.dim) ℝ → Matrix (Fin vg.dim) (Fin vg.dim) ℝ}
    {dpk : (ℕ → ℕ → ℝ) → Matrix (Fin vg.dim) (Fin vg.dim) ℝ → Matrix (Fin vg.dim) (Fin vg.dim) ℝ →
      Matrix (Fin vg.dim) (Fin vg.dim) ℝ} (law : HyperLaw vg.dim sf tf Dom W pk dpk)
    (hd : 1 ≤ vg.dim ∧ vg.dim ≤ 3) (mat : Fld ℝ) (nEl : ℕ) (state state' : ℕ → ℝ) (conn : ℕ → ℕ → ℕ) (c : ℕ)
    (ha : Admissible vg Dom mat nEl state conn c) (ha' : Admissible vg Dom mat nEl state' conn c)
    (Q : ℕ → Matrix (Fin vg.dim) (Fin vg.dim) ℝ) (hQ : ∀ q, (Q q)ᵀ * Q q = 1)
    (hF : ∀ q < vg.nQP, cellF vg state' conn c q = Q q * cellF vg state conn c q)
    (hpk : ∀ mat F G, rightCG F = rightCG G → F.det = G.det → pk mat F = pk mat G) :
    ∃ s s', heStress false sf mat nEl vg state conn c = some s ∧ heStress false sf mat nEl vg state' conn c = some s' ∧
      ∀ q < vg.nQP, ∀ i j : Fin vg.dim, s' q (voigt vg.dim i j) = s q (voigt vg.dim i j) := by
  refine ⟨fun q => sf (mat.x1 c q) vg.dim ((dqFinStrain false vg state conn c q).getD FamData.zero),
    fun q => sf (mat.x1 c q) vg.dim ((dqFinStrain false vg state' conn c q).getD FamData.zero), ?_, ?_, ?_⟩
  · unfold heStress
    rw [familyData_some vg hd false nEl state conn fun c hc q hq => (ha.pos c hc q hq).le]
    rfl
  · unfold heStress
    rw [familyData_some vg hd false nEl state' conn fun c hc q hq => (ha'.pos c hc q hq).le]
    rfl
  · intro q hq i j
    have hr := ha.regular q hq
    have hr' := ha'.regular q hq
    have h1 := law.stress (mat.x1 c q) _ _ (famOf_cell vg hd state conn c q hr) hr (ha.dom q hq) i j
    have h2 := law.stress (mat.x1 c q) _ _ (famOf_cell vg hd state' conn c q hr') hr' (ha'.dom q hq) i j
    have e := hF q hq
    refine h2.trans ((congrFun (congrFun (hpk _ _ _ ?_ ?_) i) j).trans h1.symm)
    · rw [e, rightCG_rotated (hQ q)]
    · have h' := hr'.1
      rw [e] at h' ⊢
      exact det_rotated (hQ q) hr.1 h'

/-- The stress (second Piola-Kirchhoff) of the total Lagrangian terms does not change if the deformed body is rotated. -/
theorem C64_objective (vg : Mapping ℝ) (hd : 1 ≤ vg.dim ∧ vg.dim ≤ 3) (mat : Fld ℝ) (nEl : ℕ) (state state' : ℕ → ℝ)
    (conn : ℕ → ℕ → ℕ) (c : ℕ) (hc : c < nEl) (hw : NotWarped vg nEl state conn) (hw' : NotWarped vg nEl state' conn)
    (Q : ℕ → Matrix (Fin vg.dim) (Fin vg.dim) ℝ) (hQ : ∀ q, (Q q)ᵀ * Q q = 1)
    (hF : ∀ q < vg.nQP, cellF vg state' conn c q = Q q * cellF vg state conn c q)
    (sf : StressFn) (hsf : sf = stressNeoTL ∨ sf = stressMRTL ∨ sf = stressBulkTL ∨ sf = stressActiveTL ∨
      sf = stressPressureTL ∨ sf = stressSVK ∧ ∀ q < vg.nQP, ∀ r s, mat.x1 c q r s = mat.x1 c q s r) :
    ∃ s s', heStress false sf mat nEl vg state conn c = some s ∧ heStress false sf mat nEl vg state' conn c = some s' ∧
      ∀ q < vg.nQP, ∀ i j : Fin vg.dim, s' q (voigt vg.dim i j) = s q (voigt vg.dim i j) := by
  have ha := admissible_of vg mat nEl state conn c hc hw (fun _ _ => True) fun _ _ => trivial
  have ha' := admissible_of vg mat nEl state' conn c hc hw' (fun _ _ => True) fun _ _ => trivial
  rcases hsf with rfl | rfl | rfl | rfl | rfl | ⟨rfl, hs⟩
  · exact stress_rotated (lawNeo hd) hd mat nEl state state' conn c ha ha' Q hQ hF
      fun mat F G e1 e2 => by simp only [pkNeo, e1, e2]
  · exact stress_rotated (lawMR hd) hd mat nEl state state' conn c ha ha' Q hQ hF
      fun mat F G e1 e2 => by simp only [pkMR, e1, e2]
  · exact stress_rotated (lawBulk hd) hd mat nEl state state' conn c ha ha' Q hQ hF
      fun mat F G e1 e2 => by simp only [pkBulk, e1, e2]
  · exact stress_rotated (lawActive hd) hd mat nEl state state' conn c ha ha' Q hQ hF
      fun mat F G e1 e2 => by simp only [pkJ, e1, e2]
  · exact stress_rotated (lawPressure hd) hd mat nEl state state' conn c ha ha' Q hQ hF
      fun mat F G e1 e2 => by simp only [pkJ, e1, e2]
  · exact stress_rotated (lawSVK hd) hd mat nEl state state' conn c
      (admissible_of vg mat nEl state conn c hc hw _ hs) (admissible_of vg mat nEl state' conn c hc hw' _ hs) Q hQ hF
      fun mat F G e1 e2 => by
        ext i j
        simp only [pkSVK, greenStrain, e1]

/-! ### The stress cache -/

/-- The state of the last residual evaluation in a history of evaluations, if there is one. -/
def lastResidual {σ : Type} (hist : List (σ × Bool)) : Option σ :=
  ((hist.filter fun e => !e.2).getLast?).map Prod.fst

theorem stressRun_append {σ S : Type} (compute : σ → S) (cache : Option S) (hist : List (σ × Bool)) (e : σ × Bool) :
    (stressRun compute cache (hist ++ [e])).getLast? =
      some (if e.2 then (((lastResidual hist).map compute).or cache).getD (compute e.1) else compute e.1) := by
  induction hist generalizing cache with
  | nil =>
    obtain ⟨u, b⟩ := e
    cases b <;> simp [stressRun, stressUse, lastResidual]
  | cons f rest ih =>
    obtain ⟨w, b⟩ := f
    have hne : ∀ c', stressRun compute c' (rest ++ [e]) ≠ [] := by
      intro c' h
      cases rest <;> simp [stressRun] at h
    have hcons : ∀ (x : S) (l : List S), l ≠ [] → (x :: l).getLast? = l.getLast? := by
      intro x l hl
      obtain ⟨y, l', rfl⟩ := List.exists_cons_of_ne_nil hl
      simp
    rw [List.cons_append, stressRun]
    simp only
    rw [hcons _ _ (hne _), ih]
    cases b
    · have : lastResidual ((w, false) :: rest) = (lastResidual rest).or (some w) := by
        simp only [lastResidual, List.filter_cons]
        simp only [Bool.not_false, if_true, List.getLast?_cons, Option.map_some]
        cases (rest.filter fun e => !e.2).getLast? <;> simp
      rw [this]
      cases lastResidual rest <;> simp [stressUse]
    · have : lastResidual ((w, true) :: rest) = lastResidual rest := by
        simp [lastResidual]
      rw [this]
      simp [stressUse]

/-- The stress in a matrix evaluation is the one of the last residual evaluation of the same term, whatever its state was,
and the one of the current state only if there was no residual evaluation; a residual evaluation always uses the
current state. -/
theorem C64_stress_cache {σ S : Type} (compute : σ → S) (hist : List (σ × Bool)) (u : σ) :
    (stressRun compute none (hist ++ [(u, false)])).getLast? = some (compute u) ∧
    (lastResidual hist = none → (stressRun compute none (hist ++ [(u, true)])).getLast? = some (compute u)) ∧
    ∀ w, lastResidual hist = some w → (stressRun compute none (hist ++ [(u, true)])).getLast? = some (compute w) := by
  refine ⟨by simp [stressRun_append], fun h => by simp [stressRun_append, h], fun w h => by simp [stressRun_append, h]⟩

/-- So the matrix is the one of the current state if the residual was evaluated in this state just before, and it can be
another one in the other histories. -/
theorem C64_stress_cache_newton {σ S : Type} (compute : σ → S) (hist : List (σ × Bool)) (u : σ) :
    (stressRun compute none (hist ++ [(u, false)] ++ [(u, true)])).getLast? = some (compute u) := by
  refine (C64_stress_cache compute _ u).2.2 u ?_
  simp [lastResidual]

/-! ### The cache of the family data and the warp check -/

/-- After 'warp violation!' the data of the warped state are in the cache: the next call with the same key does not fail
and gives them; the check is reliable only in the first call. -/
theorem C64_warp_cache {D : Type} (data data' : D) (w : Bool) :
    (famCall none data true).1 = none ∧ (famCall (famCall none data true).2 data' w).1 = some data := by
  simp [famCall]

/-! ### The material array of the Saint Venant-Kirchhoff term -/

/-- The array after `n` evaluations of the stress. -/
noncomputable def svkAfter (dim nEl : ℕ) (mat : Fld ℝ) : ℕ → Fld ℝ
  | 0 => mat
  | n + 1 => (svkStressMat dim nEl (svkAfter dim nEl mat n)).2

/-- If the array is constant in the cells, the evaluations do not change it; otherwise each evaluation multiplies the
shear columns by two. -/
theorem C64_svk_inplace (dim nEl : ℕ) (mat : Fld ℝ) (n : ℕ) :
    (mat.nCell = 1 → 1 < nEl → svkAfter dim nEl mat n = mat) ∧
    (mat.nCell ≠ 1 ∨ nEl ≤ 1 → ∀ c q k l, (svkAfter dim nEl mat n).val c q k l =
      if dim ≤ l then 2 ^ n * mat.val c q k l else mat.val c q k l) := by
  constructor
  · intro h1 h2
    induction n with
    | zero => rfl
    | succ n ih => simp [svkAfter, ih, svkStressMat, h1, h2]
  · intro h
    have hn : ∀ n, (svkAfter dim nEl mat n).nCell = mat.nCell := by
      intro n
      induction n with
      | zero => rfl
      | succ n ih =>
        simp only [svkAfter, svkStressMat]
        split_ifs <;> exact ih
    induction n with
    | zero => intro c q k l; simp [svkAfter]
    | succ n ih =>
      intro c q k l
      have : ¬((svkAfter dim nEl mat n).nCell = 1 ∧ nEl > 1) := by
        rw [hn]
        omega
      simp only [svkAfter, svkStressMat]
      rw [if_neg this]
      simp only [ih]
      split_ifs
      · ring
      · rfl

/-- With the array of the first evaluation the stress is `D : E` with the shear components taken twice, as in
`C64_svk_energy`. -/
theorem C64_svk_stress (dim nEl : ℕ) (mat : Fld ℝ) (fd : ℕ → ℕ → FamData) (c q k : ℕ) :
    svkStress dim nEl mat fd c q k = stressSVK (mat.x1 c q) dim (fd c q) k := by
  unfold svkStress stressSVK svkStressMat
  refine sum_congr rfl fun l _ => ?_
  congr 1
  simp only [Fld.x1]
  split_ifs <;> simp [*]

/-! ### Matrices that are not the derivatives -/

/-- `dw_ul_he_mooney_rivlin` in 2D, in the undeformed state: the matrix is twice the derivative of the residual, which is
the matrix `A` of `dw_tl_he_mooney_rivlin` by `C64_mr_jacobian`. -/
theorem C64_ul_mr_rest (vg : Mapping ℝ) (hd : vg.dim = 2) (mat : Fld ℝ) (nEl : ℕ) (conn : ℕ → ℕ → ℕ) (c : ℕ)
    (hc : c < nEl) :
    ∃ A A', heMatrix false stressMRTL tanMRTL mat nEl vg vg (fun _ => 0) conn c = some A ∧
      heMatrix true stressMRUL tanMRUL mat nEl vg vg (fun _ => 0) conn c = some A' ∧
      ∀ r < vg.dim * vg.nEP, ∀ s < vg.dim * vg.nEP, A' r s = 2 * A r s := by
  have hd3 : 1 ≤ vg.dim ∧ vg.dim ≤ 3 := by omega
  have hm : Moved vg vg.bfGM vg.det (fun _ => 0) conn c := by
    refine ⟨fun q _ j k _ => ?_, fun q _ => ?_⟩
    · simp [cellF_zero, Matrix.one_apply]
    · simp [cellF_zero]
  have ha := admissible_of vg mat nEl (fun _ => 0) conn c hc (notWarped_zero vg nEl conn) (fun _ _ => True)
    fun _ _ => trivial
  obtain ⟨A, hA, hAf⟩ := matrix_form (lawMR hd3) hd3 ha
  obtain ⟨A', hA', hAf'⟩ := ul_matrix_form (pushMR ⟨hd3.1, by omega⟩) hd3 (lawMR hd3).symm (lawMR hd3).dsymm ha hm
  refine ⟨A, A', hA, hA', fun r hr s hs => ?_⟩
  rw [← bil_single hr hs A, ← bil_single hr hs A', hAf, hAf']
  unfold integ
  rw [mul_sum]
  refine sum_congr rfl fun q _ => ?_
  have e : pkMR (mat.x1 c q 0 0) (cellF vg (fun _ => 0) conn c q) = 0 := by
    have h2 : 2 ≤ vg.dim ∧ vg.dim ≤ 3 := by omega
    simp only [cellF_zero, pkMR, rightCG_one, invar1_one h2, invar2_one h2, inv_one]
    ext i j
    simp only [Matrix.smul_apply, Matrix.sub_apply, smul_eq_mul, Matrix.zero_apply]
    ring
  beta_reduce
  rw [e, Matrix.zero_mul, trace_zero, zero_div, add_zero]
  ring

/-- `dw_tl_he_svk` with an array that is constant in the cells: `A` is the derivative of the residual, and the matrix of
the term is `A` plus the constitutive part of the shear rows once more. -/
theorem C64_svk_tangent (vg : Mapping ℝ) (hd : 1 ≤ vg.dim ∧ vg.dim ≤ 3) (mat : Fld ℝ) (nEl : ℕ) (state : ℕ → ℝ)
    (conn : ℕ → ℕ → ℕ) (c : ℕ) (hc : c < nEl) (hw : NotWarped vg nEl state conn)
    (hs : ∀ q < vg.nQP, ∀ r s, mat.x1 c q r s = mat.x1 c q s r) :
    ∃ A A' E, heMatrix false stressSVK tanSVK mat nEl vg vg state conn c = some A' ∧
      IsJacobian vg (fun u => heResidual false stressSVK mat nEl vg vg u conn c) state conn c A ∧
      (IsForm (vg.dim * vg.nEP) (vg.dim * vg.nEP) vg.nQP (vg.w c) E fun q v u =>
        ∑ i : Fin vg.dim, ∑ j : Fin vg.dim, if i = j then 0 else
          (∑ k : Fin vg.dim, ∑ l : Fin vg.dim, mat.x1 c q (voigt vg.dim i j) (voigt vg.dim k l) *
            ((cellF vg state conn c q)ᵀ * gradMat vg.dim vg.nEP (vg.G c q) u) k l) *
            ((cellF vg state conn c q)ᵀ * gradMat vg.dim vg.nEP (vg.G c q) v) i j) ∧
      ∀ r < vg.dim * vg.nEP, ∀ s < vg.dim * vg.nEP, A' r s = A r s + E r s := by
  have ha := admissible_of vg mat nEl state conn c hc hw (fun mat _ => ∀ r s, mat r s = mat s r) hs
  obtain ⟨A, hA, hJ⟩ := matrix_derivative (lawSVK hd) hd ha
  set fd : ℕ → FamData := fun q => (dqFinStrain false vg state conn c q).getD FamData.zero with hfd
  have hm : ∀ q < vg.nQP, toMat vg.dim (fd q).mtxF = cellF vg state conn c q := fun q hq =>
    (famOf_cell vg hd state conn c q (ha.regular q hq)).mtx
  obtain ⟨A1, hA1, hA1'⟩ := heRtmMatrix_tl hd vg.nEP vg.nQP (vg.bfGM c) (ptr (vg.det c))
    (fun q => stressSVK (mat.x1 c q) vg.dim (fd q)) (fun q => mat.x1 c q) (fun q => (fd q).mtxF) fun q => (fd q).detF
  obtain ⟨A', hA', hA''⟩ := heRtmMatrix_tl hd vg.nEP vg.nQP (vg.bfGM c) (ptr (vg.det c))
    (fun q => stressSVK (mat.x1 c q) vg.dim (fd q)) (fun q => tanSVK (mat.x1 c q) vg.dim (fd q)) (fun q => (fd q).mtxF)
    fun q => (fd q).detF
  have hfam := familyData_some vg hd false nEl state conn fun c hc q hq => (ha.pos c hc q hq).le
  have e1 : A1 = A := by
    have : heMatrix false stressSVK (fun mat _ _ => mat) mat nEl vg vg state conn c = some A1 := by
      unfold heMatrix heStress heMatrixWith
      rw [hfam]
      exact hA1
    rw [this] at hA
    exact Option.some.inj hA
  subst e1
  refine ⟨A1, A', fun r s => A' r s - A1 r s, ?_, hJ, fun v u => ?_, fun r _ s _ => by ring⟩
  · unfold heMatrix heStress heMatrixWith
    rw [hfam]
    exact hA'
  · have eb : bil (vg.dim * vg.nEP) (vg.dim * vg.nEP) v (fun r s => A' r s - A1 r s) u =
        bil (vg.dim * vg.nEP) (vg.dim * vg.nEP) v A' u - bil (vg.dim * vg.nEP) (vg.dim * vg.nEP) v A1 u := by
      unfold bil
      simp only [mul_sub, sub_mul, sum_sub_distrib]
    rw [eb, hA1', hA'']
    unfold integ
    rw [← sum_sub_distrib]
    refine sum_congr rfl fun q hq => ?_
    rw [← mul_sub, add_sub_add_right_eq_sub]
    congr 1
    rw [Finset.sum_range, Finset.sum_range, ← sum_sub_distrib]
    refine sum_congr rfl fun i _ => ?_
    rw [Finset.sum_range, Finset.sum_range, ← sum_sub_distrib]
    refine sum_congr rfl fun j _ => ?_
    rw [← sub_mul, ← sum_sub_distrib]
    simp only [← sum_sub_distrib, ← sub_mul, pull_eq, Finset.sum_range]
    rw [hm q (mem_range.1 hq)]
    by_cases hij : i = j
    · have : ¬vg.dim ≤ voigt vg.dim i j := by
        rw [hij]
        obtain ⟨h1, h2⟩ := hd
        have : voigt vg.dim j j = j := by
          have hj := j.2
          generalize (j : ℕ) = n at hj
          generalize vg.dim = d at hj h1 h2
          interval_cases d <;> interval_cases n <;> rfl
        rw [this]
        exact not_le.2 j.2
      rw [if_pos hij]
      simp only [tanSVK, if_neg this, sub_self, zero_mul, sum_const_zero]
    · have : vg.dim ≤ voigt vg.dim i j := by
        obtain ⟨h1, h2⟩ := hd
        have hi := i.2
        have hj := j.2
        have hne : (i : ℕ) ≠ j := fun h => hij (Fin.ext h)
        generalize (j : ℕ) = n at hj hne
        generalize (i : ℕ) = k at hi hne
        generalize vg.dim = d at hi hj h1 h2
        interval_cases d <;> interval_cases n <;> interval_cases k <;> first | omega | (simp [voigt])
      simp only [tanSVK, if_pos this, if_neg hij]
      congr 1
      refine sum_congr rfl fun k _ => sum_congr rfl fun l _ => ?_
      rw [mul_two, add_sub_cancel_right]
      rfl

end Verif.Term
