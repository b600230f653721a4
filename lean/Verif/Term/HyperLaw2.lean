/-
The generalized Yeoh and the Saint Venant-Kirchhoff laws.
-/
import Verif.Term.HyperLaw

namespace Verif.Term

open Finset Matrix Filter Topology

variable {d : ℕ}

/-! ### The generalized Yeoh law -/

/-- `J^(-2/3) I₁ - 3`. -/
noncomputable def yeohX (F : Matrix (Fin d) (Fin d) ℝ) : ℝ := F.det ^ (-2 / 3 : ℝ) * invar1 (rightCG F) - 3

/-- One part of the energy, the stress and its derivative. -/
noncomputable def pkYeohPart (K m : ℝ) (F : Matrix (Fin d) (Fin d) ℝ) : Matrix (Fin d) (Fin d) ℝ :=
  (2 * F.det ^ (-2 / 3 : ℝ) * (m * K * yeohX F ^ (m - 1))) • (1 - (invar1 (rightCG F) / 3) • (rightCG F)⁻¹)

noncomputable def dpkYeohPart (K m : ℝ) (F X : Matrix (Fin d) (Fin d) ℝ) : Matrix (Fin d) (Fin d) ℝ :=
  let j := F.det ^ (-2 / 3 : ℝ)
  let i1 := invar1 (rightCG F)
  let Ci := (rightCG F)⁻¹
  let a := (Ci * X).trace
  (2 * (-1 / 3 * j * a) * (m * K * yeohX F ^ (m - 1))
      + 2 * j * (m * K * ((m - 1) * yeohX F ^ (m - 2) * (j * X.trace - 1 / 3 * j * i1 * a)))) • (1 - (i1 / 3) • Ci)
    + (2 * j * (m * K * yeohX F ^ (m - 1))) • ((i1 / 3) • (Ci * X * Ci) - (X.trace / 3) • Ci)

section

variable (hd : 1 ≤ d ∧ d ≤ 3) {F : ℝ → Matrix (Fin d) (Fin d) ℝ} {F' : Matrix (Fin d) (Fin d) ℝ} {t : ℝ}
  (hF : MatDeriv F F' t) (h0 : 0 < (F t).det)

include hd hF h0

theorem yeohX_deriv : HasDerivAt (fun s => yeohX (F s))
    ((F t).det ^ (-2 / 3 : ℝ) * (dCG (F t) F').trace
      - 1 / 3 * (F t).det ^ (-2 / 3 : ℝ) * invar1 (rightCG (F t)) * ((rightCG (F t))⁻¹ * dCG (F t) F').trace) t := by
  have h := ((hF.jacPow hd h0 (-2 / 3)).mul hF.cg.inv1).sub_const 3
  refine HasDerivAt.congr_deriv h ?_
  ring

theorem energyYeohPart_deriv (hx : 0 < yeohX (F t)) (K m : ℝ) :
    HasDerivAt (fun s => K * yeohX (F s) ^ m) ((pkYeohPart K m (F t) * dCG (F t) F').trace / 2) t := by
  have h := ((yeohX_deriv hd hF h0).rpow_const (p := m) (Or.inl hx.ne')).const_mul K
  refine HasDerivAt.congr_deriv h ?_
  simp only [pkYeohPart, smul_mul, Matrix.sub_mul, Matrix.one_mul, trace_smul, trace_sub, smul_eq_mul]
  ring

theorem pkYeohPart_deriv (hx : 0 < yeohX (F t)) (K m : ℝ) :
    MatDeriv (fun s => pkYeohPart K m (F s)) (dpkYeohPart K m (F t) (dCG (F t) F')) t := by
  have hp := ((yeohX_deriv hd hF h0).rpow_const (p := m - 1) (Or.inl hx.ne')).const_mul (m * K)
  have h := MatDeriv.smul (((hF.jacPow hd h0 (-2 / 3)).const_mul 2).mul hp)
    ((MatDeriv.const 1 t).sub (MatDeriv.smul (hF.cg.inv1.div_const 3) (MatDeriv.cgInv hd hF h0)))
  refine h.congr (Eventually.of_forall fun s => rfl) ?_
  ext i j
  have e : m - 1 - 1 = m - 2 := by ring
  simp only [dpkYeohPart, Matrix.add_apply, Matrix.sub_apply, Matrix.smul_apply, Matrix.neg_apply, smul_eq_mul,
    Matrix.zero_apply, Pi.mul_apply, e]
  ring

end

theorem j23 {J : ℝ} (h : 0 < J) : (J ^ 2) ^ (-1 / 3 : ℝ) = J ^ (-2 / 3 : ℝ) := by
  rw [← Real.rpow_natCast, ← Real.rpow_mul h.le]
  norm_num

theorem j43 {J : ℝ} (h : 0 < J) : (J ^ 2) ^ (-2 / 3 : ℝ) = J ^ (-2 / 3 : ℝ) * J ^ (-2 / 3 : ℝ) := by
  rw [← Real.rpow_natCast, ← Real.rpow_mul h.le, ← Real.rpow_add h]
  norm_num

theorem yeohC_stores {v : ℕ → ℝ} {M : Matrix (Fin 3) (Fin 3) ℝ} (h : Stores 3 v M) (hM : Mᵀ = M) (i j : Fin 3) :
    yeohC v (t2i 3 (voigt 3 i j)) (t2j 3 (voigt 3 i j)) = M i j := by
  have h' := h i j
  fin_cases i <;> fin_cases j <;> simpa [yeohC, voigt, t2i, t2j, t4s] using h'

theorem yeohEye_stores (i j : Fin 3) :
    yeohEye (t2i 3 (voigt 3 i j)) (t2j 3 (voigt 3 i j)) = (1 : Matrix (Fin 3) (Fin 3) ℝ) i j := by
  fin_cases i <;> fin_cases j <;> simp [yeohEye, voigt, t2i, t2j]

theorem TanOf.yeohMul {v : ℕ → ℝ} {M : Matrix (Fin 3) (Fin 3) ℝ} (h : Stores 3 v M) (hM : Mᵀ = M) :
    TanOf 3 (fun r s => yeohC v (t2i 3 r) (t2i 3 s) * yeohC v (t2j 3 r) (t2j 3 s)
      + yeohC v (t2i 3 r) (t2j 3 s) * yeohC v (t2j 3 r) (t2i 3 s)) (fun X => M * X * M) :=
  (TanOf.mulT2 (by norm_num) h hM).congr (fun _ _ => rfl) fun _ _ _ => rfl

theorem TanOf.yeohPart {m K i1 J b : ℝ} {v : ℕ → ℝ} {F : Matrix (Fin 3) (Fin 3) ℝ} (h : Stores 3 v (rightCG F)⁻¹)
    (hJ : 0 < F.det) (hb : 0 < yeohX F) (hJe : J = F.det) (hi1 : i1 = invar1 (rightCG F)) (hbe : b = yeohX F) :
    TanOf 3 (fun r s => 4.0 / 3.0 * yeohPart m K b i1 (J ^ 2) (yeohC v) (t2i 3 r) (t2j 3 r) (t2i 3 s) (t2j 3 s))
      (dpkYeohPart K m F) := by
  subst hJe hi1 hbe
  have hs := rightCG_inv_symm F
  have hE : Stores 3 (fun r => yeohEye (t2i 3 r) (t2j 3 r)) (1 : Matrix (Fin 3) (Fin 3) ℝ) := yeohEye_stores
  have hC : Stores 3 (fun r => yeohC v (t2i 3 r) (t2j 3 r)) (rightCG F)⁻¹ := yeohC_stores h hs
  set i1 := invar1 (rightCG F)
  set j := F.det ^ (-2 / 3 : ℝ) with hj
  set b1 := yeohX F ^ (m - 1) with hb1
  set b2 := yeohX F ^ (m - 2) with hb2
  refine ((((TanOf.outer hE hE transpose_one).smul (4 / 3 * (m * K * (3 * (m - 1) * b2 * (j * j))))).add
    ((((TanOf.outer hE hC hs).add (TanOf.outer hC hE transpose_one)).smul
      (-(4 / 3 * (m * K * ((m - 1) * b2 * i1 * (j * j) + b1 * j))))).add
    (((TanOf.outer hC hC hs).smul (4 / 3 * (m * K * (((m - 1) * b2 * (i1 * i1) * (j * j) + b1 * j * i1) / 3)))).add
    ((TanOf.yeohMul h hs).smul (4 / 3 * (m * K * (1 / 2 * b1 * j * i1))))))).congr ?_ ?_)
  · intro r s
    have e1 : yeohB1 (yeohX F) m = b1 := by rw [yeohB1, if_pos (Or.inl hb)]
    have e2 : yeohB2 (yeohX F) m = b2 := by rw [yeohB2, if_pos (Or.inl hb)]
    simp only [Verif.Term.yeohPart, e1, e2, j23 hJ, j43 hJ, ← hj]
    rw [show (4.0 / 3.0 : ℝ) = 4 / 3 by norm_num, show (0.5 : ℝ) = 1 / 2 by norm_num]
    ring
  · intro X k l
    simp only [dpkYeohPart, Matrix.smul_apply, Matrix.add_apply, Matrix.sub_apply, smul_eq_mul, Matrix.one_mul]
    ring

theorem lawYeoh (nCol : ℕ) : HyperLaw 3 (stressYeoh nCol) (tanYeoh nCol) (fun _ F => 0 < yeohX F)
    (fun mat F => let co := yeohCoef nCol mat; energyYeoh (co 0) (co 1) (co 2) (co 3) (co 4) (co 5) F)
    (fun mat F => let co := yeohCoef nCol mat
      pkYeohPart (co 0) (co 3) F + pkYeohPart (co 1) (co 4) F + pkYeohPart (co 2) (co 5) F)
    (fun mat F X => let co := yeohCoef nCol mat
      dpkYeohPart (co 0) (co 3) F X + dpkYeohPart (co 1) (co 4) F X + dpkYeohPart (co 2) (co 5) F X) where
  near := by
    intro mat F F' t hF h0 hx
    exact (yeohX_deriv (by norm_num) hF h0.1).continuousAt.eventually_const_lt hx
  stress := by
    intro mat fd F h hF hx i j
    have e1 := yeohC_stores h.inv (rightCG_inv_symm F) i j
    have e2 := yeohEye_stores i j
    have eb : (fd.detF ^ 2) ^ (-1 / 3 : ℝ) * fd.trC - 3 = yeohX F := by rw [h.det, h.tr, j23 hF.1]; rfl
    have ep : ∀ p, yeohPow (yeohX F) p = yeohX F ^ p := by
      intro p
      rw [yeohPow, if_pos (Or.inl hx), if_neg (not_le.2 hx)]
    simp only [stressYeoh, eb, ep, e1, e2]
    simp only [h.det, h.tr, j23 hF.1, pkYeohPart, Matrix.add_apply, Matrix.smul_apply, Matrix.sub_apply, smul_eq_mul]
    ring
  tan := by
    intro mat fd F h hF hx
    have eb : (fd.detF ^ 2) ^ (-1 / 3 : ℝ) * fd.trC - 3 = yeohX F := by rw [h.det, h.tr, j23 hF.1]; rfl
    have k := fun K m => TanOf.yeohPart (m := m) (K := K) h.inv hF.1 hx h.det h.tr eb
    refine (((k _ _).add (k _ _)).add (k _ _)).congr (fun r s => ?_) fun X i j => rfl
    simp only [tanYeoh, mul_add]
  symm := by
    intro mat F
    simp only [pkYeohPart, transpose_smul, transpose_sub, transpose_add, transpose_one, rightCG_inv_symm]
  adj := by
    intro mat F X Y _
    simp only [dpkYeohPart, smul_mul, Matrix.add_mul, Matrix.sub_mul, trace_smul, trace_add, trace_sub, Matrix.one_mul,
      smul_eq_mul, trace_sandwich _ X Y]
    ring
  dsymm := by
    intro mat F X hX
    simp only [dpkYeohPart, transpose_smul, transpose_sub, transpose_add, transpose_one, rightCG_inv_symm,
      symm_sandwich _ _ (rightCG_inv_symm F) hX]
  energy := by
    intro mat F F' t hF h0 hx
    have k := fun K m => energyYeohPart_deriv (by norm_num) hF h0.1 hx K m
    refine HasDerivAt.congr_deriv (((k (yeohCoef nCol mat 0) (yeohCoef nCol mat 3)).add
      (k (yeohCoef nCol mat 1) (yeohCoef nCol mat 4))).add (k (yeohCoef nCol mat 2) (yeohCoef nCol mat 5))) ?_
    simp only [Matrix.add_mul, trace_add]
    ring
  deriv := by
    intro mat F F' t hF h0 hx
    have k := fun K m => pkYeohPart_deriv (by norm_num) hF h0.1 hx K m
    exact ((k (yeohCoef nCol mat 0) (yeohCoef nCol mat 3)).add
      (k (yeohCoef nCol mat 1) (yeohCoef nCol mat 4))).add (k (yeohCoef nCol mat 2) (yeohCoef nCol mat 5))

/-! ### The Saint Venant-Kirchhoff law -/

/-- `S_ij = D_ijkl E_kl`. -/
noncomputable def pkSVK (D : ℕ → ℕ → ℝ) (F : Matrix (Fin d) (Fin d) ℝ) : Matrix (Fin d) (Fin d) ℝ :=
  fun i j => ∑ k : Fin d, ∑ l : Fin d, D (voigt d i j) (voigt d k l) * greenStrain F k l

/-- `D_ijkl X_kl / 2`. -/
noncomputable def dpkSVK (D : ℕ → ℕ → ℝ) (X : Matrix (Fin d) (Fin d) ℝ) : Matrix (Fin d) (Fin d) ℝ :=
  fun i j => (∑ k : Fin d, ∑ l : Fin d, D (voigt d i j) (voigt d k l) * X k l) / 2

theorem MatDeriv.green {F : ℝ → Matrix (Fin d) (Fin d) ℝ} {F' : Matrix (Fin d) (Fin d) ℝ} {t : ℝ}
    (hF : MatDeriv F F' t) : MatDeriv (fun s => greenStrain (F s)) ((1 / 2 : ℝ) • dCG (F t) F') t := by
  have h := MatDeriv.smul (hasDerivAt_const t (1 / 2 : ℝ)) (hF.cg.sub (MatDeriv.const 1 t))
  refine h.congr (Eventually.of_forall fun s => rfl) ?_
  simp

/-- The law of `SaintVenantKirchhoffTLTerm`, with `mat` itself as the tangent modulus. -/
theorem lawSVK (hd : 1 ≤ d ∧ d ≤ 3) : HyperLaw d stressSVK (fun mat _ _ => mat) (fun mat _ => ∀ r s, mat r s = mat s r)
    (fun mat F => energySVK mat F) (fun mat F => pkSVK mat F) (fun mat _ => dpkSVK mat) where
  near := fun _ _ _ _ _ _ h => Eventually.of_forall fun _ => h
  stress := by
    intro mat fd F h hF _ i j
    have h' := h.green
    simp only [stressSVK, pkSVK, ← h' _ _]
    obtain ⟨h1, h2⟩ := hd
    interval_cases d
    · simp [symOf, voigt]
    · simp [symOf, voigt, sum_range_succ]
      ring
    · have e : symOf 3 = 6 := rfl
      rw [e]
      simp [voigt, sum_range_succ, Fin.sum_univ_succ]
      ring
  tan := by
    intro mat fd F h hF _ P i j
    simp only [dpkSVK, Matrix.add_apply, Matrix.transpose_apply, mul_add, sum_add_distrib]
    have : ∑ k : Fin d, ∑ l : Fin d, mat (voigt d i j) (voigt d k l) * P l k =
        ∑ k : Fin d, ∑ l : Fin d, mat (voigt d i j) (voigt d k l) * P k l := by
      rw [sum_comm]
      refine sum_congr rfl fun k _ => sum_congr rfl fun l _ => ?_
      rw [voigt_comm d l k]
    rw [this]
    ring
  symm := by
    intro mat F
    ext i j
    simp only [Matrix.transpose_apply, pkSVK, voigt_comm d (j : ℕ) i]
  adj := by
    intro mat F X Y hm
    simp only [Matrix.trace, Matrix.diag_apply, Matrix.mul_apply, dpkSVK, div_mul_eq_mul_div, sum_mul, ← sum_div]
    congr 1
    calc _ = ∑ i : Fin d, ∑ j : Fin d, ∑ k : Fin d, ∑ l : Fin d, mat (voigt d i j) (voigt d k l) * X k l * Y j i := rfl
      _ = ∑ k : Fin d, ∑ l : Fin d, ∑ i : Fin d, ∑ j : Fin d, mat (voigt d i j) (voigt d k l) * X k l * Y j i := by
          rw [sum_congr rfl fun i _ => sum_comm, sum_comm]
          refine sum_congr rfl fun k _ => ?_
          rw [sum_congr rfl fun i _ => sum_comm, sum_comm]
      _ = _ := by
          rw [sum_comm]
          refine sum_congr rfl fun l _ => sum_congr rfl fun k _ => ?_
          rw [sum_comm]
          refine sum_congr rfl fun j _ => sum_congr rfl fun i _ => ?_
          rw [hm, voigt_comm d (k : ℕ) l, voigt_comm d (i : ℕ) j]
          ring
  dsymm := by
    intro mat F X _
    ext i j
    simp only [Matrix.transpose_apply, dpkSVK, voigt_comm d (j : ℕ) i]
  energy := by
    intro mat F F' t hF _ hm
    have h := hF.green
    have hsum := (HasDerivAt.fun_sum (u := univ) fun (i : Fin d) _ => HasDerivAt.fun_sum (u := univ) fun (j : Fin d) _ =>
      HasDerivAt.fun_sum (u := univ) fun (k : Fin d) _ => HasDerivAt.fun_sum (u := univ) fun (l : Fin d) _ =>
        ((h i j).const_mul (mat (voigt d i j) (voigt d k l))).mul (h k l)).div_const 2
    refine HasDerivAt.congr_deriv hsum ?_
    have hX : ∀ i j, dCG (F t) F' i j = dCG (F t) F' j i := by
      intro i j
      have : (dCG (F t) F')ᵀ = dCG (F t) F' := by
        simp [dCG, transpose_mul, add_comm]
      exact congrFun (congrFun this j) i
    set X := dCG (F t) F'
    set E := greenStrain (F t)
    have e1 : (pkSVK mat (F t) * X).trace = ∑ i : Fin d, ∑ j : Fin d, ∑ k : Fin d, ∑ l : Fin d,
        mat (voigt d i j) (voigt d k l) * E k l * X i j := by
      simp only [Matrix.trace, Matrix.diag_apply, Matrix.mul_apply, pkSVK, sum_mul]
      refine sum_congr rfl fun i _ => sum_congr rfl fun j _ => ?_
      rw [hX j i]
    have e2 : ∑ i : Fin d, ∑ j : Fin d, ∑ k : Fin d, ∑ l : Fin d, mat (voigt d i j) (voigt d k l) * E i j * X k l =
        ∑ i : Fin d, ∑ j : Fin d, ∑ k : Fin d, ∑ l : Fin d, mat (voigt d i j) (voigt d k l) * E k l * X i j := by
      calc _ = ∑ k : Fin d, ∑ l : Fin d, ∑ i : Fin d, ∑ j : Fin d, mat (voigt d i j) (voigt d k l) * E i j * X k l := by
            rw [sum_congr rfl fun i _ => sum_comm, sum_comm]
            refine sum_congr rfl fun k _ => ?_
            rw [sum_congr rfl fun i _ => sum_comm, sum_comm]
        _ = _ := by
            refine sum_congr rfl fun k _ => sum_congr rfl fun l _ => sum_congr rfl fun i _ => sum_congr rfl fun j _ => ?_
            rw [hm]
    rw [e1]
    simp only [Matrix.smul_apply, smul_eq_mul, sum_add_distrib]
    have e3 : ∀ a b c e : ℝ, a * (1 / 2 * b) * c = 1 / 2 * (a * c * b) := by intros; ring
    have e4 : ∀ a b c : ℝ, a * b * (1 / 2 * c) = 1 / 2 * (a * b * c) := by intros; ring
    simp only [e3 _ _ _ 0, e4, ← mul_sum]
    rw [e2]
    ring
  deriv := by
    intro mat F F' t hF _ _ i j
    have h := hF.green
    have hsum := HasDerivAt.fun_sum (u := univ) fun (k : Fin d) _ => HasDerivAt.fun_sum (u := univ) fun (l : Fin d) _ =>
        ((h k l).const_mul (mat (voigt d i j) (voigt d k l)))
    refine HasDerivAt.congr_deriv hsum ?_
    simp only [dpkSVK, sum_div]
    refine sum_congr rfl fun k _ => sum_congr rfl fun l _ => ?_
    simp only [Matrix.smul_apply, smul_eq_mul]
    ring

end Verif.Term
