/-
C61 (continued): products, products with gradients and normals, loads.
-/
import Verif.Term.PropsScalar

namespace Verif.Term

open Finset

variable {K : Type} [Field K]

/-! ### Scalar products -/

/-- `dw_dot` of scalars: `∫ c q p`, matrix and residual. -/
theorem C61_dot_scalar (rvg cvg : Mapping K) (coef : Fld K) (val : ℕ → Lev K) (state : ℕ → K) (conn : ℕ → ℕ → ℕ)
    (c : ℕ) :
    let B := fun q v u => coef.at c q 0 0 * fval rvg.nEP (rvg.phi c q) v 0 * fval cvg.nEP (cvg.phi c q) u 0
    IsForm rvg.nEP cvg.nEP rvg.nQP (rvg.w c) (dwDotScalar rvg cvg coef val true c) B ∧
      IsLin rvg.nEP rvg.nQP (rvg.w c) (dwDotScalar rvg cvg coef (dqState 1 cvg.nEP cvg.bf state conn) false c)
        fun q v => B q v (locDofs 1 cvg.nEP state (conn c)) := by
  intro B
  constructor
  · intro v u
    unfold dwDotScalar
    simp only [if_true]
    rw [bil_sumLev]
    refine integ_congr (fun _ _ => rfl) fun q _ => ?_
    rw [bil_mulF, bil_mulATB, sum_range_one, ptr_x1, phi_eq, phi_eq, sum_v_val, sum_val_u]
    exact (mul_assoc _ _ _).symm
  · intro v
    unfold dwDotScalar
    simp only [Bool.false_eq_true, if_false]
    rw [lin_sumLev]
    refine integ_congr (fun _ _ => rfl) fun q _ => ?_
    have := lin_bfActt 1 rvg.nEP v (rvg.bf.x1 c) (dqState 1 cvg.nEP cvg.bf state conn c) q
    rw [one_mul, sum_range_one] at this
    rw [lin_mulF, this, ptr_x1, phi_eq, dqState_eq]
    exact (mul_assoc _ _ _).symm

theorem buildFTF_block {d nR nC : ℕ} (hd : d ≤ 3) (f : Lev K) (q : ℕ) {a b k l : ℕ} (ha : a < d) (hb : b < d)
    (hk : k < nR) (hl : l < nC) :
    buildFTF d nR nC f q (nR * a + k) (nC * b + l) = if a = b then f q k l else 0 := by
  have ha3 : a < 3 := by omega
  have hb3 : b < 3 := by omega
  unfold buildFTF
  by_cases hab : a = b
  · subst hab
    rw [if_pos rfl]
    interval_cases a
    · rw [if_pos (by omega)]
      simp
    · rw [if_neg (by omega), if_pos (by omega)]
      congr 1 <;> omega
    · rw [if_neg (by omega), if_neg (by omega), if_pos (by omega)]
      congr 1 <;> omega
  · rw [if_neg hab]
    interval_cases a <;> interval_cases b <;>
      first
        | exact absurd rfl hab
        | (rw [if_neg (by omega), if_neg (by omega), if_neg (by omega)])

theorem bil_buildFTF {d nR nC : ℕ} (hd : d ≤ 3) (f : Lev K) (q : ℕ) (v u : ℕ → K) :
    bil (d * nR) (d * nC) v (buildFTF d nR nC f q) u =
      ∑ a ∈ range d, ∑ k ∈ range nR, ∑ l ∈ range nC, v (nR * a + k) * f q k l * u (nC * a + l) := by
  unfold bil
  rw [sum_blocks]
  refine sum_congr rfl fun a ha => sum_congr rfl fun k hk => ?_
  rw [sum_blocks, sum_eq_single_of_mem a ha]
  · refine sum_congr rfl fun l hl => ?_
    rw [buildFTF_block hd f q (mem_range.1 ha) (mem_range.1 ha) (mem_range.1 hk) (mem_range.1 hl), if_pos rfl]
  · intro b hb hba
    refine sum_eq_zero fun l hl => ?_
    rw [buildFTF_block hd f q (mem_range.1 ha) (mem_range.1 hb) (mem_range.1 hk) (mem_range.1 hl), if_neg (Ne.symm hba),
      mul_zero, zero_mul]

/-- `dw_dot` of vectors with a scalar coefficient: `∫ c v · u`. -/
theorem C61_dot_vector_scalar (rvg cvg : Mapping K) (coef : Fld K) (val : ℕ → Lev K) (state : ℕ → K)
    (conn : ℕ → ℕ → ℕ) (c : ℕ) (hd : rvg.dim ≤ 3) (hc : coef.nCol = 1) :
    let B := fun q v u => coef.at c q 0 0 * ∑ a ∈ range rvg.dim,
      fval rvg.nEP (rvg.phi c q) v a * fval cvg.nEP (cvg.phi c q) u a
    IsForm (rvg.dim * rvg.nEP) (rvg.dim * cvg.nEP) rvg.nQP (rvg.w c) (dwDotVector rvg cvg coef val true c) B ∧
      IsLin (rvg.dim * rvg.nEP) rvg.nQP (rvg.w c)
        (dwDotVector rvg cvg coef (dqState rvg.dim cvg.nEP cvg.bf state conn) false c)
        fun q v => B q v (locDofs rvg.dim cvg.nEP state (conn c)) := by
  intro B
  constructor
  · intro v u
    unfold dwDotVector
    simp only [if_true, if_pos hc]
    rw [bil_sumLev]
    refine integ_congr (fun _ _ => rfl) fun q _ => ?_
    rw [bil_mulF, bil_buildFTF hd, ptr_x1]
    show _ = coef.at c q 0 0 * _
    congr 1
    refine sum_congr rfl fun a _ => ?_
    unfold fval
    rw [sum_mul]
    refine sum_congr rfl fun k _ => ?_
    rw [mul_sum]
    refine sum_congr rfl fun l _ => ?_
    unfold mulATB Mapping.phi
    rw [sum_range_one, Fld.x1_apply, Fld.x1_apply]
    ring
  · intro v
    unfold dwDotVector
    simp only [Bool.false_eq_true, if_false, if_pos hc]
    rw [lin_sumLev]
    refine integ_congr (fun _ _ => rfl) fun q _ => ?_
    rw [lin_mulF, lin_bfActt, ptr_x1, phi_eq]
    show _ = coef.at c q 0 0 * _
    congr 1
    refine sum_congr rfl fun a _ => ?_
    rw [dqState_eq]

/-- `dw_dot` of vectors with a matrix coefficient: `∫ v · C · u`. -/
theorem C61_dot_vector_matrix (rvg cvg : Mapping K) (coef : Fld K) (val : ℕ → Lev K) (state : ℕ → K)
    (conn : ℕ → ℕ → ℕ) (c : ℕ) (hc : coef.nCol ≠ 1) :
    let B := fun q v u => ∑ a ∈ range rvg.dim, ∑ b ∈ range rvg.dim,
      fval rvg.nEP (rvg.phi c q) v a * coef.at c q a b * fval cvg.nEP (cvg.phi c q) u b
    IsForm (rvg.dim * rvg.nEP) (rvg.dim * cvg.nEP) rvg.nQP (rvg.w c) (dwDotVector rvg cvg coef val true c) B ∧
      IsLin (rvg.dim * rvg.nEP) rvg.nQP (rvg.w c)
        (dwDotVector rvg cvg coef (dqState rvg.dim cvg.nEP cvg.bf state conn) false c)
        fun q v => B q v (locDofs rvg.dim cvg.nEP state (conn c)) := by
  intro B
  constructor
  · intro v u
    unfold dwDotVector
    simp only [if_true, if_neg hc]
    rw [bil_sumLev]
    refine integ_congr (fun _ _ => rfl) fun q _ => ?_
    rw [bil_bfActt, phi_eq]
    refine sum_congr rfl fun a _ => ?_
    rw [sum_bfRact, phi_eq, mul_sum]
    refine sum_congr rfl fun b _ => ?_
    rw [Fld.x1_apply]
    ring
  · intro v
    unfold dwDotVector
    simp only [Bool.false_eq_true, if_false, if_neg hc]
    rw [lin_sumLev]
    refine integ_congr (fun _ _ => rfl) fun q _ => ?_
    rw [lin_bfActt, phi_eq]
    refine sum_congr rfl fun a _ => ?_
    unfold mulAB
    rw [mul_sum]
    refine sum_congr rfl fun b _ => ?_
    rw [dqState_eq, Fld.x1_apply]
    ring

/-- `dw_dot` evaluated for two vectors or two scalars is the value of the form of the matrix; without a material
the coefficient is one. Here `n` is the number of components. -/
theorem C61_dot_eval (geo g2 : Mapping K) (mat : Option (Fld K)) (n : ℕ) (hn : 1 ≤ n) (hm : ∀ m ∈ mat, m.nCol = 1)
    (s1 s2 : ℕ → K) (conn1 conn2 : ℕ → ℕ → ℕ) (c : ℕ) :
    ∃ out, dDot geo mat n n (dqState n geo.nEP geo.bf s1 conn1) (dqState n g2.nEP g2.bf s2 conn2) c = some out ∧
      out 0 0 = integ geo.nQP (geo.w c) fun q => (match mat with | none => 1 | some m => m.at c q 0 0) *
        ∑ a ∈ range n, fval geo.nEP (geo.phi c q) (locDofs n geo.nEP s1 (conn1 c)) a *
          fval g2.nEP (g2.phi c q) (locDofs n g2.nEP s2 (conn2 c)) a := by
  cases mat with
  | none =>
    by_cases h1 : n > 1
    · refine ⟨_, by simp only [dDot, if_pos h1, if_neg (show n ≠ 1 by omega), if_true]; rfl, ?_⟩
      unfold sumLev integ
      refine sum_congr rfl fun q _ => ?_
      rw [mul_comm]
      congr 1
      simp only [one_mul]
      unfold mulATB
      refine sum_congr rfl fun a _ => ?_
      rw [dqState_eq, dqState_eq]
    · obtain rfl : n = 1 := by omega
      refine ⟨_, by simp only [dDot, if_neg h1, if_true]; rfl, ?_⟩
      unfold sumLev integ
      refine sum_congr rfl fun q _ => ?_
      rw [mul_comm]
      congr 1
      simp only [one_mul, sum_range_one]
      rw [dqState_eq, dqState_eq]
  | some m =>
    have hm : m.nCol = 1 := hm m rfl
    by_cases h1 : n > 1
    · refine ⟨_, by simp only [dDot, if_pos h1, if_neg (show ¬(n ≠ n) by simp), if_pos hm]; rfl, ?_⟩
      unfold sumLev integ
      refine sum_congr rfl fun q _ => ?_
      rw [mul_comm]
      congr 1
      unfold mulF
      rw [ptr_x1, mul_comm]
      congr 1
      unfold mulATB
      refine sum_congr rfl fun a _ => ?_
      rw [dqState_eq, dqState_eq]
    · obtain rfl : n = 1 := by omega
      refine ⟨_, by simp only [dDot, if_neg h1, if_neg (show ¬((1 : ℕ) ≠ 1) by simp), if_pos hm]; rfl, ?_⟩
      unfold sumLev integ
      refine sum_congr rfl fun q _ => ?_
      rw [mul_comm]
      congr 1
      simp only [sum_range_one]
      rw [dqState_eq, dqState_eq, Fld.x1_apply]
      ring

/-- With a matrix coefficient (`n > 1` components, `nCol ≠ 1`). -/
theorem C61_dot_eval_matrix (geo g2 : Mapping K) (mat : Fld K) (n : ℕ) (hm : mat.nCol ≠ 1)
    (s1 s2 : ℕ → K) (conn1 conn2 : ℕ → ℕ → ℕ) (c : ℕ) :
    ∃ out, dDot geo (some mat) n n (dqState n geo.nEP geo.bf s1 conn1) (dqState n g2.nEP g2.bf s2 conn2) c = some out ∧
      out 0 0 = integ geo.nQP (geo.w c) fun q => ∑ a ∈ range n, ∑ b ∈ range n,
        fval geo.nEP (geo.phi c q) (locDofs n geo.nEP s1 (conn1 c)) a * mat.at c q a b *
          fval g2.nEP (g2.phi c q) (locDofs n g2.nEP s2 (conn2 c)) b := by
  refine ⟨_, by simp only [dDot, if_neg (show ¬(n ≠ n) by simp), if_neg hm]; rfl, ?_⟩
  unfold sumLev integ
  refine sum_congr rfl fun q _ => ?_
  rw [mul_comm]
  congr 1
  unfold mulATB mulAB
  refine sum_congr rfl fun a _ => ?_
  rw [mul_sum]
  refine sum_congr rfl fun b _ => ?_
  rw [dqState_eq, dqState_eq, Fld.x1_apply]
  ring

/-- Mass matrices with a nonnegative coefficient are positive semidefinite and symmetric. -/
theorem C61_mass_psd {F : Type} [Field F] [LinearOrder F] [IsStrictOrderedRing F] (vg : Mapping F) (coef : Fld F)
    (val : ℕ → Lev F) (c : ℕ) (hd : vg.dim ≤ 3) (hc : coef.nCol = 1) (hw : ∀ q < vg.nQP, 0 ≤ vg.w c q)
    (hp : ∀ q < vg.nQP, 0 ≤ coef.at c q 0 0) :
    (∀ u, 0 ≤ bil vg.nEP vg.nEP u (dwDotScalar vg vg coef val true c) u) ∧
      (∀ u, 0 ≤ bil (vg.dim * vg.nEP) (vg.dim * vg.nEP) u (dwDotVector vg vg coef val true c) u) ∧
      (∀ r < vg.nEP, ∀ s < vg.nEP,
        dwDotScalar vg vg coef val true c r s = dwDotScalar vg vg coef val true c s r) ∧
      ∀ r < vg.dim * vg.nEP, ∀ s < vg.dim * vg.nEP,
        dwDotVector vg vg coef val true c r s = dwDotVector vg vg coef val true c s r := by
  have h1 := (C61_dot_scalar vg vg coef val (fun _ => 0) (fun _ _ => 0) c).1
  have h2 := (C61_dot_vector_scalar vg vg coef val (fun _ => 0) (fun _ _ => 0) c hd hc).1
  refine ⟨fun u => h1.nonneg hw u fun q hq => ?_, fun u => h2.nonneg hw u fun q hq => ?_,
    fun r hr s hs => h1.symm (fun q _ v u => ?_) r s hr hs, fun r hr s hs => h2.symm (fun q _ v u => ?_) r s hr hs⟩
  · beta_reduce
    rw [mul_assoc]
    exact mul_nonneg (hp q hq) (mul_self_nonneg _)
  · exact mul_nonneg (hp q hq) (sum_nonneg fun a _ => mul_self_nonneg _)
  · beta_reduce; ring
  · beta_reduce
    congr 1
    exact sum_congr rfl fun a _ => mul_comm _ _

/-- The sum of the entries of the mass matrix with unit coefficient is the volume of the cell, for basis functions
summing to one. -/
theorem C61_mass_total (vg : Mapping K) (coef : Fld K) (val : ℕ → Lev K) (c : ℕ)
    (h1 : ∀ q < vg.nQP, coef.at c q 0 0 = 1) (hp : ∀ q < vg.nQP, ∑ k ∈ range vg.nEP, vg.phi c q k = 1) :
    ∑ r ∈ range vg.nEP, ∑ s ∈ range vg.nEP, dwDotScalar vg vg coef val true c r s = ∑ q ∈ range vg.nQP, vg.w c q := by
  have h := (C61_dot_scalar vg vg coef val (fun _ => 0) (fun _ _ => 0) c).1 (fun _ => 1) (fun _ => 1)
  unfold bil at h
  simp only [one_mul, mul_one] at h
  rw [h]
  unfold integ fval
  refine sum_congr rfl fun q hq => ?_
  simp only [mul_one]
  rw [h1 q (mem_range.1 hq), hp q (mem_range.1 hq)]
  ring

/-! ### A vector and a gradient -/

/-- The vector-gradient form `∫ c v · ∇p` or `∫ v · (C ∇p)`. -/
def vGradForm (vvg svg : Mapping K) (coef : Fld K) (c q : ℕ) (v p : ℕ → K) : K :=
  ∑ a ∈ range vvg.dim, ∑ b ∈ range vvg.dim,
    (if coef.nCol = 1 then (if a = b then coef.at c q 0 0 else 0) else coef.at c q a b) *
      fval vvg.nEP (vvg.phi c q) v a * fgrad svg.nEP (svg.G c q) p b 0

theorem vGradForm_scalar (vvg svg : Mapping K) (coef : Fld K) (c q : ℕ) (v p : ℕ → K) (h : coef.nCol = 1) :
    vGradForm vvg svg coef c q v p = coef.at c q 0 0 *
      ∑ a ∈ range vvg.dim, fval vvg.nEP (vvg.phi c q) v a * fgrad svg.nEP (svg.G c q) p a 0 := by
  unfold vGradForm
  rw [mul_sum]
  refine sum_congr rfl fun a ha => ?_
  simp only [if_pos h]
  rw [sum_eq_single_of_mem a ha]
  · rw [if_pos rfl, mul_assoc]
  · intro b _ hb
    rw [if_neg (Ne.symm hb), zero_mul, zero_mul]

theorem vGradForm_matrix (vvg svg : Mapping K) (coef : Fld K) (c q : ℕ) (v p : ℕ → K) (h : coef.nCol ≠ 1) :
    vGradForm vvg svg coef c q v p = ∑ a ∈ range vvg.dim, ∑ b ∈ range vvg.dim,
      coef.at c q a b * fval vvg.nEP (vvg.phi c q) v a * fgrad svg.nEP (svg.G c q) p b 0 := by
  unfold vGradForm
  simp only [if_neg h]

/-- `dw_v_dot_grad_s` with a virtual vector. -/
theorem C61_v_dot_grad_s_vw (vvg svg : Mapping K) (coef : Fld K) (grad : ℕ → Lev K) (state : ℕ → K)
    (conn : ℕ → ℕ → ℕ) (c : ℕ) :
    IsForm (vvg.dim * vvg.nEP) svg.nEP vvg.nQP (vvg.w c) (dwVDotGradSVw vvg svg coef grad true c)
        (vGradForm vvg svg coef c) ∧
      IsLin (vvg.dim * vvg.nEP) vvg.nQP (vvg.w c) (dwVDotGradSVw vvg svg coef (dqGrad 1 svg state conn) false c)
        fun q v => vGradForm vvg svg coef c q v (locDofs 1 svg.nEP state (conn c)) := by
  constructor
  · intro v u
    unfold dwVDotGradSVw
    simp only [if_true]
    rw [bil_sumLev]
    refine integ_congr (fun _ _ => rfl) fun q _ => ?_
    by_cases hc : coef.nCol = 1
    · rw [if_pos hc, bil_mulF, bil_bfActt, ptr_x1, phi_eq, vGradForm_scalar _ _ _ _ _ _ _ hc]
      congr 1
      refine sum_congr rfl fun a _ => ?_
      rw [sum_bfGM_u]
    · rw [if_neg hc, bil_bfActt, phi_eq, vGradForm_matrix _ _ _ _ _ _ _ hc]
      refine sum_congr rfl fun a _ => ?_
      unfold mulAB
      simp only [sum_mul]
      rw [sum_comm, mul_sum]
      refine sum_congr rfl fun b _ => ?_
      rw [← sum_bfGM_u, mul_sum, mul_sum]
      refine sum_congr rfl fun s _ => ?_
      rw [Fld.x1_apply]
      ring
  · intro v
    unfold dwVDotGradSVw
    simp only [Bool.false_eq_true, if_false]
    rw [lin_sumLev]
    refine integ_congr (fun _ _ => rfl) fun q _ => ?_
    by_cases hc : coef.nCol = 1
    · have h1 := lin_bfActt vvg.dim vvg.nEP v (vvg.bf.x1 c) (dqGrad 1 svg state conn c) q
      have h2 : lin (vvg.dim * vvg.nEP) v (bfActtC1 vvg.nEP (vvg.bf.x1 c) (dqGrad 1 svg state conn c) q) = _ := h1
      rw [if_pos hc, lin_mulF, h2, ptr_x1, phi_eq, vGradForm_scalar _ _ _ _ _ _ _ hc]
      congr 1
      refine sum_congr rfl fun a _ => ?_
      rw [dqGrad_eq]
    · rw [if_neg hc, lin_bfActt, phi_eq, vGradForm_matrix _ _ _ _ _ _ _ hc]
      refine sum_congr rfl fun a _ => ?_
      unfold mulAB
      rw [mul_sum]
      refine sum_congr rfl fun b _ => ?_
      rw [dqGrad_eq, Fld.x1_apply]
      ring

/-- `dw_v_dot_grad_s` with a virtual scalar: the same form with the arguments exchanged. -/
theorem C61_v_dot_grad_s_sw (vvg svg : Mapping K) (coef : Fld K) (val : ℕ → Lev K) (state : ℕ → K)
    (conn : ℕ → ℕ → ℕ) (c : ℕ) :
    IsForm svg.nEP (vvg.dim * vvg.nEP) vvg.nQP (vvg.w c) (dwVDotGradSSw vvg svg coef val true c)
        (fun q p v => vGradForm vvg svg coef c q v p) ∧
      IsLin svg.nEP vvg.nQP (vvg.w c)
        (dwVDotGradSSw vvg svg coef (dqState vvg.dim vvg.nEP vvg.bf state conn) false c)
        fun q p => vGradForm vvg svg coef c q (locDofs vvg.dim vvg.nEP state (conn c)) p := by
  constructor
  · intro v u
    unfold dwVDotGradSSw
    simp only [if_true]
    rw [bil_sumLev]
    refine integ_congr (fun _ _ => rfl) fun q _ => ?_
    by_cases hc : coef.nCol = 1
    · rw [if_pos hc, bil_mulF, ptr_x1, vGradForm_scalar _ _ _ _ _ _ _ hc]
      congr 1
      unfold bil
      have : ∀ r, ∑ s ∈ range (vvg.dim * vvg.nEP),
          v r * bfRact vvg.nEP (vvg.bf.x1 c) (mulATC (svg.bfGM c) 1) q r s * u s =
          v r * ∑ a ∈ range vvg.dim, svg.bfGM c q a r * fval vvg.nEP (vvg.phi c q) u a := by
        intro r
        simp only [mul_assoc]
        rw [← mul_sum]
        have h := sum_bfRact vvg.dim vvg.nEP u (vvg.bf.x1 c) (mulATC (svg.bfGM c) 1) q r
        rw [h, phi_eq]
        congr 1
        refine sum_congr rfl fun a _ => ?_
        unfold mulATC
        rw [mul_one]
      simp only [this, mul_sum]
      rw [sum_comm]
      refine sum_congr rfl fun a _ => ?_
      rw [← sum_v_bfGM, mul_sum]
      refine sum_congr rfl fun r _ => by ring
    · rw [if_neg hc, bil_mulATB, vGradForm_matrix _ _ _ _ _ _ _ hc, sum_comm]
      refine sum_congr rfl fun b _ => ?_
      rw [sum_v_bfGM]
      have h := sum_bfRact vvg.dim vvg.nEP u (vvg.bf.x1 c) (mulATC (coef.x1 c) 1) q b
      rw [h, phi_eq, mul_sum]
      refine sum_congr rfl fun a _ => ?_
      unfold mulATC
      rw [Fld.x1_apply]
      ring
  · intro v
    unfold dwVDotGradSSw
    simp only [Bool.false_eq_true, if_false]
    rw [lin_sumLev]
    refine integ_congr (fun _ _ => rfl) fun q _ => ?_
    by_cases hc : coef.nCol = 1
    · rw [if_pos hc, lin_mulF, ptr_x1, vGradForm_scalar _ _ _ _ _ _ _ hc, lin_mulATB]
      congr 1
      refine sum_congr rfl fun a _ => ?_
      rw [dqState_eq, sum_v_bfGM, mul_comm]
    · rw [if_neg hc, lin_mulATB, vGradForm_matrix _ _ _ _ _ _ _ hc, sum_comm]
      refine sum_congr rfl fun b _ => ?_
      rw [sum_v_bfGM]
      unfold mulATB
      rw [mul_sum]
      refine sum_congr rfl fun a _ => ?_
      rw [dqState_eq, Fld.x1_apply]
      ring

/-- The matrices of the two versions are transposes of each other. -/
theorem C61_v_dot_grad_s_transpose (vvg svg : Mapping K) (coef : Fld K) (g1 g2 : ℕ → Lev K) (c r s : ℕ)
    (hr : r < vvg.dim * vvg.nEP) (hs : s < svg.nEP) :
    dwVDotGradSVw vvg svg coef g1 true c r s = dwVDotGradSSw vvg svg coef g2 true c s r :=
  (C61_v_dot_grad_s_vw vvg svg coef g1 (fun _ => 0) (fun _ _ => 0) c).1.transpose
    (C61_v_dot_grad_s_sw vvg svg coef g2 (fun _ => 0) (fun _ _ => 0) c).1 (fun _ _ _ _ => rfl) r s hr hs

/-! ### Normals -/

/-- `∫ c (v · n) p` with a virtual vector, and `∫ c q (u · n)` with a virtual scalar. -/
theorem C61_surface_normal_dot (vg sg : Mapping K) (coef : Fld K) (val : ℕ → Lev K) (su sp : ℕ → K)
    (cu cp : ℕ → ℕ → ℕ) (c : ℕ) :
    let un := fun (nrm : ℕ → K) q v => ∑ a ∈ range vg.dim, fval vg.nEP (vg.phi c q) v a * nrm a
    let B := fun q v p => coef.at c q 0 0 * un (vg.n c q) q v * fval sg.nEP (sg.phi c q) p 0
    IsForm (vg.dim * vg.nEP) sg.nEP vg.nQP (vg.w c) (dwVDotNS vg sg coef val true c) B ∧
      IsLin (vg.dim * vg.nEP) vg.nQP (vg.w c) (dwVDotNS vg sg coef (dqState 1 sg.nEP sg.bf sp cp) false c)
        (fun q v => B q v (locDofs 1 sg.nEP sp (cp c))) ∧
      (vg.dim = sg.dim → IsForm sg.nEP (vg.dim * vg.nEP) sg.nQP (sg.w c) (dwSVDotN sg vg coef val true c)
          (fun q p v => coef.at c q 0 0 * un (sg.n c q) q v * fval sg.nEP (sg.phi c q) p 0) ∧
        IsLin sg.nEP sg.nQP (sg.w c) (dwSVDotN sg vg coef (dqState vg.dim vg.nEP vg.bf su cu) false c)
          fun q p => coef.at c q 0 0 * un (sg.n c q) q (locDofs vg.dim vg.nEP su (cu c)) *
            fval sg.nEP (sg.phi c q) p 0) := by
  intro un B
  have key : ∀ (nrm : Lev K) (q : ℕ) (v : ℕ → K), ∑ r ∈ range (vg.dim * vg.nEP),
      v r * bfActt vg.nEP (vg.bf.x1 c) nrm q r 0 = un (fun i => nrm q i 0) q v := by
    intro nrm q v
    have h := lin_bfActt vg.dim vg.nEP v (vg.bf.x1 c) nrm q
    unfold lin at h
    rw [h, phi_eq]
  refine ⟨fun v u => ?_, fun v => ?_, fun hdim => ⟨fun v u => ?_, fun v => ?_⟩⟩
  · unfold dwVDotNS
    simp only [if_true]
    rw [bil_sumLev]
    refine integ_congr (fun _ _ => rfl) fun q _ => ?_
    rw [bil_mulF, bil_mulAB, sum_range_one, ptr_x1, key, phi_eq, sum_val_u]
    exact (mul_assoc _ _ _).symm
  · unfold dwVDotNS
    simp only [Bool.false_eq_true, if_false]
    rw [lin_sumLev]
    refine integ_congr (fun _ _ => rfl) fun q _ => ?_
    rw [lin_mulF, lin_mulAB, sum_range_one, ptr_x1, dqState_eq, key]
    exact (mul_assoc _ _ _).symm
  · unfold dwSVDotN
    simp only [if_true]
    rw [bil_sumLev]
    refine integ_congr (fun _ _ => rfl) fun q _ => ?_
    rw [bil_mulF, ptr_x1]
    unfold bil mulATBT
    simp only [sum_range_one]
    have : ∀ r, ∑ s ∈ range (vg.dim * vg.nEP), v r * (sg.bf.x1 c q 0 r * bfActt vg.nEP (vg.bf.x1 c) (sg.normal c) q s 0)
        * u s = v r * sg.phi c q r * un (sg.n c q) q u := by
      intro r
      have := key (sg.normal c) q u
      rw [← phi_eq, show un (sg.n c q) q u = un (fun i => sg.normal c q i 0) q u from rfl, ← this, mul_sum]
      refine sum_congr rfl fun s _ => by ring
    simp only [this]
    rw [← sum_mul, sum_v_val]
    ring
  · unfold dwSVDotN
    simp only [Bool.false_eq_true, if_false]
    rw [lin_sumLev]
    refine integ_congr (fun _ _ => rfl) fun q _ => ?_
    rw [lin_mulF, lin_mulATB, sum_range_one, ptr_x1, phi_eq, sum_v_val]
    unfold mulATB
    have : ∑ k ∈ range sg.dim, sg.normal c q k 0 * dqState vg.dim vg.nEP vg.bf su cu c q k 0 =
        un (sg.n c q) q (locDofs vg.dim vg.nEP su (cu c)) := by
      show _ = ∑ a ∈ range vg.dim, _
      rw [hdim]
      refine sum_congr rfl fun a _ => ?_
      rw [← hdim, dqState_eq, mul_comm]
      rfl
    rw [this]
    ring

/-! ### Loads -/

/-- `dw_volume_lvf`: `∫ f · v`, `n` is the number of components. -/
theorem C61_volume_lvf (vg : Mapping K) (force : Fld K) (n c : ℕ) :
    IsLin (n * vg.nEP) vg.nQP (vg.w c) (dwVolumeLvf vg force c)
      fun q v => ∑ a ∈ range n, fval vg.nEP (vg.phi c q) v a * force.at c q a 0 := by
  intro v
  unfold dwVolumeLvf
  rw [lin_sumLev]
  refine integ_congr (fun _ _ => rfl) fun q _ => ?_
  have h1 := lin_bfActt n vg.nEP v (vg.bf.x1 c) (force.x1 c) q
  have h2 : lin (n * vg.nEP) v (bfActtC1 vg.nEP (vg.bf.x1 c) (force.x1 c) q) = _ := h1
  rw [h2, phi_eq]
  refine sum_congr rfl fun a _ => ?_
  rw [Fld.x1_apply]

/-- `dw_electric_source`: `∫ c s (∇φ)²` only for a coefficient constant in each cell; otherwise it is the value in
the first quadrature point that multiplies the whole integral. -/
theorem C61_electric_source (vg : Mapping K) (coef : Fld K) (state : ℕ → K) (conn : ℕ → ℕ → ℕ) (c : ℕ) :
    IsLin vg.nEP vg.nQP (vg.w c) (dwElectricSource vg coef (dqGrad 1 vg state conn) c)
      fun q v => coef.at c 0 0 0 * (fval vg.nEP (vg.phi c q) v 0 *
        gradGrad vg.dim vg c q (locDofs 1 vg.nEP state (conn c)) (locDofs 1 vg.nEP state (conn c))) := by
  intro v
  unfold dwElectricSource
  have h : lin vg.nEP v (mulC (sumLev vg.nQP (mulATB 1 (vg.bf.x1 c) (mulATB vg.dim (dqGrad 1 vg state conn c)
      (dqGrad 1 vg state conn c))) (ptr (vg.det c))) (coef.x1 c 0 0 0)) = coef.at c 0 0 0 *
      lin vg.nEP v (sumLev vg.nQP (mulATB 1 (vg.bf.x1 c) (mulATB vg.dim (dqGrad 1 vg state conn c)
      (dqGrad 1 vg state conn c))) (ptr (vg.det c))) := by
    unfold lin mulC
    rw [mul_sum]
    refine sum_congr rfl fun r _ => ?_
    rw [Fld.x1_apply]
    ring
  simp only
  rw [h, lin_sumLev]
  unfold integ
  rw [mul_sum]
  refine sum_congr rfl fun q _ => ?_
  beta_reduce
  rw [lin_mulATB, sum_range_one, phi_eq, sum_v_val]
  have : mulATB vg.dim (dqGrad 1 vg state conn c) (dqGrad 1 vg state conn c) q 0 0 =
      gradGrad vg.dim vg c q (locDofs 1 vg.nEP state (conn c)) (locDofs 1 vg.nEP state (conn c)) := by
    unfold mulATB gradGrad
    refine sum_congr rfl fun i _ => ?_
    rw [dqGrad_eq]
  rw [this, ptr_det]
  ring

/-! ### `dw_convect_v_grad_s` -/

/-- The forms of `dw_convect_v_grad_s`, `∫ q (u · ∇p)`: residual, derivatives with respect to `p` and to `u`. They are
weighted by the determinants of the cell `cur`, which is not set by the kernel. -/
theorem C61_convect_v_grad_s (cur : ℕ) (vvg svg : Mapping K) (valV gradS : ℕ → Lev K) (su sp : ℕ → K)
    (cu cp : ℕ → ℕ → ℕ) (c : ℕ) :
    let F := fun q v u p => fval svg.nEP (svg.phi c q) v 0 * ∑ a ∈ range vvg.dim,
      fval vvg.nEP (vvg.phi c q) u a * fgrad svg.nEP (svg.G c q) p a 0
    let u0 := locDofs vvg.dim vvg.nEP su (cu c)
    let p0 := locDofs 1 svg.nEP sp (cp c)
    let vq := dqState vvg.dim vvg.nEP vvg.bf su cu
    let gq := dqGrad 1 svg sp cp
    IsLin svg.nEP vvg.nQP (vvg.w cur) (dwConvectVGradS cur vvg svg vq gq 0 c) (fun q v => F q v u0 p0) ∧
      IsForm svg.nEP svg.nEP vvg.nQP (vvg.w cur) (dwConvectVGradS cur vvg svg vq gradS 1 c) (fun q v p => F q v u0 p) ∧
      IsForm svg.nEP (vvg.dim * vvg.nEP) vvg.nQP (vvg.w cur) (dwConvectVGradS cur vvg svg valV gq 2 c)
        fun q v u => F q v u p0 := by
  intro F u0 p0 vq gq
  refine ⟨fun v => ?_, fun v u => ?_, fun v u => ?_⟩
  · unfold dwConvectVGradS
    simp only [if_true]
    rw [lin_sumLev]
    refine integ_congr (fun _ _ => rfl) fun q _ => ?_
    rw [lin_mulATB, sum_range_one, phi_eq, sum_v_val]
    show _ = fval svg.nEP (svg.phi c q) v 0 * _
    congr 1
    refine sum_congr rfl fun a _ => ?_
    show dqState _ _ _ _ _ _ _ _ _ * dqGrad _ _ _ _ _ _ _ _ = _
    rw [dqState_eq, dqGrad_eq]
  · unfold dwConvectVGradS
    simp only [one_ne_zero, if_true, if_false]
    rw [bil_sumLev]
    refine integ_congr (fun _ _ => rfl) fun q _ => ?_
    rw [bil_mulATB, sum_range_one, phi_eq, sum_v_val]
    show _ = fval svg.nEP (svg.phi c q) v 0 * _
    congr 1
    unfold mulATB
    simp only [sum_mul]
    rw [sum_comm]
    refine sum_congr rfl fun a _ => ?_
    rw [← sum_bfGM_u, mul_sum]
    refine sum_congr rfl fun s _ => ?_
    show dqState _ _ _ _ _ _ _ _ _ * _ * _ = _
    rw [dqState_eq]
    ring
  · unfold dwConvectVGradS
    simp only [show (2 : ℕ) ≠ 0 by decide, show (2 : ℕ) ≠ 1 by decide, if_false]
    rw [bil_sumLev]
    refine integ_congr (fun _ _ => rfl) fun q _ => ?_
    rw [bil_mulATB, sum_range_one, phi_eq, sum_v_val, sum_bfRact, phi_eq]
    show _ = fval svg.nEP (svg.phi c q) v 0 * _
    congr 1
    refine sum_congr rfl fun a _ => ?_
    unfold mulATC
    show dqGrad _ _ _ _ _ _ _ _ * 1 * _ = _
    rw [dqGrad_eq]
    ring

/-- The results are the documented ones when the cell `cur` has the same determinants. -/
theorem C61_convect_v_grad_s_uniform (cur : ℕ) (vvg svg : Mapping K) (su sp : ℕ → K) (cu cp : ℕ → ℕ → ℕ) (c : ℕ)
    (h : ∀ q < vvg.nQP, vvg.w cur q = vvg.w c q) :
    IsLin svg.nEP vvg.nQP (vvg.w c)
      (dwConvectVGradS cur vvg svg (dqState vvg.dim vvg.nEP vvg.bf su cu) (dqGrad 1 svg sp cp) 0 c)
      fun q v => fval svg.nEP (svg.phi c q) v 0 * ∑ a ∈ range vvg.dim,
        fval vvg.nEP (vvg.phi c q) (locDofs vvg.dim vvg.nEP su (cu c)) a *
          fgrad svg.nEP (svg.G c q) (locDofs 1 svg.nEP sp (cp c)) a 0 := by
  intro v
  rw [(C61_convect_v_grad_s cur vvg svg (dqState vvg.dim vvg.nEP vvg.bf su cu) (dqGrad 1 svg sp cp) su sp cu cp c).1 v]
  exact integ_congr h fun _ _ => rfl

/-! ### Faces -/

/-- `ev_volume_surface`: `1/D ∫ x · n`. -/
theorem C61_volume_surface (sg : Mapping K) (coors : ℕ → K) (conn : ℕ → ℕ → ℕ) (c : ℕ) :
    dVolumeSurface sg coors conn c 0 0 = (integ sg.nQP (sg.w c) fun q => ∑ a ∈ range sg.dim,
      fval sg.nEP (sg.phi c q) (locDofs sg.dim sg.nEP coors (conn c)) a * sg.n c q a) / sg.dim := by
  unfold dVolumeSurface mulC
  rw [one_div, div_eq_mul_inv]
  congr 1
  unfold sumLev integ
  refine sum_congr rfl fun q _ => ?_
  rw [mul_comm]
  congr 1
  unfold mulAB
  refine sum_congr rfl fun a _ => ?_
  congr 1
  unfold mulABn1 fval
  refine sum_congr rfl fun k hk => ?_
  obtain ⟨h1, h2⟩ := divmod_block (a := a) (mem_range.1 hk)
  unfold locDofs
  rw [h1, h2, Fld.x1_apply]
  rfl

/-- `ev_surface_moment`: `∫ n_i x_j`. -/
theorem C61_surface_moment (sg : Mapping K) (coors : ℕ → K) (conn : ℕ → ℕ → ℕ) (c i j : ℕ) :
    diSurfaceMoment sg coors conn c i j = integ sg.nQP (sg.w c) fun q =>
      sg.n c q i * fval sg.nEP (sg.phi c q) (locDofs sg.dim sg.nEP coors (conn c)) j := by
  unfold diSurfaceMoment sumLev integ
  refine sum_congr rfl fun q _ => ?_
  rw [mul_comm]
  congr 1
  unfold mulAB
  rw [sum_range_one]
  congr 1
  unfold mulABn1 fval
  refine sum_congr rfl fun k hk => ?_
  obtain ⟨h1, h2⟩ := divmod_block (a := j) (mem_range.1 hk)
  unfold locDofs
  rw [h1, h2, Fld.x1_apply]
  rfl

end Verif.Term
