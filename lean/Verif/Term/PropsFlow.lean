/-
C63: flow terms (viscosity, convection, Stokes coupling, stabilization) give the documented weak forms, the matrix of
the nonlinear convective term is the derivative of its residual.
-/
import Verif.Term.LemFlow
import Mathlib.Analysis.Calculus.Deriv.Pow
import Mathlib.Analysis.Calculus.Deriv.Add
import Mathlib.Analysis.Calculus.Deriv.Mul

namespace Verif.Term

open Finset

variable {K : Type} [Field K]

/-! ### Viscosity -/

/-- The matrix of `dw_div_grad` is the one of `∫ ν ∇v : ∇u`. -/
theorem C63_div_grad_matrix (vg : Mapping K) (hd : 1 ≤ vg.dim ∧ vg.dim ≤ 3) (ν : Fld K) (gr : ℕ → Lev K) (c : ℕ) :
    ∃ A, dwDivGrad vg vg ν gr true c = some A ∧
      IsForm (vg.dim * vg.nEP) (vg.dim * vg.nEP) vg.nQP (vg.w c) A fun q v u =>
        ν.at c q 0 0 * gradDouble vg.dim vg.nEP (vg.G c q) v u := by
  obtain ⟨o, e, hb⟩ := divgradGtg_block hd vg.nEP (vg.bfGM c) (vg.bfGM c)
  refine ⟨_, by simp only [dwDivGrad, if_true, e]; rfl, fun v u => ?_⟩
  rw [bil_sumLev]
  refine integ_congr (fun _ _ => rfl) fun q _ => ?_
  rw [bil_mulF, ptr_x1]
  congr 1
  rw [bil_of_block (g := vg.G c q) (g' := vg.G c q)
    (S := fun i a m b => if a = b then (if i = m then 1 else 0) else 0)]
  · unfold gradDouble
    refine sum_congr rfl fun i hi => sum_congr rfl fun a ha => ?_
    rw [sum_eq_single_of_mem i hi, sum_eq_single_of_mem a ha]
    · simp
    · intro b _ hb; simp [Ne.symm hb]
    · intro m _ hm; simp [Ne.symm hm]
  · intro a ha k hk b hb' l hl
    rw [hb q a ha k hk b hb' l hl]
    by_cases hab : a = b
    · rw [if_pos hab]
      refine sum_congr rfl fun i hi => ?_
      rw [sum_eq_single_of_mem i hi]
      · simp [hab, Mapping.G]
      · intro m _ hm; simp [Ne.symm hm]
    · simp [hab]

/-- The vector of `dw_div_grad` for a state. -/
theorem C63_div_grad_vector (vg vgs : Mapping K) (hd : 1 ≤ vg.dim ∧ vg.dim ≤ 3) (ν : Fld K) (state : ℕ → K)
    (conn : ℕ → ℕ → ℕ) (c : ℕ) :
    ∃ b, dwDivGrad vg vgs ν (gradColumn vg.dim (dqGrad vg.dim vg state conn)) false c = some b ∧
      IsLin (vg.dim * vg.nEP) vg.nQP (vg.w c) b fun q v =>
        ν.at c q 0 0 * gradDouble vg.dim vg.nEP (vg.G c q) v (locDofs vg.dim vg.nEP state (conn c)) := by
  obtain ⟨o, e, hb⟩ := divgradActGtM_block hd vg.nEP (vg.bfGM c) (gradColumn vg.dim (dqGrad vg.dim vg state conn) c)
  refine ⟨_, by simp only [dwDivGrad, Bool.false_eq_true, if_false, e]; rfl, fun v => ?_⟩
  rw [lin_sumLev]
  refine integ_congr (fun _ _ => rfl) fun q _ => ?_
  rw [lin_mulF, ptr_x1]
  congr 1
  rw [lin_of_block (g := vg.G c q)
    (s := fun i a => fgrad vg.nEP (vg.G c q) (locDofs vg.dim vg.nEP state (conn c)) i a)]
  · rfl
  · intro a ha k hk
    rw [hb q 0 a ha k hk]
    refine sum_congr rfl fun i hi => ?_
    obtain ⟨d1, d2⟩ := divmod_block (a := a) (mem_range.1 hi)
    unfold gradColumn
    rw [d1, d2, dqGrad_eq]
    rfl

/-- The evaluation mode of `dw_div_grad`. -/
theorem C63_div_grad_eval (vg : Mapping K) (ν : Fld K) (s1 s2 : ℕ → K) (conn : ℕ → ℕ → ℕ) (c : ℕ) :
    dDivGrad vg ν (dqGrad vg.dim vg s1 conn) (dqGrad vg.dim vg s2 conn) c 0 0 =
      integ vg.nQP (vg.w c) fun q => ν.at c q 0 0 * gradDouble vg.dim vg.nEP (vg.G c q)
        (locDofs vg.dim vg.nEP s1 (conn c)) (locDofs vg.dim vg.nEP s2 (conn c)) := by
  unfold dDivGrad sumLev integ
  refine sum_congr rfl fun q _ => ?_
  unfold mulF
  rw [ptr_x1, ptr_det, mul_comm, mul_comm (mulATB _ _ _ _ _ _)]
  congr 2
  unfold mulATB gradDouble
  rw [sum_blocks]
  refine sum_congr rfl fun i _ => sum_congr rfl fun a ha => ?_
  obtain ⟨d1, d2⟩ := divmod_block (a := i) (mem_range.1 ha)
  unfold pretend
  rw [Nat.one_mul, Nat.add_zero, d1, d2, dqGrad_eq, dqGrad_eq]

/-- The residual of `dw_div_grad` is its matrix times the degrees of freedom. -/
theorem C63_div_grad_residual (vg : Mapping K) (hd : 1 ≤ vg.dim ∧ vg.dim ≤ 3) (ν : Fld K) (gr : ℕ → Lev K)
    (state : ℕ → K) (conn : ℕ → ℕ → ℕ) (c : ℕ) (A b : ℕ → ℕ → K) (hA : dwDivGrad vg vg ν gr true c = some A)
    (hb : dwDivGrad vg vg ν (gradColumn vg.dim (dqGrad vg.dim vg state conn)) false c = some b) (r : ℕ)
    (hr : r < vg.dim * vg.nEP) :
    b r 0 = ∑ s ∈ range (vg.dim * vg.nEP), A r s * state (vg.dim * conn c (s % vg.nEP) + s / vg.nEP) := by
  obtain ⟨A', h1, h3⟩ := C63_div_grad_matrix vg hd ν gr c
  obtain ⟨b', h4, h5⟩ := C63_div_grad_vector vg vg hd ν state conn c
  rw [hA, Option.some.injEq] at h1
  rw [hb, Option.some.injEq] at h4
  subst h1 h4
  exact h3.residual h5 r hr

/-- The viscosity matrix is symmetric. -/
theorem C63_div_grad_symmetric (vg : Mapping K) (hd : 1 ≤ vg.dim ∧ vg.dim ≤ 3) (ν : Fld K) (gr : ℕ → Lev K) (c : ℕ)
    (A : ℕ → ℕ → K) (hA : dwDivGrad vg vg ν gr true c = some A) (r s : ℕ) (hr : r < vg.dim * vg.nEP)
    (hs : s < vg.dim * vg.nEP) : A r s = A s r := by
  obtain ⟨A', h1, h3⟩ := C63_div_grad_matrix vg hd ν gr c
  rw [hA, Option.some.injEq] at h1
  subst h1
  refine h3.symm (fun q hq v u => ?_) r s hr hs
  unfold gradDouble
  congr 1
  exact sum_congr rfl fun i _ => sum_congr rfl fun a _ => mul_comm _ _

/-- The viscosity matrix is positive semidefinite for a nonnegative viscosity. -/
theorem C63_div_grad_psd {F : Type} [Field F] [LinearOrder F] [IsStrictOrderedRing F] (vg : Mapping F)
    (hd : 1 ≤ vg.dim ∧ vg.dim ≤ 3) (ν : Fld F) (gr : ℕ → Lev F) (c : ℕ) (A : ℕ → ℕ → F)
    (hA : dwDivGrad vg vg ν gr true c = some A) (hw : ∀ q < vg.nQP, 0 ≤ vg.w c q)
    (hν : ∀ q < vg.nQP, 0 ≤ ν.at c q 0 0) (u : ℕ → F) :
    0 ≤ bil (vg.dim * vg.nEP) (vg.dim * vg.nEP) u A u := by
  obtain ⟨A', h1, h3⟩ := C63_div_grad_matrix vg hd ν gr c
  rw [hA, Option.some.injEq] at h1
  subst h1
  refine h3.nonneg hw u fun q hq => mul_nonneg (hν q hq) ?_
  exact sum_nonneg fun i _ => sum_nonneg fun a _ => mul_self_nonneg _

/-! ### Convection -/

/-- The residual of `dw_convect`: `∫ ((u · ∇) u) · v`. -/
theorem C63_convect_vector (vg : Mapping K) (state : ℕ → K) (conn : ℕ → ℕ → ℕ) (c : ℕ) :
    ∃ b, dwConvect vg (gradT (dqGrad vg.dim vg state conn)) (dqState vg.dim vg.nEP vg.bf state conn) false c = some b ∧
      IsLin (vg.dim * vg.nEP) vg.nQP (vg.w c) b fun q v =>
        let u := locDofs vg.dim vg.nEP state (conn c)
        ∑ a ∈ range vg.dim, fconv vg.dim vg.nEP (vg.G c q) (fval vg.nEP (vg.phi c q) u) u a *
          fval vg.nEP (vg.phi c q) v a := by
  refine ⟨_, rfl, fun v => ?_⟩
  rw [lin_sumLev]
  refine integ_congr (fun _ _ => rfl) fun q _ => ?_
  rw [lin_bfActt, phi_eq]
  refine sum_congr rfl fun a _ => ?_
  rw [mul_comm]
  congr 1
  unfold mulAB fconv gradT
  refine sum_congr rfl fun i _ => ?_
  rw [dqGrad_eq, dqState_eq, mul_comm]

/-- The matrix of `dw_convect`: `∫ ((w · ∇) u + (u · ∇) w) · v` for the increment `w`. -/
theorem C63_convect_matrix (vg : Mapping K) (hd : 1 ≤ vg.dim ∧ vg.dim ≤ 3) (state : ℕ → K) (conn : ℕ → ℕ → ℕ) (c : ℕ) :
    ∃ A, dwConvect vg (gradT (dqGrad vg.dim vg state conn)) (dqState vg.dim vg.nEP vg.bf state conn) true c = some A ∧
      IsForm (vg.dim * vg.nEP) (vg.dim * vg.nEP) vg.nQP (vg.w c) A fun q v w =>
        let u := locDofs vg.dim vg.nEP state (conn c)
        ∑ a ∈ range vg.dim, (fconv vg.dim vg.nEP (vg.G c q) (fval vg.nEP (vg.phi c q) w) u a +
          fconv vg.dim vg.nEP (vg.G c q) (fval vg.nEP (vg.phi c q) u) w a) * fval vg.nEP (vg.phi c q) v a := by
  obtain ⟨o, e, ho⟩ := convectVtg_apply hd vg.nEP (vg.bfGM c) (dqState vg.dim vg.nEP vg.bf state conn c)
  refine ⟨_, by simp only [dwConvect, if_true, e]; rfl, fun v w => ?_⟩
  rw [bil_sumLev]
  refine integ_congr (fun _ _ => rfl) fun q _ => ?_
  have hadd : ∀ x y : Lev K, bil (vg.dim * vg.nEP) (vg.dim * vg.nEP) v (addAB x y q) w =
      bil (vg.dim * vg.nEP) (vg.dim * vg.nEP) v (x q) w + bil (vg.dim * vg.nEP) (vg.dim * vg.nEP) v (y q) w := by
    intro x y
    unfold bil addAB
    rw [← sum_add_distrib]
    refine sum_congr rfl fun r _ => ?_
    rw [← sum_add_distrib]
    exact sum_congr rfl fun s _ => by ring
  rw [hadd, bil_bfActt, bil_bfActt, ← sum_add_distrib, phi_eq]
  refine sum_congr rfl fun a ha => ?_
  rw [← mul_add, mul_comm]
  congr 2
  · rw [sum_bfRact, phi_eq]
    unfold fconv gradT
    exact sum_congr rfl fun i _ => by rw [dqGrad_eq, mul_comm]
  · rw [ho q a (mem_range.1 ha)]
    unfold fconv
    refine sum_congr rfl fun i _ => ?_
    beta_reduce
    rw [dqState_eq]
    rfl

theorem locDofs_add (n m : ℕ) (s h : ℕ → K) (t : K) (conn : ℕ → ℕ) :
    locDofs n m (fun i => s i + t * h i) conn = fun r => locDofs n m s conn r + t * locDofs n m h conn r := rfl

theorem fval_add (n : ℕ) (φ u w : ℕ → K) (t : K) (a : ℕ) :
    fval n φ (fun r => u r + t * w r) a = fval n φ u a + t * fval n φ w a := by
  unfold fval
  rw [mul_sum, ← sum_add_distrib]
  exact sum_congr rfl fun k _ => by ring

theorem fgrad_add (n : ℕ) (G : ℕ → ℕ → K) (u w : ℕ → K) (t : K) (i a : ℕ) :
    fgrad n G (fun r => u r + t * w r) i a = fgrad n G u i a + t * fgrad n G w i a := by
  unfold fgrad
  rw [mul_sum, ← sum_add_distrib]
  exact sum_congr rfl fun k _ => by ring

/-- The residual of `dw_convect` in a state changed by `t h` is the residual in the state, plus `t` times the matrix
in the state applied to `h`, plus `t²` times the residual in `h`. -/
theorem C63_convect_expansion (vg : Mapping K) (hd : 1 ≤ vg.dim ∧ vg.dim ≤ 3) (state h : ℕ → K) (t : K)
    (conn : ℕ → ℕ → ℕ) (c : ℕ) (b bt bh A : ℕ → ℕ → K)
    (hb : dwConvect vg (gradT (dqGrad vg.dim vg state conn)) (dqState vg.dim vg.nEP vg.bf state conn) false c = some b)
    (hA : dwConvect vg (gradT (dqGrad vg.dim vg state conn)) (dqState vg.dim vg.nEP vg.bf state conn) true c = some A)
    (hbt : dwConvect vg (gradT (dqGrad vg.dim vg (fun i => state i + t * h i) conn))
      (dqState vg.dim vg.nEP vg.bf (fun i => state i + t * h i) conn) false c = some bt)
    (hbh : dwConvect vg (gradT (dqGrad vg.dim vg h conn)) (dqState vg.dim vg.nEP vg.bf h conn) false c = some bh)
    (r : ℕ) (hr : r < vg.dim * vg.nEP) :
    bt r 0 = b r 0 + t * (∑ s ∈ range (vg.dim * vg.nEP), A r s * h (vg.dim * conn c (s % vg.nEP) + s / vg.nEP)) +
      t ^ 2 * bh r 0 := by
  obtain ⟨b', e1, l1⟩ := C63_convect_vector vg state conn c
  obtain ⟨b'', e2, l2⟩ := C63_convect_vector vg (fun i => state i + t * h i) conn c
  obtain ⟨b''', e3, l3⟩ := C63_convect_vector vg h conn c
  obtain ⟨A', e4, f⟩ := C63_convect_matrix vg hd state conn c
  rw [hb, Option.some.injEq] at e1
  rw [hbt, Option.some.injEq] at e2
  rw [hbh, Option.some.injEq] at e3
  rw [hA, Option.some.injEq] at e4
  subst e1 e2 e3 e4
  have hf := bil_single_left (m := vg.dim * vg.nEP) hr A (locDofs vg.dim vg.nEP h (conn c))
  have hs : ∑ s ∈ range (vg.dim * vg.nEP), A r s * h (vg.dim * conn c (s % vg.nEP) + s / vg.nEP) =
      ∑ s ∈ range (vg.dim * vg.nEP), A r s * locDofs vg.dim vg.nEP h (conn c) s := rfl
  rw [hs, ← hf, ← lin_single hr b, ← lin_single hr bt, ← lin_single hr bh, l1, l2, l3, f]
  unfold integ
  rw [mul_sum, mul_sum, ← sum_add_distrib, ← sum_add_distrib]
  refine sum_congr rfl fun q _ => ?_
  dsimp only
  rw [locDofs_add]
  simp only [mul_sum]
  rw [← sum_add_distrib, ← sum_add_distrib]
  refine sum_congr rfl fun a _ => ?_
  have e : fconv vg.dim vg.nEP (vg.G c q) (fval vg.nEP (vg.phi c q) fun r =>
        locDofs vg.dim vg.nEP state (conn c) r + t * locDofs vg.dim vg.nEP h (conn c) r)
        (fun r => locDofs vg.dim vg.nEP state (conn c) r + t * locDofs vg.dim vg.nEP h (conn c) r) a =
      fconv vg.dim vg.nEP (vg.G c q) (fval vg.nEP (vg.phi c q) (locDofs vg.dim vg.nEP state (conn c)))
        (locDofs vg.dim vg.nEP state (conn c)) a +
      t * (fconv vg.dim vg.nEP (vg.G c q) (fval vg.nEP (vg.phi c q) (locDofs vg.dim vg.nEP h (conn c)))
        (locDofs vg.dim vg.nEP state (conn c)) a +
       fconv vg.dim vg.nEP (vg.G c q) (fval vg.nEP (vg.phi c q) (locDofs vg.dim vg.nEP state (conn c)))
        (locDofs vg.dim vg.nEP h (conn c)) a) +
      t ^ 2 * fconv vg.dim vg.nEP (vg.G c q) (fval vg.nEP (vg.phi c q) (locDofs vg.dim vg.nEP h (conn c)))
        (locDofs vg.dim vg.nEP h (conn c)) a := by
    unfold fconv
    rw [← sum_add_distrib, mul_sum, mul_sum, ← sum_add_distrib, ← sum_add_distrib]
    refine sum_congr rfl fun i _ => ?_
    rw [fval_add, fgrad_add]
    ring
  rw [e]
  ring

/-- The matrix of `dw_convect` is the derivative of its residual, in the direction of any change of the state. -/
theorem C63_convect_derivative (vg : Mapping ℝ) (hd : 1 ≤ vg.dim ∧ vg.dim ≤ 3) (state h : ℕ → ℝ) (conn : ℕ → ℕ → ℕ)
    (c : ℕ) (R : ℝ → ℕ → ℕ → ℝ) (A : ℕ → ℕ → ℝ)
    (hR : ∀ t, dwConvect vg (gradT (dqGrad vg.dim vg (fun i => state i + t * h i) conn))
      (dqState vg.dim vg.nEP vg.bf (fun i => state i + t * h i) conn) false c = some (R t))
    (hA : dwConvect vg (gradT (dqGrad vg.dim vg state conn)) (dqState vg.dim vg.nEP vg.bf state conn) true c = some A)
    (r : ℕ) (hr : r < vg.dim * vg.nEP) :
    HasDerivAt (fun t => R t r 0)
      (∑ s ∈ range (vg.dim * vg.nEP), A r s * h (vg.dim * conn c (s % vg.nEP) + s / vg.nEP)) 0 := by
  have h0 : dwConvect vg (gradT (dqGrad vg.dim vg state conn)) (dqState vg.dim vg.nEP vg.bf state conn) false c =
      some (R 0) := by
    have := hR 0
    simpa using this
  obtain ⟨bh, e3, -⟩ := C63_convect_vector vg h conn c
  have hx : (fun t => R t r 0) = fun t => R 0 r 0 +
      t * (∑ s ∈ range (vg.dim * vg.nEP), A r s * h (vg.dim * conn c (s % vg.nEP) + s / vg.nEP)) + t ^ 2 * bh r 0 := by
    funext t
    exact C63_convect_expansion vg hd state h t conn c (R 0) (R t) bh A h0 hA (hR t) e3 r hr
  rw [hx]
  generalize (∑ s ∈ range (vg.dim * vg.nEP), A r s * h (vg.dim * conn c (s % vg.nEP) + s / vg.nEP)) = D
  have d1 : HasDerivAt (fun t : ℝ => R 0 r 0 + t * D) D 0 := by
    simpa using ((hasDerivAt_id (0 : ℝ)).mul_const D).const_add (R 0 r 0)
  have d2 : HasDerivAt (fun t : ℝ => t ^ 2 * bh r 0) 0 0 := by
    simpa using ((hasDerivAt_id (0 : ℝ)).pow 2).mul_const (bh r 0)
  have d3 := d1.add d2
  rw [add_zero] at d3
  exact d3

/-- `dw_lin_convect` and `dw_lin_convect2`: `∫ ((b · ∇) u) · v`, the matrix. -/
theorem C63_lin_convect_matrix (vg : Mapping K) (hd : 1 ≤ vg.dim ∧ vg.dim ≤ 3) (gr : ℕ → Lev K) (b : Fld K) (c : ℕ) :
    ∃ A, dwLinConvect vg gr b true c = some A ∧
      IsForm (vg.dim * vg.nEP) (vg.dim * vg.nEP) vg.nQP (vg.w c) A fun q v u =>
        ∑ a ∈ range vg.dim, fconv vg.dim vg.nEP (vg.G c q) (fun i => b.at c q i 0) u a *
          fval vg.nEP (vg.phi c q) v a := by
  obtain ⟨o, e, ho⟩ := convectVtg_apply hd vg.nEP (vg.bfGM c) (b.x1 c)
  refine ⟨_, by simp only [dwLinConvect, if_true, e]; rfl, fun v u => ?_⟩
  rw [bil_sumLev]
  refine integ_congr (fun _ _ => rfl) fun q _ => ?_
  rw [bil_bfActt, phi_eq]
  refine sum_congr rfl fun a ha => ?_
  rw [mul_comm, ho q a (mem_range.1 ha)]
  simp only [Fld.x1_apply]
  rfl

/-- `dw_lin_convect` and `dw_lin_convect2`: the vector and the values in quadrature points. -/
theorem C63_lin_convect_vector (vg : Mapping K) (state : ℕ → K) (conn : ℕ → ℕ → ℕ) (b : Fld K) (c : ℕ) :
    (∃ r, dwLinConvect vg (gradT (dqGrad vg.dim vg state conn)) b false c = some r ∧
      IsLin (vg.dim * vg.nEP) vg.nQP (vg.w c) r fun q v =>
        ∑ a ∈ range vg.dim, fconv vg.dim vg.nEP (vg.G c q) (fun i => b.at c q i 0)
          (locDofs vg.dim vg.nEP state (conn c)) a * fval vg.nEP (vg.phi c q) v a) ∧
    ∀ q a, dqLinConvect vg (gradT (dqGrad vg.dim vg state conn)) b c q a 0 =
      fconv vg.dim vg.nEP (vg.G c q) (fun i => b.at c q i 0) (locDofs vg.dim vg.nEP state (conn c)) a := by
  have key : ∀ q a, mulAB vg.dim (gradT (dqGrad vg.dim vg state conn) c) (b.x1 c) q a 0 =
      fconv vg.dim vg.nEP (vg.G c q) (fun i => b.at c q i 0) (locDofs vg.dim vg.nEP state (conn c)) a := by
    intro q a
    unfold mulAB fconv gradT
    refine sum_congr rfl fun i _ => ?_
    rw [dqGrad_eq, Fld.x1_apply, mul_comm]
  refine ⟨⟨_, rfl, fun v => ?_⟩, key⟩
  rw [lin_sumLev]
  refine integ_congr (fun _ _ => rfl) fun q _ => ?_
  rw [lin_bfActt, phi_eq]
  refine sum_congr rfl fun a _ => ?_
  rw [mul_comm, key]

/-! ### Stokes coupling -/

/-- `dw_stokes`, gradient mode: the matrix of `∫ c p ∇·v`. -/
theorem C63_stokes_grad_matrix (svg vvg : Mapping K) (coef : Fld K) (st : ℕ → Lev K) (c : ℕ) :
    IsForm (vvg.dim * vvg.nEP) svg.nEP vvg.nQP (vvg.w c) (dwGrad svg vvg coef st true c) fun q v p =>
      coef.at c q 0 0 * (fval svg.nEP (svg.phi c q) p 0 * fdiv vvg.dim vvg.nEP (vvg.G c q) v) := by
  intro v p
  unfold dwGrad
  rw [bil_sumLev]
  refine integ_congr (fun _ _ => rfl) fun q _ => ?_
  rw [bil_mulF, bil_mulATB, ptr_x1, sum_range_one, sum_v_gcl, if_pos rfl, phi_eq, sum_val_u, mul_comm (fdiv _ _ _ _)]

/-- `dw_stokes`, gradient mode: the vector. -/
theorem C63_stokes_grad_vector (svg vvg : Mapping K) (coef : Fld K) (state : ℕ → K) (conn : ℕ → ℕ → ℕ) (c : ℕ) :
    IsLin (vvg.dim * vvg.nEP) vvg.nQP (vvg.w c) (dwGrad svg vvg coef (dqState 1 svg.nEP svg.bf state conn) false c)
      fun q v => coef.at c q 0 0 * (fval svg.nEP (svg.phi c q) (locDofs 1 svg.nEP state (conn c)) 0 *
        fdiv vvg.dim vvg.nEP (vvg.G c q) v) := by
  intro v
  unfold dwGrad
  rw [lin_sumLev]
  refine integ_congr (fun _ _ => rfl) fun q _ => ?_
  rw [lin_mulF, lin_mulATB, ptr_x1, sum_range_one, sum_v_gcl, if_neg Bool.false_ne_true, dqState_eq,
    mul_comm (fdiv _ _ _ _)]

/-- `dw_stokes`, divergence mode: the matrix of `∫ c q ∇·u`. -/
theorem C63_stokes_div_matrix (svg vvg : Mapping K) (coef : Fld K) (st : ℕ → Lev K) (c : ℕ) :
    IsForm svg.nEP (vvg.dim * vvg.nEP) vvg.nQP (vvg.w c) (dwDiv svg vvg coef st true c) fun q p u =>
      coef.at c q 0 0 * (fval svg.nEP (svg.phi c q) p 0 * fdiv vvg.dim vvg.nEP (vvg.G c q) u) := by
  intro p u
  unfold dwDiv
  rw [bil_sumLev]
  refine integ_congr (fun _ _ => rfl) fun q _ => ?_
  rw [bil_mulF, bil_mulATB, ptr_x1, sum_range_one, if_pos rfl, sum_gcl _ _ _ _ rfl, phi_eq, sum_v_val]

/-- `dw_stokes`, divergence mode: the vector. -/
theorem C63_stokes_div_vector (svg vvg : Mapping K) (coef : Fld K) (state : ℕ → K) (conn : ℕ → ℕ → ℕ) (c : ℕ) :
    IsLin svg.nEP vvg.nQP (vvg.w c) (dwDiv svg vvg coef (dqDiv vvg state conn) false c) fun q p =>
      coef.at c q 0 0 * (fval svg.nEP (svg.phi c q) p 0 *
        fdiv vvg.dim vvg.nEP (vvg.G c q) (locDofs vvg.dim vvg.nEP state (conn c))) := by
  intro p
  unfold dwDiv
  rw [lin_sumLev]
  refine integ_congr (fun _ _ => rfl) fun q _ => ?_
  rw [lin_mulF, lin_mulATB, ptr_x1, sum_range_one, if_neg Bool.false_ne_true, dqDiv_eq, phi_eq, sum_v_val]

/-- `dw_stokes`, evaluation mode. -/
theorem C63_stokes_eval (svg vvg : Mapping K) (coef : Fld K) (su sp : ℕ → K) (conn connp : ℕ → ℕ → ℕ) (c : ℕ) :
    dStokes vvg coef (dqState 1 svg.nEP svg.bf sp connp) (dqDiv vvg su conn) c 0 0 =
      integ vvg.nQP (vvg.w c) fun q => coef.at c q 0 0 *
        (fval svg.nEP (svg.phi c q) (locDofs 1 svg.nEP sp (connp c)) 0 *
          fdiv vvg.dim vvg.nEP (vvg.G c q) (locDofs vvg.dim vvg.nEP su (conn c))) := by
  unfold dStokes sumLev integ
  refine sum_congr rfl fun q _ => ?_
  beta_reduce
  rw [ptr_det, dqState_eq, dqDiv_eq, Fld.x1_apply, mul_comm, mul_assoc]

/-- The two coupling matrices of the Stokes problem are transposes of each other. -/
theorem C63_stokes_transpose (svg vvg : Mapping K) (coef : Fld K) (st st' : ℕ → Lev K) (c r s : ℕ)
    (hr : r < vvg.dim * vvg.nEP) (hs : s < svg.nEP) :
    dwGrad svg vvg coef st true c r s = dwDiv svg vvg coef st' true c s r :=
  (C63_stokes_grad_matrix svg vvg coef st c).transpose (C63_stokes_div_matrix svg vvg coef st' c)
    (fun _ _ _ _ => rfl) r s hr hs

/-! ### Stabilization -/

/-- `dw_st_grad_div`: `∫ γ (∇·u) (∇·v)`. -/
theorem C63_grad_div (vg : Mapping K) (coef : Fld K) (st : ℕ → Lev K) (state : ℕ → K) (conn : ℕ → ℕ → ℕ) (c : ℕ) :
    let B := fun q v u => coef.at c q 0 0 * (fdiv vg.dim vg.nEP (vg.G c q) v * fdiv vg.dim vg.nEP (vg.G c q) u)
    IsForm (vg.dim * vg.nEP) (vg.dim * vg.nEP) vg.nQP (vg.w c) (dwStGradDiv vg coef st true c) B ∧
      IsLin (vg.dim * vg.nEP) vg.nQP (vg.w c) (dwStGradDiv vg coef (dqDiv vg state conn) false c)
        fun q v => B q v (locDofs vg.dim vg.nEP state (conn c)) := by
  refine ⟨fun v u => ?_, fun v => ?_⟩
  · unfold dwStGradDiv
    rw [bil_sumLev]
    refine integ_congr (fun _ _ => rfl) fun q _ => ?_
    rw [bil_mulF, bil_mulATB, ptr_x1, sum_range_one, sum_v_gcl, if_pos rfl, sum_gcl _ _ _ _ rfl]
  · unfold dwStGradDiv
    rw [lin_sumLev]
    refine integ_congr (fun _ _ => rfl) fun q _ => ?_
    rw [lin_mulF, lin_mulATB, ptr_x1, sum_range_one, sum_v_gcl, if_neg Bool.false_ne_true, dqDiv_eq]

theorem mulABn1_stuv {vg : Mapping K} (o : Lev K) (f : ℕ → (ℕ → K) → ℕ → K)
    (ho : ∀ q, ∀ a < vg.dim, ∀ u : ℕ → K, ∑ s ∈ range (vg.dim * vg.nEP), o q a s * u s = f q u a)
    (state : ℕ → K) (conn : ℕ → ℕ) (q a : ℕ) (ha : a < vg.dim) :
    mulABn1 (vg.nEP * vg.dim) o (pretend vg.nEP 1 (extractDBD vg.dim state conn)) q a 0 =
      f q (locDofs vg.dim vg.nEP state conn) a := by
  rw [← ho q a ha]
  unfold mulABn1
  rw [Nat.mul_comm vg.nEP vg.dim]
  refine sum_congr rfl fun s hs => ?_
  rw [stuv_eq vg state conn 0 s 0 rfl (mem_range.1 hs)]

/-- `dw_st_pspg_c`: `∫ τ ((b · ∇) u) · ∇q`. -/
theorem C63_pspg_c (vgp vgu : Mapping K) (hd : 1 ≤ vgu.dim ∧ vgu.dim ≤ 3) (sb : ℕ → Lev K) (coef : Fld K)
    (state : ℕ → K) (conn : ℕ → ℕ → ℕ) (c : ℕ) :
    let B := fun q (v u : ℕ → K) => coef.at c q 0 0 * ∑ a ∈ range vgu.dim, fgrad vgp.nEP (vgp.G c q) v a 0 *
      fconv vgu.dim vgu.nEP (vgu.G c q) (fun i => sb c q i 0) u a
    (∃ A, dwStPspgC vgp vgu sb state coef conn true c = some A ∧
      IsForm vgp.nEP (vgu.dim * vgu.nEP) vgu.nQP (vgu.w c) A B) ∧
    ∃ b, dwStPspgC vgp vgu sb state coef conn false c = some b ∧
      IsLin vgp.nEP vgu.nQP (vgu.w c) b fun q v => B q v (locDofs vgu.dim vgu.nEP state (conn c)) := by
  intro B
  obtain ⟨o, e, ho⟩ := convectVtg_apply hd vgu.nEP (vgu.bfGM c) (sb c)
  refine ⟨⟨_, by simp only [dwStPspgC, e, if_true]; rfl, fun v u => ?_⟩,
    ⟨_, by simp only [dwStPspgC, e, Bool.false_eq_true, if_false]; rfl, fun v => ?_⟩⟩
  · rw [bil_sumLev]
    refine integ_congr (fun _ _ => rfl) fun q _ => ?_
    rw [bil_mulF, bil_mulATB, ptr_x1]
    show _ = coef.at c q 0 0 * _
    congr 1
    refine sum_congr rfl fun a ha => ?_
    rw [sum_v_bfGM, ho q a (mem_range.1 ha)]
    rfl
  · rw [lin_sumLev]
    refine integ_congr (fun _ _ => rfl) fun q _ => ?_
    rw [lin_mulF, lin_mulATB, ptr_x1]
    show _ = coef.at c q 0 0 * _
    congr 1
    refine sum_congr rfl fun a ha => ?_
    rw [sum_v_bfGM, mulABn1_stuv o _ ho state (conn c) q a (mem_range.1 ha)]
    rfl

/-- `dw_st_supg_p`: `∫ δ ∇p · ((b · ∇) v)`. -/
theorem C63_supg_p (vgu vgp : Mapping K) (hd : 1 ≤ vgu.dim ∧ vgu.dim ≤ 3) (sb gr : ℕ → Lev K) (coef : Fld K)
    (state : ℕ → K) (conn : ℕ → ℕ → ℕ) (c : ℕ) :
    let B := fun q (v p : ℕ → K) => coef.at c q 0 0 * ∑ a ∈ range vgu.dim,
      fconv vgu.dim vgu.nEP (vgu.G c q) (fun i => sb c q i 0) v a * fgrad vgp.nEP (vgp.G c q) p a 0
    (∃ A, dwStSupgP vgu vgp sb gr coef true c = some A ∧
      IsForm (vgu.dim * vgu.nEP) vgp.nEP vgu.nQP (vgu.w c) A B) ∧
    ∃ b, dwStSupgP vgu vgp sb (dqGrad 1 vgp state conn) coef false c = some b ∧
      IsLin (vgu.dim * vgu.nEP) vgu.nQP (vgu.w c) b fun q v => B q v (locDofs 1 vgp.nEP state (conn c)) := by
  intro B
  obtain ⟨o, e, ho⟩ := convectVtg_apply hd vgu.nEP (vgu.bfGM c) (sb c)
  have ho' : ∀ q, ∀ a < vgu.dim, ∀ v : ℕ → K, ∑ s ∈ range (vgu.dim * vgu.nEP), v s * o q a s =
      fconv vgu.dim vgu.nEP (vgu.G c q) (fun i => sb c q i 0) v a := by
    intro q a ha v
    rw [sum_congr rfl fun s _ => mul_comm (v s) (o q a s), ho q a ha]
    rfl
  refine ⟨⟨_, by simp only [dwStSupgP, e, if_true]; rfl, fun v u => ?_⟩,
    ⟨_, by simp only [dwStSupgP, e, Bool.false_eq_true, if_false]; rfl, fun v => ?_⟩⟩
  · rw [bil_sumLev]
    refine integ_congr (fun _ _ => rfl) fun q _ => ?_
    rw [bil_mulF, bil_mulATB, ptr_x1]
    show _ = coef.at c q 0 0 * _
    congr 1
    refine sum_congr rfl fun a ha => ?_
    rw [sum_bfGM_u, ho' q a (mem_range.1 ha)]
  · rw [lin_sumLev]
    refine integ_congr (fun _ _ => rfl) fun q _ => ?_
    rw [lin_mulF, lin_mulATB, ptr_x1]
    show _ = coef.at c q 0 0 * _
    congr 1
    refine sum_congr rfl fun a ha => ?_
    rw [dqGrad_eq, ho' q a (mem_range.1 ha)]

/-- `dw_st_supg_c`: `∫ δ ((b · ∇) u) · ((b · ∇) v)`. -/
theorem C63_supg_c (vg : Mapping K) (hd : 1 ≤ vg.dim ∧ vg.dim ≤ 3) (sb : ℕ → Lev K) (coef : Fld K)
    (state : ℕ → K) (conn : ℕ → ℕ → ℕ) (c : ℕ) :
    let B := fun q (v u : ℕ → K) => coef.at c q 0 0 * ∑ a ∈ range vg.dim,
      fconv vg.dim vg.nEP (vg.G c q) (fun i => sb c q i 0) v a * fconv vg.dim vg.nEP (vg.G c q) (fun i => sb c q i 0) u a
    (∃ A, dwStSupgC vg sb state coef conn true c = some A ∧
      IsForm (vg.dim * vg.nEP) (vg.dim * vg.nEP) vg.nQP (vg.w c) A B) ∧
    ∃ b, dwStSupgC vg sb state coef conn false c = some b ∧
      IsLin (vg.dim * vg.nEP) vg.nQP (vg.w c) b fun q v => B q v (locDofs vg.dim vg.nEP state (conn c)) := by
  intro B
  obtain ⟨o, e, ho⟩ := convectVtg_apply hd vg.nEP (vg.bfGM c) (sb c)
  have ho' : ∀ q, ∀ a < vg.dim, ∀ v : ℕ → K, ∑ s ∈ range (vg.dim * vg.nEP), v s * o q a s =
      fconv vg.dim vg.nEP (vg.G c q) (fun i => sb c q i 0) v a := by
    intro q a ha v
    rw [sum_congr rfl fun s _ => mul_comm (v s) (o q a s), ho q a ha]
    rfl
  refine ⟨⟨_, by simp only [dwStSupgC, e, if_true]; rfl, fun v u => ?_⟩,
    ⟨_, by simp only [dwStSupgC, e, Bool.false_eq_true, if_false]; rfl, fun v => ?_⟩⟩
  · rw [bil_sumLev]
    refine integ_congr (fun _ _ => rfl) fun q _ => ?_
    rw [bil_mulF, bil_mulATB, ptr_x1]
    show _ = coef.at c q 0 0 * _
    congr 1
    refine sum_congr rfl fun a ha => ?_
    rw [ho' q a (mem_range.1 ha), ho q a (mem_range.1 ha)]
    rfl
  · rw [lin_sumLev]
    refine integ_congr (fun _ _ => rfl) fun q _ => ?_
    rw [lin_mulF, lin_mulATB, ptr_x1]
    show _ = coef.at c q 0 0 * _
    congr 1
    refine sum_congr rfl fun a ha => ?_
    rw [ho' q a (mem_range.1 ha), mulABn1_stuv o _ ho state (conn c) q a (mem_range.1 ha)]
    rfl

end Verif.Term
