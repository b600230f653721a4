/-
C61: the kernels of scalar terms, products and loads give the discrete weak forms in the documentation of the
terms: matrices, residuals and values agree.
-/
import Verif.Term.LemTerm
import Mathlib.Tactic.IntervalCases

namespace Verif.Term

open Finset

variable {K : Type} [Field K]

/-! ### The weak forms -/

/-- `∇q · ∇p`. -/
def gradGrad (dim : ℕ) (m : Mapping K) (c q : ℕ) (v u : ℕ → K) : K :=
  ∑ i ∈ range dim, fgrad m.nEP (m.G c q) v i 0 * fgrad m.nEP (m.G c q) u i 0

/-- `K_ij ∇_i q ∇_j p`. -/
def diffForm (m : Mapping K) (D : Fld K) (c q : ℕ) (v u : ℕ → K) : K :=
  ∑ i ∈ range m.dim, ∑ j ∈ range m.dim,
    D.at c q i j * fgrad m.nEP (m.G c q) v i 0 * fgrad m.nEP (m.G c q) u j 0

theorem phi_eq (m : Mapping K) (c q : ℕ) : m.bf.x1 c q 0 = m.phi c q := funext fun k => m.bf.x1_apply c q 0 k

theorem sum_v_bfGM (m : Mapping K) (c q k : ℕ) (v : ℕ → K) :
    ∑ r ∈ range m.nEP, v r * m.bfGM c q k r = fgrad m.nEP (m.G c q) v k 0 := sum_v_grad m.nEP (m.G c q) v k

theorem sum_bfGM_u (m : Mapping K) (c q k : ℕ) (v : ℕ → K) :
    ∑ r ∈ range m.nEP, m.bfGM c q k r * v r = fgrad m.nEP (m.G c q) v k 0 := sum_grad_u m.nEP (m.G c q) v k

/-! ### Laplace -/

theorem laplaceGtg_eq {dim : ℕ} (h : 1 ≤ dim ∧ dim ≤ 3) (g : Lev K) : laplaceGtg dim g = some (mulATB dim g g) := by
  obtain ⟨h1, h2⟩ := h
  interval_cases dim <;> simp only [laplaceGtg, Option.some.injEq] <;> funext l i j <;> simp [mulATB, sum_range_succ]

theorem laplaceActGtM_eq {dim : ℕ} (h : 1 ≤ dim ∧ dim ≤ 3) (g m : Lev K) :
    laplaceActGtM dim g m = some (mulATB dim g m) := by
  obtain ⟨h1, h2⟩ := h
  interval_cases dim <;> simp only [laplaceActGtM, Option.some.injEq] <;> funext l i j <;> simp [mulATB, sum_range_succ]

/-- The matrix of `dw_laplace` is the one of `∫ c ∇q · ∇p`. -/
theorem C61_laplace_matrix (vg : Mapping K) (coef : Fld K) (grad : ℕ → Lev K) (c : ℕ) (h : 1 ≤ vg.dim ∧ vg.dim ≤ 3) :
    ∃ A, dwLaplace vg coef grad true c = some A ∧
      IsForm vg.nEP vg.nEP vg.nQP (vg.w c) A fun q v u => coef.at c q 0 0 * gradGrad vg.dim vg c q v u := by
  refine ⟨_, by simp only [dwLaplace, laplaceGtg_eq h, if_true]; rfl, fun v u => ?_⟩
  rw [bil_sumLev]
  refine integ_congr (fun _ _ => rfl) fun q _ => ?_
  rw [bil_mulF, bil_mulATB, ptr_x1]
  congr 1
  refine sum_congr rfl fun k _ => ?_
  rw [sum_v_bfGM, sum_bfGM_u]

/-- The vector of `dw_laplace` for a state is the one of `∫ c ∇q · ∇p`. -/
theorem C61_laplace_vector (vg : Mapping K) (coef : Fld K) (state : ℕ → K) (conn : ℕ → ℕ → ℕ) (c : ℕ)
    (h : 1 ≤ vg.dim ∧ vg.dim ≤ 3) :
    ∃ b, dwLaplace vg coef (dqGrad 1 vg state conn) false c = some b ∧
      IsLin vg.nEP vg.nQP (vg.w c) b fun q v =>
        coef.at c q 0 0 * gradGrad vg.dim vg c q v (locDofs 1 vg.nEP state (conn c)) := by
  refine ⟨_, by simp only [dwLaplace, laplaceActGtM_eq h, Bool.false_eq_true, if_false]; rfl, fun v => ?_⟩
  rw [lin_sumLev]
  refine integ_congr (fun _ _ => rfl) fun q _ => ?_
  rw [lin_mulF, lin_mulATB, ptr_x1]
  congr 1
  refine sum_congr rfl fun k _ => ?_
  rw [dqGrad_eq, sum_v_bfGM]

/-- `ev_laplace`: the value for two states is the one of the matrix. -/
theorem C61_laplace_eval (vg : Mapping K) (coef : Fld K) (grad : ℕ → Lev K) (s1 s2 : ℕ → K) (conn : ℕ → ℕ → ℕ) (c : ℕ)
    (h : 1 ≤ vg.dim ∧ vg.dim ≤ 3) (A : ℕ → ℕ → K) (hA : dwLaplace vg coef grad true c = some A) :
    dLaplace vg coef (dqGrad 1 vg s1 conn) (dqGrad 1 vg s2 conn) c 0 0 =
      bil vg.nEP vg.nEP (locDofs 1 vg.nEP s1 (conn c)) A (locDofs 1 vg.nEP s2 (conn c)) := by
  obtain ⟨A', h1, h2⟩ := C61_laplace_matrix vg coef grad c h
  rw [hA, Option.some.injEq] at h1
  subst h1
  rw [h2]
  unfold dLaplace sumLev integ gradGrad
  refine sum_congr rfl fun q _ => ?_
  rw [mul_comm]
  congr 1
  unfold mulATB mulF
  beta_reduce
  rw [mul_sum]
  refine sum_congr rfl fun k _ => ?_
  rw [dqGrad_eq, dqGrad_eq, ptr_x1]
  ring

/-- The residual of `dw_laplace` is the matrix times the degrees of freedom of the cell. -/
theorem C61_laplace_residual (vg : Mapping K) (coef : Fld K) (grad : ℕ → Lev K) (state : ℕ → K) (conn : ℕ → ℕ → ℕ)
    (c : ℕ) (h : 1 ≤ vg.dim ∧ vg.dim ≤ 3) (A b : ℕ → ℕ → K) (hA : dwLaplace vg coef grad true c = some A)
    (hb : dwLaplace vg coef (dqGrad 1 vg state conn) false c = some b) (r : ℕ) (hr : r < vg.nEP) :
    b r 0 = ∑ s ∈ range vg.nEP, A r s * state (conn c s) := by
  obtain ⟨A', h1, h2⟩ := C61_laplace_matrix vg coef grad c h
  obtain ⟨b', h3, h4⟩ := C61_laplace_vector vg coef state conn c h
  rw [hA, Option.some.injEq] at h1
  rw [hb, Option.some.injEq] at h3
  subst h1
  subst h3
  rw [h2.residual h4 r hr]
  refine sum_congr rfl fun s hs => ?_
  have hs := mem_range.1 hs
  unfold locDofs
  rw [Nat.mod_eq_of_lt hs, Nat.div_eq_of_lt hs]
  simp

/-- The matrix of `dw_laplace` is symmetric, and the constants are in its kernel when the derivatives of the basis
functions sum to zero. -/
theorem C61_laplace_symmetric_kernel (vg : Mapping K) (coef : Fld K) (grad : ℕ → Lev K) (c : ℕ)
    (h : 1 ≤ vg.dim ∧ vg.dim ≤ 3) (A : ℕ → ℕ → K) (hA : dwLaplace vg coef grad true c = some A) :
    (∀ r < vg.nEP, ∀ s < vg.nEP, A r s = A s r) ∧
      ((∀ q < vg.nQP, ∀ i < vg.dim, ∑ k ∈ range vg.nEP, vg.G c q i k = 0) →
        ∀ r < vg.nEP, ∑ s ∈ range vg.nEP, A r s = 0) := by
  obtain ⟨A', h1, h2⟩ := C61_laplace_matrix vg coef grad c h
  rw [hA, Option.some.injEq] at h1
  subst h1
  refine ⟨fun r hr s hs => h2.symm (fun q _ v u => ?_) r s hr hs, fun hG r hr => ?_⟩
  · unfold gradGrad
    congr 1
    refine sum_congr rfl fun i _ => mul_comm _ _
  · have := h2.kernel (u := fun _ => 1) (fun q hq v => ?_) r hr
    · simpa using this
    · unfold gradGrad
      rw [sum_eq_zero, mul_zero]
      intro i hi
      have : fgrad vg.nEP (vg.G c q) (fun _ => 1) i 0 = 0 := by
        unfold fgrad
        simpa using hG q hq i (mem_range.1 hi)
      rw [this, mul_zero]

/-- With a nonnegative coefficient and nonnegative weights the matrix of `dw_laplace` is positive semidefinite. -/
theorem C61_laplace_psd {F : Type} [Field F] [LinearOrder F] [IsStrictOrderedRing F] (vg : Mapping F) (coef : Fld F)
    (grad : ℕ → Lev F) (c : ℕ) (h : 1 ≤ vg.dim ∧ vg.dim ≤ 3) (A : ℕ → ℕ → F)
    (hA : dwLaplace vg coef grad true c = some A) (hw : ∀ q < vg.nQP, 0 ≤ vg.w c q)
    (hc : ∀ q < vg.nQP, 0 ≤ coef.at c q 0 0) (u : ℕ → F) : 0 ≤ bil vg.nEP vg.nEP u A u := by
  obtain ⟨A', h1, h2⟩ := C61_laplace_matrix vg coef grad c h
  rw [hA, Option.some.injEq] at h1
  subst h1
  exact h2.nonneg hw u fun q hq => mul_nonneg (hc q hq) (sum_nonneg fun i _ => mul_self_nonneg _)

/-! ### Diffusion -/

/-- The matrix of `dw_diffusion` is the one of `∫ K_ij ∇_i q ∇_j p`. -/
theorem C61_diffusion_matrix (vg : Mapping K) (D : Fld K) (grad : ℕ → Lev K) (c : ℕ) :
    IsForm vg.nEP vg.nEP vg.nQP (vg.w c) (dwDiffusion vg D grad true c) (diffForm vg D c) := by
  intro v u
  unfold dwDiffusion
  simp only [if_true]
  rw [bil_sumLev]
  refine integ_congr (fun _ _ => rfl) fun q _ => ?_
  rw [bil_mulAB]
  unfold diffForm
  rw [sum_comm]
  refine sum_congr rfl fun j _ => ?_
  rw [← sum_mul]
  congr 1
  · unfold mulATB
    simp only [mul_sum]
    rw [sum_comm]
    refine sum_congr rfl fun i _ => ?_
    rw [← sum_v_grad, mul_sum]
    refine sum_congr rfl fun r _ => ?_
    rw [Fld.x1_apply]
    unfold Mapping.G
    ring
  · exact sum_bfGM_u vg c q j u

/-- The vector of `dw_diffusion` for a state. -/
theorem C61_diffusion_vector (vg : Mapping K) (D : Fld K) (state : ℕ → K) (conn : ℕ → ℕ → ℕ) (c : ℕ) :
    IsLin vg.nEP vg.nQP (vg.w c) (dwDiffusion vg D (dqGrad 1 vg state conn) false c)
      fun q v => diffForm vg D c q v (locDofs 1 vg.nEP state (conn c)) := by
  intro v
  unfold dwDiffusion
  simp only [Bool.false_eq_true, if_false]
  rw [lin_sumLev]
  refine integ_congr (fun _ _ => rfl) fun q _ => ?_
  rw [lin_mulATB]
  unfold diffForm mulAB
  refine sum_congr rfl fun i _ => ?_
  rw [mul_sum]
  refine sum_congr rfl fun j _ => ?_
  rw [dqGrad_eq, Fld.x1_apply, sum_v_bfGM]
  ring

/-- `ev_diffusion`: the value for two states is the one of the matrix. -/
theorem C61_diffusion_eval (vg : Mapping K) (D : Fld K) (grad : ℕ → Lev K) (s1 s2 : ℕ → K) (conn : ℕ → ℕ → ℕ) (c : ℕ) :
    dDiffusion vg D (dqGrad 1 vg s1 conn) (dqGrad 1 vg s2 conn) c 0 0 =
      bil vg.nEP vg.nEP (locDofs 1 vg.nEP s1 (conn c)) (dwDiffusion vg D grad true c)
        (locDofs 1 vg.nEP s2 (conn c)) := by
  rw [C61_diffusion_matrix vg D grad c]
  unfold dDiffusion sumLev integ diffForm
  refine sum_congr rfl fun q _ => ?_
  rw [mul_comm]
  congr 1
  unfold mulATB mulAB
  refine sum_congr rfl fun i _ => ?_
  rw [mul_sum]
  refine sum_congr rfl fun j _ => ?_
  rw [dqGrad_eq, dqGrad_eq, Fld.x1_apply]
  ring

/-- The residual of `dw_diffusion` is the matrix times the degrees of freedom; the matrix is symmetric for
a symmetric tensor and annihilates constants. -/
theorem C61_diffusion_residual_symmetric_kernel (vg : Mapping K) (D : Fld K) (grad : ℕ → Lev K) (state : ℕ → K)
    (conn : ℕ → ℕ → ℕ) (c : ℕ) :
    (∀ r < vg.nEP, dwDiffusion vg D (dqGrad 1 vg state conn) false c r 0 =
      ∑ s ∈ range vg.nEP, dwDiffusion vg D grad true c r s * state (conn c s)) ∧
    ((∀ q < vg.nQP, ∀ i < vg.dim, ∀ j < vg.dim, D.at c q i j = D.at c q j i) →
      ∀ r < vg.nEP, ∀ s < vg.nEP, dwDiffusion vg D grad true c r s = dwDiffusion vg D grad true c s r) ∧
    ((∀ q < vg.nQP, ∀ i < vg.dim, ∑ k ∈ range vg.nEP, vg.G c q i k = 0) →
      ∀ r < vg.nEP, ∑ s ∈ range vg.nEP, dwDiffusion vg D grad true c r s = 0) := by
  refine ⟨fun r hr => ?_, fun hD r hr s hs => ?_, fun hG r hr => ?_⟩
  · rw [(C61_diffusion_matrix vg D grad c).residual (C61_diffusion_vector vg D state conn c) r hr]
    refine sum_congr rfl fun s hs => ?_
    have hs := mem_range.1 hs
    unfold locDofs
    rw [Nat.mod_eq_of_lt hs, Nat.div_eq_of_lt hs]
    simp
  · refine (C61_diffusion_matrix vg D grad c).symm (fun q hq v u => ?_) r s hr hs
    unfold diffForm
    rw [sum_comm]
    refine sum_congr rfl fun i hi => sum_congr rfl fun j hj => ?_
    rw [hD q hq i (mem_range.1 hi) j (mem_range.1 hj)]
    ring
  · have := (C61_diffusion_matrix vg D grad c).kernel (u := fun _ => 1) (fun q hq v => ?_) r hr
    · simpa using this
    · unfold diffForm
      refine sum_eq_zero fun i _ => sum_eq_zero fun j hj => ?_
      have : fgrad vg.nEP (vg.G c q) (fun _ => 1) j 0 = 0 := by
        unfold fgrad
        simpa using hG q hq j (mem_range.1 hj)
      rw [this, mul_zero]

/-- With a positive semidefinite tensor the matrix of `dw_diffusion` is positive semidefinite. -/
theorem C61_diffusion_psd {F : Type} [Field F] [LinearOrder F] [IsStrictOrderedRing F] (vg : Mapping F) (D : Fld F)
    (grad : ℕ → Lev F) (c : ℕ) (hw : ∀ q < vg.nQP, 0 ≤ vg.w c q)
    (hD : ∀ q < vg.nQP, ∀ x : ℕ → F, 0 ≤ ∑ i ∈ range vg.dim, ∑ j ∈ range vg.dim, D.at c q i j * x i * x j) (u : ℕ → F) :
    0 ≤ bil vg.nEP vg.nEP u (dwDiffusion vg D grad true c) u :=
  (C61_diffusion_matrix vg D grad c).nonneg hw u fun q hq => hD q hq fun i => fgrad vg.nEP (vg.G c q) u i 0

/-- `dw_diffusion_r`: the columns of the matrix give `∫ K_ij ∇_i q` (the right-hand side for the `j`-th unit
gradient). -/
theorem C61_diffusion_r (vg : Mapping K) (D : Fld K) (c j : ℕ) (v : ℕ → K) :
    ∑ r ∈ range vg.nEP, v r * dwDiffusionR vg D c r j =
      integ vg.nQP (vg.w c) fun q => ∑ i ∈ range vg.dim, D.at c q i j * fgrad vg.nEP (vg.G c q) v i 0 := by
  unfold dwDiffusionR sumLev integ mulATB
  simp only [mul_sum, sum_mul]
  rw [sum_comm]
  refine sum_congr rfl fun q _ => ?_
  rw [sum_comm]
  refine sum_congr rfl fun i _ => ?_
  rw [← sum_v_grad, mul_sum, mul_sum]
  refine sum_congr rfl fun r _ => ?_
  rw [Fld.x1_apply]
  unfold Mapping.G Mapping.w ptr
  ring

/-- `ev_sd_diffusion`: the value is `∫ (∇·W) K_ij ∇_i q ∇_j p - ∫ K_ij (∂W_k/∂x_i) ∇_k q ∇_j p -
∫ K_ij (∂W_k/∂x_j) ∇_i q ∇_k p`, the gradients being `gradW i k = ∂W_i/∂x_k` in the array given to the kernel. -/
theorem C61_sd_diffusion (vg : Mapping K) (gq gp gw dw : ℕ → Lev K) (D : Fld K) (c : ℕ) :
    dSdDiffusion vg gq gp gw dw D c 0 0 = integ vg.nQP (vg.w c) fun q =>
      dw c q 0 0 * (∑ i ∈ range vg.dim, ∑ j ∈ range vg.dim, D.at c q i j * gq c q i 0 * gp c q j 0) -
      (∑ i ∈ range vg.dim, ∑ j ∈ range vg.dim, ∑ k ∈ range vg.dim,
        D.at c q i j * gw c q i k * gq c q k 0 * gp c q j 0) -
      ∑ i ∈ range vg.dim, ∑ j ∈ range vg.dim, ∑ k ∈ range vg.dim,
        D.at c q i j * gw c q j k * gq c q i 0 * gp c q k 0 := by
  unfold dSdDiffusion sumLev integ
  refine sum_congr rfl fun q _ => ?_
  rw [mul_comm]
  congr 1
  unfold subAB mulAB mulATB
  congr 1
  · congr 1
    · rw [sum_range_one]
      congr 1
      refine sum_congr rfl fun i _ => ?_
      rw [mul_sum]
      refine sum_congr rfl fun j _ => ?_
      rw [Fld.x1_apply]
      ring
    · simp only [mul_sum]
      rw [sum_comm]
      refine sum_congr rfl fun i _ => ?_
      rw [sum_comm]
      refine sum_congr rfl fun j _ => sum_congr rfl fun k _ => ?_
      rw [Fld.x1_apply]
      ring
  · simp only [mul_sum]
    refine sum_congr rfl fun i _ => sum_congr rfl fun j _ => sum_congr rfl fun k _ => ?_
    rw [Fld.x1_apply]
    ring

/-! ### Fluxes -/

/-- `ev_surface_flux` (mode 0): `∫ n_i K_ij ∇_j p`; in the mode 1 it is divided by the area. -/
theorem C61_surface_flux (sg : Mapping K) (D : Fld K) (state : ℕ → K) (conn : ℕ → ℕ → ℕ) (c : ℕ) :
    let flux := integ sg.nQP (sg.w c) fun q => ∑ i ∈ range sg.dim, ∑ j ∈ range sg.dim,
      sg.n c q i * D.at c q i j * fgrad sg.nEP (sg.G c q) (locDofs 1 sg.nEP state (conn c)) j 0
    dSurfaceFlux sg D (dqGrad 1 sg state conn) 0 c 0 0 = flux ∧
      dSurfaceFlux sg D (dqGrad 1 sg state conn) 1 c 0 0 = flux / sg.volume c 0 0 0 := by
  have h0 : dSurfaceFlux sg D (dqGrad 1 sg state conn) 0 c 0 0 =
      integ sg.nQP (sg.w c) fun q => ∑ i ∈ range sg.dim, ∑ j ∈ range sg.dim,
      sg.n c q i * D.at c q i j * fgrad sg.nEP (sg.G c q) (locDofs 1 sg.nEP state (conn c)) j 0 := by
    unfold dSurfaceFlux
    simp only [show (0 : ℕ) ≠ 1 by decide, if_false]
    unfold sumLev integ
    refine sum_congr rfl fun q _ => ?_
    rw [mul_comm]
    congr 1
    unfold mulATB mulAB
    refine sum_congr rfl fun i _ => ?_
    rw [mul_sum]
    refine sum_congr rfl fun j _ => ?_
    rw [dqGrad_eq, Fld.x1_apply]
    unfold Mapping.n
    ring
  refine ⟨h0, ?_⟩
  rw [← h0]
  unfold dSurfaceFlux mulC
  simp only [show (0 : ℕ) ≠ 1 by decide, if_false, if_true]
  rw [one_div, div_eq_mul_inv]

/-- `dw_surface_flux`: the form `∫ q n_i K_ij ∇_j p`, with the basis functions of the face; `n` is the number
of basis functions of the cell. -/
theorem C61_surface_flux_weak (sg : Mapping K) (D : Fld K) (bf : ℕ → Lev K) (face : ℕ → ℕ) (grad : ℕ → Lev K)
    (state : ℕ → K) (conn : ℕ → ℕ → ℕ) (c : ℕ) :
    let B := fun q v u => fval sg.nEP (bf (face c) q 0) v 0 * ∑ i ∈ range sg.dim, ∑ j ∈ range sg.dim,
      sg.n c q i * D.at c q i j * fgrad sg.nEP (sg.G c q) u j 0
    IsForm sg.nEP sg.nEP sg.nQP (sg.w c) (dwSurfaceFlux sg D bf face grad true c) B ∧
      IsLin sg.nEP sg.nQP (sg.w c) (dwSurfaceFlux sg D bf face (dqGrad 1 sg state conn) false c)
        fun q v => B q v (locDofs 1 sg.nEP state (conn c)) := by
  intro B
  constructor
  · intro v u
    unfold dwSurfaceFlux
    simp only [if_true]
    rw [bil_sumLev]
    refine integ_congr (fun _ _ => rfl) fun q _ => ?_
    rw [bil_mulATB, sum_range_one]
    show _ = fval sg.nEP (bf (face c) q 0) v 0 * _
    rw [← sum_v_val]
    congr 1
    unfold mulAB mulATB
    simp only [sum_mul]
    rw [sum_comm]
    rw [sum_comm (s := range sg.dim) (t := range sg.dim)]
    refine sum_congr rfl fun j _ => ?_
    rw [sum_comm]
    refine sum_congr rfl fun i _ => ?_
    rw [← sum_grad_u, mul_sum]
    refine sum_congr rfl fun s _ => ?_
    rw [Fld.x1_apply]
    unfold Mapping.n Mapping.G
    ring
  · intro v
    unfold dwSurfaceFlux
    simp only [Bool.false_eq_true, if_false]
    rw [lin_sumLev]
    refine integ_congr (fun _ _ => rfl) fun q _ => ?_
    rw [lin_mulATB, sum_range_one]
    show _ = fval sg.nEP (bf (face c) q 0) v 0 * _
    rw [← sum_v_val]
    congr 1
    unfold mulAB mulATB
    simp only [sum_mul]
    rw [sum_comm]
    refine sum_congr rfl fun i _ => sum_congr rfl fun j _ => ?_
    rw [dqGrad_eq, Fld.x1_apply]
    unfold Mapping.n
    ring

end Verif.Term
