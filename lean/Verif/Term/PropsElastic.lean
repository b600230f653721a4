/-
C62: the elasticity kernels give the documented weak forms, with full tensors.
-/
import Verif.Term.LemElastic

namespace Verif.Term

open Finset

variable {K : Type} [Field K]

/-- `D_ijkl e_ij(v) e_kl(u)` in a quadrature point. -/
def elasticForm (vg : Mapping K) (D : Fld K) (c q : ℕ) (v u : ℕ → K) : K :=
  tensorForm vg.dim (D.at c q) (strain vg.nEP (vg.G c q) v) (strain vg.nEP (vg.G c q) u)

/-- `dq_cauchy_strain`: the strains, with doubled shear components. -/
theorem C62_strain (h2 : (2 : K) ≠ 0) (vg : Mapping K) (hd : 1 ≤ vg.dim ∧ vg.dim ≤ 3) (state : ℕ → K) (conn : ℕ → ℕ → ℕ)
    (c : ℕ) : ∃ E, dqCauchyStrain vg state conn c = some E ∧ ∀ q, ∀ i < vg.dim, ∀ j < vg.dim,
      E q (voigt vg.dim i j) 0 = (if i = j then 1 else 2) *
        strain vg.nEP (vg.G c q) (locDofs vg.dim vg.nEP state (conn c)) i j := by
  obtain ⟨E, hE, -⟩ := strainVS_sum hd (mulABn1 vg.nEP (vg.bfGM c) (extractNBN vg.dim state (conn c)))
  refine ⟨E, hE, fun q i hi j hj => ?_⟩
  rw [strainVS_val hd _ E hE q 0 i j hi hj]
  have e : ∀ i a, mulABn1 vg.nEP (vg.bfGM c) (extractNBN vg.dim state (conn c)) q i a =
      fgrad vg.nEP (vg.G c q) (locDofs vg.dim vg.nEP state (conn c)) i a :=
    fun i a => dqGrad_eq vg.dim vg state conn c q i a
  unfold strain
  by_cases hij : i = j
  · subst hij
    rw [if_pos rfl, if_pos rfl, e, ← two_mul, mul_div_cancel_left₀ _ h2, one_mul]
  · rw [if_neg hij, if_neg hij, e, e, mul_div_cancel₀ _ h2, add_comm]

theorem strain_contract (vg : Mapping K) (hd : 1 ≤ vg.dim ∧ vg.dim ≤ 3) (state : ℕ → K) (conn : ℕ → ℕ → ℕ)
    (c : ℕ) (E : Lev K) (hE : dqCauchyStrain vg state conn c = some E) (q : ℕ) (f : ℕ → K) :
    ∑ s ∈ range (symOf vg.dim), f s * E q s 0 = ∑ k ∈ range vg.dim, ∑ l ∈ range vg.dim,
      f (voigt vg.dim k l) * fgrad vg.nEP (vg.G c q) (locDofs vg.dim vg.nEP state (conn c)) k l := by
  obtain ⟨E', hE', h⟩ := strainVS_sum hd (mulABn1 vg.nEP (vg.bfGM c) (extractNBN vg.dim state (conn c)))
  have : dqCauchyStrain vg state conn c = some E' := hE'
  rw [hE, Option.some.injEq] at this
  subst this
  rw [h]
  refine sum_congr rfl fun k _ => sum_congr rfl fun l _ => ?_
  rw [← dqGrad_eq]
  rfl

/-- The matrix of `dw_lin_elastic` is the one of `∫ D_ijkl e_ij(v) e_kl(u)` (times the constant `coef`). -/
theorem C62_elastic_matrix (h2 : (2 : K) ≠ 0) (vg : Mapping K) (hd : 1 ≤ vg.dim ∧ vg.dim ≤ 3) (coef : K)
    (st : ℕ → Lev K) (D : Fld K) (c : ℕ) :
    ∃ A, dwLinElastic vg coef st D true c = some A ∧
      IsForm (vg.dim * vg.nEP) (vg.dim * vg.nEP) vg.nQP (vg.w c) A fun q v u => coef * elasticForm vg D c q v u := by
  obtain ⟨gtd, e1, b1⟩ := actOpGTM3_block hd vg.nEP (vg.bfGM c) (D.x1 c)
  obtain ⟨gtdg, e3, b2⟩ := actOpGRM3_block hd vg.nEP gtd (vg.bfGM c)
  refine ⟨_, by simp only [dwLinElastic, if_true, e1, e3, Option.bind_eq_bind, Option.bind_some]; rfl, fun v u => ?_⟩
  rw [bil_mulC, bil_sumLev, integ_mul]
  refine integ_congr (fun _ _ => rfl) fun q _ => ?_
  congr 1
  rw [bil_of_block (g := vg.G c q) (g' := vg.G c q)
    (S := fun i a m b => D.at c q (voigt vg.dim i a) (voigt vg.dim m b)), tensorForm_grad h2]
  · rfl
  · intro a ha k hk b hb l hl
    rw [b2 q _ b hb l hl, sum_comm]
    refine sum_congr rfl fun m _ => ?_
    rw [b1 q _ a ha k hk, mul_sum]
    refine sum_congr rfl fun i _ => ?_
    rw [Fld.x1_apply]
    unfold Mapping.G
    ring

/-- The vector of `dw_lin_elastic` for the strains of a state. -/
theorem C62_elastic_vector (h2 : (2 : K) ≠ 0) (vg : Mapping K) (hd : 1 ≤ vg.dim ∧ vg.dim ≤ 3) (coef : K) (D : Fld K)
    (state : ℕ → K) (conn : ℕ → ℕ → ℕ) (E : ℕ → Lev K) (hE : ∀ c, dqCauchyStrain vg state conn c = some (E c)) (c : ℕ) :
    ∃ b, dwLinElastic vg coef E D false c = some b ∧
      IsLin (vg.dim * vg.nEP) vg.nQP (vg.w c) b fun q v =>
        coef * elasticForm vg D c q v (locDofs vg.dim vg.nEP state (conn c)) := by
  obtain ⟨res, e1, b1⟩ := actOpGTVS3_block hd vg.nEP (vg.bfGM c) (mulAB (symOf vg.dim) (D.x1 c) (E c))
  refine ⟨_, by simp only [dwLinElastic, Bool.false_eq_true, if_false, e1, Option.bind_eq_bind, Option.bind_some]; rfl,
    fun v => ?_⟩
  rw [lin_mulC, lin_sumLev, integ_mul]
  refine integ_congr (fun _ _ => rfl) fun q _ => ?_
  congr 1
  rw [lin_of_block (g := vg.G c q) (s := fun i a => mulAB (symOf vg.dim) (D.x1 c) (E c) q (voigt vg.dim i a) 0)
    fun a ha k hk => b1 q 0 a ha k hk]
  have e := tensorForm_grad h2 vg.dim (D.at c q) (fgrad vg.nEP (vg.G c q) v)
    (fgrad vg.nEP (vg.G c q) (locDofs vg.dim vg.nEP state (conn c)))
  refine Eq.trans ?_ e
  refine sum_congr rfl fun i _ => sum_congr rfl fun a _ => ?_
  unfold mulAB
  rw [strain_contract vg hd state conn c (E c) (hE c), mul_sum]
  refine sum_congr rfl fun m _ => ?_
  rw [mul_sum]
  refine sum_congr rfl fun b _ => ?_
  rw [Fld.x1_apply]
  ring

/-- The value of `dw_lin_elastic` for two states is the one of the matrix. -/
theorem C62_elastic_eval (h2 : (2 : K) ≠ 0) (vg : Mapping K) (hd : 1 ≤ vg.dim ∧ vg.dim ≤ 3) (coef : K) (D : Fld K)
    (hD : D.nRow = symOf vg.dim) (s1 s2 : ℕ → K) (conn : ℕ → ℕ → ℕ) (E1 E2 : ℕ → Lev K)
    (hE1 : ∀ c, dqCauchyStrain vg s1 conn c = some (E1 c)) (hE2 : ∀ c, dqCauchyStrain vg s2 conn c = some (E2 c)) (c : ℕ) :
    dLinElastic vg coef E1 E2 D c 0 0 = integ vg.nQP (vg.w c) fun q =>
      coef * elasticForm vg D c q (locDofs vg.dim vg.nEP s1 (conn c)) (locDofs vg.dim vg.nEP s2 (conn c)) := by
  unfold dLinElastic mulC
  rw [← integ_mul, mul_comm]
  congr 1
  unfold sumLev integ
  refine sum_congr rfl fun q _ => ?_
  rw [mul_comm]
  congr 1
  have e := tensorForm_grad h2 vg.dim (D.at c q) (fgrad vg.nEP (vg.G c q) (locDofs vg.dim vg.nEP s1 (conn c)))
    (fgrad vg.nEP (vg.G c q) (locDofs vg.dim vg.nEP s2 (conn c)))
  refine Eq.trans ?_ e
  unfold mulAB mulATB
  rw [hD, strain_contract vg hd s2 conn c (E2 c) (hE2 c)]
  have : ∀ s, ∑ k ∈ range (symOf vg.dim), E1 c q k 0 * D.x1 c q k s = ∑ i ∈ range vg.dim, ∑ a ∈ range vg.dim,
      D.at c q (voigt vg.dim i a) s * fgrad vg.nEP (vg.G c q) (locDofs vg.dim vg.nEP s1 (conn c)) i a := by
    intro s
    refine Eq.trans (sum_congr rfl fun k _ => ?_)
      (strain_contract vg hd s1 conn c (E1 c) (hE1 c) q fun k => D.at c q k s)
    rw [Fld.x1_apply, mul_comm]
  simp only [this, sum_mul]
  rw [sum_congr rfl fun m _ => sum_comm]
  rw [sum_comm]
  refine sum_congr rfl fun i _ => ?_
  rw [sum_congr rfl fun m _ => sum_comm]
  rw [sum_comm]

/-- The residual of `dw_lin_elastic` is the matrix times the degrees of freedom. -/
theorem C62_elastic_residual (h2 : (2 : K) ≠ 0) (vg : Mapping K) (hd : 1 ≤ vg.dim ∧ vg.dim ≤ 3) (coef : K) (D : Fld K)
    (state : ℕ → K) (conn : ℕ → ℕ → ℕ) (E st : ℕ → Lev K) (hE : ∀ c, dqCauchyStrain vg state conn c = some (E c)) (c : ℕ)
    (A b : ℕ → ℕ → K) (hA : dwLinElastic vg coef st D true c = some A) (hb : dwLinElastic vg coef E D false c = some b)
    (r : ℕ) (hr : r < vg.dim * vg.nEP) :
    b r 0 = ∑ s ∈ range (vg.dim * vg.nEP), A r s * state (vg.dim * conn c (s % vg.nEP) + s / vg.nEP) := by
  obtain ⟨A', h1, h3⟩ := C62_elastic_matrix h2 vg hd coef st D c
  obtain ⟨b', h4, h5⟩ := C62_elastic_vector h2 vg hd coef D state conn E hE c
  rw [hA, Option.some.injEq] at h1
  rw [hb, Option.some.injEq] at h4
  subst h1 h4
  exact h3.residual h5 r hr

theorem tensorForm_comm (dim : ℕ) (D : ℕ → ℕ → K) (hD : ∀ i j k l, i < dim → j < dim → k < dim → l < dim →
    D (voigt dim i j) (voigt dim k l) = D (voigt dim k l) (voigt dim i j)) (a b : ℕ → ℕ → K) :
    tensorForm dim D a b = tensorForm dim D b a := by
  unfold tensorForm
  have : ∀ f : ℕ → ℕ → ℕ → ℕ → K, ∑ i ∈ range dim, ∑ j ∈ range dim, ∑ k ∈ range dim, ∑ l ∈ range dim, f i j k l =
      ∑ k ∈ range dim, ∑ l ∈ range dim, ∑ i ∈ range dim, ∑ j ∈ range dim, f i j k l := by
    intro f
    rw [sum_congr rfl fun i _ => sum_comm]
    rw [sum_comm]
    refine sum_congr rfl fun k _ => ?_
    rw [sum_congr rfl fun i _ => sum_comm]
    rw [sum_comm]
  rw [this]
  refine sum_congr rfl fun k hk => sum_congr rfl fun l hl => sum_congr rfl fun i hi => sum_congr rfl fun j hj => ?_
  rw [hD i j k l (mem_range.1 hi) (mem_range.1 hj) (mem_range.1 hk) (mem_range.1 hl)]
  ring

/-- With a tensor with the major symmetry the matrix of `dw_lin_elastic` is symmetric. -/
theorem C62_elastic_symmetric (h2 : (2 : K) ≠ 0) (vg : Mapping K) (hd : 1 ≤ vg.dim ∧ vg.dim ≤ 3) (coef : K)
    (st : ℕ → Lev K) (D : Fld K) (c : ℕ) (A : ℕ → ℕ → K) (hA : dwLinElastic vg coef st D true c = some A)
    (hD : ∀ q < vg.nQP, ∀ r < symOf vg.dim, ∀ s < symOf vg.dim, D.at c q r s = D.at c q s r) (r s : ℕ)
    (hr : r < vg.dim * vg.nEP) (hs : s < vg.dim * vg.nEP) : A r s = A s r := by
  obtain ⟨A', h1, h3⟩ := C62_elastic_matrix h2 vg hd coef st D c
  rw [hA, Option.some.injEq] at h1
  subst h1
  refine h3.symm (fun q hq v u => ?_) r s hr hs
  unfold elasticForm
  rw [tensorForm_comm]
  have hv : ∀ i j, i < vg.dim → j < vg.dim → voigt vg.dim i j < symOf vg.dim := by
    obtain ⟨g1, g2⟩ := hd
    generalize vg.dim = d at *
    interval_cases d <;> intro i j hi hj <;> interval_cases i <;> interval_cases j <;> decide
  intro i j k l hi hj hk hl
  exact hD q hq _ (hv i j hi hj) _ (hv k l hk hl)

/-- Rigid motions `u = t + W x` with an antisymmetric `W` have no strain, so the matrix annihilates them, when the
derivatives of the basis functions are consistent for linear fields. -/
theorem C62_elastic_rigid (h2 : (2 : K) ≠ 0) (vg : Mapping K) (hd : 1 ≤ vg.dim ∧ vg.dim ≤ 3) (coef : K)
    (st : ℕ → Lev K) (D : Fld K) (c : ℕ) (A : ℕ → ℕ → K) (hA : dwLinElastic vg coef st D true c = some A)
    (x : ℕ → ℕ → K) (t : ℕ → K) (W : ℕ → ℕ → K) (hW : ∀ a < vg.dim, ∀ b < vg.dim, W a b = -W b a)
    (h0 : ∀ q < vg.nQP, ∀ i < vg.dim, ∑ k ∈ range vg.nEP, vg.G c q i k = 0)
    (h1 : ∀ q < vg.nQP, ∀ i < vg.dim, ∀ j < vg.dim,
      ∑ k ∈ range vg.nEP, vg.G c q i k * x k j = if i = j then 1 else 0) (r : ℕ) (hr : r < vg.dim * vg.nEP) :
    ∑ s ∈ range (vg.dim * vg.nEP), A r s *
      (t (s / vg.nEP) + ∑ b ∈ range vg.dim, W (s / vg.nEP) b * x (s % vg.nEP) b) = 0 := by
  obtain ⟨A', e1, h3⟩ := C62_elastic_matrix h2 vg hd coef st D c
  rw [hA, Option.some.injEq] at e1
  subst e1
  refine h3.kernel (u := fun s => t (s / vg.nEP) + ∑ b ∈ range vg.dim, W (s / vg.nEP) b * x (s % vg.nEP) b)
    (fun q hq v => ?_) r hr
  have hg : ∀ i < vg.dim, ∀ a < vg.dim, fgrad vg.nEP (vg.G c q)
      (fun s => t (s / vg.nEP) + ∑ b ∈ range vg.dim, W (s / vg.nEP) b * x (s % vg.nEP) b) i a = W a i := by
    intro i hi a ha
    unfold fgrad
    have : ∀ k ∈ range vg.nEP, vg.G c q i k * (t ((vg.nEP * a + k) / vg.nEP) +
        ∑ b ∈ range vg.dim, W ((vg.nEP * a + k) / vg.nEP) b * x ((vg.nEP * a + k) % vg.nEP) b) =
        t a * vg.G c q i k + ∑ b ∈ range vg.dim, W a b * (vg.G c q i k * x k b) := by
      intro k hk
      obtain ⟨d1, d2⟩ := divmod_block (a := a) (mem_range.1 hk)
      rw [d1, d2, mul_add, mul_sum, mul_comm (t a)]
      congr 1
      refine sum_congr rfl fun b _ => by ring
    rw [sum_congr rfl this, sum_add_distrib, ← mul_sum, h0 q hq i hi, mul_zero, zero_add, sum_comm]
    have : ∀ b ∈ range vg.dim, ∑ k ∈ range vg.nEP, W a b * (vg.G c q i k * x k b) = if i = b then W a b else 0 := by
      intro b hb
      rw [← mul_sum, h1 q hq i hi b (mem_range.1 hb)]
      by_cases hib : i = b
      · rw [if_pos hib, if_pos hib, mul_one]
      · rw [if_neg hib, if_neg hib, mul_zero]
    rw [sum_congr rfl this, sum_ite_eq, if_pos (mem_range.2 hi)]
  unfold elasticForm tensorForm
  rw [sum_eq_zero, mul_zero]
  intro i _
  refine sum_eq_zero fun j _ => sum_eq_zero fun k hk => sum_eq_zero fun l hl => ?_
  have hk := mem_range.1 hk
  have hl := mem_range.1 hl
  have : strain vg.nEP (vg.G c q)
      (fun s => t (s / vg.nEP) + ∑ b ∈ range vg.dim, W (s / vg.nEP) b * x (s % vg.nEP) b) k l = 0 := by
    unfold strain
    rw [hg l hl k hk, hg k hk l hl, hW k hk l hl]
    simp
  rw [this, mul_zero]

/-- With a positive semidefinite tensor (on symmetric matrices) the matrix is positive semidefinite. -/
theorem C62_elastic_psd {F : Type} [Field F] [LinearOrder F] [IsStrictOrderedRing F] (vg : Mapping F)
    (hd : 1 ≤ vg.dim ∧ vg.dim ≤ 3) (st : ℕ → Lev F) (D : Fld F) (c : ℕ) (A : ℕ → ℕ → F)
    (hA : dwLinElastic vg 1 st D true c = some A) (hw : ∀ q < vg.nQP, 0 ≤ vg.w c q)
    (hD : ∀ q < vg.nQP, ∀ e : ℕ → ℕ → F, (∀ i j, e i j = e j i) → 0 ≤ tensorForm vg.dim (D.at c q) e e) (u : ℕ → F) :
    0 ≤ bil (vg.dim * vg.nEP) (vg.dim * vg.nEP) u A u := by
  obtain ⟨A', h1, h3⟩ := C62_elastic_matrix two_ne_zero vg hd 1 st D c
  rw [hA, Option.some.injEq] at h1
  subst h1
  refine h3.nonneg hw u fun q hq => ?_
  rw [one_mul]
  exact hD q hq _ fun i j => by unfold strain; rw [add_comm]

/-- The isotropic stiffness matrix (C29: `λ` for normal components, `μ` and `2μ` on the diagonal) gives
`λ tr e(v) tr e(u) + 2 μ e(v) : e(u)`, i.e. `D_ijkl = μ (δ_ik δ_jl + δ_il δ_jk) + λ δ_ij δ_kl`. -/
theorem C62_isotropic (dim : ℕ) (hd : 1 ≤ dim ∧ dim ≤ 3) (lam mu : K) (a b : ℕ → ℕ → K)
    (ha : ∀ i j, a i j = a j i) (hb : ∀ i j, b i j = b j i) :
    tensorForm dim (fun r s => lam * ((if r < dim then 1 else 0) * (if s < dim then 1 else 0)) +
        if r = s then mu * ((if r < dim then 1 else 0) + 1) else 0) a b =
      lam * (∑ i ∈ range dim, a i i) * (∑ i ∈ range dim, b i i) +
        2 * mu * ∑ i ∈ range dim, ∑ j ∈ range dim, a i j * b i j := by
  obtain ⟨h1, h2⟩ := hd
  interval_cases dim
  · simp [tensorForm, voigt, sum_range_succ]; ring
  · simp [tensorForm, voigt, sum_range_succ]
    rw [ha 1 0, hb 1 0]; ring
  · simp [tensorForm, voigt, sum_range_succ]
    rw [ha 1 0, hb 1 0, ha 2 0, hb 2 0, ha 2 1, hb 2 1]; ring

/-- `mat_le_stress`: the isotropic stress `σ_ij = λ δ_ij tr e + 2 μ e_ij` from the strains with doubled shear
components. -/
theorem C62_isotropic_stress (dim : ℕ) (hd : dim = 2 ∨ dim = 3) (lam mu : K) (e : ℕ → ℕ → K) (st : ℕ → K)
    (hst : ∀ i < dim, ∀ j < dim, st (voigt dim i j) = (if i = j then 1 else 2) * e i j) :
    ∃ σ, matLeStress (symOf dim) st lam mu = some σ ∧ ∀ i < dim, ∀ j < dim,
      σ (voigt dim i j) = (if i = j then lam * ∑ k ∈ range dim, e k k else 0) + 2 * mu * e i j := by
  rcases hd with rfl | rfl
  · refine ⟨_, rfl, fun i hi j hj => ?_⟩
    have h00 := hst 0 (by omega) 0 (by omega)
    have h11 := hst 1 (by omega) 1 (by omega)
    have h01 := hst 0 (by omega) 1 (by omega)
    have h10 := hst 1 (by omega) 0 (by omega)
    simp [voigt] at h00 h11 h01 h10
    interval_cases i <;> interval_cases j <;> simp [voigt, sum_range_succ, h00, h11] <;>
      first
        | ring1
        | (rw [h01]; ring1)
        | (rw [h10]; ring1)
  · refine ⟨_, rfl, fun i hi j hj => ?_⟩
    have h00 := hst 0 (by omega) 0 (by omega)
    have h11 := hst 1 (by omega) 1 (by omega)
    have h22 := hst 2 (by omega) 2 (by omega)
    have hij := hst i hi j hj
    simp [voigt] at h00 h11 h22 hij
    interval_cases i <;> interval_cases j <;> simp [voigt, sum_range_succ, h00, h11, h22] <;>
      first
        | ring1
        | (simp at hij; rw [hij]; ring1)

end Verif.Term
