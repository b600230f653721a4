/-
C62 (continued): prestress, fibres, averages, non-symmetric elasticity, shape derivatives, wave terms.
-/
import Verif.Term.PropsElastic

namespace Verif.Term

open Finset

variable {K : Type} [Field K]

/-! ### Prestress and prestrain -/

/-- `dw_lin_prestress` with the stress in the symmetric storage: `∫ σ_ij e_ij(v)`. -/
theorem C62_prestress (h2 : (2 : K) ≠ 0) (vg : Mapping K) (hd : 1 ≤ vg.dim ∧ vg.dim ≤ 3) (σ : Fld K) (c : ℕ)
    (hs : σ.nRow = symOf vg.dim) :
    ∃ b, dwLinPrestress vg σ c = some b ∧ IsLin (vg.dim * vg.nEP) vg.nQP (vg.w c) b fun q v =>
      ∑ i ∈ range vg.dim, ∑ j ∈ range vg.dim, σ.at c q (voigt vg.dim i j) 0 * strain vg.nEP (vg.G c q) v i j := by
  have hcond : ¬(σ.nRow = vg.dim * vg.dim ∧ vg.dim ≠ 1) := by
    rw [hs]
    obtain ⟨g1, g2⟩ := hd
    generalize vg.dim = d at *
    interval_cases d <;> decide
  obtain ⟨res, e1, b1⟩ := actOpGTVS3_block hd vg.nEP (vg.bfGM c) (σ.x1 c)
  refine ⟨_, by simp only [dwLinPrestress, if_neg hcond, e1, Option.bind_eq_bind, Option.bind_some]; rfl, fun v => ?_⟩
  rw [lin_sumLev]
  refine integ_congr (fun _ _ => rfl) fun q _ => ?_
  rw [lin_of_block (g := vg.G c q) (s := fun i a => σ.x1 c q (voigt vg.dim i a) 0) fun a ha k hk => b1 q 0 a ha k hk,
    sum_symm h2 _ _ _ fun i j => by rw [voigt_comm]]
  refine sum_congr rfl fun i _ => sum_congr rfl fun j _ => ?_
  rw [Fld.x1_apply, mul_comm]
  rfl

/-- `build_nonsym_grad`: the operator gives `∂v_a/∂x_i` in the row `dim * a + i`. -/
theorem nonsym_apply {vg : Mapping K} (hd : 1 ≤ vg.dim ∧ vg.dim ≤ 3) (c : ℕ) :
    ∃ ng, nonsymGradOp vg.dim vg.nEP (vg.bfGM c) = some ng ∧ ∀ q (v : ℕ → K), ∀ a < vg.dim, ∀ i < vg.dim,
      ∑ s ∈ range (vg.dim * vg.nEP), ng q (vg.dim * a + i) s * v s = fgrad vg.nEP (vg.G c q) v i a := by
  obtain ⟨ng, e, h⟩ := nonsymGradOp_block hd vg.nEP (vg.bfGM c)
  refine ⟨ng, e, fun q v a ha i hi => ?_⟩
  rw [sum_blocks, sum_eq_single_of_mem a (mem_range.2 ha)]
  · unfold fgrad
    refine sum_congr rfl fun k hk => ?_
    rw [h q a ha i hi a ha k (mem_range.1 hk), if_pos rfl]
    rfl
  · intro b hb hba
    refine sum_eq_zero fun k hk => ?_
    rw [h q a ha i hi b (mem_range.1 hb) k (mem_range.1 hk), if_neg (Ne.symm hba), zero_mul]

/-- `dw_lin_prestress` with a (non-symmetric) matrix: `∫ σ_ij ∂v_i/∂x_j`. -/
theorem C62_prestress_matrix (vg : Mapping K) (hd : vg.dim = 2 ∨ vg.dim = 3) (σ : Fld K) (c : ℕ)
    (h1 : σ.nRow = vg.dim) (h2 : σ.nCol = vg.dim) :
    ∃ b, dwLinPrestress vg (stressColumn vg.dim σ) c = some b ∧
      IsLin (vg.dim * vg.nEP) vg.nQP (vg.w c) b fun q v =>
        ∑ i ∈ range vg.dim, ∑ j ∈ range vg.dim, σ.at c q i j * fgrad vg.nEP (vg.G c q) v j i := by
  have hcol : stressColumn vg.dim σ = ⟨σ.nCell, vg.dim * vg.dim, 1, fun c q r _ => σ.val c q (r / vg.dim) (r % vg.dim)⟩ := by
    unfold stressColumn
    rw [if_pos ⟨by rw [h1, h2], h2, by omega⟩]
  obtain ⟨ng, e, h⟩ := nonsym_apply (vg := vg) (by omega) c
  have hc : (stressColumn vg.dim σ).nRow = vg.dim * vg.dim ∧ vg.dim ≠ 1 := ⟨by rw [hcol], by omega⟩
  refine ⟨_, by simp only [dwLinPrestress, if_pos hc, e, Option.bind_eq_bind, Option.bind_some]; rfl, fun v => ?_⟩
  rw [lin_sumLev]
  refine integ_congr (fun _ _ => rfl) fun q _ => ?_
  rw [lin_mulATB, sum_blocks]
  refine sum_congr rfl fun a ha => sum_congr rfl fun i hi => ?_
  have hi := mem_range.1 hi
  have := h q v a (mem_range.1 ha) i hi
  rw [← this, mul_comm]
  congr 1
  · rw [Fld.x1_apply, hcol]
    obtain ⟨d1, d2⟩ := divmod_block (a := a) hi
    unfold Fld.at
    simp only [d1, d2]
  · exact sum_congr rfl fun r _ => mul_comm _ _

/-- The evaluation of `dw_lin_prestress` in the symmetric storage: `∫ σ_ij e_ij(u)`. -/
theorem C62_prestress_eval (h2 : (2 : K) ≠ 0) (vg : Mapping K) (hd : 1 ≤ vg.dim ∧ vg.dim ≤ 3) (σ : Fld K)
    (hs : σ.nRow = symOf vg.dim) (state : ℕ → K) (conn : ℕ → ℕ → ℕ) (E : ℕ → Lev K)
    (hE : ∀ c, dqCauchyStrain vg state conn c = some (E c)) (c : ℕ) :
    dLinPrestress vg E σ c 0 0 = integ vg.nQP (vg.w c) fun q => ∑ i ∈ range vg.dim, ∑ j ∈ range vg.dim,
      σ.at c q (voigt vg.dim i j) 0 * strain vg.nEP (vg.G c q) (locDofs vg.dim vg.nEP state (conn c)) i j := by
  unfold dLinPrestress sumLev integ
  refine sum_congr rfl fun q _ => ?_
  rw [mul_comm]
  congr 1
  unfold mulATB
  rw [hs, strain_contract vg hd state conn c (E c) (hE c)]
  have := sum_symm h2 vg.dim (fun i j => σ.at c q (voigt vg.dim i j) 0)
    (fgrad vg.nEP (vg.G c q) (locDofs vg.dim vg.nEP state (conn c))) fun i j => by rw [voigt_comm]
  unfold strain
  simp only [mul_comm (σ.at c q _ 0)]
  rw [← this]
  refine sum_congr rfl fun i _ => sum_congr rfl fun j _ => ?_
  rw [Fld.x1_apply, mul_comm]

/-- The evaluation of `dw_lin_prestress` with a matrix: `∫ σ_ij ∂u_i/∂x_j`. -/
theorem C62_prestress_matrix_eval (vg : Mapping K) (hd : vg.dim = 2 ∨ vg.dim = 3) (σ : Fld K) (h1 : σ.nRow = vg.dim)
    (h2 : σ.nCol = vg.dim) (state : ℕ → K) (conn : ℕ → ℕ → ℕ) (c : ℕ) :
    dLinPrestress vg (gradColumn vg.dim (dqGrad vg.dim vg state conn)) (stressColumn vg.dim σ) c 0 0 =
      integ vg.nQP (vg.w c) fun q => ∑ i ∈ range vg.dim, ∑ j ∈ range vg.dim,
        σ.at c q i j * fgrad vg.nEP (vg.G c q) (locDofs vg.dim vg.nEP state (conn c)) j i := by
  have hcol : stressColumn vg.dim σ = ⟨σ.nCell, vg.dim * vg.dim, 1, fun c q r _ => σ.val c q (r / vg.dim) (r % vg.dim)⟩ := by
    unfold stressColumn
    rw [if_pos ⟨by rw [h1, h2], h2, by omega⟩]
  unfold dLinPrestress sumLev integ
  refine sum_congr rfl fun q _ => ?_
  rw [mul_comm]
  congr 1
  unfold mulATB
  rw [show (stressColumn vg.dim σ).nRow = vg.dim * vg.dim by rw [hcol], sum_blocks]
  refine sum_congr rfl fun a _ => sum_congr rfl fun i hi => ?_
  obtain ⟨d1, d2⟩ := divmod_block (a := a) (mem_range.1 hi)
  unfold gradColumn
  rw [Fld.x1_apply, hcol, d1, d2, dqGrad_eq]
  unfold Fld.at
  simp only [d1, d2]

theorem iterSym_voigt (dim : ℕ) (hd : 1 ≤ dim ∧ dim ≤ 3) (i j : ℕ) (hij : i ≤ j) (hj : j < dim) :
    (iterSym dim)[voigt dim i j]? = some (i, j) := by
  obtain ⟨h1, h2⟩ := hd
  interval_cases dim <;> interval_cases j <;> interval_cases i <;> decide

/-- `dw_lin_strain_fib`: `∫ D_ijkl e_ij(v) d_k d_l`. The components of `d_k d_l` are not doubled in the code, so
the sum over `k`, `l` is over `k ≤ l` only. -/
theorem C62_strain_fib (h2 : (2 : K) ≠ 0) (vg : Mapping K) (hd : 1 ≤ vg.dim ∧ vg.dim ≤ 3) (D d : Fld K)
    (hn : d.nRow = vg.dim) (c : ℕ) :
    ∃ b, dwLinStrainFib vg D (fibOmega d) c = some b ∧
      IsLin (vg.dim * vg.nEP) vg.nQP (vg.w c) b fun q v =>
        ∑ i ∈ range vg.dim, ∑ j ∈ range vg.dim, strain vg.nEP (vg.G c q) v i j *
          ∑ k ∈ range vg.dim, ∑ l ∈ range vg.dim, if k ≤ l then
            D.at c q (voigt vg.dim i j) (voigt vg.dim k l) * d.at c q k 0 * d.at c q l 0 else 0 := by
  obtain ⟨aux, e1, b1⟩ := actOpGTM3_block hd vg.nEP (vg.bfGM c) (D.x1 c)
  refine ⟨_, by simp only [dwLinStrainFib, e1, Option.bind_eq_bind, Option.bind_some]; rfl, fun v => ?_⟩
  rw [lin_sumLev]
  refine integ_congr (fun _ _ => rfl) fun q _ => ?_
  rw [lin_of_block (g := vg.G c q) (s := fun i a => ∑ r ∈ range (symOf vg.dim), D.at c q (voigt vg.dim i a) r *
    (fibOmega d).at c q r 0)]
  · rw [sum_symm h2 _ _ _ fun i j => by rw [voigt_comm]]
    refine sum_congr rfl fun i _ => sum_congr rfl fun j _ => ?_
    unfold strain
    congr 1
    have hω : ∀ k l, k ≤ l → l < vg.dim → (fibOmega d).at c q (voigt vg.dim k l) 0 = d.at c q k 0 * d.at c q l 0 := by
      intro k l hkl hl
      unfold fibOmega Fld.at
      simp only [hn, iterSym_voigt vg.dim hd k l hkl hl]
      split <;> rfl
    generalize D.at c q (voigt vg.dim i j) = f
    obtain ⟨g1, g2⟩ := hd
    generalize vg.dim = n at *
    interval_cases n
    · have := hω 0 0 (by omega) (by omega)
      simp [symOf, voigt] at this ⊢
      rw [this]; ring
    · have t1 := hω 0 0 (by omega) (by omega)
      have t2 := hω 1 1 (by omega) (by omega)
      have t3 := hω 0 1 (by omega) (by omega)
      simp [symOf, voigt, sum_range_succ] at t1 t2 t3 ⊢
      rw [t1, t2, t3]; ring
    · have t1 := hω 0 0 (by omega) (by omega)
      have t2 := hω 1 1 (by omega) (by omega)
      have t3 := hω 2 2 (by omega) (by omega)
      have t4 := hω 0 1 (by omega) (by omega)
      have t5 := hω 0 2 (by omega) (by omega)
      have t6 := hω 1 2 (by omega) (by omega)
      simp [symOf, voigt, sum_range_succ] at t1 t2 t3 t4 t5 t6 ⊢
      rw [t1, t2, t3, t4, t5, t6]; ring
  · intro a ha k hk
    unfold mulAB
    simp only [b1 q _ a ha k hk, sum_mul]
    rw [sum_comm]
    refine sum_congr rfl fun i _ => ?_
    rw [mul_sum]
    refine sum_congr rfl fun r _ => ?_
    rw [Fld.x1_apply, Fld.x1_apply]
    unfold Mapping.G
    ring

/-! ### Averages -/

/-- `ev_cauchy_strain`, `ev_cauchy_stress`: integrals (mode 0) and averages (mode 1) of the strains in quadrature points
and of `D_ijkl e_kl(u)`. -/
theorem C62_cauchy_stress (h2 : (2 : K) ≠ 0) (vg : Mapping K) (hd : 1 ≤ vg.dim ∧ vg.dim ≤ 3) (D : Fld K) (state : ℕ → K)
    (conn : ℕ → ℕ → ℕ) (E : ℕ → Lev K) (hE : ∀ c, dqCauchyStrain vg state conn c = some (E c)) (c i j : ℕ) :
    let σ := integ vg.nQP (vg.w c) fun q => ∑ k ∈ range vg.dim, ∑ l ∈ range vg.dim,
      D.at c q (voigt vg.dim i j) (voigt vg.dim k l) *
        strain vg.nEP (vg.G c q) (locDofs vg.dim vg.nEP state (conn c)) k l
    deCauchyStress vg E D 0 c (voigt vg.dim i j) 0 = σ ∧
      deCauchyStress vg E D 1 c (voigt vg.dim i j) 0 = σ / vg.volume c 0 0 0 := by
  intro σ
  have h0 : deCauchyStress vg E D 0 c (voigt vg.dim i j) 0 = σ := by
    unfold deCauchyStress
    simp only [zero_ne_one, if_false]
    unfold sumLev
    refine sum_congr rfl fun q _ => ?_
    rw [mul_comm]
    congr 1
    unfold mulAB
    rw [strain_contract vg hd state conn c (E c) (hE c)]
    have := sum_symm h2 vg.dim (fun k l => D.at c q (voigt vg.dim i j) (voigt vg.dim k l))
      (fgrad vg.nEP (vg.G c q) (locDofs vg.dim vg.nEP state (conn c))) fun k l => by rw [voigt_comm vg.dim k l]
    unfold strain
    simp only [mul_comm (D.at c q _ _)]
    rw [← this]
    refine sum_congr rfl fun k _ => sum_congr rfl fun l _ => ?_
    rw [Fld.x1_apply, mul_comm]
  refine ⟨h0, ?_⟩
  rw [← h0]
  unfold deCauchyStress mulC
  simp only [zero_ne_one, if_false, if_true]
  rw [one_div, div_eq_mul_inv]

theorem C62_cauchy_strain (h2 : (2 : K) ≠ 0) (vg : Mapping K) (hd : 1 ≤ vg.dim ∧ vg.dim ≤ 3) (state : ℕ → K)
    (conn : ℕ → ℕ → ℕ) (E : ℕ → Lev K) (hE : ∀ c, dqCauchyStrain vg state conn c = some (E c)) (c i j : ℕ)
    (hi : i < vg.dim) (hj : j < vg.dim) :
    let e := (if i = j then 1 else 2) * integ vg.nQP (vg.w c) fun q =>
      strain vg.nEP (vg.G c q) (locDofs vg.dim vg.nEP state (conn c)) i j
    deCauchyStrain vg E 0 c (voigt vg.dim i j) 0 = e ∧
      deCauchyStrain vg E 1 c (voigt vg.dim i j) 0 = e / vg.volume c 0 0 0 := by
  intro e
  obtain ⟨E', hE', h⟩ := C62_strain h2 vg hd state conn c
  rw [hE c, Option.some.injEq] at hE'
  subst hE'
  have h0 : deCauchyStrain vg E 0 c (voigt vg.dim i j) 0 = e := by
    unfold deCauchyStrain
    simp only [zero_ne_one, if_false]
    show _ = _ * integ _ _ _
    rw [integ_mul]
    unfold sumLev
    refine sum_congr rfl fun q _ => ?_
    rw [mul_comm]
    congr 1
    exact h q i hi j hj
  refine ⟨h0, ?_⟩
  rw [← h0]
  unfold deCauchyStrain mulC
  simp only [zero_ne_one, if_false, if_true]
  rw [one_div, div_eq_mul_inv]

/-! ### Non-symmetric elasticity -/

/-- `D_(ij)(kl) ∂v_i/∂x_j ∂u_k/∂x_l`, the pairs of indices being ordered as [11, 12, 13, 21, ...]. -/
def nonsymForm (vg : Mapping K) (D : Fld K) (c q : ℕ) (v u : ℕ → K) : K :=
  ∑ i ∈ range vg.dim, ∑ j ∈ range vg.dim, ∑ k ∈ range vg.dim, ∑ l ∈ range vg.dim,
    D.at c q (vg.dim * i + j) (vg.dim * k + l) * fgrad vg.nEP (vg.G c q) v j i * fgrad vg.nEP (vg.G c q) u l k

/-- The matrix, the vector and the value of `dw_nonsym_elastic`. -/
theorem C62_nonsym (vg : Mapping K) (hd : 1 ≤ vg.dim ∧ vg.dim ≤ 3) (D : Fld K) (g0 : ℕ → Lev K) (state s1 : ℕ → K)
    (conn : ℕ → ℕ → ℕ) (c : ℕ) :
    (∃ A, dwNonsymElastic vg g0 D true c = some A ∧
      IsForm (vg.dim * vg.nEP) (vg.dim * vg.nEP) vg.nQP (vg.w c) A (nonsymForm vg D c)) ∧
    (∃ b, dwNonsymElastic vg (gradColumn vg.dim (dqGrad vg.dim vg state conn)) D false c = some b ∧
      IsLin (vg.dim * vg.nEP) vg.nQP (vg.w c) b fun q v =>
        nonsymForm vg D c q v (locDofs vg.dim vg.nEP state (conn c))) ∧
    (D.nRow = vg.dim * vg.dim → dLinElastic vg 1 (gradColumn vg.dim (dqGrad vg.dim vg s1 conn))
      (gradColumn vg.dim (dqGrad vg.dim vg state conn)) D c 0 0 = integ vg.nQP (vg.w c) fun q =>
        nonsymForm vg D c q (locDofs vg.dim vg.nEP s1 (conn c)) (locDofs vg.dim vg.nEP state (conn c))) := by
  obtain ⟨ng, e, h⟩ := nonsym_apply hd c
  have hL : ∀ q (v : ℕ → K), ∀ a < vg.dim, ∀ i < vg.dim, ∑ r ∈ range (vg.dim * vg.nEP), v r * ng q (vg.dim * a + i) r =
      fgrad vg.nEP (vg.G c q) v i a := by
    intro q v a ha i hi
    rw [← h q v a ha i hi]
    exact sum_congr rfl fun r _ => mul_comm _ _
  have hG : ∀ (st : ℕ → K) q, ∀ a < vg.dim, ∀ i < vg.dim, gradColumn vg.dim (dqGrad vg.dim vg st conn) c q
      (vg.dim * a + i) 0 = fgrad vg.nEP (vg.G c q) (locDofs vg.dim vg.nEP st (conn c)) i a := by
    intro st q a _ i hi
    obtain ⟨d1, d2⟩ := divmod_block (a := a) hi
    unfold gradColumn
    rw [d1, d2, dqGrad_eq]
  refine ⟨⟨_, by simp only [dwNonsymElastic, e, if_true, Option.bind_eq_bind, Option.bind_some]; rfl, fun v u => ?_⟩,
    ⟨_, by simp only [dwNonsymElastic, e, Bool.false_eq_true, if_false, Option.bind_eq_bind, Option.bind_some]; rfl,
      fun v => ?_⟩, fun hD => ?_⟩
  · rw [bil_sumLev]
    refine integ_congr (fun _ _ => rfl) fun q _ => ?_
    rw [bil_mulAB]
    unfold nonsymForm
    rw [sum_blocks]
    have : ∀ k ∈ range vg.dim, ∀ l ∈ range vg.dim,
        (∑ r ∈ range (vg.dim * vg.nEP), v r * mulATB (vg.dim * vg.dim) ng (D.x1 c) q r (vg.dim * k + l)) *
          ∑ s ∈ range (vg.dim * vg.nEP), ng q (vg.dim * k + l) s * u s =
        ∑ i ∈ range vg.dim, ∑ j ∈ range vg.dim, D.at c q (vg.dim * i + j) (vg.dim * k + l) *
          fgrad vg.nEP (vg.G c q) v j i * fgrad vg.nEP (vg.G c q) u l k := by
      intro k hk l hl
      rw [h q u k (mem_range.1 hk) l (mem_range.1 hl)]
      unfold mulATB
      simp only [mul_sum]
      rw [sum_comm, sum_blocks, sum_mul]
      refine sum_congr rfl fun i hi => ?_
      rw [sum_mul]
      refine sum_congr rfl fun j hj => ?_
      congr 1
      rw [← hL q v i (mem_range.1 hi) j (mem_range.1 hj), mul_sum]
      refine sum_congr rfl fun r _ => ?_
      rw [Fld.x1_apply]
      ring
    rw [sum_congr rfl fun k hk => sum_congr rfl fun l hl => this k hk l hl]
    rw [sum_congr rfl fun k _ => sum_comm]
    rw [sum_comm]
    refine sum_congr rfl fun i _ => ?_
    rw [sum_congr rfl fun k _ => sum_comm]
    rw [sum_comm]
  · rw [lin_sumLev]
    refine integ_congr (fun _ _ => rfl) fun q _ => ?_
    rw [lin_mulATB]
    unfold nonsymForm
    rw [sum_blocks]
    refine sum_congr rfl fun i hi => sum_congr rfl fun j hj => ?_
    rw [hL q v i (mem_range.1 hi) j (mem_range.1 hj)]
    unfold mulAB
    rw [sum_blocks, mul_sum]
    refine sum_congr rfl fun k hk => ?_
    rw [mul_sum]
    refine sum_congr rfl fun l hl => ?_
    rw [hG state q k (mem_range.1 hk) l (mem_range.1 hl), Fld.x1_apply]
    ring
  · unfold dLinElastic mulC
    rw [mul_one]
    unfold sumLev integ
    refine sum_congr rfl fun q _ => ?_
    rw [mul_comm]
    congr 1
    unfold mulAB mulATB nonsymForm
    rw [hD, sum_blocks]
    have : ∀ k ∈ range vg.dim, ∀ l ∈ range vg.dim,
        (∑ r ∈ range (vg.dim * vg.dim), gradColumn vg.dim (dqGrad vg.dim vg s1 conn) c q r 0 * D.x1 c q r (vg.dim * k + l)) *
          gradColumn vg.dim (dqGrad vg.dim vg state conn) c q (vg.dim * k + l) 0 =
        ∑ i ∈ range vg.dim, ∑ j ∈ range vg.dim, D.at c q (vg.dim * i + j) (vg.dim * k + l) *
          fgrad vg.nEP (vg.G c q) (locDofs vg.dim vg.nEP s1 (conn c)) j i *
            fgrad vg.nEP (vg.G c q) (locDofs vg.dim vg.nEP state (conn c)) l k := by
      intro k hk l hl
      rw [hG state q k (mem_range.1 hk) l (mem_range.1 hl), sum_blocks, sum_mul]
      refine sum_congr rfl fun i hi => ?_
      rw [sum_mul]
      refine sum_congr rfl fun j hj => ?_
      rw [hG s1 q i (mem_range.1 hi) j (mem_range.1 hj), Fld.x1_apply]
      ring
    rw [sum_congr rfl fun k hk => sum_congr rfl fun l hl => this k hk l hl]
    rw [sum_congr rfl fun k _ => sum_comm]
    rw [sum_comm]
    refine sum_congr rfl fun i _ => ?_
    rw [sum_congr rfl fun k _ => sum_comm]
    rw [sum_comm]

end Verif.Term
