/-
C63 (continued): the Biot and piezoelectric coupling terms, the linear traction.
-/
import Verif.Term.PropsFlow

namespace Verif.Term

open Finset

variable {K : Type} [Field K]

/-! ### Biot terms (sfepy/terms/terms_biot.py, sfepy/terms/extmods/terms_biot.c) -/

/-- `α_ij e_ij(u)`, with `α_ij` in the symmetric storage. -/
def biotSym (vg : Mapping K) (α : Fld K) (c q : ℕ) (u : ℕ → K) : K :=
  ∑ i ∈ range vg.dim, ∑ j ∈ range vg.dim, α.at c q (voigt vg.dim i j) 0 * strain vg.nEP (vg.G c q) u i j

/-- `α_ij ∂u_i/∂x_j`, with the matrix `α_ij`. -/
def biotNonsym (vg : Mapping K) (α : Fld K) (c q : ℕ) (u : ℕ → K) : K :=
  ∑ i ∈ range vg.dim, ∑ j ∈ range vg.dim, α.at c q i j * fgrad vg.nEP (vg.G c q) u j i

theorem biotSym_grad (h2 : (2 : K) ≠ 0) (vg : Mapping K) (α : Fld K) (c q : ℕ) (u : ℕ → K) :
    ∑ i ∈ range vg.dim, ∑ a ∈ range vg.dim, fgrad vg.nEP (vg.G c q) u i a * α.at c q (voigt vg.dim i a) 0 =
      biotSym vg α c q u := by
  rw [sum_symm h2 _ (fun i a => α.at c q (voigt vg.dim i a) 0) _ fun i j => by rw [voigt_comm]]
  unfold biotSym strain
  exact sum_congr rfl fun i _ => sum_congr rfl fun j _ => mul_comm _ _

theorem biotMat_eq {vg : Mapping K} {α : Fld K} (hd : vg.dim = 2 ∨ vg.dim = 3) (h1 : α.nRow = vg.dim)
    (h2 : α.nCol = vg.dim) :
    (biotMat α).nRow = vg.dim * vg.dim ∧ ¬ (biotMat α).nRow = symOf vg.dim ∧
      ∀ c q, ∀ i, ∀ a < vg.dim, (biotMat α).at c q (vg.dim * i + a) 0 = α.at c q a i := by
  have hm : biotMat α = ⟨α.nCell, vg.dim * vg.dim, 1, fun c q r _ => α.val c q (r % vg.dim) (r / vg.dim)⟩ := by
    unfold biotMat
    rw [if_pos ⟨by rw [h1, h2], by omega⟩, h1]
  refine ⟨by rw [hm], by rw [hm]; rcases hd with h | h <;> simp only [h] <;> decide, fun c q i a ha => ?_⟩
  obtain ⟨d1, d2⟩ := divmod_block (a := i) ha
  rw [hm]
  unfold Fld.at
  simp only [d1, d2]

theorem nonsym_contract {vg : Mapping K} {α : Fld K} (hd : vg.dim = 2 ∨ vg.dim = 3) (h1 : α.nRow = vg.dim)
    (h2 : α.nCol = vg.dim) (c q : ℕ) (u : ℕ → K) :
    ∑ i ∈ range vg.dim, ∑ a ∈ range vg.dim, fgrad vg.nEP (vg.G c q) u i a * (biotMat α).at c q (vg.dim * i + a) 0 =
      biotNonsym vg α c q u := by
  unfold biotNonsym
  rw [sum_comm]
  refine sum_congr rfl fun a ha => sum_congr rfl fun i _ => ?_
  rw [(biotMat_eq hd h1 h2).2.2 c q i a (mem_range.1 ha), mul_comm]

/-- `dw_biot`, gradient mode, symmetric storage: the matrix of `∫ p α_ij e_ij(v)`. -/
theorem C63_biot_grad_matrix (h2 : (2 : K) ≠ 0) (svg vvg : Mapping K) (hd : 1 ≤ vvg.dim ∧ vvg.dim ≤ 3) (coef : K)
    (pr : ℕ → Lev K) (α : Fld K) (hα : α.nRow = symOf vvg.dim) (c : ℕ) :
    ∃ A, dwBiotGrad svg vvg coef pr α true c = some A ∧
      IsForm (vvg.dim * vvg.nEP) svg.nEP vvg.nQP (vvg.w c) A fun q v p =>
        coef * (fval svg.nEP (svg.phi c q) p 0 * biotSym vvg α c q v) := by
  obtain ⟨gtd, e, hb⟩ := actOpGTM3_block hd vvg.nEP (vvg.bfGM c) (α.x1 c)
  refine ⟨_, by simp only [dwBiotGrad, if_true, if_pos hα, e, Option.bind_eq_bind, Option.bind_some]; rfl,
    fun v p => ?_⟩
  rw [bil_mulC, bil_sumLev, integ_mul]
  refine integ_congr (fun _ _ => rfl) fun q _ => ?_
  beta_reduce
  have hl : ∑ r ∈ range (vvg.dim * vvg.nEP), v r * gtd q r 0 = _ :=
    lin_of_block (g := vvg.G c q) (s := fun i a => α.x1 c q (voigt vvg.dim i a) 0) (fun a ha k hk => hb q 0 a ha k hk) v
  simp only [Fld.x1_apply] at hl
  rw [bil_mulAB, sum_range_one, hl, phi_eq, sum_val_u, biotSym_grad h2, mul_comm (biotSym vvg α c q v)]

/-- `dw_biot`, gradient mode, symmetric storage: the vector. -/
theorem C63_biot_grad_vector (h2 : (2 : K) ≠ 0) (svg vvg : Mapping K) (hd : 1 ≤ vvg.dim ∧ vvg.dim ≤ 3) (coef : K)
    (sp : ℕ → K) (connp : ℕ → ℕ → ℕ) (α : Fld K) (hα : α.nRow = symOf vvg.dim) (c : ℕ) :
    ∃ b, dwBiotGrad svg vvg coef (dqState 1 svg.nEP svg.bf sp connp) α false c = some b ∧
      IsLin (vvg.dim * vvg.nEP) vvg.nQP (vvg.w c) b fun q v =>
        coef * (fval svg.nEP (svg.phi c q) (locDofs 1 svg.nEP sp (connp c)) 0 * biotSym vvg α c q v) := by
  obtain ⟨gtd, e, hb⟩ := actOpGTVS3_block hd vvg.nEP (vvg.bfGM c)
    (mulAB 1 (α.x1 c) (dqState 1 svg.nEP svg.bf sp connp c))
  refine ⟨_, by simp only [dwBiotGrad, Bool.false_eq_true, if_false, if_pos hα, e, Option.bind_eq_bind,
    Option.bind_some]; rfl, fun v => ?_⟩
  rw [lin_mulC, lin_sumLev, integ_mul]
  refine integ_congr (fun _ _ => rfl) fun q _ => ?_
  beta_reduce
  rw [lin_of_block (g := vvg.G c q) (fun a ha k hk => hb q 0 a ha k hk) v, ← biotSym_grad h2]
  congr 1
  rw [mul_sum]
  refine sum_congr rfl fun i _ => ?_
  rw [mul_sum]
  refine sum_congr rfl fun a _ => ?_
  unfold mulAB
  rw [sum_range_one, dqState_eq, Fld.x1_apply]
  ring

/-- `dw_biot`, divergence mode, symmetric storage: the matrix of `∫ q α_ij e_ij(u)`. -/
theorem C63_biot_div_matrix (h2 : (2 : K) ≠ 0) (svg vvg : Mapping K) (hd : 1 ≤ vvg.dim ∧ vvg.dim ≤ 3) (coef : K)
    (st : ℕ → Lev K) (α : Fld K) (hα : α.nRow = symOf vvg.dim) (c : ℕ) :
    ∃ A, dwBiotDiv svg vvg coef st α true c = some A ∧
      IsForm svg.nEP (vvg.dim * vvg.nEP) vvg.nQP (vvg.w c) A fun q p u =>
        coef * (fval svg.nEP (svg.phi c q) p 0 * biotSym vvg α c q u) := by
  obtain ⟨dtg, e, hb⟩ := actOpGRM3_block hd vvg.nEP (pretend 1 (symOf vvg.dim) (α.x1 c)) (vvg.bfGM c)
  refine ⟨_, by simp only [dwBiotDiv, if_true, if_pos hα, e, Option.bind_eq_bind, Option.bind_some]; rfl,
    fun p u => ?_⟩
  rw [bil_mulC, bil_sumLev, integ_mul]
  refine integ_congr (fun _ _ => rfl) fun q _ => ?_
  beta_reduce
  have hp : ∀ j, pretend 1 (symOf vvg.dim) (α.x1 c) q 0 j = α.at c q j 0 := by
    intro j
    unfold pretend
    rw [Nat.mul_zero, Nat.zero_add, Nat.div_one, Nat.mod_one, Fld.x1_apply]
  have hl : ∑ r ∈ range (vvg.dim * vvg.nEP), u r * dtg q 0 r = _ :=
    lin_of_block (o := fun r _ => dtg q 0 r) (g := vvg.G c q)
      (s := fun i a => pretend 1 (symOf vvg.dim) (α.x1 c) q 0 (voigt vvg.dim i a))
      (fun a ha k hk => hb q 0 a ha k hk) u
  simp only [hp] at hl
  rw [bil_mulATB, sum_range_one, sum_congr rfl fun s _ => mul_comm (dtg q 0 s) (u s), hl, phi_eq, sum_v_val,
    biotSym_grad h2]

/-- `dw_biot`, divergence mode, symmetric storage: the vector. -/
theorem C63_biot_div_vector (h2 : (2 : K) ≠ 0) (svg vvg : Mapping K) (hd : 1 ≤ vvg.dim ∧ vvg.dim ≤ 3) (coef : K)
    (state : ℕ → K) (conn : ℕ → ℕ → ℕ) (E : ℕ → Lev K) (hE : ∀ c, dqCauchyStrain vvg state conn c = some (E c))
    (α : Fld K) (hα : α.nRow = symOf vvg.dim) (c : ℕ) :
    ∃ b, dwBiotDiv svg vvg coef E α false c = some b ∧ IsLin svg.nEP vvg.nQP (vvg.w c) b fun q p =>
      coef * (fval svg.nEP (svg.phi c q) p 0 * biotSym vvg α c q (locDofs vvg.dim vvg.nEP state (conn c))) := by
  refine ⟨_, by simp only [dwBiotDiv, Bool.false_eq_true, if_false]; rfl, fun p => ?_⟩
  rw [lin_mulC, lin_sumLev, integ_mul]
  refine integ_congr (fun _ _ => rfl) fun q _ => ?_
  beta_reduce
  rw [lin_mulATB, sum_range_one, phi_eq, sum_v_val]
  unfold mulATB
  rw [hα, strain_contract vvg hd state conn c (E c) (hE c), ← biotSym_grad h2]
  simp only [Fld.x1_apply, mul_comm]

/-- The value of `dw_biot` for two states, symmetric storage. -/
theorem C63_biot_eval (h2 : (2 : K) ≠ 0) (svg vvg : Mapping K) (hd : 1 ≤ vvg.dim ∧ vvg.dim ≤ 3) (coef : K)
    (state : ℕ → K) (conn : ℕ → ℕ → ℕ) (E : ℕ → Lev K) (hE : ∀ c, dqCauchyStrain vvg state conn c = some (E c))
    (sp : ℕ → K) (connp : ℕ → ℕ → ℕ) (α : Fld K) (hα : α.nRow = symOf vvg.dim) (c : ℕ) :
    dBiotDiv vvg coef (dqState 1 svg.nEP svg.bf sp connp) E α c 0 0 = integ vvg.nQP (vvg.w c) fun q =>
      coef * (fval svg.nEP (svg.phi c q) (locDofs 1 svg.nEP sp (connp c)) 0 *
        biotSym vvg α c q (locDofs vvg.dim vvg.nEP state (conn c))) := by
  unfold dBiotDiv mulC
  rw [← integ_mul, mul_comm]
  congr 1
  unfold sumLev integ
  refine sum_congr rfl fun q _ => ?_
  rw [mul_comm, ptr_det]
  congr 1
  beta_reduce
  unfold mulATB
  rw [sum_range_one, hα, strain_contract vvg hd state conn c (E c) (hE c), ← biotSym_grad h2, dqState_eq]
  simp only [Fld.x1_apply, mul_comm]

/-- The matrices of the two modes of `dw_biot` are transposed; the vectors are the products of the matrices and
the degrees of freedom. -/
theorem C63_biot_transpose_residual (h2 : (2 : K) ≠ 0) (svg vvg : Mapping K) (hd : 1 ≤ vvg.dim ∧ vvg.dim ≤ 3)
    (coef : K) (pr st : ℕ → Lev K) (state : ℕ → K) (conn : ℕ → ℕ → ℕ) (E : ℕ → Lev K)
    (hE : ∀ c, dqCauchyStrain vvg state conn c = some (E c)) (sp : ℕ → K) (connp : ℕ → ℕ → ℕ)
    (α : Fld K) (hα : α.nRow = symOf vvg.dim) (c : ℕ) (A B bg bd : ℕ → ℕ → K)
    (hA : dwBiotGrad svg vvg coef pr α true c = some A) (hB : dwBiotDiv svg vvg coef st α true c = some B)
    (hbg : dwBiotGrad svg vvg coef (dqState 1 svg.nEP svg.bf sp connp) α false c = some bg)
    (hbd : dwBiotDiv svg vvg coef E α false c = some bd) :
    (∀ r < vvg.dim * vvg.nEP, ∀ s < svg.nEP, A r s = B s r) ∧
    (∀ r < vvg.dim * vvg.nEP, bg r 0 = ∑ s ∈ range svg.nEP, A r s * locDofs 1 svg.nEP sp (connp c) s) ∧
    (∀ s < svg.nEP, bd s 0 = ∑ r ∈ range (vvg.dim * vvg.nEP), B s r * locDofs vvg.dim vvg.nEP state (conn c) r) := by
  obtain ⟨A', eA, fA⟩ := C63_biot_grad_matrix h2 svg vvg hd coef pr α hα c
  obtain ⟨B', eB, fB⟩ := C63_biot_div_matrix h2 svg vvg hd coef st α hα c
  obtain ⟨g', eg, fg⟩ := C63_biot_grad_vector h2 svg vvg hd coef sp connp α hα c
  obtain ⟨d', ed, fd⟩ := C63_biot_div_vector h2 svg vvg hd coef state conn E hE α hα c
  rw [hA, Option.some.injEq] at eA
  rw [hB, Option.some.injEq] at eB
  rw [hbg, Option.some.injEq] at eg
  rw [hbd, Option.some.injEq] at ed
  subst eA eB eg ed
  exact ⟨fun r hr s hs => fA.transpose fB (fun _ _ _ _ => rfl) r s hr hs, fun r hr => fA.residual fg r hr,
    fun s hs => fB.residual fd s hs⟩

/-- `dw_biot`, a `(D, D)` material: the matrices and the vectors of `∫ p α_ij ∂v_i/∂x_j`,
`∫ q α_ij ∂u_i/∂x_j`. -/
theorem C63_biot_nonsym (svg vvg : Mapping K) (hd : vvg.dim = 2 ∨ vvg.dim = 3) (coef : K) (pr st : ℕ → Lev K)
    (state : ℕ → K) (conn : ℕ → ℕ → ℕ) (sp : ℕ → K) (connp : ℕ → ℕ → ℕ) (α : Fld K) (h1 : α.nRow = vvg.dim)
    (h2 : α.nCol = vvg.dim) (c : ℕ) :
    let B := fun q p u => coef * (fval svg.nEP (svg.phi c q) p 0 * biotNonsym vvg α c q u)
    let ps := locDofs 1 svg.nEP sp (connp c)
    let us := locDofs vvg.dim vvg.nEP state (conn c)
    let gr := biotGrad vvg.dim (dqGrad vvg.dim vvg state conn)
    (∃ A, dwBiotGrad svg vvg coef pr (biotMat α) true c = some A ∧
      IsForm (vvg.dim * vvg.nEP) svg.nEP vvg.nQP (vvg.w c) A fun q v p => B q p v) ∧
    (∃ b, dwBiotGrad svg vvg coef (dqState 1 svg.nEP svg.bf sp connp) (biotMat α) false c = some b ∧
      IsLin (vvg.dim * vvg.nEP) vvg.nQP (vvg.w c) b fun q v => B q ps v) ∧
    (∃ A, dwBiotDiv svg vvg coef st (biotMat α) true c = some A ∧
      IsForm svg.nEP (vvg.dim * vvg.nEP) vvg.nQP (vvg.w c) A B) ∧
    (∃ b, dwBiotDiv svg vvg coef gr (biotMat α) false c = some b ∧
      IsLin svg.nEP vvg.nQP (vvg.w c) b fun q p => B q p us) ∧
    dBiotDiv vvg coef (dqState 1 svg.nEP svg.bf sp connp) gr (biotMat α) c 0 0 =
      integ vvg.nQP (vvg.w c) fun q => B q ps us := by
  obtain ⟨hr, hne, -⟩ := biotMat_eq hd h1 h2
  have hgr : ∀ q, ∑ k ∈ range (biotMat α).nRow, (biotMat α).x1 c q k 0 *
      biotGrad vvg.dim (dqGrad vvg.dim vvg state conn) c q k 0 =
        biotNonsym vvg α c q (locDofs vvg.dim vvg.nEP state (conn c)) := by
    intro q
    rw [hr, sum_blocks, ← nonsym_contract hd h1 h2]
    refine sum_congr rfl fun i _ => sum_congr rfl fun a ha => ?_
    obtain ⟨d1, d2⟩ := divmod_block (a := i) (mem_range.1 ha)
    unfold biotGrad pretend
    rw [Nat.one_mul, Nat.add_zero, d1, d2, dqGrad_eq, Fld.x1_apply, mul_comm]
  refine ⟨?_, ?_, ?_, ?_, ?_⟩
  · obtain ⟨o, e, hb⟩ := opNonsymBiot_block hd vvg.nEP (vvg.bfGM c) ((biotMat α).x1 c)
    refine ⟨_, by simp only [dwBiotGrad, if_true, if_neg hne, e, Option.map_some, Option.bind_eq_bind,
      Option.bind_some]; rfl, fun v p => ?_⟩
    rw [bil_mulC, bil_sumLev, integ_mul]
    refine integ_congr (fun _ _ => rfl) fun q _ => ?_
    beta_reduce
    have hl : ∑ r ∈ range (vvg.dim * vvg.nEP), v r * o q r = _ :=
      lin_of_block (o := fun r _ => o q r) (g := vvg.G c q) (s := fun i a => (biotMat α).x1 c q (vvg.dim * i + a) 0)
        (fun a ha k hk => hb q a ha k hk) v
    simp only [Fld.x1_apply] at hl
    rw [bil_mulAB, sum_range_one, hl, phi_eq, sum_val_u, nonsym_contract hd h1 h2, mul_comm (biotNonsym vvg α c q v)]
  · obtain ⟨o, e, hb⟩ := opNonsymBiot_block hd vvg.nEP (vvg.bfGM c)
      (mulAB 1 ((biotMat α).x1 c) (dqState 1 svg.nEP svg.bf sp connp c))
    refine ⟨_, by simp only [dwBiotGrad, Bool.false_eq_true, if_false, if_neg hne, e, Option.map_some,
      Option.bind_eq_bind, Option.bind_some]; rfl, fun v => ?_⟩
    rw [lin_mulC, lin_sumLev, integ_mul]
    refine integ_congr (fun _ _ => rfl) fun q _ => ?_
    beta_reduce
    rw [lin_of_block (g := vvg.G c q) (fun a ha k hk => hb q a ha k hk) v, ← nonsym_contract hd h1 h2]
    congr 1
    rw [mul_sum]
    refine sum_congr rfl fun i _ => ?_
    rw [mul_sum]
    refine sum_congr rfl fun a _ => ?_
    unfold mulAB
    rw [sum_range_one, dqState_eq, Fld.x1_apply]
    ring
  · obtain ⟨o, e, hb⟩ := opNonsymBiot_block hd vvg.nEP (vvg.bfGM c) ((biotMat α).x1 c)
    refine ⟨_, by simp only [dwBiotDiv, if_true, if_neg hne, e, Option.map_some, Option.bind_eq_bind,
      Option.bind_some]; rfl, fun p u => ?_⟩
    rw [bil_mulC, bil_sumLev, integ_mul]
    refine integ_congr (fun _ _ => rfl) fun q _ => ?_
    beta_reduce
    have hl : ∑ r ∈ range (vvg.dim * vvg.nEP), u r * o q r = _ :=
      lin_of_block (o := fun r _ => o q r) (g := vvg.G c q) (s := fun i a => (biotMat α).x1 c q (vvg.dim * i + a) 0)
        (fun a ha k hk => hb q a ha k hk) u
    simp only [Fld.x1_apply] at hl
    rw [bil_mulATB, sum_range_one, sum_congr rfl fun s _ => mul_comm (o q s) (u s), hl, phi_eq, sum_v_val,
      nonsym_contract hd h1 h2]
  · refine ⟨_, by simp only [dwBiotDiv, Bool.false_eq_true, if_false]; rfl, fun p => ?_⟩
    rw [lin_mulC, lin_sumLev, integ_mul]
    refine integ_congr (fun _ _ => rfl) fun q _ => ?_
    beta_reduce
    rw [lin_mulATB, sum_range_one, phi_eq, sum_v_val]
    unfold mulATB
    rw [hgr]
  · unfold dBiotDiv mulC
    rw [← integ_mul, mul_comm]
    congr 1
    unfold sumLev integ
    refine sum_congr rfl fun q _ => ?_
    rw [mul_comm, ptr_det]
    congr 1
    beta_reduce
    unfold mulATB
    rw [sum_range_one, hgr, dqState_eq]

/-! ### Piezoelectric coupling (sfepy/terms/terms_piezo.py, sfepy/terms/extmods/terms_piezo.c) -/

/-- `g_kij e_ij(v) ∂p/∂x_k`: `vg` is the mapping of the displacement, `sg` the one of the potential. -/
def piezoForm (vg sg : Mapping K) (g : Fld K) (c q : ℕ) (v p : ℕ → K) : K :=
  ∑ k ∈ range vg.dim, (∑ i ∈ range vg.dim, ∑ j ∈ range vg.dim,
    g.at c q k (voigt vg.dim i j) * strain vg.nEP (vg.G c q) v i j) * fgrad sg.nEP (sg.G c q) p k 0

theorem piezo_row (h2 : (2 : K) ≠ 0) (vg : Mapping K) (g : Fld K) (c q k : ℕ) (v : ℕ → K) :
    ∑ i ∈ range vg.dim, ∑ a ∈ range vg.dim, fgrad vg.nEP (vg.G c q) v i a * g.at c q k (voigt vg.dim i a) =
      ∑ i ∈ range vg.dim, ∑ j ∈ range vg.dim, g.at c q k (voigt vg.dim i j) * strain vg.nEP (vg.G c q) v i j := by
  rw [sum_symm h2 _ (fun i a => g.at c q k (voigt vg.dim i a)) _ fun i j => by rw [voigt_comm]]
  unfold strain
  exact sum_congr rfl fun i _ => sum_congr rfl fun j _ => mul_comm _ _

/-- `dw_piezo_coupling`, gradient mode: the vector of `∫ g_kij e_ij(v) ∂p/∂x_k`; the potential can have any basis. -/
theorem C63_piezo_grad_vector (h2 : (2 : K) ≠ 0) (vg sg : Mapping K) (hd : 1 ≤ vg.dim ∧ vg.dim ≤ 3)
    (st : ℕ → Lev K) (sp : ℕ → K) (connp : ℕ → ℕ → ℕ) (g : Fld K) (c : ℕ) :
    ∃ b, dwPiezo vg st (dqGrad 1 sg sp connp) g 0 c = some b ∧
      IsLin (vg.dim * vg.nEP) vg.nQP (vg.w c) b fun q v => piezoForm vg sg g c q v (locDofs 1 sg.nEP sp (connp c)) := by
  obtain ⟨o, e, hb⟩ := actOpGTVS3_block hd vg.nEP (vg.bfGM c) (mulATB vg.dim (g.x1 c) (dqGrad 1 sg sp connp c))
  refine ⟨_, by simp only [dwPiezo, if_true, e, Option.bind_eq_bind, Option.bind_some]; rfl, fun v => ?_⟩
  rw [lin_sumLev]
  refine integ_congr (fun _ _ => rfl) fun q _ => ?_
  beta_reduce
  rw [lin_of_block (g := vg.G c q) (fun a ha k hk => hb q 0 a ha k hk) v]
  unfold piezoForm mulATB
  simp only [← piezo_row h2, sum_mul, mul_sum]
  rw [sum_comm' (t' := range vg.dim) (s' := fun _ => range vg.dim) (by simp)]
  rw [sum_congr rfl fun a _ => sum_congr rfl fun i _ => rfl]
  rw [sum_comm, sum_congr rfl fun i _ => sum_comm, sum_comm]
  refine sum_congr rfl fun k _ => sum_congr rfl fun i _ => sum_congr rfl fun a _ => ?_
  rw [Fld.x1_apply, dqGrad_eq]
  ring

/-- `dw_piezo_coupling`, divergence mode: the vector. The gradients of the displacement are used for the test
function, too. -/
theorem C63_piezo_div_vector (h2 : (2 : K) ≠ 0) (vg sg : Mapping K) (hd : 1 ≤ vg.dim ∧ vg.dim ≤ 3)
    (cg : ℕ → Lev K) (state : ℕ → K) (conn : ℕ → ℕ → ℕ) (E : ℕ → Lev K)
    (hE : ∀ c, dqCauchyStrain vg state conn c = some (E c)) (g : Fld K) (c : ℕ)
    (hG : sg.bfGM = vg.bfGM) :
    ∃ b, dwPiezo vg E cg g 2 c = some b ∧ IsLin sg.nEP vg.nQP (vg.w c) b fun q p =>
      piezoForm vg sg g c q (locDofs vg.dim vg.nEP state (conn c)) p := by
  refine ⟨_, by simp only [dwPiezo, OfNat.ofNat_ne_zero, if_false, if_true]; rfl, fun p => ?_⟩
  rw [lin_sumLev]
  refine integ_congr (fun _ _ => rfl) fun q _ => ?_
  beta_reduce
  rw [lin_mulATB]
  unfold piezoForm
  refine sum_congr rfl fun k _ => ?_
  rw [mul_comm]
  congr 1
  · unfold mulAB
    rw [strain_contract vg hd state conn c (E c) (hE c), ← piezo_row h2]
    simp only [Fld.x1_apply, mul_comm]
  · rw [← hG, sum_v_bfGM]

/-- `dw_piezo_coupling`: the matrices of the two modes. -/
theorem C63_piezo_matrix (h2 : (2 : K) ≠ 0) (vg sg : Mapping K) (hd : 1 ≤ vg.dim ∧ vg.dim ≤ 3)
    (st cg : ℕ → Lev K) (g : Fld K) (c : ℕ) (hG : sg.bfGM = vg.bfGM) :
    (∃ A, dwPiezo vg st cg g 1 c = some A ∧
      IsForm (vg.dim * vg.nEP) sg.nEP vg.nQP (vg.w c) A fun q v p => piezoForm vg sg g c q v p) ∧
    (∃ A, dwPiezo vg st cg g 3 c = some A ∧
      IsForm sg.nEP (vg.dim * vg.nEP) vg.nQP (vg.w c) A fun q p u => piezoForm vg sg g c q u p) := by
  obtain ⟨gg, e, hb⟩ := actOpGRM3_block hd vg.nEP (g.x1 c) (vg.bfGM c)
  have hform : IsForm sg.nEP (vg.dim * vg.nEP) vg.nQP (vg.w c)
      (sumLev vg.nQP (mulATB vg.dim (vg.bfGM c) gg) (ptr (vg.det c))) fun q p u => piezoForm vg sg g c q u p := by
    intro p u
    rw [bil_sumLev]
    refine integ_congr (fun _ _ => rfl) fun q _ => ?_
    beta_reduce
    rw [bil_mulATB]
    unfold piezoForm
    refine sum_congr rfl fun k _ => ?_
    have hl : ∑ r ∈ range (vg.dim * vg.nEP), u r * gg q k r = _ :=
      lin_of_block (o := fun r _ => gg q k r) (g := vg.G c q) (s := fun i a => g.x1 c q k (voigt vg.dim i a))
        (fun a ha l hl => hb q k a ha l hl) u
    simp only [Fld.x1_apply] at hl
    rw [sum_congr rfl fun s _ => mul_comm (gg q k s) (u s), hl, piezo_row h2, ← hG, sum_v_bfGM, mul_comm]
  constructor
  · refine ⟨_, by simp only [dwPiezo, one_ne_zero, OfNat.one_ne_ofNat, if_false, if_true, e, Option.bind_eq_bind,
      Option.bind_some]; rfl, fun v p => ?_⟩
    rw [← hform p v]
    unfold bil sumLevT sumLev
    rw [sum_comm]
    refine sum_congr rfl fun s _ => sum_congr rfl fun r _ => by ring
  · exact ⟨_, by simp only [dwPiezo, OfNat.ofNat_ne_zero, OfNat.ofNat_ne_one, Nat.reduceEqDiff, if_false, e,
      Option.bind_eq_bind, Option.bind_some], hform⟩

/-- The value of `dw_piezo_coupling` for two states; the potential can have any basis. -/
theorem C63_piezo_eval (h2 : (2 : K) ≠ 0) (vg sg : Mapping K) (hd : 1 ≤ vg.dim ∧ vg.dim ≤ 3) (state : ℕ → K)
    (conn : ℕ → ℕ → ℕ) (E : ℕ → Lev K) (hE : ∀ c, dqCauchyStrain vg state conn c = some (E c)) (sp : ℕ → K)
    (connp : ℕ → ℕ → ℕ) (g : Fld K) (c : ℕ) :
    dPiezo vg E (dqGrad 1 sg sp connp) g c 0 0 = integ vg.nQP (vg.w c) fun q =>
      piezoForm vg sg g c q (locDofs vg.dim vg.nEP state (conn c)) (locDofs 1 sg.nEP sp (connp c)) := by
  unfold dPiezo sumLev integ
  refine sum_congr rfl fun q _ => ?_
  rw [mul_comm, ptr_det]
  congr 1
  beta_reduce
  unfold mulATB mulAB piezoForm
  refine sum_congr rfl fun k _ => ?_
  rw [strain_contract vg hd state conn c (E c) (hE c), ← piezo_row h2, dqGrad_eq, mul_comm]
  simp only [Fld.x1_apply, mul_comm]

/-- The matrices of the two modes are transposed (for any data). -/
theorem C63_piezo_transpose (vg : Mapping K) (st cg st' cg' : ℕ → Lev K) (g : Fld K) (c : ℕ) (A B : ℕ → ℕ → K)
    (hA : dwPiezo vg st cg g 1 c = some A) (hB : dwPiezo vg st' cg' g 3 c = some B) (r s : ℕ) : A r s = B s r := by
  simp only [dwPiezo, one_ne_zero, OfNat.one_ne_ofNat, OfNat.ofNat_ne_zero, OfNat.ofNat_ne_one, Nat.reduceEqDiff,
    if_false, if_true, Option.bind_eq_bind] at hA hB
  cases hgg : actOpGRM3 vg.dim vg.nEP (g.x1 c) (vg.bfGM c) with
  | none => rw [hgg] at hA; exact absurd hA (by simp)
  | some gg =>
    rw [hgg, Option.bind_some, Option.some.injEq] at hA hB
    subst hA hB
    rfl

/-! ### Linear traction (sfepy/terms/terms_surface.py, sfepy/terms/extmods/terms_surface.c) -/

/-- The traction vector in a quadrature point: the normal, the pressure times the normal, a given vector, the
stress in the symmetric storage times the normal. -/
inductive IsTraction (sg : Mapping K) (c : ℕ) : Option (Fld K) → (ℕ → ℕ → K) → Prop
  | unit : IsTraction sg c none fun q i => sg.n c q i
  | pressure (t : Fld K) (h : t.nRow = 1) : IsTraction sg c (some t) fun q i => t.at c q 0 0 * sg.n c q i
  | vector (t : Fld K) (h : t.nRow = sg.dim) (h' : t.nCol = 1) (hd : sg.dim ≠ 1) :
    IsTraction sg c (some t) fun q i => t.at c q i 0
  | stress (t : Fld K) (h : t.nRow = symOf sg.dim) (hd : sg.dim ≠ 1) :
    IsTraction sg c (some t) fun q i => ∑ j ∈ range sg.dim, t.at c q (voigt sg.dim i j) 0 * sg.n c q j

theorem symOf_ne {d : ℕ} (h : 1 ≤ d ∧ d ≤ 3) (h1 : d ≠ 1) : symOf d ≠ 1 ∧ symOf d ≠ d := by
  obtain ⟨g1, g2⟩ := h
  interval_cases d <;> first | exact absurd rfl h1 | decide

/-- `dw_surface_ltr`: `∫ v · t` with the traction `t`. -/
theorem C63_traction_vector (sg : Mapping K) (hd : 1 ≤ sg.dim ∧ sg.dim ≤ 3) (t : Option (Fld K)) (c : ℕ)
    (τ : ℕ → ℕ → K) (hτ : IsTraction sg c t τ) :
    ∃ b, dwSurfaceLtr sg t c = some b ∧ IsLin (sg.dim * sg.nEP) sg.nQP (sg.w c) b fun q v =>
      ∑ i ∈ range sg.dim, τ q i * fval sg.nEP (sg.phi c q) v i := by
  have key : ∀ x : Lev K, (∀ q, ∀ i < sg.dim, x q i 0 = τ q i) →
      IsLin (sg.dim * sg.nEP) sg.nQP (sg.w c) (sumLev sg.nQP (bfActt sg.nEP (sg.bf.x1 c) x) (ptr (sg.det c)))
        fun q v => ∑ i ∈ range sg.dim, τ q i * fval sg.nEP (sg.phi c q) v i := by
    intro x hx v
    rw [lin_sumLev]
    refine integ_congr (fun _ _ => rfl) fun q _ => ?_
    beta_reduce
    rw [lin_bfActt, phi_eq]
    refine sum_congr rfl fun i hi => ?_
    rw [hx q i (mem_range.1 hi), mul_comm]
  cases hτ with
  | unit => exact ⟨_, rfl, key _ fun q i _ => rfl⟩
  | pressure t h =>
    refine ⟨_, by simp only [dwSurfaceLtr, if_pos h]; rfl, key _ fun q i _ => ?_⟩
    unfold mulAB
    rw [sum_range_one, Fld.x1_apply, mul_comm]
    rfl
  | vector t h h' h1 =>
    refine ⟨_, by simp only [dwSurfaceLtr, h, if_neg h1, if_true]; rfl, key _ fun q i _ => ?_⟩
    rw [Fld.x1_apply]
  | stress t h h1 =>
    obtain ⟨g1, g2⟩ := symOf_ne hd h1
    refine ⟨_, by simp only [dwSurfaceLtr, h, if_neg g1, if_neg g2, if_true]; rfl, key _ fun q i hi => ?_⟩
    rw [mulAVSB3_eq hd _ _ _ _ _ hi]
    refine sum_congr rfl fun j _ => ?_
    rw [Fld.x1_apply]
    rfl

/-- The evaluation mode of `dw_surface_ltr` for the same materials. -/
theorem C63_traction_eval (sg : Mapping K) (hd : 1 ≤ sg.dim ∧ sg.dim ≤ 3) (t : Option (Fld K)) (c : ℕ)
    (τ : ℕ → ℕ → K) (hτ : IsTraction sg c t τ) (hc : ∀ f, t = some f → f.nCol = 1) (state : ℕ → K) (conn : ℕ → ℕ → ℕ) :
    ∃ b, dSurfaceLtr sg t (dqState sg.dim sg.nEP sg.bf state conn) c = some b ∧
      b 0 0 = integ sg.nQP (sg.w c) fun q => ∑ i ∈ range sg.dim, τ q i *
        fval sg.nEP (sg.phi c q) (locDofs sg.dim sg.nEP state (conn c)) i := by
  have key : ∀ x : Lev K, (∀ q, ∀ i < sg.dim, x q i 0 = τ q i) →
      sumLev sg.nQP (mulATB sg.dim (dqState sg.dim sg.nEP sg.bf state conn c) x) (ptr (sg.det c)) 0 0 =
        integ sg.nQP (sg.w c) fun q => ∑ i ∈ range sg.dim, τ q i *
          fval sg.nEP (sg.phi c q) (locDofs sg.dim sg.nEP state (conn c)) i := by
    intro x hx
    unfold sumLev integ mulATB
    refine sum_congr rfl fun q _ => ?_
    rw [mul_comm, ptr_det]
    congr 1
    beta_reduce
    refine sum_congr rfl fun i hi => ?_
    rw [hx q i (mem_range.1 hi), dqState_eq, mul_comm]
  cases hτ with
  | unit => exact ⟨_, rfl, key _ fun q i _ => rfl⟩
  | pressure t h =>
    refine ⟨_, by simp only [dSurfaceLtr, if_pos h]; rfl, key _ fun q i _ => ?_⟩
    unfold mulF
    rw [ptr_x1, mul_comm]
    rfl
  | vector t h h' h1 =>
    refine ⟨_, by simp only [dSurfaceLtr, h, h', if_neg h1, true_and, if_true]; rfl, key _ fun q i _ => ?_⟩
    rw [Fld.x1_apply]
  | stress t h h1 =>
    obtain ⟨g1, g2⟩ := symOf_ne hd h1
    refine ⟨_, by simp only [dSurfaceLtr, h, if_neg g1, g2, false_and, if_false, if_true]; rfl, key _ fun q i hi => ?_⟩
    rw [mulAVSB3_eq hd _ _ _ _ _ hi]
    refine sum_congr rfl fun j _ => ?_
    rw [Fld.x1_apply]
    rfl

/-- A `(D, D)` material in the evaluation mode: the transposed tensor is applied to the normal,
`∫ v_i σ_ji n_j`, so the documented `v · σ · n` holds for symmetric tensors. -/
theorem C63_traction_eval_tensor (sg : Mapping K) (hd : sg.dim ≠ 1) (t : Fld K) (hr : t.nRow = sg.dim)
    (hc : t.nCol = sg.dim) (c : ℕ) (state : ℕ → K) (conn : ℕ → ℕ → ℕ) :
    ∃ b, dSurfaceLtr sg (some t) (dqState sg.dim sg.nEP sg.bf state conn) c = some b ∧
      (b 0 0 = integ sg.nQP (sg.w c) fun q => ∑ i ∈ range sg.dim, (∑ j ∈ range sg.dim, t.at c q j i * sg.n c q j) *
        fval sg.nEP (sg.phi c q) (locDofs sg.dim sg.nEP state (conn c)) i) ∧
      ((∀ q < sg.nQP, ∀ i < sg.dim, ∀ j < sg.dim, t.at c q i j = t.at c q j i) →
        b 0 0 = integ sg.nQP (sg.w c) fun q => ∑ i ∈ range sg.dim, (∑ j ∈ range sg.dim, t.at c q i j * sg.n c q j) *
          fval sg.nEP (sg.phi c q) (locDofs sg.dim sg.nEP state (conn c)) i) := by
  have main : ∃ b, dSurfaceLtr sg (some t) (dqState sg.dim sg.nEP sg.bf state conn) c = some b ∧
      b 0 0 = integ sg.nQP (sg.w c) fun q => ∑ i ∈ range sg.dim, (∑ j ∈ range sg.dim, t.at c q j i * sg.n c q j) *
        fval sg.nEP (sg.phi c q) (locDofs sg.dim sg.nEP state (conn c)) i := by
    refine ⟨_, by simp only [dSurfaceLtr, hr, hc, if_neg hd, true_and, if_true]; rfl, ?_⟩
    unfold sumLev integ
    refine sum_congr rfl fun q _ => ?_
    rw [mul_comm, ptr_det]
    congr 1
    beta_reduce
    unfold mulATB
    refine sum_congr rfl fun i _ => ?_
    rw [dqState_eq, mul_comm]
    congr 1
    refine sum_congr rfl fun j _ => ?_
    rw [Fld.x1_apply]
    rfl
  obtain ⟨b, e, hb⟩ := main
  refine ⟨b, e, hb, fun hs => hb.trans (integ_congr (fun _ _ => rfl) fun q hq => ?_)⟩
  refine sum_congr rfl fun i hi => ?_
  congr 1
  exact sum_congr rfl fun j hj => by rw [hs q hq i (mem_range.1 hi) j (mem_range.1 hj)]

end Verif.Term
