/-
C64: the residuals of hyperelastic terms are the first variations of the stored energies and the matrices are the
derivatives of the residuals.
-/
import Verif.Term.HyperLaw2

namespace Verif.Term

open Finset Matrix Filter Topology

variable {d : ℕ}

theorem dqFinStrain_det (vg : Mapping ℝ) (hd : 1 ≤ vg.dim ∧ vg.dim ≤ 3) (ul : Bool) (state : ℕ → ℝ) (conn : ℕ → ℕ → ℕ)
    (c q : ℕ) : ∃ fd, dqFinStrain ul vg state conn c q = some fd ∧ fd.detF = (cellF vg state conn c q).det ∧
      toMat vg.dim fd.mtxF = cellF vg state conn c q := by
  cases ul
  · obtain ⟨fd, h1, h2, h3, -⟩ := finStrain_tl hd vg.nEP (vg.bfGM c q) (extractNBN vg.dim state (conn c) 0)
    exact ⟨fd, h1, by rw [h3, defGradQp_eq]; rfl, by rw [h2, defGradQp_eq]; rfl⟩
  · obtain ⟨fd, h1, h2, h3, -⟩ := finStrain_ul hd vg.nEP (vg.bfGM c q) (extractNBN vg.dim state (conn c) 0)
    exact ⟨fd, h1, by rw [h3, defGradQp_eq]; rfl, by rw [h2, defGradQp_eq]; rfl⟩

/-- The data of a state cannot be computed ('warp violation!') exactly when the volume ratio is negative somewhere. -/
theorem C64_warp (vg : Mapping ℝ) (hd : 1 ≤ vg.dim ∧ vg.dim ≤ 3) (ul : Bool) (nEl : ℕ) (state : ℕ → ℝ)
    (conn : ℕ → ℕ → ℕ) : familyData ul nEl vg state conn = none ↔
      ∃ c < nEl, ∃ q < vg.nQP, (cellF vg state conn c q).det < 0 := by
  unfold familyData
  have e : (∃ c < nEl, ∃ q < vg.nQP, ∀ fd, dqFinStrain ul vg state conn c q = some fd → fd.detF < 0) ↔
      ∃ c < nEl, ∃ q < vg.nQP, (cellF vg state conn c q).det < 0 := by
    refine exists_congr fun c => and_congr_right fun _ => exists_congr fun q => and_congr_right fun _ => ?_
    obtain ⟨fd, h1, h2, -⟩ := dqFinStrain_det vg hd ul state conn c q
    rw [h1]
    constructor
    · intro h
      rw [← h2]
      exact h fd rfl
    · rintro h fd' hfd
      obtain rfl := Option.some.inj hfd
      rw [h2]
      exact h
  split_ifs with h
  · simpa using e.1 h
  · simpa using fun c hc q hq => not_lt.1 fun hlt => h (e.2 ⟨c, hc, q, hq, hlt⟩)

theorem familyData_some (vg : Mapping ℝ) (hd : 1 ≤ vg.dim ∧ vg.dim ≤ 3) (ul : Bool) (nEl : ℕ) (state : ℕ → ℝ)
    (conn : ℕ → ℕ → ℕ) (h : ∀ c < nEl, ∀ q < vg.nQP, 0 ≤ (cellF vg state conn c q).det) :
    familyData ul nEl vg state conn = some fun c q => (dqFinStrain ul vg state conn c q).getD FamData.zero := by
  have hn : familyData ul nEl vg state conn ≠ none := by
    rw [Ne, C64_warp vg hd]
    rintro ⟨c, hc, q, hq, hlt⟩
    exact absurd (h c hc q hq) (not_le.2 hlt)
  unfold familyData at hn ⊢
  split_ifs with h1
  · rw [if_pos h1] at hn
    exact absurd rfl hn
  · rfl

theorem famOf_cell (vg : Mapping ℝ) (hd : 1 ≤ vg.dim ∧ vg.dim ≤ 3) (state : ℕ → ℝ) (conn : ℕ → ℕ → ℕ) (c q : ℕ)
    (h : Regular (cellF vg state conn c q)) :
    FamOf vg.dim ((dqFinStrain false vg state conn c q).getD FamData.zero) (cellF vg state conn c q) := by
  have e := defGradQp_eq vg state conn c q
  obtain ⟨fd, h1, -, h3⟩ := famOf_finStrain hd vg.nEP (vg.bfGM c q) (extractNBN vg.dim state (conn c) 0)
    (by rw [e]; exact h)
  rw [e] at h3
  rw [dqFinStrain, h1]
  exact h3

theorem pull_eq (nEP : ℕ) (F : ℕ → ℕ → ℝ) (g : ℕ → ℕ → ℝ) (u : ℕ → ℝ) (k l : Fin d) :
    pull d nEP F g u k l = ((toMat d F)ᵀ * gradMat d nEP g u) k l := by
  simp only [pull, Matrix.mul_apply, Finset.sum_range]
  rfl

theorem dCG_eq (F H : Matrix (Fin d) (Fin d) ℝ) : dCG F H = Fᵀ * H + (Fᵀ * H)ᵀ := by
  rw [dCG, transpose_mul, transpose_transpose, add_comm]

theorem dCG_symm (F H : Matrix (Fin d) (Fin d) ℝ) : (dCG F H)ᵀ = dCG F H := by
  rw [dCG_eq, transpose_add, transpose_transpose, add_comm]

theorem contract_pull {f : ℕ → ℝ} {M : Matrix (Fin d) (Fin d) ℝ} (h : Stores d f M) (hM : Mᵀ = M) (nEP : ℕ) (F g : ℕ → ℕ → ℝ)
    (u : ℕ → ℝ) : ∑ i ∈ range d, ∑ j ∈ range d, f (voigt d i j) * pull d nEP F g u i j =
      (M * dCG (toMat d F) (gradMat d nEP g u)).trace / 2 := by
  rw [dCG_eq, ← sum_contract M _ hM]
  simp only [Finset.sum_range, pull_eq]
  refine sum_congr rfl fun i _ => sum_congr rfl fun j _ => ?_
  rw [h i j]

theorem tan_pull {D : ℕ → ℕ → ℝ} {L : Matrix (Fin d) (Fin d) ℝ → Matrix (Fin d) (Fin d) ℝ} (h : TanOf d D L)
    (nEP : ℕ) (F g : ℕ → ℕ → ℝ) (u : ℕ → ℝ) (i j : Fin d) :
    ∑ k ∈ range d, ∑ l ∈ range d, D (voigt d i j) (voigt d k l) * pull d nEP F g u k l =
      L (dCG (toMat d F) (gradMat d nEP g u)) i j := by
  rw [dCG_eq, ← h _ i j]
  simp only [Finset.sum_range, pull_eq]

theorem geomForm_eq {f : ℕ → ℝ} {M : Matrix (Fin d) (Fin d) ℝ} (h : Stores d f M) (hM : Mᵀ = M) (nEP : ℕ) (g : ℕ → ℕ → ℝ)
    (v u : ℕ → ℝ) : geomForm d nEP f g v u =
      (M * dCG (gradMat d nEP g u) (gradMat d nEP g v)).trace / 2 := by
  have e : dCG (gradMat d nEP g u) (gradMat d nEP g v) =
      (gradMat d nEP g v)ᵀ * gradMat d nEP g u + ((gradMat d nEP g v)ᵀ * gradMat d nEP g u)ᵀ := by
    rw [dCG, transpose_mul, transpose_transpose]
  rw [e, ← sum_contract M _ hM]
  simp only [geomForm, Finset.sum_range]
  refine sum_congr rfl fun i _ => sum_congr rfl fun j _ => ?_
  rw [h i j]
  rfl

section

variable {sf : StressFn} {tf : TanFn} {vg : Mapping ℝ} {Dom : (ℕ → ℕ → ℝ) → Matrix (Fin vg.dim) (Fin vg.dim) ℝ → Prop}
    {W : (ℕ → ℕ → ℝ) → Matrix (Fin vg.dim) (Fin vg.dim) ℝ → ℝ}
    {pk : (ℕ → ℕ → ℝ) → Matrix (Fin vg.dim) (Fin vg.dim) ℝ → Matrix (Fin vg.dim) (Fin vg.dim) ℝ}
    {dpk : (ℕ → ℕ → ℝ) → Matrix (Fin vg.dim) (Fin vg.dim) ℝ → Matrix (Fin vg.dim) (Fin vg.dim) ℝ →
      Matrix (Fin vg.dim) (Fin vg.dim) ℝ}

/-- The state is admissible: no warp violation, and in the cell `c` the deformations are regular. -/
structure Admissible (vg : Mapping ℝ) (Dom : (ℕ → ℕ → ℝ) → Matrix (Fin vg.dim) (Fin vg.dim) ℝ → Prop) (mat : Fld ℝ)
    (nEl : ℕ) (state : ℕ → ℝ) (conn : ℕ → ℕ → ℕ) (c : ℕ) : Prop where
  pos : ∀ c < nEl, ∀ q < vg.nQP, 0 < (cellF vg state conn c q).det
  reg : ∀ q < vg.nQP, gemeEps < (cellF vg state conn c q).det ^ 2
  cell : c < nEl
  dom : ∀ q < vg.nQP, Dom (mat.x1 c q) (cellF vg state conn c q)

theorem Admissible.regular {mat : Fld ℝ} {nEl : ℕ} {state : ℕ → ℝ} {conn : ℕ → ℕ → ℕ} {c : ℕ}
    (h : Admissible vg Dom mat nEl state conn c) (q : ℕ) (hq : q < vg.nQP) : Regular (cellF vg state conn c q) :=
  ⟨h.pos c h.cell q hq, h.reg q hq⟩

theorem residual_form (law : HyperLaw vg.dim sf tf Dom W pk dpk) (hd : 1 ≤ vg.dim ∧ vg.dim ≤ 3) {mat : Fld ℝ} {nEl : ℕ}
    {state : ℕ → ℝ} {conn : ℕ → ℕ → ℕ} {c : ℕ} (h : Admissible vg Dom mat nEl state conn c) :
    ∃ b, heResidual false sf mat nEl vg vg state conn c = some b ∧ ∀ v, lin (vg.dim * vg.nEP) v b =
      integ vg.nQP (vg.w c) fun q => (pk (mat.x1 c q) (cellF vg state conn c q) *
        dCG (cellF vg state conn c q) (gradMat vg.dim vg.nEP (vg.G c q) v)).trace / 2 := by
  set fd : ℕ → FamData := fun q => (dqFinStrain false vg state conn c q).getD FamData.zero with hfd
  obtain ⟨b, hb, hb'⟩ := heRtmVector_tl hd vg.nEP vg.nQP (vg.bfGM c) (ptr (vg.det c))
    (fun q => sf (mat.x1 c q) vg.dim (fd q)) (fun q => (fd q).mtxF) fun q => (fd q).detF
  refine ⟨b, ?_, fun v => ?_⟩
  · rw [heResidual, familyData_some vg hd false nEl state conn fun c hc q hq => (h.pos c hc q hq).le]
    exact hb
  · rw [hb']
    refine integ_congr (fun _ _ => rfl) fun q hq => ?_
    have hr := h.regular q hq
    have hf := famOf_cell vg hd state conn c q hr
    have := contract_pull (law.stress (mat.x1 c q) _ _ hf hr (h.dom q hq)) (law.symm _ _) vg.nEP
      ((dqFinStrain false vg state conn c q).getD FamData.zero).mtxF (vg.bfGM c q) v
    rw [hf.mtx] at this
    exact this

theorem matrix_form (law : HyperLaw vg.dim sf tf Dom W pk dpk) (hd : 1 ≤ vg.dim ∧ vg.dim ≤ 3) {mat : Fld ℝ} {nEl : ℕ}
    {state : ℕ → ℝ} {conn : ℕ → ℕ → ℕ} {c : ℕ} (h : Admissible vg Dom mat nEl state conn c) :
    ∃ A, heMatrix false sf tf mat nEl vg vg state conn c = some A ∧
      IsForm (vg.dim * vg.nEP) (vg.dim * vg.nEP) vg.nQP (vg.w c) A fun q v u =>
        (dpk (mat.x1 c q) (cellF vg state conn c q)
            (dCG (cellF vg state conn c q) (gradMat vg.dim vg.nEP (vg.G c q) u)) *
          dCG (cellF vg state conn c q) (gradMat vg.dim vg.nEP (vg.G c q) v)).trace / 2 +
        (pk (mat.x1 c q) (cellF vg state conn c q) *
          dCG (gradMat vg.dim vg.nEP (vg.G c q) u) (gradMat vg.dim vg.nEP (vg.G c q) v)).trace / 2 := by
  set fd : ℕ → FamData := fun q => (dqFinStrain false vg state conn c q).getD FamData.zero with hfd
  obtain ⟨A, hA, hA'⟩ := heRtmMatrix_tl hd vg.nEP vg.nQP (vg.bfGM c) (ptr (vg.det c))
    (fun q => sf (mat.x1 c q) vg.dim (fd q)) (fun q => tf (mat.x1 c q) vg.dim (fd q)) (fun q => (fd q).mtxF)
    fun q => (fd q).detF
  refine ⟨A, ?_, fun v u => ?_⟩
  · unfold heMatrix heStress heMatrixWith
    rw [familyData_some vg hd false nEl state conn fun c hc q hq => (h.pos c hc q hq).le]
    exact hA
  · rw [hA']
    refine integ_congr (fun _ _ => rfl) fun q hq => ?_
    have hr := h.regular q hq
    have hf := famOf_cell vg hd state conn c q hr
    have hT := law.tan (mat.x1 c q) _ _ hf hr (h.dom q hq)
    have hS := law.stress (mat.x1 c q) _ _ hf hr (h.dom q hq)
    have e1 := geomForm_eq hS (law.symm _ _) vg.nEP (vg.bfGM c q) v u
    have e2 : ∑ i ∈ range vg.dim, ∑ j ∈ range vg.dim, (∑ k ∈ range vg.dim, ∑ l ∈ range vg.dim,
        tf (mat.x1 c q) vg.dim (fd q) (voigt vg.dim i j) (voigt vg.dim k l) *
          pull vg.dim vg.nEP (fd q).mtxF (vg.bfGM c q) u k l) * pull vg.dim vg.nEP (fd q).mtxF (vg.bfGM c q) v i j =
        (dpk (mat.x1 c q) (cellF vg state conn c q)
            (dCG (cellF vg state conn c q) (gradMat vg.dim vg.nEP (vg.G c q) u)) *
          dCG (cellF vg state conn c q) (gradMat vg.dim vg.nEP (vg.G c q) v)).trace / 2 := by
      rw [dCG_eq _ (gradMat vg.dim vg.nEP (vg.G c q) v), ← sum_contract _ _ (law.dsymm _ _ _ (dCG_symm _ _))]
      rw [Finset.sum_range]
      refine sum_congr rfl fun i _ => ?_
      rw [Finset.sum_range]
      refine sum_congr rfl fun j _ => ?_
      have t := tan_pull hT vg.nEP (fd q).mtxF (vg.bfGM c q) u i j
      have hm : toMat vg.dim (fd q).mtxF = cellF vg state conn c q := hf.mtx
      rw [pull_eq, hm]
      rw [hm] at t
      exact congrArg (· * _) t
    rw [e2, e1]
    rfl

theorem lin_eq_of {n : ℕ} {b : ℕ → ℕ → ℝ} {b' : ℕ → ℝ} (h : ∀ v : ℕ → ℝ, lin n v b = ∑ r ∈ range n, v r * b' r) (r : ℕ)
    (hr : r < n) : b r 0 = b' r := by
  have := h fun s => if s = r then 1 else 0
  simpa [lin, hr] using this

theorem locDofs_line (n nEP : ℕ) (state h : ℕ → ℝ) (conn : ℕ → ℕ) (t : ℝ) :
    locDofs n nEP (fun i => state i + t * h i) conn =
      fun s => locDofs n nEP state conn s + t * locDofs n nEP h conn s := rfl

theorem gradMat_line (nEP : ℕ) (G : ℕ → ℕ → ℝ) (u v : ℕ → ℝ) (t : ℝ) :
    gradMat d nEP G (fun s => u s + t * v s) = gradMat d nEP G u + t • gradMat d nEP G v := by
  ext a i
  simp only [gradMat, Matrix.add_apply, Matrix.smul_apply, smul_eq_mul]
  exact fgrad_add nEP G u v t i a

theorem defGrad_line (nEP : ℕ) (G : ℕ → ℕ → ℝ) (u v : ℕ → ℝ) (t : ℝ) :
    defGrad d nEP G (fun s => u s + t * v s) = defGrad d nEP G u + t • gradMat d nEP G v := by
  rw [defGrad, gradMat_line, defGrad, add_assoc]

theorem cellF_line (state h : ℕ → ℝ) (conn : ℕ → ℕ → ℕ) (c q : ℕ) (t : ℝ) :
    cellF vg (fun i => state i + t * h i) conn c q =
      cellF vg state conn c q + t • gradMat vg.dim vg.nEP (vg.G c q) (locDofs vg.dim vg.nEP h (conn c)) := by
  rw [cellF, locDofs_line, defGrad_line, cellF]

/-- The residual is the first variation of the energy. -/
theorem residual_energy (law : HyperLaw vg.dim sf tf Dom W pk dpk) (hd : 1 ≤ vg.dim ∧ vg.dim ≤ 3) {mat : Fld ℝ} {nEl : ℕ}
    {state : ℕ → ℝ} {conn : ℕ → ℕ → ℕ} {c : ℕ} (h : Admissible vg Dom mat nEl state conn c) :
    ∃ b, heResidual false sf mat nEl vg vg state conn c = some b ∧ ∀ v,
      HasDerivAt (fun t => integ vg.nQP (vg.w c) fun q => W (mat.x1 c q)
        (defGrad vg.dim vg.nEP (vg.G c q) fun s => locDofs vg.dim vg.nEP state (conn c) s + t * v s))
        (lin (vg.dim * vg.nEP) v b) 0 := by
  obtain ⟨b, hb, hb'⟩ := residual_form law hd h
  refine ⟨b, hb, fun v => ?_⟩
  rw [hb']
  refine HasDerivAt.fun_sum fun q hq => ?_
  have hr := h.regular q (mem_range.1 hq)
  have hD := h.dom q (mem_range.1 hq)
  refine HasDerivAt.const_mul _ ?_
  simp only [defGrad_line]
  have key := law.energy (mat.x1 c q) (fun s => cellF vg state conn c q + s • gradMat vg.dim vg.nEP (vg.G c q) v)
    (gradMat vg.dim vg.nEP (vg.G c q) v) 0 (MatDeriv.line _ _ _) (by simpa using hr) (by simpa using hD)
  simp only [zero_smul, add_zero] at key
  exact key

theorem eventually_admissible (law : HyperLaw vg.dim sf tf Dom W pk dpk) (hd : 1 ≤ vg.dim ∧ vg.dim ≤ 3) {mat : Fld ℝ}
    {nEl : ℕ} {state : ℕ → ℝ} {conn : ℕ → ℕ → ℕ} {c : ℕ} (h : Admissible vg Dom mat nEl state conn c) (u : ℕ → ℝ) :
    ∀ᶠ t in 𝓝 (0 : ℝ), Admissible vg Dom mat nEl (fun i => state i + t * u i) conn c := by
  have hdet : ∀ c q, ContinuousAt (fun t : ℝ => (cellF vg (fun i => state i + t * u i) conn c q).det) 0 := by
    intro c q
    simp only [cellF_line]
    exact ((MatDeriv.line (cellF vg state conn c q) _ 0).det hd).continuousAt
  have h0 : ∀ c q, cellF vg (fun i => state i + (0 : ℝ) * u i) conn c q = cellF vg state conn c q := by
    intro c q
    simp
  have h1 : ∀ᶠ t in 𝓝 (0 : ℝ), ∀ c ∈ Set.Iio nEl, ∀ q ∈ Set.Iio vg.nQP,
      0 < (cellF vg (fun i => state i + t * u i) conn c q).det := by
    rw [eventually_all_finite (Set.finite_Iio _)]
    intro c hc
    rw [eventually_all_finite (Set.finite_Iio _)]
    intro q hq
    exact (hdet c q).eventually_const_lt (by beta_reduce; rw [h0]; exact h.pos c hc q hq)
  have h2 : ∀ᶠ t in 𝓝 (0 : ℝ), ∀ q ∈ Set.Iio vg.nQP,
      gemeEps < (cellF vg (fun i => state i + t * u i) conn c q).det ^ 2 := by
    rw [eventually_all_finite (Set.finite_Iio _)]
    intro q hq
    exact ((hdet c q).pow 2).eventually_const_lt (by simp only [Pi.pow_apply]; rw [h0]; exact h.reg q hq)
  have h3 : ∀ᶠ t in 𝓝 (0 : ℝ), ∀ q ∈ Set.Iio vg.nQP,
      Dom (mat.x1 c q) (cellF vg (fun i => state i + t * u i) conn c q) := by
    rw [eventually_all_finite (Set.finite_Iio _)]
    intro q hq
    simp only [cellF_line]
    exact law.near _ _ _ 0 (MatDeriv.line _ _ _) (by simpa using h.regular q hq) (by simpa using h.dom q hq)
  filter_upwards [h1, h2, h3] with t a1 a2 a3
  exact ⟨fun c hc q hq => a1 c hc q hq, fun q hq => a2 q hq, h.cell, fun q hq => a3 q hq⟩

/-- The matrix is the derivative of the residual. -/
theorem matrix_derivative (law : HyperLaw vg.dim sf tf Dom W pk dpk) (hd : 1 ≤ vg.dim ∧ vg.dim ≤ 3) {mat : Fld ℝ}
    {nEl : ℕ} {state : ℕ → ℝ} {conn : ℕ → ℕ → ℕ} {c : ℕ} (h : Admissible vg Dom mat nEl state conn c) :
    ∃ A, heMatrix false sf tf mat nEl vg vg state conn c = some A ∧ ∀ u : ℕ → ℝ, ∃ R : ℝ → ℕ → ℕ → ℝ,
      (∀ᶠ t in 𝓝 0, heResidual false sf mat nEl vg vg (fun i => state i + t * u i) conn c = some (R t)) ∧
      ∀ r < vg.dim * vg.nEP, HasDerivAt (fun t => R t r 0)
        (∑ s ∈ range (vg.dim * vg.nEP), A r s * u (vg.dim * conn c (s % vg.nEP) + s / vg.nEP)) 0 := by
  obtain ⟨A, hA, hform⟩ := matrix_form law hd h
  refine ⟨A, hA, fun u => ?_⟩
  have hev := eventually_admissible law hd h u
  refine ⟨fun t => (heResidual false sf mat nEl vg vg (fun i => state i + t * u i) conn c).getD 0, ?_, fun r hr => ?_⟩
  · filter_upwards [hev] with t ht
    obtain ⟨b, hb, -⟩ := residual_form law hd ht
    rw [hb]
    rfl
  · set v : ℕ → ℝ := fun s => if s = r then 1 else 0 with hv
    have hlin : ∀ b : ℕ → ℕ → ℝ, lin (vg.dim * vg.nEP) v b = b r 0 := by
      intro b
      simp [lin, hv, hr]
    have hbil : bil (vg.dim * vg.nEP) (vg.dim * vg.nEP) v A (locDofs vg.dim vg.nEP u (conn c)) =
        ∑ s ∈ range (vg.dim * vg.nEP), A r s * u (vg.dim * conn c (s % vg.nEP) + s / vg.nEP) := by
      unfold bil
      rw [sum_eq_single r]
      · simp [hv, locDofs]
      · intro s _ hs
        simp [hv, hs]
      · intro hs
        exact absurd (mem_range.2 hr) hs
    rw [← hbil, hform]
    have hfun : (fun t => ((heResidual false sf mat nEl vg vg (fun i => state i + t * u i) conn c).getD 0) r 0) =ᶠ[𝓝 0]
        fun t => integ vg.nQP (vg.w c) fun q => (pk (mat.x1 c q) (cellF vg (fun i => state i + t * u i) conn c q) *
          dCG (cellF vg (fun i => state i + t * u i) conn c q) (gradMat vg.dim vg.nEP (vg.G c q) v)).trace / 2 := by
      filter_upwards [hev] with t ht
      obtain ⟨b, hb, hb'⟩ := residual_form law hd ht
      rw [hb, Option.getD_some, ← hlin b, hb']
    refine HasDerivAt.congr_of_eventuallyEq ?_ hfun
    refine HasDerivAt.fun_sum fun q hq => ?_
    have hr := h.regular q (mem_range.1 hq)
    have hD := h.dom q (mem_range.1 hq)
    refine HasDerivAt.const_mul _ ?_
    simp only [cellF_line]
    set F := cellF vg state conn c q
    set H := gradMat vg.dim vg.nEP (vg.G c q) (locDofs vg.dim vg.nEP u (conn c))
    set V := gradMat vg.dim vg.nEP (vg.G c q) v
    have hF : MatDeriv (fun s => F + s • H) H 0 := MatDeriv.line _ _ _
    have d1 := law.deriv (mat.x1 c q) (fun s => F + s • H) H 0 hF (by simpa using hr) (by simpa using hD)
    have d2 : MatDeriv (fun s => dCG (F + s • H) V) (dCG H V) 0 := by
      have := ((MatDeriv.const Vᵀ 0).mul hF).add (hF.transpose.mul (MatDeriv.const V 0))
      refine this.congr (Eventually.of_forall fun s => rfl) ?_
      simp [dCG]
    have d3 := (d1.mul d2).trace.div_const 2
    refine HasDerivAt.congr_deriv d3 ?_
    simp only [zero_smul, add_zero, trace_add]
    ring

/-- The matrix is symmetric. -/
theorem matrix_symmetric (law : HyperLaw vg.dim sf tf Dom W pk dpk) (hd : 1 ≤ vg.dim ∧ vg.dim ≤ 3) {mat : Fld ℝ}
    {nEl : ℕ} {state : ℕ → ℝ} {conn : ℕ → ℕ → ℕ} {c : ℕ} (h : Admissible vg Dom mat nEl state conn c)
    (A : ℕ → ℕ → ℝ) (hA : heMatrix false sf tf mat nEl vg vg state conn c = some A) (r s : ℕ)
    (hr : r < vg.dim * vg.nEP) (hs : s < vg.dim * vg.nEP) : A r s = A s r := by
  obtain ⟨A', hA', hform⟩ := matrix_form law hd h
  rw [hA] at hA'
  obtain rfl := Option.some.inj hA'
  refine hform.symm ?_ r s hr hs
  intro q hq v u
  have hD := h.dom q hq
  rw [law.adj _ _ _ _ hD]
  congr 2
  have e : ∀ X Y : Matrix (Fin vg.dim) (Fin vg.dim) ℝ, dCG X Y = dCG Y X := by
    intro X Y
    rw [dCG, dCG, add_comm]
  rw [e]

end

end Verif.Term
