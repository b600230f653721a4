/-
Cases for C62: the linear triangle with the vertices (0, 0), (1, 0), (0, 1).
-/
import Verif.Term.PropsElastic3
import Mathlib.Algebra.Field.Rat
import Mathlib.Algebra.Order.Ring.Unbundled.Rat
import Mathlib.Tactic.NormNum

namespace Verif.Term

open Finset

/-- The triangle, one quadrature point. -/
def exTri : Mapping ℚ where
  dim := 2
  nQP := 1
  nEP := 3
  bf := ⟨1, 1, 3, fun _ _ _ _ => 1 / 3⟩
  bfGM := fun _ _ i k => if k = 0 then -1 else if k = i + 1 then 1 else 0
  det := fun _ _ _ _ => 1 / 2
  normal := fun _ _ _ _ => 0
  volume := fun _ _ _ _ => 1 / 2

/-- The isotropic stiffness with `λ = 1`, `μ = 2`. -/
def exStiff : Fld ℚ := ⟨1, 3, 3, fun _ _ r s => 1 * ((if r < 2 then 1 else 0) * (if s < 2 then 1 else 0)) +
  if r = s then 2 * ((if r < 2 then 1 else 0) + 1) else 0⟩

/-- The vertices. -/
def exVert : ℕ → ℕ → ℚ := fun k j => if k = j + 1 then 1 else 0

example : 1 ≤ exTri.dim ∧ exTri.dim ≤ 3 := by decide

example : exStiff.nRow = symOf exTri.dim := by decide

/-- The hypotheses on the strains in C62 hold for any field. -/
example (state : ℕ → ℚ) (conn : ℕ → ℕ → ℕ) : ∃ E : ℕ → Lev ℚ, ∀ c, dqCauchyStrain exTri state conn c = some (E c) :=
  ⟨_, fun c => (C62_strain two_ne_zero exTri (by decide) state conn c).choose_spec.1⟩

/-- The matrix of the cell is not zero. -/
example : ∃ A, dwLinElastic exTri 1 (fun _ _ _ _ => 0) exStiff true 0 = some A ∧ A 1 1 = 5 / 2 := by
  refine ⟨_, rfl, ?_⟩
  norm_num [exTri, exStiff, mulC, sumLev, ptr, Fld.x1]

/-- The hypotheses of `C62_elastic_symmetric`, `C62_elastic_rigid` and `C62_elastic_psd` hold. -/
example : ∀ q < exTri.nQP, ∀ r < symOf exTri.dim, ∀ s < symOf exTri.dim, exStiff.at 0 q r s = exStiff.at 0 q s r := by
  have h : symOf exTri.dim = 3 := by decide
  rw [h]
  intro q _ r hr s hs
  interval_cases r <;> interval_cases s <;> norm_num [exStiff, Fld.at]

example : (∀ q < exTri.nQP, ∀ i < exTri.dim, ∑ k ∈ range exTri.nEP, exTri.G 0 q i k = 0) ∧
    ∀ q < exTri.nQP, ∀ i < exTri.dim, ∀ j < exTri.dim,
      ∑ k ∈ range exTri.nEP, exTri.G 0 q i k * exVert k j = if i = j then 1 else 0 := by
  have hd : exTri.dim = 2 := rfl
  have hn : exTri.nEP = 3 := rfl
  rw [hd, hn]
  constructor
  · intro q _ i hi
    interval_cases i <;> norm_num [exTri, Mapping.G, sum_range_succ]
  · intro q _ i hi j hj
    interval_cases i <;> interval_cases j <;> norm_num [exTri, Mapping.G, exVert, sum_range_succ]

example : ∀ q < exTri.nQP, ∀ e : ℕ → ℕ → ℚ, (∀ i j, e i j = e j i) → 0 ≤ tensorForm exTri.dim (exStiff.at 0 q) e e := by
  intro q _ e he
  have h := C62_isotropic 2 (by decide) (1 : ℚ) 2 e e he he
  have e1 : tensorForm exTri.dim (exStiff.at 0 q) e e = tensorForm 2 (fun r s => 1 * ((if r < 2 then 1 else 0) *
    (if s < 2 then 1 else 0)) + if r = s then 2 * ((if r < 2 then 1 else 0) + 1) else 0) e e := rfl
  rw [e1, h]
  simp only [sum_range_succ, sum_range_zero]
  nlinarith [sq_nonneg (e 0 0 + e 1 1), sq_nonneg (e 0 0), sq_nonneg (e 1 1), sq_nonneg (e 0 1), sq_nonneg (e 1 0)]

/-- The hypothesis of `C62_isotropic_stress` holds for any tensor. -/
example (e : ℕ → ℕ → ℚ) (he : e 0 1 = e 1 0) : ∃ st : ℕ → ℚ, ∀ i < 2, ∀ j < 2,
    st (voigt 2 i j) = (if i = j then 1 else 2) * e i j := by
  refine ⟨fun r => if r = 2 then 2 * e 0 1 else e r r, fun i hi j hj => ?_⟩
  interval_cases i <;> interval_cases j <;> simp [voigt, he]

/-- The materials of C62_prestress, C62_prestress_matrix, C62_strain_fib. -/
example : (⟨1, 3, 1, fun _ _ r _ => r⟩ : Fld ℚ).nRow = symOf exTri.dim ∧
    (⟨1, 2, 2, fun _ _ r s => r + 3 * s⟩ : Fld ℚ).nCol = exTri.dim := by decide

/-- `dw_lin_strain_fib` is not the documented `∫ D_ijkl e_ij(v) d_k d_l`: the off-diagonal products `d_k d_l` are
taken once only. -/
theorem C62_strain_fib_off_diagonal : ∃ (vg : Mapping ℚ) (D d : Fld ℚ) (b : ℕ → ℕ → ℚ), d.nRow = vg.dim ∧ vg.dim = 2 ∧
    dwLinStrainFib vg D (fibOmega d) 0 = some b ∧
    ¬ IsLin (vg.dim * vg.nEP) vg.nQP (vg.w 0) b fun q v =>
      tensorForm vg.dim (D.at 0 q) (strain vg.nEP (vg.G 0 q) v) fun k l => d.at 0 q k 0 * d.at 0 q l 0 := by
  obtain ⟨b, hb, hl⟩ := C62_strain_fib two_ne_zero exTri (by decide) exStiff
    ⟨1, 2, 1, fun _ _ _ _ => 1⟩ rfl 0
  refine ⟨exTri, exStiff, ⟨1, 2, 1, fun _ _ _ _ => 1⟩, b, rfl, rfl, hb, fun h => ?_⟩
  have h1 := (hl fun r => if r = 2 then 1 else 0).symm.trans (h fun r => if r = 2 then 1 else 0)
  revert h1
  norm_num [integ, tensorForm, strain, fgrad, exTri, exStiff, Mapping.w, Mapping.G, Fld.at, sum_range_succ, voigt]

/-- `dw_lin_strain_fib` is right for a direction along an axis. -/
theorem C62_strain_fib_axis {K : Type} [Field K] (h2 : (2 : K) ≠ 0) (vg : Mapping K) (hd : 1 ≤ vg.dim ∧ vg.dim ≤ 3)
    (D d : Fld K) (hn : d.nRow = vg.dim) (c : ℕ)
    (hax : ∀ q < vg.nQP, ∀ k < vg.dim, ∀ l < vg.dim, k ≠ l → d.at c q k 0 * d.at c q l 0 = 0) :
    ∃ b, dwLinStrainFib vg D (fibOmega d) c = some b ∧
      IsLin (vg.dim * vg.nEP) vg.nQP (vg.w c) b fun q v =>
        tensorForm vg.dim (D.at c q) (strain vg.nEP (vg.G c q) v) fun k l => d.at c q k 0 * d.at c q l 0 := by
  obtain ⟨b, hb, hl⟩ := C62_strain_fib h2 vg hd D d hn c
  refine ⟨b, hb, fun v => (hl v).trans ?_⟩
  refine integ_congr (fun _ _ => rfl) fun q hq => ?_
  unfold tensorForm
  refine sum_congr rfl fun i _ => sum_congr rfl fun j _ => ?_
  rw [mul_sum]
  refine sum_congr rfl fun k hk => ?_
  rw [mul_sum]
  refine sum_congr rfl fun l hl => ?_
  by_cases hkl : k = l
  · subst hkl
    rw [if_pos le_rfl]
    ring
  · have z := hax q hq k (mem_range.1 hk) l (mem_range.1 hl) hkl
    beta_reduce
    rw [z, mul_assoc (D.at c q _ _), z]
    simp

example : ∀ k < 2, ∀ l < 2, k ≠ l →
    (⟨1, 2, 1, fun _ _ r _ => if r = 0 then 1 else 0⟩ : Fld ℚ).at 0 0 k 0 *
      (⟨1, 2, 1, fun _ _ r _ => if r = 0 then 1 else 0⟩ : Fld ℚ).at 0 0 l 0 = 0 := by
  intro k hk l hl
  interval_cases k <;> interval_cases l <;> simp [Fld.at]

end Verif.Term
