/-
Cases for C61: an interval of two cells of lengths 1 and 2, linear elements, one quadrature point.
-/
import Verif.Term.PropsDot
import Mathlib.Algebra.Field.Rat
import Mathlib.Algebra.Order.Ring.Unbundled.Rat
import Mathlib.Tactic.NormNum

namespace Verif.Term

open Finset

/-- Two linear elements of the lengths 1, 2. -/
def exM : Mapping ℚ where
  dim := 1
  nQP := 1
  nEP := 2
  bf := ⟨1, 1, 2, fun _ _ _ _ => 1 / 2⟩
  bfGM := fun c _ _ k => (if k = 0 then -1 else 1) / (c + 1)
  det := fun c _ _ _ => c + 1
  normal := fun _ _ _ _ => 1
  volume := fun c _ _ _ => c + 1

/-- A coefficient: 3 in the first cell, 5 in the second one. -/
def exCoef : Fld ℚ := ⟨2, 1, 1, fun c _ _ _ => if c = 0 then 3 else 5⟩

def exConn : ℕ → ℕ → ℕ := fun c k => c + k

/-- The hypotheses of the theorems on `dw_laplace` hold, with a nonzero matrix. -/
example : ∃ A, dwLaplace exM exCoef (fun _ _ _ _ => 0) true 1 = some A ∧ A 0 0 = 5 / 2 ∧ A 0 1 = -5 / 2 := by
  refine ⟨_, rfl, ?_, ?_⟩ <;> norm_num [sumLev, mulF, ptr, Fld.x1, exM, exCoef]

example : ∀ q < exM.nQP, ∀ i < exM.dim, ∑ k ∈ range exM.nEP, exM.G 1 q i k = 0 := by
  intro q _ i _
  norm_num [exM, Mapping.G, sum_range_succ]

example : (∀ q < exM.nQP, 0 ≤ exM.w 1 q) ∧ ∀ q < exM.nQP, 0 ≤ exCoef.at 1 q 0 0 := by
  constructor <;> intro q _ <;> norm_num [exM, exCoef, Mapping.w, Fld.at]

example : (∀ q < exM.nQP, ∑ k ∈ range exM.nEP, exM.phi 1 q k = 1) ∧ exCoef.nCol = 1 := by
  refine ⟨fun q _ => ?_, rfl⟩
  norm_num [exM, Mapping.phi, Fld.at, sum_range_succ]

/-- The hypothesis of `C61_convect_v_grad_s_uniform` holds for the cell itself. -/
example : ∀ q < exM.nQP, exM.w 1 q = exM.w 1 q := fun _ _ => rfl

/-- `dw_convect_v_grad_s` is wrong in cells of a different size: with the mapping left at the cell 0, the value in the
cell 1 is not `∫ q (u · ∇p)`. -/
theorem C61_convect_v_grad_s_wrong_cell : ∃ (vg : Mapping ℚ) (su sp : ℕ → ℚ) (conn : ℕ → ℕ → ℕ),
    ¬ IsLin vg.nEP vg.nQP (vg.w 1)
      (dwConvectVGradS 0 vg vg (dqState vg.dim vg.nEP vg.bf su conn) (dqGrad 1 vg sp conn) 0 1)
      fun q v => fval vg.nEP (vg.phi 1 q) v 0 * ∑ a ∈ range vg.dim,
        fval vg.nEP (vg.phi 1 q) (locDofs vg.dim vg.nEP su (conn 1)) a *
          fgrad vg.nEP (vg.G 1 q) (locDofs 1 vg.nEP sp (conn 1)) a 0 := by
  refine ⟨exM, fun _ => 1, fun i => i, exConn, fun h => ?_⟩
  have := h (fun r => if r = 0 then 1 else 0)
  norm_num [lin, integ, dwConvectVGradS, exM, exConn, dqState, dqGrad, Fld.x1, sumLev, mulATB, mulABn1, bfAct, extractDBD,
    extractNBN, fval, fgrad, locDofs, Mapping.w, Mapping.phi, Mapping.G, Fld.at, ptr, sum_range_succ] at this

/-- `dw_electric_source` with a coefficient that is not constant in a cell is not `∫ c s (∇φ)²`. -/
theorem C61_electric_source_first_qp : ∃ (vg : Mapping ℚ) (coef : Fld ℚ) (state : ℕ → ℚ) (conn : ℕ → ℕ → ℕ),
    ¬ IsLin vg.nEP vg.nQP (vg.w 0) (dwElectricSource vg coef (dqGrad 1 vg state conn) 0)
      fun q v => coef.at 0 q 0 0 * (fval vg.nEP (vg.phi 0 q) v 0 *
        gradGrad vg.dim vg 0 q (locDofs 1 vg.nEP state (conn 0)) (locDofs 1 vg.nEP state (conn 0))) := by
  refine ⟨{ exM with nQP := 2 }, ⟨1, 1, 1, fun _ q _ _ => q⟩, fun i => i, exConn, fun h => ?_⟩
  have := h (fun r => if r = 0 then 1 else 0)
  norm_num [lin, integ, dwElectricSource, exM, exConn, dqGrad, Fld.x1, sumLev, mulATB, mulABn1, gradGrad, mulC,
    extractNBN, fval, fgrad, locDofs, Mapping.w, Mapping.phi, Mapping.G, Fld.at, ptr, sum_range_succ] at this

end Verif.Term
