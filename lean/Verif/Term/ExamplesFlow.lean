/-
Cases for C63: the linear triangle with a constant pressure, materials which are not symmetric, and the cases where
the documented formulas do not hold.
-/
import Verif.Term.PropsCoupling
import Verif.Term.ExamplesElastic

namespace Verif.Term

open Finset

/-- The constant pressure on the triangle. -/
def exP0 : Mapping ℚ where
  dim := 2
  nQP := 1
  nEP := 1
  bf := ⟨1, 1, 1, fun _ _ _ _ => 1⟩
  bfGM := fun _ _ _ _ => 0
  det := fun _ _ _ _ => 1 / 2
  normal := fun _ _ _ _ => 0
  volume := fun _ _ _ _ => 1 / 2

def exOneF : Fld ℚ := ⟨1, 1, 1, fun _ _ _ _ => 3⟩

/-- A velocity: `u = (x, x + 2 y)` in the vertices `0`, `1`, `2`. -/
def exVel : ℕ → ℚ := fun i => if i = 2 ∨ i = 3 then 1 else if i = 5 then 2 else 0

def exConnF : ℕ → ℕ → ℕ := fun _ k => k

example : ∃ A, dwDivGrad exTri exTri exOneF (fun _ _ _ _ => 0) true 0 = some A ∧ A 0 0 = 3 ∧ A 3 3 = 3 ∧ A 0 3 = 0 := by
  refine ⟨_, rfl, ?_, ?_, ?_⟩ <;> norm_num [exTri, exOneF, sumLev, mulF, ptr, Fld.x1, blockAt]

/-- The matrix of the convection is not zero, not symmetric. -/
example : ∃ A, dwConvect exTri (gradT (dqGrad 2 exTri exVel exConnF)) (dqState 2 3 exTri.bf exVel exConnF) true 0 = some A ∧
    A 0 1 = 1 / 9 ∧ A 1 0 = -1 / 6 ∧ A 3 0 = 1 / 18 := by
  refine ⟨_, rfl, ?_, ?_, ?_⟩ <;>
    norm_num [exTri, exVel, exConnF, sumLev, addAB, bfActt, bfRact, gradT, dqGrad, dqState, mulABn1, bfAct, extractNBN,
      extractDBD, ptr, Fld.x1, sum_range_succ]

example : dwGrad exP0 exTri exOneF (fun _ _ _ _ => 0) true 0 1 0 = 3 / 2 := by
  norm_num [dwGrad, exTri, exP0, exOneF, sumLev, mulF, mulATB, pretend, ptr, Fld.x1]

/-- A material of `dw_biot` which is not symmetric; the hypotheses of `C63_biot_nonsym` hold. -/
def exAlpha : Fld ℚ := ⟨1, 2, 2, fun _ _ i j => 1 + 2 * i + j⟩

example : (exTri.dim = 2 ∨ exTri.dim = 3) ∧ exAlpha.nRow = exTri.dim ∧ exAlpha.nCol = exTri.dim := by decide

example : ∃ A, dwBiotGrad exP0 exTri 1 (fun _ _ _ _ => 0) (biotMat exAlpha) true 0 = some A ∧ A 2 0 = 1 := by
  refine ⟨_, rfl, ?_⟩
  norm_num [exTri, exP0, exAlpha, mulC, sumLev, mulAB, ptr, Fld.x1, biotMat]

/-- The material in the symmetric storage. -/
def exAlphaS : Fld ℚ := ⟨1, 3, 1, fun _ _ r _ => r + 1⟩

example : exAlphaS.nRow = symOf exTri.dim := by decide

example : ∃ A, dwBiotGrad exP0 exTri 1 (fun _ _ _ _ => 0) exAlphaS true 0 = some A ∧ A 2 0 = 3 / 2 := by
  refine ⟨_, rfl, ?_⟩
  norm_num [exTri, exP0, exAlphaS, mulC, sumLev, mulAB, ptr, Fld.x1]

/-- The piezoelectric material. -/
def exPiezo : Fld ℚ := ⟨1, 2, 3, fun _ _ k s => 3 * k + s + 1⟩

example : ∃ A, dwPiezo exTri (fun _ _ _ _ => 0) (fun _ _ _ _ => 0) exPiezo 1 0 = some A ∧ A 1 2 = 2 := by
  refine ⟨_, rfl, ?_⟩
  norm_num [exTri, exPiezo, sumLevT, mulATB, ptr, Fld.x1, sum_range_succ]

/-- A hierarchical basis of the potential on the same cell: the gradients are different, so the assumption on the
bases in `C63_piezo_matrix` cannot be omitted. -/
def exTriH : Mapping ℚ := { exTri with bfGM := fun _ _ i k => if k = 0 then 0 else if k = i + 1 then 1 else 0 }

/-- `dw_piezo_coupling` uses the gradients of the displacement for the potential: for another basis of the potential
the matrix is not the one of the documented form. -/
theorem C63_piezo_matrix_counterexample :
    ∃ A, dwPiezo exTri (fun _ _ _ _ => 0) (fun _ _ _ _ => 0) exPiezo 1 0 = some A ∧
      ¬ IsForm (exTri.dim * exTri.nEP) exTriH.nEP exTri.nQP (exTri.w 0) A fun q v p =>
        piezoForm exTri exTriH exPiezo 0 q v p := by
  refine ⟨_, rfl, fun h => ?_⟩
  have := h (Pi.single 1 1) (Pi.single 0 1)
  rw [bil_single (by decide) (by decide)] at this
  norm_num [exTri, exTriH, exPiezo, sumLevT, mulATB, ptr, Fld.x1, integ, piezoForm, fgrad, Mapping.G, Mapping.w,
    sum_range_succ, Pi.single_apply, strain] at this

/-- A face with the normal `(1, 0)`. -/
def exFace : Mapping ℚ where
  dim := 2
  nQP := 1
  nEP := 2
  bf := ⟨1, 1, 2, fun _ _ _ _ => 1 / 2⟩
  bfGM := fun _ _ _ _ => 0
  det := fun _ _ _ _ => 1
  normal := fun _ _ i _ => if i = 0 then 1 else 0
  volume := fun _ _ _ _ => 1

/-- The stress in the symmetric storage is a case of `IsTraction`; the result is not zero. -/
example : IsTraction exFace 0 (some exAlphaS) (fun q i => ∑ j ∈ range 2, exAlphaS.at 0 q (voigt 2 i j) 0 * exFace.n 0 q j) ∧
    ∃ b, dwSurfaceLtr exFace (some exAlphaS) 0 = some b ∧ b 2 0 = 3 / 2 := by
  refine ⟨IsTraction.stress exAlphaS (by decide) (by decide), _, rfl, ?_⟩
  norm_num [exFace, exAlphaS, sumLev, bfActt, mulAVSB3, avsTab, ptr, Fld.x1, sum_range_succ]

/-- The documentation of `dw_surface_ltr` says `v · σ · n`; the evaluation with a `(D, D)` material gives
`v · σᵀ · n`. -/
theorem C63_traction_eval_tensor_counterexample :
    ∃ b, dSurfaceLtr exFace (some exAlpha) (dqState 2 2 exFace.bf (fun i => if i = 1 ∨ i = 3 then 1 else 0) exConnF) 0 =
        some b ∧
      b 0 0 ≠ integ exFace.nQP (exFace.w 0) fun q => ∑ i ∈ range 2, (∑ j ∈ range 2, exAlpha.at 0 q i j * exFace.n 0 q j) *
        fval 2 (exFace.phi 0 q) (locDofs 2 2 (fun i => if i = 1 ∨ i = 3 then 1 else 0) (exConnF 0)) i := by
  refine ⟨_, rfl, ?_⟩
  norm_num [exFace, exAlpha, exConnF, sumLev, mulATB, dqState, bfAct, extractDBD, ptr, Fld.x1, sum_range_succ, integ,
    Mapping.w, Mapping.phi, Mapping.n, fval, locDofs, Fld.at]

/-- `dw_surface_ltr` in 1D: a `(D, 1)` material is taken as a pressure, the sign of the normal is applied. -/
theorem C63_traction_1d_counterexample :
    let sg : Mapping ℚ := { exFace with dim := 1, nEP := 1, bf := ⟨1, 1, 1, fun _ _ _ _ => 1⟩, normal := fun _ _ _ _ => -1 }
    let t : Fld ℚ := ⟨1, 1, 1, fun _ _ _ _ => 5⟩
    t.nRow = sg.dim ∧ ∃ b, dwSurfaceLtr sg (some t) 0 = some b ∧ b 0 0 = -5 := by
  refine ⟨rfl, _, rfl, ?_⟩
  norm_num [exFace, sumLev, bfActt, mulAB, ptr, Fld.x1]

/-- `divgrad_build_gtg` for different numbers of the basis functions: the second block starts at a wrong column. -/
theorem C63_div_grad_blocks_counterexample :
    ∃ o, divgradGtg 2 1 2 (fun _ _ _ => (1 : ℚ)) (fun _ _ _ => 1) = some o ∧ o 0 1 3 = 0 := by
  refine ⟨_, rfl, ?_⟩
  norm_num [blockAt]

end Verif.Term
