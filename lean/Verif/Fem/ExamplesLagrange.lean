/-
The reference elements of sfepy meet the hypotheses of the theorems on the Lagrange bases; what does not hold
for the bases with a bubble.
-/
import Verif.Fem.PropsBubble
import Mathlib.Tactic.FinCases

namespace Verif.Fem

open Finset

section
variable {K : Type} [Field K]

/-- The coordinates of the vertices of the reference simplices
(sfepy/discrete/fem/geometry_element.py:108-129, 147-165): the origin and the unit vectors. -/
def refCoors (i r : ℕ) : K := if i = r + 1 then 1 else 0

/-- The inverse matrix for the reference simplices. -/
def refMtxI (nV i r : ℕ) : K :=
  if i = 0 then (if r < nV - 1 then -1 else 1) else if i = r + 1 then 1 else 0

theorem C56_reference_simplices (g : Gel) (hg : IsSimplex g) : IsRefInv g.nV (refCoors : ℕ → ℕ → K) (refMtxI g.nV) := by
  rcases hg with rfl | rfl | rfl
  · refine ⟨by decide, fun i j hi hj => ?_, fun r s hr hs => ?_, fun s hs => ?_⟩
    · simp only [gel12] at hi hj ⊢
      interval_cases i <;> interval_cases j <;> simp [sum_range_succ, refCoors, refMtxI]
    · simp only [gel12] at hr hs ⊢
      interval_cases r <;> interval_cases s <;> simp [sum_range_succ, refCoors, refMtxI]
    · simp only [gel12] at hs ⊢
      interval_cases s <;> simp [sum_range_succ, refMtxI]
  · refine ⟨by decide, fun i j hi hj => ?_, fun r s hr hs => ?_, fun s hs => ?_⟩
    · simp only [gel23] at hi hj ⊢
      interval_cases i <;> interval_cases j <;> simp [sum_range_succ, refCoors, refMtxI]
    · simp only [gel23] at hr hs ⊢
      interval_cases r <;> interval_cases s <;> simp [sum_range_succ, refCoors, refMtxI]
    · simp only [gel23] at hs ⊢
      interval_cases s <;> simp [sum_range_succ, refMtxI]
  · refine ⟨by decide, fun i j hi hj => ?_, fun r s hr hs => ?_, fun s hs => ?_⟩
    · simp only [gel34] at hi hj ⊢
      interval_cases i <;> interval_cases j <;> simp [sum_range_succ, refCoors, refMtxI]
    · simp only [gel34] at hr hs ⊢
      interval_cases r <;> interval_cases s <;> simp [sum_range_succ, refCoors, refMtxI]
    · simp only [gel34] at hs ⊢
      interval_cases s <;> simp [sum_range_succ, refMtxI]

/-- The segment `[0, 1]` of the tensor product elements. -/
theorem C56_reference_segment : IsRefInv 2 (ends (0 : K) 1) (refMtxI 2) := by
  refine ⟨by decide, fun i j hi hj => ?_, fun r s hr hs => ?_, fun s hs => ?_⟩
  · interval_cases i <;> interval_cases j <;> simp [sum_range_succ, ends, refMtxI]
  · interval_cases r <;> interval_cases s <;> simp [sum_range_succ, ends, refMtxI]
  · interval_cases s <;> simp [sum_range_succ, refMtxI]

end

/-- A point inside of the tetrahedron. -/
example : Clean 4 (refMtxI 4 : ℕ → ℕ → ℚ) 0 true fun _ => 1 / 4 := by
  intro i hi
  interval_cases i <;> norm_num [baryVal, refMtxI, List.range_succ]

/-- The cubic functions of a segment in 1/2. -/
example : evalSimplex 2 3 (refMtxI 2 : ℕ → ℕ → ℚ) 0 true (simplexNodes gel12 3) (fun _ => 1 / 2) =
    some [-1 / 16, -1 / 16, 9 / 16, 9 / 16] := by
  decide +kernel

/-- The bilinear functions in (1/4, 1/2). -/
example : evalTensor 2 1 (refMtxI 2 : ℕ → ℕ → ℚ) 0 true (tensorNodes gel24 1) (fun d => if d = 0 then 1 / 4 else 1 / 2) =
    some [3 / 8, 1 / 8, 1 / 8, 3 / 8] := by
  decide +kernel

/-- Order 2 with a bubble in a triangle: in the center, where the bubble is one, the other functions are not
zero, so that the DOFs are not the nodal values. -/
theorem C56_bubble_order2_not_nodal :
    evalSimplexB 3 2 (refMtxI 3 : ℕ → ℕ → ℚ) 0 true (simplexBNodes gel23 2) (centerCoor 3 refCoors) =
      some [-5 / 18, -5 / 18, -5 / 18, 5 / 18, 5 / 18, 5 / 18, 1] := by
  decide +kernel

/-- Order 1 with a bubble in a triangle: nodal. -/
example : evalSimplexB 3 1 (refMtxI 3 : ℕ → ℕ → ℚ) 0 true (simplexBNodes gel23 1) (centerCoor 3 refCoors) =
    some [0, 0, 0, 1] := by
  decide +kernel

/-- The second derivatives with a bubble: `_eval_hessian()` of `LagrangeSimplexPolySpace` is inherited and
takes the bubble for a function of the order of the space.  In the vertex (0, 0) of the triangle the derivative
of the gradient item 0 of the bubble with respect to the coordinate 1 is 27, the computed value is 1. -/
theorem C56_bubble_hessian_wrong :
    HasDerivAt (fun t => bGrad 3 1 4 (rowAt (simplexBNodes gel23 1)) (refMtxI 3)
      (baryVal 3 (refMtxI 3 : ℕ → ℕ → ℝ) (Function.update (fun _ => 0) 1 t)) 3 0) 27 0 ∧
    lagHess 3 1 (refMtxI 3 : ℕ → ℕ → ℝ) (baryVal 3 (refMtxI 3) fun _ => 0) (rowAt (simplexBNodes gel23 1) 3) 0 1 = 1 := by
  have hrow : rowAt (simplexBNodes gel23 1) 3 = fun i => if i < 3 then 1 else 0 := by
    have h1 : (simplexNodes gel23 1).length = 3 := by rw [(shape23 1).length]; rfl
    have h2 := rowB_last gel23 1
    rw [h1] at h2
    exact h2
  constructor
  · have h := C56_simplex_hessian 3 3 (refMtxI 3) (fun _ => 0) (fun i => if i < 3 then 1 else 0) 0 1 (by norm_num)
    have e : (fun t => bGrad 3 1 4 (rowAt (simplexBNodes gel23 1)) (refMtxI 3)
        (baryVal 3 (refMtxI 3 : ℕ → ℕ → ℝ) (Function.update (fun _ => 0) 1 t)) 3 0) =
        fun t => lagGrad 3 3 (refMtxI 3) (baryVal 3 (refMtxI 3) (Function.update (fun _ => 0) 1 t))
          (fun i => if i < 3 then 1 else 0) 0 := by
      funext t
      simp [bGrad, bubbleGrad, hrow, List.range_succ]
    rw [e]
    refine h.congr_deriv ?_
    norm_num [lagHess, hessItem, hessVal, hessDer, baryVal, refMtxI, List.range_succ]
  · rw [hrow]
    norm_num [lagHess, hessItem, hessVal, hessDer, baryVal, refMtxI, List.range_succ]

end Verif.Fem
