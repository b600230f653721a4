/-
Concrete hierarchical elements: the hypotheses of the theorems hold for them.
-/
import Verif.Poly.LobField
import Verif.Fem.ExamplesField

namespace Verif.Poly.Lob

open Verif.Fem
open Finset

/-- The derivative of the function of the order 7 in a point. -/
example : HasDerivAt (lob 7) (dLob 7 (1 / 3)) (1 / 3) := C101_lobatto_derivative 7 (by decide) _

/-- The function of the order two is `√6 / 4 * (x² - 1)`. -/
example : lob 2 0 = -(√6 / 4) := by
  have := lob_at 2 (.c 0) (.mul (.c (-1 / 4)) (.v 3)) (by decide +kernel) 0
  simp [PE.eval, env, lobattoRad] at this
  rw [this]
  ring

/-- The cubic hexahedron has 64 nodes; a node of its face 1 and the swapped node. -/
example : (nodes gel38 3).length = 64 ∧ (List.range 3).map (rowAt (nodes gel38 3) (8 + 24 + 4 + 1)) = [0, 3, 2] ∧
    (List.range 3).map (rowAt (sfnodes gel38 3) (4 + 1)) = [0, 2, 3] := by decide +kernel

/-- The gradient in an element of the unit size, and a wrong factor in a smaller one: the derivative of
`lobatto[1](xi)` with `cmin = 0`, `cmax = 1/2` is 2, the returned value is 1. -/
example : evalTPGrad 1 (fun _ => 1) 0 (1 / 2) (fun _ => 0) 0 = 1 := by
  have : ∀ x, dLob 1 x = 1 / 2 := fun x => by
    rw [dLob, PE.eval_eq_of_same (K := ℝ) (a := dLobattoTab.getD 1 (.c 0)) (b := .c (1 / 2)) (by decide +kernel)]
    simp [PE.eval]
  simp [evalTPGrad, this]

example : HasDerivAt (fun t => evalTP 1 (fun _ => 1) 0 (1 / 2) (fun _ => t)) 2 0 := by
  have e : (fun t => evalTP 1 (fun _ => 1) 0 (1 / 2) (fun _ => t)) = fun t => 2 * t := by
    funext t
    simp only [evalTP, prod_range_one, (C101_lobatto_linear _).2, xi]
    ring
  rw [e]
  simpa using (hasDerivAt_id (0 : ℝ)).const_mul 2

/-- A point of the common face of two hexahedra, see `Verif.Fem.ExamplesField`: (1, 1/3, 1/4) in the first one and
(1/3, 3/4, 0) in the second one, the order 5. -/
example (u : ℤ → ℝ) :
    fieldValue (setupGlobalBasis gel38 5 hexD).1 u (fun k => orientedVal gel38 5 ((setupGlobalBasis gel38 5 hexD).2.1 (0, k)) k
        fun d => (([1, 1 / 3, 1 / 4] : List ℚ).getD d 0 : ℝ)) 216 0 =
      fieldValue (setupGlobalBasis gel38 5 hexD).1 u (fun k => orientedVal gel38 5 ((setupGlobalBasis gel38 5 hexD).2.1 (1, k)) k
        fun d => (([1 / 3, 3 / 4, 0] : List ℚ).getD d 0 : ℝ)) 216 1 := by
  refine C103_lobatto_continuous gel38 (.inr rfl) 5 (by decide) hexD hexD_ok u 0 1 (by decide) (by decide) _ _ fun v => ?_
  have cast : ∀ (c : ℕ → ℕ) (x : ℕ → ℚ), (meshWeight 8 c (tensorWeight 3 fun i j => if j = 0 then 1 - (x i : ℝ) else (x i : ℝ)) v) =
      ((meshWeight 8 c (tensorWeight 3 fun i j => if j = 0 then 1 - x i else x i) v : ℚ) : ℝ) := by
    intro c x
    simp only [meshWeight, tensorWeight, Rat.cast_sum, apply_ite (Rat.cast : ℚ → ℝ), Rat.cast_prod, Rat.cast_zero]
    refine sum_congr rfl fun i _ => ?_
    congr 1
    refine prod_congr rfl fun k _ => ?_
    congr 1
    push_cast
    rfl
  have c1 := cast (hexD.conn (hexD.cells.getD 0 0)) (fun d => ([1, 1 / 3, 1 / 4] : List ℚ).getD d 0)
  have c2 := cast (hexD.conn (hexD.cells.getD 1 0)) (fun d => ([1 / 3, 3 / 4, 0] : List ℚ).getD d 0)
  refine c1.trans (Eq.trans ?_ c2.symm)
  congr 1
  rcases Nat.lt_or_ge v 12 with h | h
  · clear c1 c2 cast; revert v; decide +kernel
  · rw [meshWeight_zero (n := 12) (by decide) h, meshWeight_zero (n := 12) (by decide) h]

/-- The orientation items of the two cells on the common face are not trivial: an item of the first one is positive. -/
example : ∃ k < 64, (setupGlobalBasis gel38 3 hexD).2.1 (0, k) ≠ 0 ∧ (setupGlobalBasis gel38 3 hexD).2.1 (0, k) ≠ 1 := by
  decide +kernel

/-- The number of the DOFs of the two cells, the order 3: 12 vertices, 20 edges, 11 faces. -/
example : (setupGlobalBasis gel38 3 hexD).2.2 = 12 + 2 * 20 + 4 * 11 + 8 * 2 := by decide +kernel

example : MeshOk gel38 hexD := hexD_ok

end Verif.Poly.Lob
