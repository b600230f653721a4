/-
Concrete serendipity elements: the hypotheses of the theorems hold for them.
-/
import Verif.Poly.SerRepro
import Verif.Poly.SerContProps
import Verif.Fem.ExamplesField

namespace Verif.Poly.Ser

open Verif.Fem
open Finset

example : Element gel24 2 := ⟨.inl rfl, by simp⟩
example : Element gel38 3 := ⟨.inr rfl, by simp⟩

/-- The quadratic hexahedron has 20 nodes, the cubic one 32. -/
example : nNod 3 2 = 20 ∧ nNod 3 3 = 32 ∧ nNod 2 2 = 8 ∧ nNod 2 3 = 12 := by decide

/-- The node 4 of the quadratic quadrilateral is in the middle of the edge 0-1; its function is one there. -/
example : (nodeCoor gel24 2 4 0 : ℚ) = 1 / 2 ∧ (nodeCoor gel24 2 4 1 : ℚ) = 0 := by decide +kernel

example : val 2 2 (fun d => (nodeCoor gel24 2 4 d : ℚ)) 4 = 1 :=
  C99_serendipity_nodal gel24 2 ⟨.inl rfl, by simp⟩ 4 4 (by decide) (by decide)

/-- The monomial `x² y` has the superlinear degree two: it is in the space of the quadratic quadrilateral. -/
example (x : ℕ → ℚ) : ∑ i ∈ range 8, (nodeCoor gel24 2 i 0 ^ 2 * nodeCoor gel24 2 i 1) * val 2 2 x i = x 0 ^ 2 * x 1 := by
  have := C99_serendipity_reproduces (K := ℚ) gel24 2 ⟨.inl rfl, by simp⟩ [(fun d => if d = 0 then 2 else 1, 1)]
    (by simp [superDegree, gel24, sum_range_succ]) x
  simpa [mono, gel24, prod_range_succ, nNod] using this

/-- The monomial `x² y²` has the superlinear degree four. -/
example : superDegree (fun _ => 2) 2 = 4 ∧ superDegree (fun _ => 1) 2 = 0 := by decide

/-- A point of the common face of two hexahedra, see `Verif.Fem.ExamplesField`: (1, 1/3, 1/4) in the first one and
(1/3, 3/4, 0) in the second one. -/
example (u : ℤ → ℚ) :
    fieldValue (setupGlobalBasis gel38 (nodes gel38 3) 3 hexD).1 u
        (val 3 3 fun d => ([1, 1 / 3, 1 / 4] : List ℚ).getD d 0) 32 0 =
      fieldValue (setupGlobalBasis gel38 (nodes gel38 3) 3 hexD).1 u
        (val 3 3 fun d => ([1 / 3, 3 / 4, 0] : List ℚ).getD d 0) 32 1 := by
  refine C100_serendipity_continuous gel38 3 ⟨.inr rfl, by simp⟩ hexD hexD_ok u 0 1 (by decide) (by decide) _ _ fun v => ?_
  rcases Nat.lt_or_ge v 12 with h | h
  · revert v; decide +kernel
  · rw [meshWeight_zero (n := 12) (by decide) h, meshWeight_zero (n := 12) (by decide) h]

/-- The common face of the two hexahedra has its eight edge DOFs (order 3) shared: the node 8 + 3 of the second cell
is in the place of a node of the first one. -/
example : ∃ k < 32, (setupGlobalBasis gel38 (nodes gel38 3) 3 hexD).1 (0, k) =
    (setupGlobalBasis gel38 (nodes gel38 3) 3 hexD).1 (1, 11) := by decide +kernel

end Verif.Poly.Ser
