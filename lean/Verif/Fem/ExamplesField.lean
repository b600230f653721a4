/-
Concrete points common to two cells, for the continuity of the fields.
-/
import Verif.Fem.PropsContTensor
import Verif.Fem.PropsContinuous
import Verif.Fem.Examples
import Mathlib.Tactic.NormNum
import Mathlib.Tactic.IntervalCases

namespace Verif.Fem

open Finset

theorem meshWeight_zero {nV : ℕ} {conn : ℕ → ℕ} {n v : ℕ} (h : ∀ i < nV, conn i < n) (hv : n ≤ v) (w : ℕ → ℚ) :
    meshWeight nV conn w v = 0 :=
  sum_eq_zero fun i hi => if_neg (by have := h i (mem_range.1 hi); omega)

/-- The third of the common edge of the two triangles: the fields of any order have there one value. -/
example (o : ℕ) (ho : 1 ≤ o) (u : ℤ → ℚ) :
    fieldValue (setupGlobalBasis gel23 (simplexNodes gel23 o) o triD).1 u
        (fun k => lagVal 3 o (fun i => if i = 1 then 1 / 3 else if i = 2 then 2 / 3 else 0) (rowAt (simplexNodes gel23 o) k))
        (simplexNodes gel23 o).length 0 =
      fieldValue (setupGlobalBasis gel23 (simplexNodes gel23 o) o triD).1 u
        (fun k => lagVal 3 o (fun i => if i = 1 then 1 / 3 else if i = 0 then 2 / 3 else 0) (rowAt (simplexNodes gel23 o) k))
        (simplexNodes gel23 o).length 1 := by
  refine C57_continuous_simplex gel23 (Or.inr (Or.inl rfl)) o ho triD triD_ok u 0 1 (by decide) (by decide) _ _ fun v => ?_
  rcases Nat.lt_or_ge v 4 with h | h
  · interval_cases v <;> norm_num [meshWeight, sum_range_succ, gel23, triD]
  · rw [meshWeight_zero (n := 4) (by decide) h, meshWeight_zero (n := 4) (by decide) h]

/-- A point of the common face of the two hexahedra, (1, 1/3, 1/4) in the first and (1/3, 3/4, 0) in the second
one: the fields of any order have there one value. -/
example (o : ℕ) (ho : 1 ≤ o) (u : ℤ → ℚ) :
    fieldValue (setupGlobalBasis gel38 (tensorNodes gel38 o) o hexD).1 u
        (fun k => tenVal 3 o (fun d i => (([[0, 1], [2 / 3, 1 / 3], [3 / 4, 1 / 4]] : List (List ℚ)).getD d []).getD i 0)
          (rowAt (tensorNodes gel38 o) k)) (tensorNodes gel38 o).length 0 =
      fieldValue (setupGlobalBasis gel38 (tensorNodes gel38 o) o hexD).1 u
        (fun k => tenVal 3 o (fun d i => (([[2 / 3, 1 / 3], [1 / 4, 3 / 4], [1, 0]] : List (List ℚ)).getD d []).getD i 0)
          (rowAt (tensorNodes gel38 o) k)) (tensorNodes gel38 o).length 1 := by
  refine C57_continuous_tensor gel38 (Or.inr (Or.inr rfl)) o ho hexD hexD_ok u 0 1 (by decide) (by decide) _ _
    (fun i hi => ?_) (fun i hi => ?_) fun v => ?_
  · simp only [gel38] at hi; interval_cases i <;> norm_num
  · simp only [gel38] at hi; interval_cases i <;> norm_num
  · rcases Nat.lt_or_ge v 12 with h | h
    · revert v; decide +kernel
    · rw [meshWeight_zero (n := 12) (by decide) h, meshWeight_zero (n := 12) (by decide) h]

end Verif.Fem
