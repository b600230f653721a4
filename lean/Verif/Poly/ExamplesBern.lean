/-
Concrete cases of the Bernstein and of the spectral elements.
-/
import Verif.Poly.SemProps
import Verif.Fem.ExamplesField
import Mathlib.Tactic.IntervalCases
import Mathlib.Tactic.NormNum

namespace Verif.Poly

open Finset Verif.Fem

/-! ### Bernstein -/

/-- The functions of the quadratic triangle in a point. -/
example : evalBernSimplex 2 2 (simplexNodes gel23 2) (fun i => if i = 0 then (1 / 4 : ℚ) else 1 / 2) =
    [1 / 16, 1 / 16, 1 / 4, 1 / 8, 1 / 4, 1 / 4] := by decide +kernel

/-- In an interior point the gradients are numbers; the gradient of the first vertex function in a point of the edge
`x = 0`, where the second barycentric coordinate is zero, is not a number, although the function does not vanish
there. -/
example : bernGrad 2 2 (bernBary 2 fun i => if i = 0 then (1 / 4 : ℚ) else 1 / 2) (fun i => if i = 0 then 2 else 0) 0 =
    some (-1 / 2) := by decide +kernel

example : bernGrad 2 2 (bernBary 2 fun i => if i = 0 then (0 : ℚ) else 1 / 2) (fun i => if i = 0 then 2 else 0) 0 = none ∧
    bernVal 2 2 (bernBary 2 fun i => if i = 0 then (0 : ℚ) else 1 / 2) (fun i => if i = 0 then 2 else 0) = 1 / 4 := by
  decide +kernel

/-- The interior points meet the hypothesis of `C104_bernstein_simplex_gradient`. -/
example (o : ℕ) (k : ℕ) (hk : k < (simplexNodes gel23 o).length) :
    ∃ D, (evalBernSimplexGrad 2 o (simplexNodes gel23 o) (fun _ => (1 / 3 : ℝ)) 1).getD k none = some D ∧
      HasDerivAt (fun t => (evalBernSimplex 2 o (simplexNodes gel23 o)
        (Function.update (fun _ => (1 / 3 : ℝ)) 1 t)).getD k 0) D (1 / 3) :=
  C104_bernstein_simplex_gradient 2 (by decide) o _ _ 1 (by decide) k hk fun i hi _ => by
    interval_cases i <;> norm_num [bernBary, List.range_succ]

/-- The third of the common edge of two triangles: the Bernstein fields of any order have there one value. -/
example (o : ℕ) (ho : 1 ≤ o) (u : ℤ → ℚ) :
    fieldValue (setupGlobalBasis gel23 (simplexNodes gel23 o) o triD).1 u
        (fun k => (evalBernSimplex 2 o (simplexNodes gel23 o) (fun i => if i = 0 then 1 / 3 else 2 / 3)).getD k 0)
        (simplexNodes gel23 o).length 0 =
      fieldValue (setupGlobalBasis gel23 (simplexNodes gel23 o) o triD).1 u
        (fun k => (evalBernSimplex 2 o (simplexNodes gel23 o) (fun i => if i = 0 then 1 / 3 else 0)).getD k 0)
        (simplexNodes gel23 o).length 1 := by
  refine C106_continuous_bernstein_simplex gel23 (Or.inr (Or.inl rfl)) o ho triD triD_ok u 0 1 (by decide) (by decide) _ _
    fun v => ?_
  rcases Nat.lt_or_ge v 4 with h | h
  · interval_cases v <;> norm_num [meshWeight, sum_range_succ, gel23, triD, bernBary, List.range_succ]
  · rw [meshWeight_zero (n := 4) (by decide) h, meshWeight_zero (n := 4) (by decide) h]

/-- The points of the common face of two hexahedra. -/
theorem hexPts (v : ℕ) : meshWeight gel38.nV (hexD.conn (hexD.cells.getD 0 0))
      (tensorWeight gel38.dim (unitBc fun d => ([1, 1 / 3, 1 / 4] : List ℚ).getD d 0)) v =
    meshWeight gel38.nV (hexD.conn (hexD.cells.getD 1 0))
      (tensorWeight gel38.dim (unitBc fun d => ([1 / 3, 3 / 4, 0] : List ℚ).getD d 0)) v := by
  rcases Nat.lt_or_ge v 12 with h | h
  · revert v; decide +kernel
  · rw [meshWeight_zero (n := 12) (by decide) h, meshWeight_zero (n := 12) (by decide) h]

/-- A point of the common face of two hexahedra: the Bernstein fields of any order have there one value. -/
example (o : ℕ) (ho : 1 ≤ o) (u : ℤ → ℚ) :
    fieldValue (setupGlobalBasis gel38 (tensorNodes gel38 o) o hexD).1 u
        (fun k => (evalBernTensor 3 o (tensorNodes gel38 o) fun d => ([1, 1 / 3, 1 / 4] : List ℚ).getD d 0).getD k 0)
        (tensorNodes gel38 o).length 0 =
      fieldValue (setupGlobalBasis gel38 (tensorNodes gel38 o) o hexD).1 u
        (fun k => (evalBernTensor 3 o (tensorNodes gel38 o) fun d => ([1 / 3, 3 / 4, 0] : List ℚ).getD d 0).getD k 0)
        (tensorNodes gel38 o).length 1 :=
  C106_continuous_bernstein_tensor gel38 (Or.inr (Or.inr rfl)) o ho hexD hexD_ok u 0 1 (by decide) (by decide) _ _ hexPts

/-- The functions of the biquadratic quadrilateral in a point of its edge: three of them do not vanish. -/
example : (evalBernTensor 2 2 (tensorNodes gel24 2) fun i => if i = 0 then (1 / 3 : ℚ) else 0) =
    [4 / 9, 1 / 9, 0, 0, 4 / 9, 0, 0, 0, 0] := by decide +kernel

/-! ### Spectral elements -/

/-- The second order nodes: already the first guess is not changed by the passes. -/
theorem lgl2 (n i : ℕ) (hi : i ≤ 2) : lglNodes 2 (lglGuess 2) n i = 1 - i := by
  have h0 : lglGuess 2 i = 1 - i := by
    interval_cases i
    · simp [lglGuess]
    · rw [lglGuess]; simp
    · rw [lglGuess]; simp; norm_num
  induction n with
  | zero => simpa [lglNodes] using h0
  | succ n ih =>
    rw [lglNodes_succ, ih]
    interval_cases i <;> norm_num [lglStep, legP]

theorem lgl2_distinct (n : ℕ) : Distinct 2 (semCoors1 (lglNodes 2 (lglGuess 2) n)) := by
  intro i hi j hj h
  rw [semCoors1, semCoors1, lgl2 n i hi, lgl2 n j hj] at h
  have : (i : ℝ) = j := by linarith
  exact_mod_cast this

/-- The weights 1/3, 4/3, 1/3. -/
example (n : ℕ) : lglWeights 2 (lglGuess 2) n 0 = 1 / 3 ∧ lglWeights 2 (lglGuess 2) n 1 = 4 / 3 := by
  constructor <;> rw [lglWeights, lgl2 _ _ (by norm_num)] <;> norm_num [legP]

/-- The second order nodes meet the hypotheses of the quadrature: the Simpson rule. -/
example (f : Polynomial ℝ) (hf : f.natDegree ≤ 3) :
    ∑ i ∈ range 3, lglWeights 2 (fun i : ℕ => 1 - (i : ℝ)) 1 i * f.eval (1 - (i : ℝ)) = ∫ x in (-1 : ℝ)..1, f.eval x :=
  (C108_lgl_quadrature 2 (by decide) (fun i : ℕ => 1 - (i : ℝ))
    (fun i _ j _ h => by have : (i : ℝ) = j := by simpa using h
                         exact_mod_cast this)
    (fun i hi => by interval_cases i <;> norm_num [legP])
    (fun i hi => by interval_cases i <;> norm_num [lglStep, legP])).2 f hf

/-- The Simpson cubature of the hexahedron. -/
example (P : MvPolynomial (Fin 3) ℝ) (hd : ∀ i, P.degreeOf i ≤ 3) :
    ∑ k ∈ range (tensorNodes gel38 2).length,
      semNodeWeight 3 (semWeights1 (lglWeights 2 (fun i : ℕ => 1 - (i : ℝ)) 1)) (rowAt (tensorNodes gel38 2) k) *
        MvPolynomial.eval (fun r : Fin 3 => semNodeCoor (semCoors1 fun i : ℕ => 1 - (i : ℝ))
          (rowAt (tensorNodes gel38 2) k) r) P = Quad.cubeInt 3 (Quad.evalAt P) :=
  C108_sem_cubature gel38 (Or.inr (Or.inr rfl)) 2 (by decide) (fun i : ℕ => 1 - (i : ℝ))
    (fun i _ j _ h => by have : (i : ℝ) = j := by simpa using h
                         exact_mod_cast this)
    (fun i hi => by interval_cases i <;> norm_num [legP])
    (fun i hi => by interval_cases i <;> norm_num [lglStep, legP]) P hd

/-- The functions of the second order quadrilateral in a point. -/
example : evalSem 2 2 (fun i : ℕ => (i : ℚ) / 2) (tensorNodes gel24 2) (fun i => if i = 0 then 1 / 4 else 0) =
    [3 / 8, -1 / 8, 0, 0, 3 / 4, 0, 0, 0, 0] := by decide +kernel

/-- Two hexahedra, the second order elements with the nodes of the code after any number of the passes. -/
example (n : ℕ) (u : ℤ → ℝ) (x x' : ℕ → ℝ)
    (hw : ∀ v, meshWeight gel38.nV (hexD.conn (hexD.cells.getD 0 0)) (tensorWeight gel38.dim (unitBc x)) v =
      meshWeight gel38.nV (hexD.conn (hexD.cells.getD 1 0)) (tensorWeight gel38.dim (unitBc x')) v) :
    fieldValue (setupGlobalBasis gel38 (tensorNodes gel38 2) 2 hexD).1 u
        (fun k => (evalSem 3 2 (semCoors1 (lglNodes 2 (lglGuess 2) n)) (tensorNodes gel38 2) x).getD k 0)
        (tensorNodes gel38 2).length 0 =
      fieldValue (setupGlobalBasis gel38 (tensorNodes gel38 2) 2 hexD).1 u
        (fun k => (evalSem 3 2 (semCoors1 (lglNodes 2 (lglGuess 2) n)) (tensorNodes gel38 2) x').getD k 0)
        (tensorNodes gel38 2).length 1 :=
  C109_continuous_sem_lgl gel38 (Or.inr (Or.inr rfl)) 2 (by decide) n (lgl2_distinct n) hexD hexD_ok u 0 1 (by decide)
    (by decide) x x' hw

/-- A point of the common face, rational nodes. -/
example (u : ℤ → ℚ) :
    fieldValue (setupGlobalBasis gel38 (tensorNodes gel38 2) 2 hexD).1 u
        (fun k => (evalSem 3 2 (fun i : ℕ => (i : ℚ) / 2) (tensorNodes gel38 2) fun d => ([1, 1 / 3, 1 / 4] : List ℚ).getD d 0).getD k 0)
        (tensorNodes gel38 2).length 0 =
      fieldValue (setupGlobalBasis gel38 (tensorNodes gel38 2) 2 hexD).1 u
        (fun k => (evalSem 3 2 (fun i : ℕ => (i : ℚ) / 2) (tensorNodes gel38 2) fun d => ([1 / 3, 3 / 4, 0] : List ℚ).getD d 0).getD k 0)
        (tensorNodes gel38 2).length 1 :=
  C109_continuous_sem gel38 (Or.inr (Or.inr rfl)) 2 (by decide) (fun i : ℕ => (i : ℚ) / 2)
    (fun i _ j _ h => by have : (i : ℚ) = j := by linarith
                         exact_mod_cast this)
    (by simp) (fun i hi => by interval_cases i <;> norm_num) hexD hexD_ok u 0 1 (by decide) (by decide) _ _ hexPts

end Verif.Poly
