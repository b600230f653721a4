/-
Concrete, non-trivial cases of the statements about quadratures (C90, C91, C92).
-/
import Verif.Quad.Claims
import Mathlib.Analysis.Real.Sqrt

namespace Quad

/-! ## The specification -/

/-- The integral over the triangle is the iterated integral. -/
example (f : List ℝ → ℝ) : simplexInt 2 1 f = ∫ x in (0 : ℝ)..1, ∫ y in (0 : ℝ)..1 - x, f [x, y] := rfl

/-- The integral over the square. -/
example (f : List ℝ → ℝ) : cubeInt 2 f = ∫ x in (0 : ℝ)..1, ∫ y in (0 : ℝ)..1, f [x, y] := rfl

/-- The integral over the wedge. -/
example (f : List ℝ → ℝ) : wedgeInt f =
    ∫ x in (0 : ℝ)..1, ∫ y in (0 : ℝ)..1 - x, ∫ z in (0 : ℝ)..1, f [x, y, z] := rfl

/-- The polynomial `x y` in two variables. -/
noncomputable def polyXY : MvPolynomial (Fin 2) ℝ := MvPolynomial.X 0 * MvPolynomial.X 1

theorem polyXY_degree : polyXY.totalDegree ≤ 2 := by
  refine le_trans (MvPolynomial.totalDegree_mul _ _) ?_
  simp

theorem polyXY_eval : evalAt polyXY = fun x => x.getD 0 0 * x.getD 1 0 := by
  funext x
  simp [evalAt, polyXY]

/-- The integral of `x y` over the triangle is `1 / 24`. -/
theorem polyXY_integral : simplexInt 2 1 (fun x => x.getD 0 0 * x.getD 1 0) = 1 / 24 := by
  have := simplexInt_sum 2 (Finset.univ : Finset (Fin 1)) (fun _ => 1) (fun _ => [1, 1]) 1 (by simp)
  simp only [Finset.univ_unique, Finset.sum_singleton, one_mul] at this
  rw [show (fun x : List ℝ => x.getD 0 0 * x.getD 1 0) = fun l => mon [1, 1] l from ?_, this]
  · norm_num [momSimplex, Nat.factorial]
  · funext l
    rcases l with _ | ⟨a, _ | ⟨b, l⟩⟩ <;> simp [mon]

/-! ## C91 -/

/-- The multi-indices of sum 2 in three components. -/
example : decTuples 2 3 none = some [[1, 1, 0], [2, 0, 0]] ∧
    uniquePerms [1, 1, 0] = [[1, 1, 0], [1, 0, 1], [0, 1, 1]] := by decide +kernel

/-- Bezout's identity. -/
example : extEuclid 12 42 = (6, -3, 1) ∧ simplifyFraction 12 42 = (2, 7) := by
  have h : extEuclid 12 42 = (6, -3, 1) := by simp [extEuclid, euclidLoop, Int.fdiv, Int.fmod]
  exact ⟨h, by simp [simplifyFraction, h]⟩

/-- The formula with `s = 1` integrates `x y` exactly: the value is `1 / 24`. -/
example : ∃ R R', simplexCubature (K := ℝ) 1 2 = some (R, 3) ∧
    mkQP false R (some (-1, 1)) (1 / 2) 1 false = some R' ∧
    quad R' (fun x => x.getD 0 0 * x.getD 1 0) = 1 / 24 := by
  obtain ⟨R, h1, R', h2, h3, _⟩ := C91_simplex_cubature_exact 1 2 (by norm_num) (1 / 2) (by norm_num)
  refine ⟨R, R', h1, h2, ?_⟩
  have := h3 polyXY (le_trans polyXY_degree (by norm_num))
  rw [polyXY_eval] at this
  rw [this, polyXY_integral]

/-- Dimension seven, order eleven. -/
example : ∃ R, simplexCubature (K := ℝ) 5 7 = some (R, 11) := by
  obtain ⟨R, h, _⟩ := C91_simplex_cubature_exact 5 7 (by norm_num) 1 (by norm_num)
  exact ⟨R, h⟩

/-! ## C90 -/

/-- The triangle rule of order 2 gives `1 / 24` for `x y` up to `2e-14`. -/
example : ∃ R o, fromTable .g23 2 false = some (R, o) ∧
    |quad R (fun x => x.getD 0 0 * x.getD 1 0) - 1 / 24| ≤ tol * coefNorm polyXY := by
  obtain ⟨R, o, h1, _, h2, _⟩ := C90_simplex .g23 (by simp) 2 false
  refine ⟨R, o, h1, ?_⟩
  have : |quad R (evalAt polyXY) - simplexInt 2 1 (evalAt polyXY)| ≤ tol * coefNorm polyXY :=
    h2 polyXY polyXY_degree
  rwa [polyXY_eval, polyXY_integral] at this

/-- The hypotheses of the tensor product statement are met by `x y` with the line order one. -/
example : ∀ i, polyXY.degreeOf i ≤ 1 := by
  intro i
  refine le_trans (MvPolynomial.degreeOf_mul_le i _ _) ?_
  rw [MvPolynomial.degreeOf_X, MvPolynomial.degreeOf_X]
  fin_cases i <;> simp

/-- Order 20 is beyond the tables of the triangle (which end at 19) and order 7 beyond the tetrahedron. -/
example : (∀ o ∈ (tables .g23).map Entry.order, o < 20) ∧ ∀ o ∈ (tables .g34).map Entry.order, o < 7 := by
  decide +kernel

/-- The wedge: `z (x + y)` is an admissible polynomial of the line order one. -/
example : ∀ m ∈ (MvPolynomial.X 0 * MvPolynomial.X 2 : MvPolynomial (Fin 3) ℝ).support,
    m 0 + m 1 ≤ 1 ∧ m 2 ≤ 1 := by
  intro m hm
  rw [MvPolynomial.X, MvPolynomial.X, MvPolynomial.monomial_mul, one_mul,
    MvPolynomial.support_monomial, if_neg one_ne_zero, Finset.mem_singleton] at hm
  subst hm
  simp

/-! ## C92 -/

/-- The least available orders. -/
example : getActualOrder ((tables .g23).map Entry.order) 11 = 12 ∧
    getActualOrder ((tables .g23).map Entry.order) 6 = 6 ∧
    getActualOrder ((tables .g12).map Entry.order) 100 = 47 := by decide +kernel

/-- The symmetric completion with a point at the centre keeps that point single. -/
example : ∃ R, mkQP true [([0], 8/9), ([1/2], 5/9)] (some (-1, 1)) 1 1 true = some R ∧
    quad R (fun l => l.headD 0) = 1 / 2 * (8/9 * (1/2) + 5/9 * ((1 + 1/2)/2 + (1 - 1/2)/2)) := by
  obtain ⟨R, h1, _, h3⟩ := C92_symmetric 0 (8/9) [([1/2], 5/9)] (by simp) 1 1 one_ne_zero
  refine ⟨R, h1, ?_⟩
  rw [h3 fun t => t]
  simp [quad]

/-- The tensor product of a two point rule. -/
example : tensorRule (K := ℚ) 2 [([1/4], 1/3), ([3/4], 2/3)] =
    [([1/4, 1/4], 1/9), ([3/4, 1/4], 2/9), ([1/4, 3/4], 2/9), ([3/4, 3/4], 4/9)] := by decide +kernel

/-- Full order six on the square is an error; line order four on the wedge is the cube rule. -/
example : fromTable .g24 6 true = none :=
  C92_full_order_beyond_fails .g24 rfl 6 (by decide +kernel)

/-- A history of requests. -/
example : (getQp fromTable ⟨2, false, none⟩ ([Geom.g23, .g34, .g23].foldl
    (fun qps g => (getQp fromTable ⟨2, false, none⟩ qps g).2) []) .g34).1 =
    (fromTable .g34 2 false).map Prod.fst :=
  C92_get_qp_history ⟨2, false, none⟩ [.g23, .g34, .g23] .g34

/-- A custom integral named as the users name them does not clash with the names of the orders. -/
example : ∀ x ∈ [("i1", (⟨3, false, none⟩ : IntegralDef))], ∀ k : ℕ, x.1 ≠ orderName k := by
  intro x hx k h
  obtain rfl : x = ("i1", ⟨3, false, none⟩) := by simpa using hx
  have h1 := congrArg String.toList h
  rw [orderName, String.toList_append] at h1
  simp at h1

end Quad
