/-
C90: the built-in rules integrate polynomials; C91: the simplex cubature is exact; C92: the construction
of rules.
-/
import Verif.Quad.Props

namespace Quad

/-! ## C91: the formulas of Grundmann and Moeller -/

theorem tol_nonneg : 0 ≤ tol := by unfold tol; positivity

/-- **C91.**  For every dimension and every order `s`, the points and weights of `get_simplex_cubature`,
transformed as `from_table` does, integrate every polynomial of total degree at most `2 s + 1` over the
unit simplex exactly, and the points lie in the simplex. -/
theorem C91_simplex_cubature_exact (s n : ℕ) (hn : 1 ≤ n) (tp : ℝ) (htp : tp ≠ 0) :
    ∃ R, simplexCubature (K := ℝ) s n = some (R, 2 * s + 1) ∧
    ∃ R', mkQP false R (some (-1, 1)) tp 1 false = some R' ∧
      (∀ p : MvPolynomial (Fin n) ℝ, p.totalDegree ≤ 2 * s + 1 →
        quad R' (evalAt p) = simplexInt n 1 (evalAt p)) ∧
      ∀ q ∈ R', SimplexPt n q.1 := by
  obtain ⟨R, h1, R', h2, h3, h4⟩ := cubature_spec s n hn tp htp
  refine ⟨R, h1, R', h2, fun p hp => ?_, h4⟩
  have h5 : ∀ m ∈ p.support, |quad R' (mon (expList m)) - momSimplex (expList m)| ≤ 0 := by
    intro m hm
    rw [h3, gmSum_tail s n _ (expList_length m) (expList_sum_le p _ hp m hm), sub_self, abs_zero]
  have h6 := error_of_moments R' 0 _ p h5
  rw [zero_mul, ← simplexInt_poly] at h6
  have := abs_nonpos_iff.1 h6
  linarith

/-- **C91.**  The extended Euclidean algorithm returns the greatest common divisor (up to the sign) and the
coefficients of Bezout's identity, for all integers. -/
theorem C91_extended_euclid (q r : ℤ) :
    (extEuclid q r).1 = (extEuclid q r).2.1 * q + (extEuclid q r).2.2 * r ∧
    (extEuclid q r).1.natAbs = Int.gcd q r :=
  extEuclid_spec q r

/-- **C91.**  The fractions are simplified without changing their value. -/
theorem C91_simplify_fraction (a b : ℤ) (hb : b ≠ 0) :
    ((simplifyFraction a b).1 : ℚ) / ((simplifyFraction a b).2 : ℚ) = (a : ℚ) / (b : ℚ) ∧
    Int.gcd (simplifyFraction a b).1 (simplifyFraction a b).2 = 1 := by
  refine ⟨simplifyFraction_value a b hb, ?_⟩
  obtain ⟨_, h2⟩ := extEuclid_spec a b
  unfold simplifyFraction
  simp only
  generalize (extEuclid a b).1 = g at h2
  have hpos := Int.gcd_pos_of_ne_zero_right a hb
  have hg0 : g ≠ 0 := by
    intro h
    rw [h] at h2
    simp at h2
    omega
  have hda : g ∣ a := by rw [← Int.natAbs_dvd, h2]; exact Int.gcd_dvd_left ..
  have hdb : g ∣ b := by rw [← Int.natAbs_dvd, h2]; exact Int.gcd_dvd_right ..
  obtain ⟨a', rfl⟩ := hda
  obtain ⟨b', rfl⟩ := hdb
  rw [Int.mul_fdiv_cancel_left _ hg0, Int.mul_fdiv_cancel_left _ hg0]
  rw [Int.gcd_mul_left] at h2
  have : g.natAbs ≠ 0 := by simpa using hg0
  exact (Nat.eq_of_mul_eq_mul_left (Nat.pos_of_ne_zero this) (by rw [mul_one]; exact h2)).symm

/-- **C91.**  The loops over decreasing tuples and their distinct permutations visit every multi-index of
the given length and sum exactly once. -/
theorem C91_enumeration (k n : ℕ) (hn : 1 ≤ n) : ∃ L, decTuples k (n + 1) none = some L ∧
    (L.flatMap uniquePerms).Nodup ∧
    ∀ b : List ℕ, b ∈ L.flatMap uniquePerms ↔ b.length = n + 1 ∧ b.sum = k :=
  betas_spec k n hn

/-! ## C90: the built-in rules -/

/-- **C90.**  On the line, the triangle and the tetrahedron, `from_table` succeeds for every order; the
rule integrates every polynomial of total degree at most the order with an error of at most `2e-14` times
the sum of the absolute values of its coefficients, and exactly beyond the tables; its points lie in the
reference element; the returned order is not less than the order asked for. -/
theorem C90_simplex (g : Geom) (hg : g = .g12 ∨ g = .g23 ∨ g = .g34) (order : ℕ) (full : Bool) :
    ∃ R o, fromTable g order full = some (R, o) ∧ order ≤ o ∧
      (∀ p : MvPolynomial (Fin g.dim) ℝ, p.totalDegree ≤ order →
        |quad R (evalAt p) - simplexInt g.dim 1 (evalAt p)| ≤ tol * coefNorm p) ∧
      ∀ q ∈ R, SimplexPt g.dim q.1 := by
  have hs : g.simplex = true := by rcases hg with rfl | rfl | rfl <;> rfl
  have hdim : 1 ≤ g.dim := by rcases hg with rfl | rfl | rfl <;> decide
  have hcn : ∀ p : MvPolynomial (Fin g.dim) ℝ, 0 ≤ coefNorm p :=
    fun p => Finset.sum_nonneg fun _ _ => abs_nonneg _
  by_cases ho : order > ((tables g).map Entry.order).foldl max 0
  · have htp : (if g.dim = 2 then (1 / 2 : ℝ) else 1 / 6) ≠ 0 := by split <;> norm_num
    obtain ⟨R, h1, R', h2, h3, h4⟩ := C91_simplex_cubature_exact (order / 2) g.dim hdim _ htp
    refine ⟨R', order, ?_, le_refl _, fun p hp => ?_, h4⟩
    · simp only [fromTable, fromTableOf, hs, if_true, if_pos ho, h1, h2]
      rw [if_pos (by omega)]
    · rw [h3 p (by omega), sub_self, abs_zero]
      exact mul_nonneg tol_nonneg (hcn p)
  · obtain ⟨h1, h2, h3⟩ := getActualOrder_spec ((tables g).map Entry.order) order (orders_increasing g)
      ⟨_, maxOrder_mem g, by omega⟩
    obtain ⟨R, r1, r2, r3⟩ := simplex_table g hs _ h1
    refine ⟨R, _, ?_, h2, fun p hp => ?_, r3⟩
    · simp only [fromTable, fromTableOf, hs, if_true, if_neg ho, r1]
      rfl
    · rw [simplexInt_poly]
      refine error_of_moments R tol _ p fun m hm => ?_
      exact le_trans (r2 _ (expList_length m) (le_trans (expList_sum_le p _ hp m hm) h2)) eps0R_le

/-- **C90.**  Beyond the tables of the line, the triangle and the tetrahedron the rules are exact. -/
theorem C90_simplex_beyond_tables (g : Geom) (hg : g = .g12 ∨ g = .g23 ∨ g = .g34) (order : ℕ)
    (full : Bool) (ho : ∀ o ∈ (tables g).map Entry.order, o < order) :
    ∃ R, fromTable g order full = some (R, order) ∧
      ∀ p : MvPolynomial (Fin g.dim) ℝ, p.totalDegree ≤ order →
        quad R (evalAt p) = simplexInt g.dim 1 (evalAt p) := by
  have hs : g.simplex = true := by rcases hg with rfl | rfl | rfl <;> rfl
  have hdim : 1 ≤ g.dim := by rcases hg with rfl | rfl | rfl <;> decide
  have ho' : order > ((tables g).map Entry.order).foldl max 0 := ho _ (maxOrder_mem g)
  have htp : (if g.dim = 2 then (1 / 2 : ℝ) else 1 / 6) ≠ 0 := by split <;> norm_num
  obtain ⟨R, h1, R', h2, h3, h4⟩ := C91_simplex_cubature_exact (order / 2) g.dim hdim _ htp
  refine ⟨R', ?_, fun p hp => h3 p (by omega)⟩
  simp only [fromTable, fromTableOf, hs, if_true, if_pos ho', h1, h2]
  rw [if_pos (by omega)]

theorem mkQP_plain (r : Rule ℝ) : mkQP false r none 1 1 false = some r := by
  simp [mkQP]

theorem line_orders_47 (order : ℕ) (h : order ≤ 47) : ∃ o ∈ (tables .g12).map Entry.order, order ≤ o :=
  ⟨47, by decide +kernel, h⟩

/-- The moments of the tensor product rules. -/
theorem tensor_moments (n : ℕ) (hn : n = 2 ∨ n = 3) (r : Rule ℝ) (o : ℕ)
    (hr : ∀ e : List ℕ, e.length = 1 → e.sum ≤ o → |quad r (mon e) - momSimplex e| ≤ eps0R)
    (hp : ∀ p ∈ r, SimplexPt 1 p.1) (e : List ℕ) (hl : e.length = n) (he : ∀ a ∈ e, a ≤ o) :
    |quad (tensorRule n r) (mon e) - momCube e| ≤ tol := by
  have hlen : ∀ p ∈ r, p.1.length = 1 := fun p h => (hp p h).1
  have h1 : ∀ a ∈ e, |quad r (mon [a]) - 1 / ((a : ℝ) + 1)| ≤ eps0R := by
    intro a ha
    have := hr [a] rfl (by simpa using he a ha)
    rwa [momLine] at this
  have heps : 0 ≤ eps0R := by rw [eps0R_eq]; norm_num
  rcases hn with rfl | rfl
  · obtain ⟨a, b, rfl⟩ : ∃ a b, e = [a, b] := by
      rw [List.length_eq_two] at hl; exact hl
    rw [quad_tensor2 r hlen]
    have := mul_close _ _ _ _ _ _ (h1 a (by simp)) (h1 b (by simp)) (momLine_abs a) (momLine_abs b)
    refine le_trans ?_ (le_trans this ?_)
    · simp [momCube]
    · rw [eps0R_eq, tol]; norm_num
  · obtain ⟨a, b, c, rfl⟩ : ∃ a b c, e = [a, b, c] := by
      rw [List.length_eq_three] at hl; exact hl
    rw [quad_tensor3 r hlen]
    have h2 := mul_close _ _ _ _ _ _ (h1 a (by simp)) (h1 b (by simp)) (momLine_abs a) (momLine_abs b)
    have hab : |1 / ((a : ℝ) + 1) * (1 / ((b : ℝ) + 1))| ≤ 1 := by
      rw [abs_mul]
      exact mul_le_one₀ (momLine_abs a) (abs_nonneg _) (momLine_abs b)
    have h3 := mul_close _ _ _ _ _ _ h2 (h1 c (by simp)) hab (momLine_abs c)
    refine le_trans ?_ (le_trans h3 ?_)
    · simp [momCube, mul_assoc]
    · rw [eps0R_eq, tol]; norm_num

/-- **C90.**  On the square and the cube, for every line order up to 47, the rule integrates every
polynomial whose degree in each variable is at most the order. -/
theorem C90_tensor (g : Geom) (hg : g = .g24 ∨ g = .g38) (order : ℕ) (ho : order ≤ 47) :
    ∃ R o, fromTable g order false = some (R, o) ∧ g.dim * order ≤ o ∧
      (∀ p : MvPolynomial (Fin g.dim) ℝ, (∀ i, p.degreeOf i ≤ order) →
        |quad R (evalAt p) - cubeInt g.dim (evalAt p)| ≤ tol * coefNorm p) ∧
      ∀ q ∈ R, CubePt g.dim q.1 := by
  have hs : g.simplex = false := by rcases hg with rfl | rfl <;> rfl
  have hdim : g.dim = 2 ∨ g.dim = 3 := by rcases hg with rfl | rfl <;> decide
  by_cases h : g.dim * order ≤ ((tables g).map Entry.order).foldl max 0
  · obtain ⟨h1, h2, h3⟩ := getActualOrder_spec ((tables g).map Entry.order) (g.dim * order)
      (orders_increasing g) ⟨_, maxOrder_mem g, h⟩
    obtain ⟨R, r1, r2, r3⟩ := cube_table g hg _ h1
    refine ⟨R, _, ?_, h2, fun p hp => ?_, r3⟩
    · simp only [fromTable, fromTableOf, hs, Bool.false_eq_true, if_false, if_pos h, r1]
      rfl
    · rw [cubeInt_poly]
      refine error_of_moments R tol _ p fun m hm => ?_
      refine le_trans (r2 _ (expList_length m) (le_trans ?_ h2)) eps0R_le
      have hle := expList_mem_le p order hp m hm
      have := List.sum_le_card_nsmul (expList m) order hle
      rwa [expList_length, smul_eq_mul] at this
  · obtain ⟨h1, h2, h3⟩ := getActualOrder_spec ((tables .g12).map Entry.order) order (orders_increasing .g12)
      (line_orders_47 order ho)
    obtain ⟨R, r1, r2, r3⟩ := simplex_table .g12 rfl _ h1
    refine ⟨tensorRule g.dim R, _, ?_, Nat.mul_le_mul_left _ h2, fun p hp => ?_, ?_⟩
    · simp only [fromTable, fromTableOf, hs, Bool.false_eq_true, if_false, if_neg h, r1, mkQP_plain]
      rfl
    · rw [cubeInt_poly]
      refine error_of_moments _ tol _ p fun m hm => ?_
      exact tensor_moments g.dim hdim R order (fun e he hs => r2 e he (le_trans hs h2)) r3 _
        (expList_length m) (expList_mem_le p order hp m hm)
    · exact tensor_points g.dim hdim R r3

/-- **C90.**  With `full_order`, on the square and the cube and up to order 5, the rule integrates every
polynomial of total degree at most the order. -/
theorem C90_full_order (g : Geom) (hg : g = .g24 ∨ g = .g38) (order : ℕ) (ho : order ≤ 5) :
    ∃ R o, fromTable g order true = some (R, o) ∧ order ≤ o ∧
      (∀ p : MvPolynomial (Fin g.dim) ℝ, p.totalDegree ≤ order →
        |quad R (evalAt p) - cubeInt g.dim (evalAt p)| ≤ tol * coefNorm p) ∧
      ∀ q ∈ R, CubePt g.dim q.1 := by
  have hs : g.simplex = false := by rcases hg with rfl | rfl <;> rfl
  have hmax : ((tables g).map Entry.order).foldl max 0 = 5 := by rcases hg with rfl | rfl <;> decide +kernel
  have h : order ≤ ((tables g).map Entry.order).foldl max 0 := by omega
  obtain ⟨h1, h2, h3⟩ := getActualOrder_spec ((tables g).map Entry.order) order
    (orders_increasing g) ⟨_, maxOrder_mem g, h⟩
  obtain ⟨R, r1, r2, r3⟩ := cube_table g hg _ h1
  refine ⟨R, _, ?_, h2, fun p hp => ?_, r3⟩
  · simp only [fromTable, fromTableOf, hs, Bool.false_eq_true, if_false, if_true, if_pos h, r1]
    rfl
  · rw [cubeInt_poly]
    refine error_of_moments R tol _ p fun m hm => ?_
    exact le_trans (r2 _ (expList_length m) (le_trans (expList_sum_le p _ hp m hm) h2)) eps0R_le

/-- **C90.**  On the wedge, for the line orders up to 3, the rule integrates every polynomial of degree at
most the order in the triangle and at most the order along the axis. -/
theorem C90_wedge (order : ℕ) (ho : order ≤ 3) :
    ∃ R o, fromTable .g36 order false = some (R, o) ∧
      (∀ p : MvPolynomial (Fin 3) ℝ, (∀ m ∈ p.support, m 0 + m 1 ≤ order ∧ m 2 ≤ order) →
        |quad R (evalAt p) - wedgeInt (evalAt p)| ≤ tol * coefNorm p) ∧
      ∀ q ∈ R, WedgePt q.1 := by
  obtain ⟨o, a, b, h1, h2, h3, h4⟩ : ∃ o a b, getActualOrder ((tables .g36).map Entry.order) (3 * order) = o ∧
      ((o = 3 ∧ a = 1 ∧ b = 1) ∨ (o = 6 ∧ a = 2 ∧ b = 3) ∨ (o = 9 ∧ a = 4 ∧ b = 5)) ∧
      order ≤ a ∧ order ≤ b := by
    obtain rfl | rfl | rfl | rfl : order = 0 ∨ order = 1 ∨ order = 2 ∨ order = 3 := by omega
    · exact ⟨3, 1, 1, by decide +kernel, by simp, by omega, by omega⟩
    · exact ⟨3, 1, 1, by decide +kernel, by simp, by omega, by omega⟩
    · exact ⟨6, 2, 3, by decide +kernel, by simp, by omega, by omega⟩
    · exact ⟨9, 4, 5, by decide +kernel, by simp, by omega, by omega⟩
  have hmax : ((tables .g36).map Entry.order).foldl max 0 = 9 := by decide +kernel
  obtain ⟨R, r1, r2, r3⟩ := wedge_table o a b h2
  refine ⟨R, o, ?_, fun p hp => ?_, r3⟩
  · have hd : Geom.dim .g36 = 3 := rfl
    have hs : Geom.simplex .g36 = false := rfl
    simp only [fromTable, fromTableOf, hs, hd, Bool.false_eq_true, if_false, hmax]
    rw [if_pos (by omega), h1, r1]
    rfl
  · rw [wedgeInt_poly]
    refine error_of_moments R tol _ p fun m hm => ?_
    have he : expList m = [m 0, m 1, m 2] := by simp [expList, List.ofFn_succ]
    refine le_trans (r2 _ (expList_length m) ?_ ?_) eps0R_le
    · rw [he]; simp; have := (hp m hm).1; omega
    · rw [he]; simp; have := (hp m hm).2; omega

/-- **C90.**  On the point geometry the rule is the evaluation at the point, for every order. -/
theorem C90_point (order : ℕ) : ∃ R, fromTable .g01 order false = some (R, 1) ∧
    ∀ f : List ℝ → ℝ, quad R f = f [0] := by
  refine ⟨[([0], 1)], ?_, fun f => by simp [quad]⟩
  have h1 : getActualOrder ((tables .g01).map Entry.order) (0 * order) = 1 := by
    rw [zero_mul]; decide +kernel
  have hmax : ((tables .g01).map Entry.order).foldl max 0 = 1 := by decide +kernel
  have hd : Geom.dim .g01 = 0 := rfl
  have hs : Geom.simplex .g01 = false := rfl
  simp only [fromTable, fromTableOf, hs, hd, Bool.false_eq_true, if_false, hmax]
  rw [if_pos (by omega), h1]
  simp [tableRule, tables, t01o1, Entry.rule, mkQP, Ex.real]

/-! ## C92: the construction of rules -/

/-- **C92.**  The order that is used is the least available order not less than the one asked for; beyond
the largest it is the largest. -/
theorem C92_order_selection (g : Geom) (order : ℕ) :
    let o := getActualOrder ((tables g).map Entry.order) order
    o ∈ (tables g).map Entry.order ∧
    ((∃ a ∈ (tables g).map Entry.order, order ≤ a) →
      order ≤ o ∧ ∀ a ∈ (tables g).map Entry.order, order ≤ a → o ≤ a) ∧
    ((∀ a ∈ (tables g).map Entry.order, a < order) → ∀ a ∈ (tables g).map Entry.order, a ≤ o) := by
  intro o
  have hne : (tables g).map Entry.order ≠ [] := List.ne_nil_of_mem (maxOrder_mem g)
  refine ⟨?_, ?_, ?_⟩
  · by_cases h : ∃ a ∈ (tables g).map Entry.order, order ≤ a
    · exact (getActualOrder_spec _ _ (orders_increasing g) h).1
    · push Not at h
      exact (getActualOrder_beyond _ _ hne h).1
  · intro h
    exact (getActualOrder_spec _ _ (orders_increasing g) h).2
  · intro h
    exact (getActualOrder_beyond _ _ hne h).2

/-- **C92.**  A rule given on `[a, b]^n` is transformed so that it gives, for any function on `[0, 1]^n`,
the value of the given rule on the transformed function divided by the volume ratio; `weight_fix`
multiplies the weights, `tp_fix` cancels. -/
theorem C92_bounds (fromData : Bool) (rows : Rule ℝ) (n : ℕ) (hn : ∀ p ∈ rows, p.1.length = n) (a b : ℝ)
    (hab : a < b) (tp wf : ℝ) (htp : tp ≠ 0) : ∃ R, mkQP fromData rows (some (a, b)) tp wf false = some R ∧
      ∀ f : List ℝ → ℝ, quad R f =
        wf / (b - a) ^ n * quad rows fun x => f (x.map fun t => (t - a) / (b - a)) := by
  have hb : b - a ≠ 0 := by linarith
  refine ⟨(rows.map fun p => (p.1, p.2 * wf)).map fun p =>
    (p.1.map fun x => (1 - 0) / (b - a) * x + (b * 0 - a * 1) / (b - a),
      p.2 * (1 ^ ruleDim rows * tp / ((b - a) ^ ruleDim rows * tp))),
    by simp only [mkQP, Bool.false_eq_true, if_false], fun f => ?_⟩
  have hdim : rows = [] ∨ ruleDim rows = n := by
    cases rows with
    | nil => exact Or.inl rfl
    | cons p r => exact Or.inr (hn p (by simp))
  rcases hdim with h | h
  · rw [h]; simp [quad]
  · simp only [quad, List.map_map]
    rw [← sum_map_mul]
    congr 1
    refine List.map_congr_left fun p _ => ?_
    simp only [Function.comp_apply]
    rw [h]
    have e1 : (p.1.map fun x => (1 - 0) / (b - a) * x + (b * 0 - a * 1) / (b - a)) =
        p.1.map fun t => (t - a) / (b - a) := by
      refine List.map_congr_left fun x _ => ?_
      field_simp
      ring
    rw [e1, one_pow]
    have : (b - a) ^ n ≠ 0 := pow_ne_zero _ hb
    field_simp

/-- **C92.**  The symmetric completion of a line rule is symmetric: mirroring a function in the centre of the
interval does not change its value. -/
theorem C92_symmetric (x : ℝ) (w : ℝ) (rest : Rule ℝ) (hn : ∀ p ∈ rest, p.1.length = 1) (tp wf : ℝ)
    (htp : tp ≠ 0) :
    ∃ R, mkQP true (([x], w) :: rest) (some (-1, 1)) tp wf true = some R ∧
      (∀ f : ℝ → ℝ, quad R (fun l => f (1 - l.headD 0)) = quad R fun l => f (l.headD 0)) ∧
      ∀ f : ℝ → ℝ, quad R (fun l => f (l.headD 0)) =
        wf / 2 * ((if x = 0 then w * f (1 / 2) else w * (f ((1 + x) / 2) + f ((1 - x) / 2))) +
          quad rest fun l => f ((1 + l.headD 0) / 2) + f ((1 - l.headD 0) / 2)) := by
  set T : List ℝ × ℝ → List ℝ × ℝ := fun p => (p.1.map fun t => 1 / 2 * t + 1 / 2, p.2 * (wf / 2)) with hT
  set M : List ℝ × ℝ → List ℝ × ℝ := fun p => (p.1.map fun t => 1 - t, p.2) with hM
  have hR : mkQP true (([x], w) :: rest) (some (-1, 1)) tp wf true =
      some (((if x = 0 then ((([x], w) :: rest).map T).tail.reverse else ((([x], w) :: rest).map T).reverse).map
        M) ++ (([x], w) :: rest).map T) := by
    have e1 : (1 : ℝ) ^ 1 * tp / ((1 - -1) ^ 1 * tp) = 1 / 2 := by
      field_simp; norm_num
    have e2 : ∀ p : List ℝ × ℝ, (p.1.map fun t => (1 - 0) / (1 - -1) * t + (1 * 0 - -1 * 1) / (1 - -1),
        p.2 * wf * (1 / 2)) = T p := by
      intro p
      rw [hT]
      refine Prod.ext ?_ ?_
      · refine List.map_congr_left fun t _ => ?_
        norm_num
      · simp only; ring
    have e3 : (fun p : List ℝ × ℝ => (p.1.map fun t => 2 * (1 / 2 * (0 + 1)) - t, p.2)) = M := by
      rw [hM]
      funext p
      refine Prod.ext ?_ rfl
      refine List.map_congr_left fun t _ => ?_
      norm_num
    have hd : ruleDim (([x], w) :: rest) = 1 := rfl
    have hf : firstCoor (([x], w) :: rest) = x := rfl
    simp only [mkQP, hd, hf, if_true, Bool.true_eq_false, if_false, ne_eq, not_true_eq_false, e1, e3,
      List.map_map, Function.comp_def, e2]
  have hval : ∀ f : ℝ → ℝ, ∀ p : List ℝ × ℝ, p.1.length = 1 →
      (T p).2 * f ((T p).1.headD 0) = wf / 2 * (p.2 * f ((1 + p.1.headD 0) / 2)) ∧
      (M (T p)).2 * f ((M (T p)).1.headD 0) = wf / 2 * (p.2 * f ((1 - p.1.headD 0) / 2)) := by
    intro f p hp
    obtain ⟨y, hy⟩ := List.length_eq_one_iff.1 hp
    simp only [hT, hM, hy, List.map_cons, List.map_nil, List.headD_cons]
    rw [show (1 : ℝ) / 2 * y + 1 / 2 = (1 + y) / 2 by ring, show (1 : ℝ) - (1 + y) / 2 = (1 - y) / 2 by ring]
    constructor <;> ring
  have hform : ∀ f : ℝ → ℝ, quad (((if x = 0 then ((([x], w) :: rest).map T).tail.reverse else
      ((([x], w) :: rest).map T).reverse).map M) ++ (([x], w) :: rest).map T) (fun l => f (l.headD 0)) =
        wf / 2 * ((if x = 0 then w * f (1 / 2) else w * (f ((1 + x) / 2) + f ((1 - x) / 2))) +
          quad rest fun l => f ((1 + l.headD 0) / 2) + f ((1 - l.headD 0) / 2)) := by
    intro f
    have q1 : (rest.map fun p => (T p).2 * f ((T p).1.headD 0)).sum =
        wf / 2 * quad rest fun l => f ((1 + l.headD 0) / 2) := by
      rw [quad, ← sum_map_mul]
      congr 1
      exact List.map_congr_left fun p hp => (hval f p (hn p hp)).1
    have q2 : (rest.map fun p => (M (T p)).2 * f ((M (T p)).1.headD 0)).sum =
        wf / 2 * quad rest fun l => f ((1 - l.headD 0) / 2) := by
      rw [quad, ← sum_map_mul]
      congr 1
      exact List.map_congr_left fun p hp => (hval f p (hn p hp)).2
    have q3 : (quad rest fun l => f ((1 + l.headD 0) / 2) + f ((1 - l.headD 0) / 2)) =
        (quad rest fun l => f ((1 + l.headD 0) / 2)) + quad rest fun l => f ((1 - l.headD 0) / 2) := by
      simp only [quad]
      rw [← sum_map_add]
      congr 1
      refine List.map_congr_left fun p _ => ?_
      ring
    have q4 := hval f ([x], w) rfl
    simp only [List.headD_cons] at q4
    rw [q3]
    have hquad : ∀ L : Rule ℝ, quad (((L.reverse).map M) ++ (([x], w) :: rest).map T) (fun l => f (l.headD 0)) =
        (L.map fun p => (M p).2 * f ((M p).1.headD 0)).sum +
        ((T ([x], w)).2 * f ((T ([x], w)).1.headD 0) +
          (rest.map fun p => (T p).2 * f ((T p).1.headD 0)).sum) := by
      intro L
      simp only [quad, List.map_append, List.sum_append, List.map_map, List.map_cons, List.sum_cons]
      rw [List.map_reverse, List.sum_reverse]
      rfl
    by_cases hx : x = 0
    · rw [if_pos hx, if_pos hx, List.map_cons, List.tail_cons, ← List.map_cons, hquad, List.map_map]
      rw [show ((fun p => (M p).2 * f ((M p).1.headD 0)) ∘ T) =
        fun p => (M (T p)).2 * f ((M (T p)).1.headD 0) from rfl, q1, q2, q4.1, hx]
      rw [show ((1 : ℝ) + 0) / 2 = 1 / 2 by norm_num]
      ring
    · rw [if_neg hx, if_neg hx, hquad, List.map_map, List.map_cons, List.sum_cons]
      rw [show ((fun p => (M p).2 * f ((M p).1.headD 0)) ∘ T) =
        fun p => (M (T p)).2 * f ((M (T p)).1.headD 0) from rfl, q1, q2, q4.1]
      beta_reduce
      rw [q4.2]
      ring
  refine ⟨_, hR, fun f => ?_, hform⟩
  rw [hform f, hform fun t => f (1 - t)]
  congr 2
  · by_cases hx : x = 0
    · rw [if_pos hx, if_pos hx]; norm_num
    · rw [if_neg hx, if_neg hx]
      rw [show (1 : ℝ) - (1 + x) / 2 = (1 - x) / 2 by ring, show (1 : ℝ) - (1 - x) / 2 = (1 + x) / 2 by ring]
      ring
  · congr 1
    funext l
    rw [show (1 : ℝ) - (1 + l.headD 0) / 2 = (1 - l.headD 0) / 2 by ring,
      show (1 : ℝ) - (1 - l.headD 0) / 2 = (1 + l.headD 0) / 2 by ring]
    ring

/-- **C92.**  A tensor product rule applies the line rule in every variable. -/
theorem C92_tensor_product (r : Rule ℝ) (hr : ∀ p ∈ r, p.1.length = 1) (f g h : ℝ → ℝ) :
    quad (tensorRule 2 r) (fun l => f (l.getD 0 0) * g (l.getD 1 0)) =
      quad r (fun l => f (l.headD 0)) * quad r (fun l => g (l.headD 0)) ∧
    quad (tensorRule 3 r) (fun l => f (l.getD 0 0) * g (l.getD 1 0) * h (l.getD 2 0)) =
      quad r (fun l => f (l.headD 0)) * quad r (fun l => g (l.headD 0)) * quad r (fun l => h (l.headD 0)) := by
  have hc : ∀ p ∈ r, p.1 = [p.1.headD 0] := by
    intro p hp
    obtain ⟨y, hy⟩ := List.length_eq_one_iff.1 (hr p hp)
    rw [hy]; rfl
  constructor
  · simp only [quad, tensorRule, show ¬(2 : ℕ) = 3 by omega, if_false]
    rw [sum_flatMap]
    rw [List.map_congr_left (g := fun y : List ℝ × ℝ => (r.map fun x => x.2 * f (x.1.headD 0)).sum *
      (y.2 * g (y.1.headD 0))) fun y hy => ?_, sum_map_mul]
    rw [List.map_map, mul_comm, ← sum_map_mul]
    congr 1
    refine List.map_congr_left fun x hx => ?_
    simp only [Function.comp_apply]
    rw [hc x hx, hc y hy]
    simp
    ring
  · simp only [quad, tensorRule, if_true]
    rw [sum_flatMap]
    rw [List.map_congr_left (g := fun z : List ℝ × ℝ => ((r.map fun x => x.2 * f (x.1.headD 0)).sum *
      (r.map fun x => x.2 * g (x.1.headD 0)).sum) * (z.2 * h (z.1.headD 0))) fun z hz => ?_, sum_map_mul]
    rw [sum_flatMap]
    rw [List.map_congr_left (g := fun y : List ℝ × ℝ => ((r.map fun x => x.2 * f (x.1.headD 0)).sum *
      (z.2 * h (z.1.headD 0))) * (y.2 * g (y.1.headD 0))) fun y hy => ?_, sum_map_mul]
    · ring
    · rw [List.map_map]
      rw [show (r.map fun x => x.2 * f (x.1.headD 0)).sum * (z.2 * h (z.1.headD 0)) *
        (y.2 * g (y.1.headD 0)) = ((z.2 * h (z.1.headD 0)) * (y.2 * g (y.1.headD 0))) *
        (r.map fun x => x.2 * f (x.1.headD 0)).sum by ring, ← sum_map_mul]
      congr 1
      refine List.map_congr_left fun x hx => ?_
      simp only [Function.comp_apply]
      rw [hc x hx, hc y hy, hc z hz]
      simp
      ring

/-- **C92** (what the code does).  With `full_order`, an order above the table of a tensor product geometry
is an error. -/
theorem C92_full_order_beyond_fails (g : Geom) (hg : g.simplex = false) (order : ℕ)
    (ho : ∀ o ∈ (tables g).map Entry.order, o < order) : fromTable g order true = none := by
  have h := ho _ (maxOrder_mem g)
  simp only [fromTable, fromTableOf, hg, Bool.false_eq_true, if_false, if_true]
  rw [if_neg (by omega)]

/-- **C92** (what the code does).  On the wedge, a line order above 3 selects a rule for the cube: the
weights sum to one instead of to the volume one half. -/
theorem C92_wedge_high_order (order : ℕ) (h3 : 3 < order) (h47 : order ≤ 47) :
    ∃ R o, fromTable .g36 order false = some (R, o) ∧ |quad R (fun _ => 1) - 1| ≤ tol := by
  obtain ⟨h1, h2, _⟩ := getActualOrder_spec ((tables .g12).map Entry.order) order (orders_increasing .g12)
    (line_orders_47 order h47)
  obtain ⟨R, r1, r2, r3⟩ := simplex_table .g12 rfl _ h1
  have hd : Geom.dim .g36 = 3 := rfl
  have hs : Geom.simplex .g36 = false := rfl
  have hmax : ((tables .g36).map Entry.order).foldl max 0 = 9 := by decide +kernel
  refine ⟨tensorRule 3 R, 3 * getActualOrder ((tables .g12).map Entry.order) order, ?_, ?_⟩
  · simp only [fromTable, fromTableOf, hs, hd, Bool.false_eq_true, if_false, hmax]
    rw [if_neg (by omega), r1]
    simp only [mkQP_plain]
    rfl
  · have := tensor_moments 3 (Or.inr rfl) R order (fun e he hs => r2 e he (le_trans hs h2)) r3 [0, 0, 0] rfl
      (by simp)
    have e1 : (fun _ : List ℝ => (1 : ℝ)) = mon [0, 0, 0] := by funext l; simp [mon]
    rw [e1]
    simpa [momCube] using this

/-- **C92** (what the code does).  On the square and the cube, every line order above 47 gives the rule of
order 47. -/
theorem C92_tensor_order_cap (g : Geom) (hg : g = .g24 ∨ g = .g38) (order : ℕ) (h : 47 < order) :
    fromTable g order false = fromTable g 47 false := by
  have hs : g.simplex = false := by rcases hg with rfl | rfl <;> rfl
  have hdim : g.dim = 2 ∨ g.dim = 3 := by rcases hg with rfl | rfl <;> decide
  have hmax : ((tables g).map Entry.order).foldl max 0 = 5 := by rcases hg with rfl | rfl <;> decide +kernel
  have hall : ∀ o ∈ (tables .g12).map Entry.order, o ≤ 47 := by decide +kernel
  have h47 : getActualOrder ((tables .g12).map Entry.order) 47 = 47 := by decide +kernel
  have ho : getActualOrder ((tables .g12).map Entry.order) order = 47 := by
    obtain ⟨a1, a2⟩ := getActualOrder_beyond ((tables .g12).map Entry.order) order
      (List.ne_nil_of_mem (maxOrder_mem .g12)) (fun o ho => by have := hall o ho; omega)
    have := a2 47 (by decide +kernel)
    have := hall _ a1
    omega
  simp only [fromTable, fromTableOf, hs, Bool.false_eq_true, if_false, hmax, h47, ho]
  rw [if_neg (by rcases hdim with h | h <;> rw [h] <;> omega),
    if_neg (by rcases hdim with h | h <;> rw [h] <;> omega)]

/-- **C92** (what the code does).  Custom coordinates and weights cannot be used with the symmetric mode. -/
theorem C92_custom_symmetric_fails (rows : Rule ℝ) (bounds : Option (ℝ × ℝ)) (tp wf : ℝ) :
    mkQP false rows bounds tp wf true = none := by
  simp [mkQP]

/-! ## The cache of `Integral.get_qp` -/

theorem orderName_inj {a b : ℕ} (h : orderName a = orderName b) : a = b := by
  unfold orderName at h
  rw [String.append_right_inj] at h
  have h1 := congrArg String.toList h
  rw [Nat.toList_repr, Nat.toList_repr] at h1
  have h2 := congrArg (fun l => Nat.ofDigitChars 10 l 0) h1
  simpa only [Nat.ofDigitChars_ten_toDigits] using h2

/-- The rule an integral stands for on a geometry: what `get_qp` has to return. -/
noncomputable def integralRule (I : IntegralDef) (g : Geom) : Option (Rule ℝ) :=
  match I.custom with
  | none => (fromTable g I.order I.full).map Prod.fst
  | some (rows, bounds, tp, wf, sym) => mkQP false rows bounds tp wf sym

theorem freshQp_eq (I : IntegralDef) (g : Geom) : freshQp fromTable I g = integralRule I g := by
  unfold freshQp integralRule
  cases I.custom <;> rfl

theorem getQp_inv (I : IntegralDef) (qps : List (Geom × Rule ℝ)) (g : Geom)
    (h : ∀ x ∈ qps, integralRule I x.1 = some x.2) :
    (getQp fromTable I qps g).1 = integralRule I g ∧
    ∀ x ∈ (getQp fromTable I qps g).2, integralRule I x.1 = some x.2 := by
  unfold getQp
  cases hf : qps.find? fun x => decide (x.1 = g) with
  | some x =>
    have h1 := List.find?_some hf
    have h2 := h x (List.mem_of_find?_eq_some hf)
    simp only
    rw [decide_eq_true_eq] at h1
    exact ⟨by rw [← h2, h1], h⟩
  | none =>
    simp only
    rw [freshQp_eq]
    cases hr : integralRule I g with
    | none => exact ⟨rfl, h⟩
    | some r =>
      refine ⟨rfl, fun x hx => ?_⟩
      simp only at hx
      rcases List.mem_append.1 hx with h1 | h1
      · exact h x h1
      · obtain rfl : x = (g, r) := by simpa using h1
        exact hr

/-- **C92.**  Whatever sequence of geometries an integral was asked for, `get_qp` returns the rule of its own
order (or its custom rule) for the geometry asked: the cache never mixes geometries. -/
theorem C92_get_qp_history (I : IntegralDef) (gs : List Geom) (g : Geom) :
    (getQp fromTable I (gs.foldl (fun qps g => (getQp fromTable I qps g).2) []) g).1 = integralRule I g := by
  have : ∀ (gs : List Geom) (qps : List (Geom × Rule ℝ)), (∀ x ∈ qps, integralRule I x.1 = some x.2) →
      ∀ x ∈ gs.foldl (fun qps g => (getQp fromTable I qps g).2) qps, integralRule I x.1 = some x.2 := by
    intro gs
    induction gs with
    | nil => intro qps h; exact h
    | cons a gs ih => intro qps h; exact ih _ (getQp_inv I qps a h).2
  exact (getQp_inv I _ g (this gs [] (by simp))).1

/-- **C92.**  `Integrals.get` of an order returns an integral of that order, whatever integrals were defined
and asked for before; integrals that exist are not changed. -/
theorem C92_integrals_get (hist : List ℕ) (custom : List (String × IntegralDef)) (order : ℕ)
    (hc : ∀ x ∈ custom, ∀ k : ℕ, x.1 ≠ orderName k) :
    let st := hist.foldl (fun st o => (integralsGet st o).2) custom
    (integralsGet st order).1 = { order := order, full := false, custom := none } ∧
    custom <+: (integralsGet st order).2 := by
  have inv : ∀ (st : List (String × IntegralDef)) (o : ℕ),
      (custom <+: st ∧ ∀ x ∈ st, ∀ k : ℕ, x.1 = orderName k → x.2 = ⟨k, false, none⟩) →
      ((integralsGet st o).1 = ⟨o, false, none⟩ ∧ custom <+: (integralsGet st o).2 ∧
        ∀ x ∈ (integralsGet st o).2, ∀ k : ℕ, x.1 = orderName k → x.2 = ⟨k, false, none⟩) := by
    intro st o ⟨h1, h2⟩
    unfold integralsGet
    cases hf : st.find? fun x => decide (x.1 = orderName o) with
    | some x =>
      have h3 := List.find?_some hf
      rw [decide_eq_true_eq] at h3
      exact ⟨h2 x (List.mem_of_find?_eq_some hf) o h3, h1, h2⟩
    | none =>
      refine ⟨rfl, h1.trans (List.prefix_append _ _), fun x hx k hk => ?_⟩
      simp only at hx
      rcases List.mem_append.1 hx with h | h
      · exact h2 x h k hk
      · obtain rfl : x = (orderName o, ⟨o, false, none⟩) := by simpa using h
        simp only at hk ⊢
        rw [orderName_inj hk]
  have run : ∀ (hist : List ℕ) (st : List (String × IntegralDef)),
      (custom <+: st ∧ ∀ x ∈ st, ∀ k : ℕ, x.1 = orderName k → x.2 = ⟨k, false, none⟩) →
      (custom <+: hist.foldl (fun st o => (integralsGet st o).2) st ∧
        ∀ x ∈ hist.foldl (fun st o => (integralsGet st o).2) st, ∀ k : ℕ, x.1 = orderName k →
          x.2 = ⟨k, false, none⟩) := by
    intro hist
    induction hist with
    | nil => intro st h; exact h
    | cons a hist ih => intro st h; exact ih _ (inv st a h).2
  have := inv _ order (run hist custom ⟨List.prefix_rfl, fun x hx k hk => absurd hk (hc x hx k)⟩)
  exact ⟨this.1, this.2.1⟩

end Quad
