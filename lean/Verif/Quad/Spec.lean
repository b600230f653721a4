/-
The specification of the integrals that the quadrature rules of sfepy approximate: iterated integrals
over the reference elements, polynomials, and what it means for a rule to integrate them.

Nothing in this file models code: it is the independent statement of what a quadrature rule is for.
-/
import Mathlib.Analysis.SpecialFunctions.Integrals.Basic
import Mathlib.Algebra.MvPolynomial.Degrees
import Mathlib.Algebra.MvPolynomial.Eval
import Mathlib.Data.Nat.Factorial.Basic
import Mathlib.Tactic.Ring
import Mathlib.Tactic.Linarith
import Mathlib.Tactic.FieldSimp
import Mathlib.Tactic.LinearCombination

namespace Quad

open scoped Interval

/-- The integral over the simplex `{x ≥ 0, x_1 + … + x_n ≤ c}`, as an iterated integral. -/
noncomputable def simplexInt : ℕ → ℝ → (List ℝ → ℝ) → ℝ
  | 0, _, f => f []
  | n + 1, c, f => ∫ x in (0 : ℝ)..c, simplexInt n (c - x) fun l => f (x :: l)

/-- The integral over the unit cube `[0, 1]^n`, as an iterated integral. -/
noncomputable def cubeInt : ℕ → (List ℝ → ℝ) → ℝ
  | 0, f => f []
  | n + 1, f => ∫ x in (0 : ℝ)..1, cubeInt n fun l => f (x :: l)

/-- The integral over the wedge (triangle times interval). -/
noncomputable def wedgeInt (f : List ℝ → ℝ) : ℝ :=
  simplexInt 2 1 fun l => ∫ z in (0 : ℝ)..1, f (l ++ [z])

/-- The monomial `x_1 ^ e_1 ⋯ x_n ^ e_n`. -/
def mon {K : Type} [CommSemiring K] : List ℕ → List K → K
  | [], _ => 1
  | e :: es, x => (x.headD 0) ^ e * mon es x.tail

/-- A polynomial in `n` variables evaluated at a point given as a list. -/
noncomputable def evalAt {n : ℕ} (p : MvPolynomial (Fin n) ℝ) (x : List ℝ) : ℝ :=
  MvPolynomial.eval (fun i : Fin n => x.getD i 0) p

/-- The sum of the absolute values of the coefficients of a polynomial. -/
noncomputable def coefNorm {n : ℕ} (p : MvPolynomial (Fin n) ℝ) : ℝ :=
  ∑ m ∈ p.support, |p.coeff m|

/-- A quadrature rule: the points and their weights. -/
abbrev Rule (K : Type) := List (List K × K)

/-- The value of a quadrature rule on a function. -/
def quad {K : Type} [Semiring K] (r : Rule K) (f : List K → K) : K := (r.map fun p => p.2 * f p.1).sum

/-! ## Exact integrals of monomials -/

/-- `∫ x^a (c - x)^b` over `[0, c]`. -/
theorem beta_int (b : ℕ) : ∀ (a : ℕ) (c : ℝ), ∫ x in (0 : ℝ)..c, x ^ a * (c - x) ^ b =
    (a.factorial * b.factorial : ℝ) / ((a + b + 1).factorial : ℝ) * c ^ (a + b + 1) := by
  induction b with
  | zero =>
    intro a c
    simp only [pow_zero, mul_one, integral_pow, add_zero, Nat.factorial_succ, Nat.factorial_zero]
    have h1 : (a.factorial : ℝ) ≠ 0 := by exact_mod_cast a.factorial_ne_zero
    have h2 : ((a : ℝ) + 1) ≠ 0 := by positivity
    push_cast
    field_simp
    simp
  | succ b ih =>
    intro a c
    have hd : ∀ x ∈ Set.uIcc (0 : ℝ) c, HasDerivAt (fun x : ℝ => x ^ (a + 1) * (c - x) ^ (b + 1))
        ((a + 1) * (x ^ a * (c - x) ^ (b + 1)) - (b + 1) * (x ^ (a + 1) * (c - x) ^ b)) x := by
      intro x _
      have h1 : HasDerivAt (fun x : ℝ => x ^ (a + 1)) ((a + 1 : ℕ) * x ^ a) x := by
        simpa using hasDerivAt_pow (a + 1) x
      have h2 : HasDerivAt (fun x : ℝ => (c - x) ^ (b + 1)) ((b + 1 : ℕ) * (c - x) ^ b * (-1)) x := by
        have h3 : HasDerivAt (fun x : ℝ => c - x) (-1) x := by
          simpa using (hasDerivAt_id x).const_sub c
        simpa using h3.fun_pow (b + 1)
      refine (h1.mul h2).congr_deriv ?_
      push_cast
      ring
    have hi := intervalIntegral.integral_eq_sub_of_hasDerivAt hd
      (Continuous.intervalIntegrable (by fun_prop) _ _)
    rw [intervalIntegral.integral_sub (Continuous.intervalIntegrable (by fun_prop) _ _)
      (Continuous.intervalIntegrable (by fun_prop) _ _)] at hi
    rw [intervalIntegral.integral_const_mul, intervalIntegral.integral_const_mul, ih (a + 1) c] at hi
    simp only [sub_self, zero_pow (Nat.succ_ne_zero _), mul_zero, zero_mul] at hi
    have h2 : ((a : ℝ) + 1) ≠ 0 := by positivity
    have h3 : (((a + (b + 1) + 1).factorial : ℕ) : ℝ) ≠ 0 := by
      exact_mod_cast Nat.factorial_ne_zero _
    rw [show a + 1 + b + 1 = a + (b + 1) + 1 by ring] at hi
    apply mul_left_cancel₀ h2
    rw [Nat.factorial_succ a] at hi
    rw [Nat.factorial_succ b]
    push_cast at hi ⊢
    have e : ∀ I A B D F : ℝ, F ≠ 0 → (a + 1) * I - (b + 1) * (((a + 1) * A) * B / F * D) = 0 →
        (a + 1) * I = (a + 1) * (A * ((b + 1) * B) / F * D) := by
      intro I A B D F _ hh
      rw [sub_eq_zero.1 hh]
      ring
    exact e _ _ _ _ _ h3 (by simpa using hi)

/-- The exact integral of a monomial over the unit simplex. -/
def momSimplex {K : Type} [Semifield K] (e : List ℕ) : K :=
  (e.map fun a => (a.factorial : K)).prod / ((e.sum + e.length).factorial : K)

/-- The exact integral of a monomial over the unit cube. -/
def momCube {K : Type} [Semifield K] (e : List ℕ) : K := (e.map fun a : ℕ => 1 / ((a : K) + 1)).prod

/-- The exact integral of a monomial over the wedge. -/
def momWedge {K : Type} [Semifield K] (e : List ℕ) : K :=
  momSimplex (e.take 2) * momCube (e.drop 2)

theorem momSimplex_cons (a : ℕ) (e : List ℕ) : (momSimplex (a :: e) : ℝ) =
    momSimplex e * ((a.factorial * (e.sum + e.length).factorial : ℝ) /
      ((a + (e.sum + e.length) + 1).factorial : ℝ)) := by
  unfold momSimplex
  have h1 : ((e.sum + e.length).factorial : ℝ) ≠ 0 := by exact_mod_cast Nat.factorial_ne_zero _
  rw [show (a :: e).sum + (a :: e).length = a + (e.sum + e.length) + 1 by simp; ring]
  simp only [List.map_cons, List.prod_cons]
  field_simp

theorem simplexInt_sum {ι : Type} (n : ℕ) : ∀ (T : Finset ι) (a : ι → ℝ) (e : ι → List ℕ) (c : ℝ),
    (∀ t ∈ T, (e t).length = n) →
    simplexInt n c (fun l => ∑ t ∈ T, a t * mon (e t) l) =
      ∑ t ∈ T, a t * (momSimplex (e t) * c ^ ((e t).sum + n)) := by
  induction n with
  | zero =>
    intro T a e c he
    simp only [simplexInt]
    refine Finset.sum_congr rfl fun t ht => ?_
    have : e t = [] := List.length_eq_zero_iff.1 (he t ht)
    simp [this, mon, momSimplex]
  | succ n ih =>
    intro T a e c he
    simp only [simplexInt]
    have h1 : ∀ x : ℝ, simplexInt n (c - x) (fun l => ∑ t ∈ T, a t * mon (e t) (x :: l)) =
        ∑ t ∈ T, a t * momSimplex (e t).tail * (x ^ ((e t).headD 0) * (c - x) ^ ((e t).tail.sum + n)) := by
      intro x
      have := ih T (fun t => a t * x ^ ((e t).headD 0)) (fun t => (e t).tail) (c - x)
        (fun t ht => by rw [List.length_tail, he t ht]; rfl)
      rw [show (fun l => ∑ t ∈ T, a t * mon (e t) (x :: l)) =
        fun l => ∑ t ∈ T, a t * x ^ ((e t).headD 0) * mon (e t).tail l from ?_, this]
      · refine Finset.sum_congr rfl fun t ht => ?_
        ring
      · funext l
        refine Finset.sum_congr rfl fun t ht => ?_
        have := he t ht
        rcases het : e t with _ | ⟨k, ks⟩
        · simp [het] at this
        · simp [mon]
          ring
    simp only [h1]
    rw [intervalIntegral.integral_finsetSum]
    · refine Finset.sum_congr rfl fun t ht => ?_
      rw [intervalIntegral.integral_const_mul, beta_int]
      have := he t ht
      rcases het : e t with _ | ⟨k, ks⟩
      · simp [het] at this
      · have hk : ks.length = n := by simpa [het] using this
        rw [momSimplex_cons, ← hk]
        simp only [List.headD_cons, List.tail_cons, List.sum_cons]
        rw [show k + (ks.sum + ks.length) + 1 = k + ks.sum + (ks.length + 1) by ring]
        ring
    · intro t _
      exact Continuous.intervalIntegrable (by fun_prop) _ _

theorem cubeInt_sum {ι : Type} (n : ℕ) : ∀ (T : Finset ι) (a : ι → ℝ) (e : ι → List ℕ),
    (∀ t ∈ T, (e t).length = n) →
    cubeInt n (fun l => ∑ t ∈ T, a t * mon (e t) l) = ∑ t ∈ T, a t * momCube (e t) := by
  induction n with
  | zero =>
    intro T a e he
    simp only [cubeInt]
    refine Finset.sum_congr rfl fun t ht => ?_
    have : e t = [] := List.length_eq_zero_iff.1 (he t ht)
    simp [this, mon, momCube]
  | succ n ih =>
    intro T a e he
    simp only [cubeInt]
    have h1 : ∀ x : ℝ, cubeInt n (fun l => ∑ t ∈ T, a t * mon (e t) (x :: l)) =
        ∑ t ∈ T, a t * momCube (e t).tail * x ^ ((e t).headD 0) := by
      intro x
      have := ih T (fun t => a t * x ^ ((e t).headD 0)) (fun t => (e t).tail)
        (fun t ht => by rw [List.length_tail, he t ht]; rfl)
      rw [show (fun l => ∑ t ∈ T, a t * mon (e t) (x :: l)) =
        fun l => ∑ t ∈ T, a t * x ^ ((e t).headD 0) * mon (e t).tail l from ?_, this]
      · refine Finset.sum_congr rfl fun t ht => ?_
        ring
      · funext l
        refine Finset.sum_congr rfl fun t ht => ?_
        have := he t ht
        rcases het : e t with _ | ⟨k, ks⟩
        · simp [het] at this
        · simp [mon]
          ring
    simp only [h1]
    rw [intervalIntegral.integral_finsetSum]
    · refine Finset.sum_congr rfl fun t ht => ?_
      rw [intervalIntegral.integral_const_mul, integral_pow]
      have := he t ht
      rcases het : e t with _ | ⟨k, ks⟩
      · simp [het] at this
      · simp [momCube]
        ring
    · intro t _
      exact Continuous.intervalIntegrable (by fun_prop) _ _

theorem mon_append (e1 : List ℕ) : ∀ (e2 : List ℕ) (l1 l2 : List ℝ), e1.length = l1.length →
    mon (e1 ++ e2) (l1 ++ l2) = mon e1 l1 * mon e2 l2 := by
  induction e1 with
  | nil => intro e2 l1 l2 h; obtain rfl : l1 = [] := List.length_eq_zero_iff.1 h.symm; simp [mon]
  | cons a e1 ih =>
    intro e2 l1 l2 h
    rcases l1 with _ | ⟨x, l1⟩
    · simp at h
    · simp only [List.cons_append, mon, List.headD_cons, List.tail_cons]
      rw [ih e2 l1 l2 (by simpa using h)]
      ring

/-- The integrand of an iterated integral over the simplex matters only on lists of the right length. -/
theorem simplexInt_congr (n : ℕ) : ∀ (c : ℝ) (f g : List ℝ → ℝ),
    (∀ l : List ℝ, l.length = n → f l = g l) → simplexInt n c f = simplexInt n c g := by
  induction n with
  | zero => intro c f g h; exact h [] rfl
  | succ n ih =>
    intro c f g h
    simp only [simplexInt]
    congr 1
    funext x
    exact ih _ _ _ fun l hl => h (x :: l) (by simp [hl])

theorem wedgeInt_sum {ι : Type} (T : Finset ι) (a : ι → ℝ) (e : ι → List ℕ)
    (he : ∀ t ∈ T, (e t).length = 3) :
    wedgeInt (fun l => ∑ t ∈ T, a t * mon (e t) l) = ∑ t ∈ T, a t * momWedge (e t) := by
  unfold wedgeInt
  rw [simplexInt_congr 2 1 _ (fun l => ∑ t ∈ T, (a t * momCube ((e t).drop 2)) * mon ((e t).take 2) l)]
  · rw [simplexInt_sum 2 T _ _ 1 (fun t ht => by rw [List.length_take, he t ht]; rfl)]
    refine Finset.sum_congr rfl fun t ht => ?_
    rw [one_pow, momWedge]
    ring
  · intro l hl
    have h1 : ∀ z : ℝ, (∑ t ∈ T, a t * mon (e t) (l ++ [z])) =
        ∑ t ∈ T, a t * mon ((e t).take 2) l * z ^ ((e t).drop 2).headD 0 := by
      intro z
      refine Finset.sum_congr rfl fun t ht => ?_
      have h2 := he t ht
      conv_lhs => rw [← List.take_append_drop 2 (e t)]
      rw [mon_append _ _ _ _ (by rw [List.length_take, h2, hl]; rfl)]
      obtain ⟨k, hk⟩ : ∃ k, (e t).drop 2 = [k] := by
        rw [← List.length_eq_one_iff, List.length_drop, h2]
      rw [hk]
      simp [mon]
      ring
    simp only [h1]
    rw [intervalIntegral.integral_finsetSum]
    · refine Finset.sum_congr rfl fun t ht => ?_
      have h2 := he t ht
      obtain ⟨k, hk⟩ : ∃ k, (e t).drop 2 = [k] := by
        rw [← List.length_eq_one_iff, List.length_drop, h2]
      rw [intervalIntegral.integral_const_mul, hk]
      simp [momCube]
      ring
    · intro t _
      exact Continuous.intervalIntegrable (by fun_prop) _ _

/-! ## Polynomials -/

/-- The exponents of a monomial as a list. -/
def expList {n : ℕ} (m : Fin n →₀ ℕ) : List ℕ := List.ofFn fun i => m i

theorem expList_length {n : ℕ} (m : Fin n →₀ ℕ) : (expList m).length = n := by simp [expList]

theorem expList_sum {n : ℕ} (m : Fin n →₀ ℕ) : (expList m).sum = m.sum fun _ e => e := by
  rw [expList, List.sum_ofFn, Finsupp.sum_fintype _ _ (fun _ => rfl)]

theorem mon_ofFn {n : ℕ} (m : Fin n → ℕ) : ∀ x : List ℝ,
    mon (List.ofFn m) x = ∏ i : Fin n, x.getD i 0 ^ m i := by
  induction n with
  | zero => intro x; simp [mon]
  | succ n ih =>
    intro x
    rw [List.ofFn_succ, mon, ih, Fin.prod_univ_succ]
    rcases x with _ | ⟨y, x⟩
    · simp
    · simp

theorem evalAt_eq {n : ℕ} (p : MvPolynomial (Fin n) ℝ) (x : List ℝ) :
    evalAt p x = ∑ m ∈ p.support, p.coeff m * mon (expList m) x := by
  rw [evalAt, MvPolynomial.eval_eq]
  refine Finset.sum_congr rfl fun m _ => ?_
  rw [expList, mon_ofFn]
  congr 1
  rw [← Finset.prod_subset (Finset.subset_univ m.support)]
  intro i _ hi
  rw [Finsupp.notMem_support_iff.1 hi, pow_zero]

theorem quad_sum {ι : Type} (r : Rule ℝ) (T : Finset ι) (a : ι → ℝ) (e : ι → List ℕ) :
    quad r (fun l => ∑ t ∈ T, a t * mon (e t) l) = ∑ t ∈ T, a t * quad r (mon (e t)) := by
  simp only [quad]
  induction r with
  | nil => simp
  | cons p r ih =>
    simp only [List.map_cons, List.sum_cons]
    rw [ih, Finset.mul_sum, ← Finset.sum_add_distrib]
    refine Finset.sum_congr rfl fun t _ => ?_
    ring

/-- The error of a rule on a polynomial from its errors on the monomials. -/
theorem error_of_moments {n : ℕ} (r : Rule ℝ) (eps : ℝ) (mom : List ℕ → ℝ)
    (p : MvPolynomial (Fin n) ℝ)
    (h : ∀ m ∈ p.support, |quad r (mon (expList m)) - mom (expList m)| ≤ eps) :
    |quad r (evalAt p) - ∑ m ∈ p.support, p.coeff m * mom (expList m)| ≤ eps * coefNorm p := by
  rw [show evalAt p = fun l => ∑ m ∈ p.support, p.coeff m * mon (expList m) l from
    funext fun l => evalAt_eq p l, quad_sum, ← Finset.sum_sub_distrib, coefNorm, Finset.mul_sum]
  refine le_trans (Finset.abs_sum_le_sum_abs _ _) (Finset.sum_le_sum fun m hm => ?_)
  rw [← mul_sub, abs_mul, mul_comm]
  exact mul_le_mul_of_nonneg_right (h m hm) (abs_nonneg _)

theorem simplexInt_poly {n : ℕ} (p : MvPolynomial (Fin n) ℝ) :
    simplexInt n 1 (evalAt p) = ∑ m ∈ p.support, p.coeff m * momSimplex (expList m) := by
  rw [show evalAt p = fun l => ∑ m ∈ p.support, p.coeff m * mon (expList m) l from
    funext fun l => evalAt_eq p l, simplexInt_sum n _ _ _ 1 fun t _ => expList_length t]
  simp

theorem cubeInt_poly {n : ℕ} (p : MvPolynomial (Fin n) ℝ) :
    cubeInt n (evalAt p) = ∑ m ∈ p.support, p.coeff m * momCube (expList m) := by
  rw [show evalAt p = fun l => ∑ m ∈ p.support, p.coeff m * mon (expList m) l from
    funext fun l => evalAt_eq p l, cubeInt_sum n _ _ _ fun t _ => expList_length t]

theorem wedgeInt_poly (p : MvPolynomial (Fin 3) ℝ) :
    wedgeInt (evalAt p) = ∑ m ∈ p.support, p.coeff m * momWedge (expList m) := by
  rw [show evalAt p = fun l => ∑ m ∈ p.support, p.coeff m * mon (expList m) l from
    funext fun l => evalAt_eq p l, wedgeInt_sum _ _ _ fun t _ => expList_length t]

end Quad
