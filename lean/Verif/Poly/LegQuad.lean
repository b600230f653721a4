/-
The Legendre polynomials and the Gauss-Lobatto quadrature.
-/
import Verif.Poly.Sem
import Mathlib.Algebra.Polynomial.Derivative
import Mathlib.Algebra.Polynomial.Div
import Mathlib.LinearAlgebra.Lagrange
import Mathlib.Analysis.Calculus.Deriv.Polynomial
import Mathlib.MeasureTheory.Integral.IntervalIntegral.FundThmCalculus
import Mathlib.Tactic.LinearCombination
import Mathlib.Tactic.FieldSimp
import Mathlib.Topology.Algebra.Polynomial

namespace Verif.Poly

open Polynomial

/-- The Legendre polynomials. -/
noncomputable def legPoly : ℕ → ℝ[X]
  | 0 => 1
  | 1 => X
  | n + 2 => C (1 / ((n : ℝ) + 2)) * (C (2 * (n : ℝ) + 3) * X * legPoly (n + 1) - C ((n : ℝ) + 1) * legPoly n)

theorem legP_eval : ∀ (n : ℕ) (x : ℝ), legP n x = (legPoly n).eval x
  | 0, x => by simp [legP, legPoly]
  | 1, x => by simp [legP, legPoly]
  | n + 2, x => by
    rw [legP, legPoly, legP_eval (n + 1), legP_eval n]
    simp only [eval_mul, eval_sub, eval_C, eval_X]
    ring

theorem legPoly_rec (n : ℕ) : C ((n : ℝ) + 2) * legPoly (n + 2) =
    C (2 * (n : ℝ) + 3) * X * legPoly (n + 1) - C ((n : ℝ) + 1) * legPoly n := by
  have h : (n : ℝ) + 2 ≠ 0 := by positivity
  rw [legPoly, ← mul_assoc, ← C_mul, mul_one_div_cancel h, C_1, one_mul]

theorem leg_identities (n : ℕ) :
    (X ^ 2 - 1) * derivative (legPoly (n + 1)) = C ((n : ℝ) + 1) * (X * legPoly (n + 1) - legPoly n) ∧
    derivative (legPoly (n + 1)) = X * derivative (legPoly n) + C ((n : ℝ) + 1) * legPoly n ∧
    X * derivative (legPoly (n + 1)) - derivative (legPoly n) = C ((n : ℝ) + 1) * legPoly (n + 1) := by
  induction n with
  | zero => refine ⟨?_, ?_, ?_⟩ <;> simp [legPoly]; ring
  | succ n ih =>
    obtain ⟨hA, hB, hC⟩ := ih
    have hr := legPoly_rec n
    have hd : C ((n : ℝ) + 2) * derivative (legPoly (n + 2)) = C (2 * (n : ℝ) + 3) *
        (legPoly (n + 1) + X * derivative (legPoly (n + 1))) - C ((n : ℝ) + 1) * derivative (legPoly n) := by
      have := congrArg derivative hr
      simp only [derivative_mul, derivative_sub, derivative_C, derivative_X, zero_mul, zero_add, mul_one] at this
      rw [this]; ring
    have hne : (C ((n : ℝ) + 2) : ℝ[X]) ≠ 0 := by
      rw [Ne, C_eq_zero]; positivity
    simp only [C_add, C_mul, C_ofNat, C_1, map_natCast, Nat.cast_add, Nat.cast_one] at *
    have hB' : derivative (legPoly (n + 2)) = X * derivative (legPoly (n + 1)) + ((n : ℝ[X]) + 2) * legPoly (n + 1) := by
      apply mul_left_cancel₀ hne
      linear_combination hd + ((n : ℝ[X]) + 1) * hC
    have hC' : X * derivative (legPoly (n + 2)) - derivative (legPoly (n + 1)) = ((n : ℝ[X]) + 2) * legPoly (n + 2) := by
      rw [hB']
      linear_combination hA - hr
    refine ⟨?_, ?_, ?_⟩
    · show (X ^ 2 - 1) * derivative (legPoly (n + 2)) = ((n : ℝ[X]) + 1 + 1) * (X * legPoly (n + 2) - legPoly (n + 1))
      linear_combination X * hC' - hB'
    · show derivative (legPoly (n + 2)) = _
      rw [hB']; ring
    · show X * derivative (legPoly (n + 2)) - _ = ((n : ℝ[X]) + 1 + 1) * legPoly (n + 2)
      rw [hC']; ring

/-- The Legendre equation. -/
theorem leg_ode (n : ℕ) : derivative ((X ^ 2 - 1) * derivative (legPoly n)) = C ((n : ℝ) * (n + 1)) * legPoly n := by
  cases n with
  | zero => simp [legPoly]
  | succ n =>
    obtain ⟨hA, hB, hC⟩ := leg_identities n
    rw [hA]
    simp only [derivative_mul, derivative_sub, derivative_C, derivative_X, zero_mul, zero_add, one_mul]
    simp only [C_add, C_mul, C_1, map_natCast, Nat.cast_add, Nat.cast_one] at *
    linear_combination ((n : ℝ[X]) + 1) * hC

/-- The leading coefficients. -/
noncomputable def legLead : ℕ → ℝ
  | 0 => 1
  | n + 1 => (2 * (n : ℝ) + 1) / (n + 1) * legLead n

theorem legLead_ne (n : ℕ) : legLead n ≠ 0 := by
  induction n with
  | zero => simp [legLead]
  | succ n ih => rw [legLead]; exact mul_ne_zero (by positivity) ih

theorem leg_degree : ∀ n, (legPoly n).natDegree ≤ n ∧ (legPoly n).coeff n = legLead n
  | 0 => by simp [legPoly, legLead]
  | 1 => by simp [legPoly, legLead]
  | n + 2 => by
    obtain ⟨h1, h2⟩ := leg_degree (n + 1)
    obtain ⟨h3, h4⟩ := leg_degree n
    constructor
    · rw [legPoly]
      refine (natDegree_C_mul_le _ _).trans ((natDegree_sub_le _ _).trans (max_le ?_ ?_))
      · rw [mul_assoc]
        refine (natDegree_C_mul_le _ _).trans (natDegree_mul_le.trans ?_)
        rw [natDegree_X]; omega
      · exact (natDegree_C_mul_le _ _).trans (by omega)
    · rw [legPoly, coeff_C_mul, coeff_sub, coeff_C_mul, mul_assoc, coeff_C_mul, coeff_X_mul, h2,
        coeff_eq_zero_of_natDegree_lt (by omega : (legPoly n).natDegree < n + 2)]
      rw [show legLead (n + 2) = (2 * ((n + 1 : ℕ) : ℝ) + 1) / (((n + 1 : ℕ) : ℝ) + 1) * legLead (n + 1) from rfl]
      generalize legLead (n + 1) = l
      push_cast
      have : (n : ℝ) + 2 ≠ 0 := by positivity
      have : (n : ℝ) + 1 ≠ 0 := by positivity
      field_simp
      ring

theorem leg_one (n : ℕ) : (legPoly n).eval 1 = 1 ∧ (legPoly (n + 1)).eval 1 = 1 := by
  induction n with
  | zero => simp [legPoly]
  | succ n ih =>
    refine ⟨ih.2, ?_⟩
    show (legPoly (n + 2)).eval 1 = 1
    rw [legPoly]
    simp only [eval_mul, eval_sub, eval_C, eval_X, ih.1, ih.2]
    have : (n : ℝ) + 2 ≠ 0 := by positivity
    field_simp
    ring

theorem leg_parity : ∀ (n : ℕ) (x : ℝ), (legPoly n).eval (-x) = (-1) ^ n * (legPoly n).eval x
  | 0, x => by simp [legPoly]
  | 1, x => by simp [legPoly]
  | n + 2, x => by
    rw [legPoly]
    simp only [eval_mul, eval_sub, eval_C, eval_X, leg_parity (n + 1), leg_parity n]
    ring

/-! ### Integrals -/

/-- The integral of a polynomial over `[-1, 1]`. -/
noncomputable def integ (f : ℝ[X]) : ℝ := ∫ x in (-1 : ℝ)..1, f.eval x

theorem integ_ii (f : ℝ[X]) : IntervalIntegrable (fun x => f.eval x) MeasureTheory.volume (-1) 1 :=
  (Polynomial.continuous_aeval f).intervalIntegrable _ _

theorem integ_add (f g : ℝ[X]) : integ (f + g) = integ f + integ g := by
  simp only [integ, eval_add]
  exact intervalIntegral.integral_add (integ_ii f) (integ_ii g)

theorem integ_sub (f g : ℝ[X]) : integ (f - g) = integ f - integ g := by
  simp only [integ, eval_sub]
  exact intervalIntegral.integral_sub (integ_ii f) (integ_ii g)

theorem integ_C (a : ℝ) (f : ℝ[X]) : integ (C a * f) = a * integ f := by
  simp only [integ, eval_mul, eval_C]
  exact intervalIntegral.integral_const_mul _ _

theorem integ_zero : integ 0 = 0 := by simp [integ]

theorem integ_sum {ι : Type} (s : Finset ι) (f : ι → ℝ[X]) : integ (∑ i ∈ s, f i) = ∑ i ∈ s, integ (f i) := by
  classical
  induction s using Finset.induction_on with
  | empty => simp [integ_zero]
  | insert a s ha ih => rw [Finset.sum_insert ha, Finset.sum_insert ha, integ_add, ih]

theorem integ_deriv (f : ℝ[X]) : integ (derivative f) = f.eval 1 - f.eval (-1) :=
  intervalIntegral.integral_eq_sub_of_hasDerivAt (fun x _ => f.hasDerivAt x) (integ_ii _)

theorem integ_parts (f g : ℝ[X]) (h1 : (f * g).eval 1 = 0) (h2 : (f * g).eval (-1) = 0) :
    integ (derivative f * g) = - integ (f * derivative g) := by
  have := integ_deriv (f * g)
  rw [h1, h2, derivative_mul, integ_add] at this
  linarith

theorem leg_weak (n : ℕ) (q : ℝ[X]) : (n : ℝ) * (n + 1) * integ (legPoly n * q) =
    integ (legPoly n * derivative ((X ^ 2 - 1) * derivative q)) := by
  rw [← integ_C, ← mul_assoc, ← leg_ode, integ_parts _ _ (by simp) (by simp)]
  rw [show (X ^ 2 - 1) * derivative (legPoly n) * derivative q =
    derivative (legPoly n) * ((X ^ 2 - 1) * derivative q) by ring, integ_parts _ _ (by simp) (by simp), neg_neg]

theorem leg_orth_mon (n m : ℕ) (h : m < n) : integ (legPoly n * X ^ m) = 0 := by
  induction m using Nat.strong_induction_on with
  | _ m ih =>
    have hw := leg_weak n (X ^ m)
    have e : derivative ((X ^ 2 - 1) * derivative (X ^ m : ℝ[X])) =
        C ((m : ℝ) * (m + 1)) * X ^ m - C ((m : ℝ) * (m - 1)) * X ^ (m - 2) := by
      rcases m with _ | _ | m
      · simp
      · simp
      · simp only [derivative_mul, derivative_sub, derivative_X_pow, derivative_one, derivative_C, zero_mul,
          Nat.add_sub_cancel, map_natCast, C_mul, C_add, C_sub, C_1, sub_zero, derivative_natCast, zero_add,
          Nat.cast_add, Nat.cast_one, derivative_add, add_zero, show m + 1 + 1 - 1 = m + 1 by omega,
          show m + 1 + 1 - 2 = m by omega, show 2 - 1 = 1 by rfl]
        push_cast
        ring
    have h2 : integ (legPoly n * (C ((m : ℝ) * (m - 1)) * X ^ (m - 2))) = 0 := by
      rw [show legPoly n * (C ((m : ℝ) * (m - 1)) * X ^ (m - 2)) = C ((m : ℝ) * (m - 1)) * (legPoly n * X ^ (m - 2)) by
        ring, integ_C]
      rcases m with _ | _ | m
      · simp
      · simp
      · rw [ih _ (by omega) (by omega), mul_zero]
    rw [e, mul_sub, integ_sub, h2, sub_zero,
      show legPoly n * (C ((m : ℝ) * (m + 1)) * X ^ m) = C ((m : ℝ) * (m + 1)) * (legPoly n * X ^ m) by ring,
      integ_C] at hw
    have hne : (n : ℝ) * (n + 1) - m * (m + 1) ≠ 0 := by
      have : (m : ℝ) < n := by exact_mod_cast h
      have : (0 : ℝ) ≤ m := Nat.cast_nonneg m
      nlinarith
    have : ((n : ℝ) * (n + 1) - m * (m + 1)) * integ (legPoly n * X ^ m) = 0 := by linarith
    exact (mul_eq_zero.1 this).resolve_left hne

/-- Orthogonality to the polynomials of a smaller degree. -/
theorem leg_orth (n : ℕ) (q : ℝ[X]) (h : q.natDegree < n) : integ (legPoly n * q) = 0 := by
  rw [q.as_sum_range_C_mul_X_pow, Finset.mul_sum, integ_sum]
  refine Finset.sum_eq_zero fun m hm => ?_
  rw [show legPoly n * (C (q.coeff m) * X ^ m) = C (q.coeff m) * (legPoly n * X ^ m) by ring, integ_C,
    leg_orth_mon n m (by have := Finset.mem_range.1 hm; omega), mul_zero]

theorem leg_norm (n : ℕ) : integ (legPoly n * legPoly n) = 2 / (2 * n + 1) := by
  have h := integ_deriv (X * (legPoly n * legPoly n))
  simp only [eval_mul, eval_X, (leg_one n).1, leg_parity, mul_one] at h
  rw [show (-1 : ℝ) * ((-1) ^ n * (-1) ^ n) = -1 by rw [← mul_pow]; simp] at h
  have e : derivative (X * (legPoly n * legPoly n)) =
      legPoly n * legPoly n + C 2 * (legPoly n * (X * derivative (legPoly n))) := by
    simp only [derivative_mul, derivative_X]
    rw [C_ofNat]
    ring
  rw [e, integ_add, integ_C] at h
  cases n with
  | zero => simp [legPoly, integ_zero] at h ⊢; linarith
  | succ n =>
    obtain ⟨-, -, hC⟩ := leg_identities n
    have hx : X * derivative (legPoly (n + 1)) = C ((n : ℝ) + 1) * legPoly (n + 1) + derivative (legPoly n) := by
      rw [← hC]; ring
    rw [hx, mul_add, integ_add, leg_orth (n + 1) (derivative (legPoly n)) (by
      have := natDegree_derivative_le (legPoly n)
      have := (leg_degree n).1
      omega), show legPoly (n + 1) * (C ((n : ℝ) + 1) * legPoly (n + 1)) =
      C ((n : ℝ) + 1) * (legPoly (n + 1) * legPoly (n + 1)) by ring, integ_C] at h
    rw [eq_div_iff (by positivity)]
    push_cast
    linarith

/-- The integral of a Legendre polynomial times a polynomial of at most the same degree. -/
theorem leg_top (n : ℕ) (q : ℝ[X]) (h : q.natDegree ≤ n) :
    integ (legPoly n * q) = q.coeff n / legLead n * (2 / (2 * n + 1)) := by
  obtain ⟨h1, h2⟩ := leg_degree n
  have e : legPoly n * q = C (q.coeff n / legLead n) * (legPoly n * legPoly n) +
      legPoly n * (q - C (q.coeff n / legLead n) * legPoly n) := by ring
  have hz : integ (legPoly n * (q - C (q.coeff n / legLead n) * legPoly n)) = 0 := by
    cases n with
    | zero =>
      have : q - C (q.coeff 0 / legLead 0) * legPoly 0 = 0 := by
        rw [eq_C_of_natDegree_le_zero h]; simp [legPoly, legLead]
      rw [this, mul_zero, integ_zero]
    | succ n =>
      refine leg_orth _ _ (Nat.lt_succ_of_le (natDegree_le_iff_coeff_eq_zero.2 fun N hN => ?_))
      rw [coeff_sub, coeff_C_mul]
      rcases Nat.lt_or_ge (n + 1) N with hlt | hge
      · rw [coeff_eq_zero_of_natDegree_lt (p := q) (by omega),
          coeff_eq_zero_of_natDegree_lt (p := legPoly (n + 1)) (by omega), mul_zero, sub_zero]
      · obtain rfl : N = n + 1 := by omega
        rw [h2, div_mul_cancel₀ _ (legLead_ne _), sub_self]
  rw [e, integ_add, integ_C, leg_norm, hz, add_zero]

end Verif.Poly
