import Mathlib.RingTheory.PowerSeries.Basic
import Mathlib.RingTheory.PowerSeries.Derivative
import Mathlib.Algebra.Polynomial.Reverse
import Mathlib.Algebra.Polynomial.Derivative
import Mathlib.Algebra.Polynomial.Eval.Degree
import Mathlib.Data.Nat.Factorial.Basic
import Mathlib.Data.Nat.Choose.Sum
import Mathlib.RingTheory.PowerSeries.WellKnown
import Mathlib.Tactic.Ring
import Mathlib.Data.Real.Basic
import Mathlib.Tactic.Linarith
import Mathlib.Tactic.LinearCombination

namespace Quad
open Polynomial

/-- The Eulerian polynomials of type B. -/
noncomputable def eulB : ℕ → ℝ[X]
  | 0 => 1
  | a + 1 => C (2 : ℝ) * X * (1 - X) * derivative (eulB a) + (1 + C (2 * (a : ℝ) + 1) * X) * eulB a

theorem eulB_coeff (a k : ℕ) : (eulB (a + 1)).coeff k =
    (2 * k + 1) * (eulB a).coeff k + (if k = 0 then 0 else (2 * a + 3 - 2 * k) * (eulB a).coeff (k - 1)) := by
  have e : eulB (a + 1) = C (2 : ℝ) * (X * derivative (eulB a)) - C (2 : ℝ) * (X * (X * derivative (eulB a))) +
      eulB a + C (2 * (a : ℝ) + 1) * (X * eulB a) := by
    rw [eulB]; ring
  rw [e, coeff_add, coeff_add, coeff_sub, coeff_C_mul, coeff_C_mul, coeff_C_mul]
  rcases k with _ | _ | k
  · simp
  · simp [coeff_X_mul, coeff_derivative]; ring
  · simp only [coeff_X_mul, coeff_derivative]
    push_cast
    ring

theorem eulB_zero (a : ℕ) : ∀ k, a < k → (eulB a).coeff k = 0 := by
  induction a with
  | zero => intro k hk; rw [eulB, coeff_one, if_neg (by omega)]
  | succ a ih =>
    intro k hk
    rw [eulB_coeff, ih k (by omega), if_neg (by omega), ih (k - 1) (by omega)]
    ring

theorem eulB_symm (a : ℕ) : ∀ k ≤ a, (eulB a).coeff k = (eulB a).coeff (a - k) := by
  induction a with
  | zero => intro k hk; obtain rfl : k = 0 := by omega
            rfl
  | succ a ih =>
    intro k hk
    rw [eulB_coeff, eulB_coeff]
    rcases Nat.eq_zero_or_pos k with rfl | hk0
    · rw [if_pos rfl, if_neg (by omega), eulB_zero a (a + 1 - 0) (by omega), ih 0 (by omega)]
      simp
      ring
    · rw [if_neg (by omega)]
      by_cases hka : k = a + 1
      · subst hka
        rw [if_pos (by omega), eulB_zero a (a + 1) (by omega), ih (a + 1 - 1) (by omega)]
        simp
        ring
      · rw [if_neg (by omega), ih k (by omega), ih (k - 1) (by omega)]
        have e1 : a + 1 - k - 1 = a - k := by omega
        have e2 : a - (k - 1) = a + 1 - k := by omega
        rw [e1, e2]
        have : ((a + 1 - k : ℕ) : ℝ) = a + 1 - k := by rw [Nat.cast_sub (by omega)]; push_cast; ring
        rw [this]
        ring

theorem eulB_natDegree (a : ℕ) : (eulB a).natDegree ≤ a := by
  rw [natDegree_le_iff_coeff_eq_zero]
  exact fun k hk => eulB_zero a k hk

theorem eulB_reflect (a : ℕ) : reflect a (eulB a) = eulB a := by
  ext k
  rw [coeff_reflect]
  by_cases hk : k ≤ a
  · rw [revAt_le hk, ← eulB_symm a k hk]
  · rw [revAt_eq_self_of_lt (by omega)]

theorem eulB_eval (a : ℕ) : (eulB a).eval 1 = 2 ^ a * a.factorial := by
  induction a with
  | zero => simp [eulB]
  | succ a ih =>
    rw [eulB]
    simp [ih, Nat.factorial_succ]
    ring

/-- `Σ (2 k + 1) ^ a x ^ k`. -/
noncomputable def oddSeries (a : ℕ) : PowerSeries ℝ := PowerSeries.mk fun k => (2 * k + 1 : ℝ) ^ a

theorem oddSeries_succ (a : ℕ) : oddSeries (a + 1) =
    2 * PowerSeries.X * PowerSeries.derivative ℝ (oddSeries a) + oddSeries a := by
  ext k
  have e : (2 * PowerSeries.X * PowerSeries.derivative ℝ (oddSeries a) : PowerSeries ℝ) =
    PowerSeries.C (2 : ℝ) * (PowerSeries.X * PowerSeries.derivative ℝ (oddSeries a)) := by
    rw [mul_assoc]; congr 1
  rw [e, map_add, PowerSeries.coeff_C_mul]
  rcases k with _ | k
  · simp [oddSeries]
  · rw [PowerSeries.coeff_succ_X_mul, PowerSeries.coeff_derivative]
    simp [oddSeries]
    ring

theorem oddSeries_mul (a : ℕ) : (1 - PowerSeries.X) ^ (a + 1) * oddSeries a = (eulB a : PowerSeries ℝ) := by
  induction a with
  | zero =>
    simp only [eulB, oddSeries, pow_zero, zero_add, pow_one, Polynomial.coe_one]
    have := PowerSeries.mk_one_mul_one_sub_eq_one ℝ
    rw [mul_comm]
    exact this
  | succ a ih =>
    have h := congrArg (PowerSeries.derivative ℝ) ih
    rw [PowerSeries.derivative_coe, Derivation.leibniz, Derivation.leibniz_pow] at h
    have hX : PowerSeries.derivative ℝ (1 - PowerSeries.X : PowerSeries ℝ) = -1 := by
      simp [map_sub]
    rw [hX] at h
    simp only [smul_eq_mul, nsmul_eq_mul] at h
    rw [oddSeries_succ]
    have e : ((eulB (a + 1) : ℝ[X]) : PowerSeries ℝ) = 2 * PowerSeries.X * (1 - PowerSeries.X) *
        ((derivative (eulB a) : ℝ[X]) : PowerSeries ℝ) +
        (1 + (2 * (a : PowerSeries ℝ) + 1) * PowerSeries.X) * (eulB a : PowerSeries ℝ) := by
      rw [eulB]
      have h2 : PowerSeries.C (2 : ℝ) = 2 := map_ofNat _ 2
      push_cast
      simp [h2]
    rw [e, ← h, ← ih]
    have e2 : (1 - PowerSeries.X : PowerSeries ℝ) ^ (a + 1 - 1) = (1 - PowerSeries.X) ^ a := by simp
    rw [e2]
    push_cast
    ring

theorem coeff_one_sub_pow (m : ℕ) : ∀ k : ℕ,
    PowerSeries.coeff k ((1 - PowerSeries.X : PowerSeries ℝ) ^ m) = (-1) ^ k * (m.choose k : ℝ) := by
  induction m with
  | zero =>
    intro k
    rcases k with _ | k
    · simp
    · simp [PowerSeries.coeff_one]
  | succ m ih =>
    intro k
    rw [pow_succ, mul_sub, mul_one, map_sub]
    rcases k with _ | k
    · simp [ih]
    · rw [PowerSeries.coeff_succ_mul_X, ih, ih, Nat.choose_succ_succ]
      push_cast
      ring

/-- The product of the Eulerian polynomials of a multi-index. -/
noncomputable def eulP (al : List ℕ) : ℝ[X] := (al.map eulB).prod

theorem eulP_natDegree (al : List ℕ) : (eulP al).natDegree ≤ al.sum := by
  induction al with
  | nil => simp [eulP]
  | cons a al ih =>
    rw [eulP, List.map_cons, List.prod_cons, List.sum_cons]
    exact le_trans natDegree_mul_le (Nat.add_le_add (eulB_natDegree a) ih)

theorem eulP_reflect (al : List ℕ) : reflect al.sum (eulP al) = eulP al := by
  induction al with
  | nil =>
    ext k
    rw [coeff_reflect]
    rcases k with _ | k
    · simp [eulP]
    · rw [revAt_eq_self_of_lt (by simp)]
  | cons a al ih =>
    rw [eulP, List.map_cons, List.prod_cons, List.sum_cons]
    rw [show (al.map eulB).prod = eulP al from rfl]
    rw [reflect_mul _ _ (eulB_natDegree a) (eulP_natDegree al), eulB_reflect, ih]

theorem eulP_eval (al : List ℕ) :
    (eulP al).eval 1 = 2 ^ al.sum * (al.map fun a => (a.factorial : ℝ)).prod := by
  induction al with
  | nil => simp [eulP]
  | cons a al ih =>
    rw [eulP, List.map_cons, List.prod_cons, List.sum_cons, eval_mul, eulB_eval]
    rw [show (al.map eulB).prod = eulP al from rfl, ih]
    simp only [List.map_cons, List.prod_cons]
    ring

/-- The lower half of a palindromic polynomial of odd degree. -/
theorem eulP_half (al : List ℕ) (s : ℕ) (h : al.sum = 2 * s + 1) :
    ∑ k ∈ Finset.range (s + 1), (eulP al).coeff k =
      2 ^ (2 * s) * (al.map fun a => (a.factorial : ℝ)).prod := by
  have h1 : (eulP al).eval 1 = ∑ k ∈ Finset.range (2 * s + 2), (eulP al).coeff k := by
    rw [eval_eq_sum_range' (n := 2 * s + 2)]
    · simp
    · have := eulP_natDegree al
      omega
  have h2 : ∑ k ∈ Finset.range (2 * s + 2), (eulP al).coeff k =
      ∑ k ∈ Finset.range (s + 1), (eulP al).coeff k +
      ∑ k ∈ Finset.range (s + 1), (eulP al).coeff k := by
    rw [show 2 * s + 2 = (s + 1) + (s + 1) by ring, Finset.sum_range_add]
    congr 1
    rw [← Finset.sum_range_reflect]
    refine Finset.sum_congr rfl fun k hk => ?_
    rw [Finset.mem_range] at hk
    have := congrArg (fun p => p.coeff k) (eulP_reflect al)
    simp only [coeff_reflect] at this
    rw [revAt_le (by omega)] at this
    rw [← this]
    congr 1
    omega
  have h3 := eulP_eval al
  rw [h1, h2, h, pow_succ] at h3
  linarith

/-- The product of the power series of the odd numbers of a multi-index. -/
noncomputable def oddP (al : List ℕ) : PowerSeries ℝ := (al.map oddSeries).prod

theorem oddP_mul (al : List ℕ) :
    (1 - PowerSeries.X) ^ (al.sum + al.length) * oddP al = (eulP al : PowerSeries ℝ) := by
  induction al with
  | nil => simp [oddP, eulP]
  | cons a al ih =>
    have e : oddP (a :: al) = oddSeries a * oddP al := by simp [oddP]
    have e2 : eulP (a :: al) = eulB a * eulP al := by simp [eulP]
    rw [e, e2, Polynomial.coe_mul, ← ih, ← oddSeries_mul]
    rw [List.sum_cons, List.length_cons]
    ring

/-- The alternating sum of the coefficients of the product of the odd power series: the
combinatorial identity behind the formulas of Grundmann and Moeller. -/
theorem oddP_alternating (al : List ℕ) (s : ℕ) (h : al.sum = 2 * s + 1) (hl : al ≠ []) :
    ∑ i ∈ Finset.range (s + 1), (-1) ^ i * ((al.sum + al.length - 1).choose i : ℝ) *
      PowerSeries.coeff (s - i) (oddP al) =
      2 ^ (2 * s) * (al.map fun a => (a.factorial : ℝ)).prod := by
  have hlen : 0 < al.length := List.length_pos_of_ne_nil hl
  rw [← eulP_half al s h]
  have h1 := oddP_mul al
  rw [show al.sum + al.length = (al.sum + al.length - 1) + 1 by omega, pow_succ] at h1
  have h2 : (1 - PowerSeries.X) ^ (al.sum + al.length - 1) * oddP al =
      (PowerSeries.mk 1 : PowerSeries ℝ) * (eulP al : PowerSeries ℝ) := by
    rw [← h1]
    have := PowerSeries.mk_one_mul_one_sub_eq_one ℝ
    linear_combination (-(1 - PowerSeries.X) ^ (al.sum + al.length - 1) * oddP al) * this
  have h3 := congrArg (PowerSeries.coeff s) h2
  rw [PowerSeries.coeff_mul, PowerSeries.coeff_mul, Finset.Nat.sum_antidiagonal_eq_sum_range_succ_mk,
    Finset.Nat.sum_antidiagonal_eq_sum_range_succ_mk, ← Finset.sum_range_reflect] at h3
  simp only [coeff_one_sub_pow, PowerSeries.coeff_mk, Polynomial.coeff_coe, Pi.one_apply, one_mul] at h3
  rw [← Finset.sum_range_reflect (fun k => (eulP al).coeff k), ← Finset.sum_range_reflect]
  rw [Nat.succ_eq_add_one] at h3
  rw [h3]
  refine Finset.sum_congr rfl fun k hk => ?_
  congr 1

end Quad
