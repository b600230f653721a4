/-
Closed forms of the Lagrange bases, the Vandermonde identities and the reproduction of polynomials.
-/
import Verif.Fem.Lagrange
import Mathlib.RingTheory.PowerSeries.Binomial
import Mathlib.Algebra.Order.Antidiag.FinsuppEquiv
import Mathlib.Tactic.Ring
import Mathlib.Tactic.FieldSimp
import Mathlib.Tactic.Linarith

namespace Verif.Fem

open Finset

variable {K : Type} [Field K]

/-! ### Loops -/

theorem foldl_mul {α : Type} [CommMonoid α] (n : ℕ) (f : ℕ → α) (a : α) :
    (List.range n).foldl (fun p i => p * f i) a = a * ∏ i ∈ range n, f i := by
  induction n with
  | zero => simp
  | succ n ih => rw [List.range_succ, List.foldl_append, ih, prod_range_succ]; simp [mul_assoc]

theorem foldl_add {α : Type} [AddCommMonoid α] (n : ℕ) (f : ℕ → α) (a : α) :
    (List.range n).foldl (fun p i => p + f i) a = a + ∑ i ∈ range n, f i := by
  induction n with
  | zero => simp
  | succ n ih => rw [List.range_succ, List.foldl_append, ih, sum_range_succ]; simp [add_assoc]

theorem foldl_mul_skip {α : Type} [CommMonoid α] (n : ℕ) (f : ℕ → α) (P : ℕ → Prop) [DecidablePred P] (a : α) :
    (List.range n).foldl (fun p i => if P i then p else p * f i) a = a * ∏ i ∈ range n with ¬ P i, f i := by
  rw [prod_filter, ← foldl_mul]
  congr 1
  funext p i
  split_ifs <;> simp

theorem foldl_add_skip {α : Type} [AddCommMonoid α] (n : ℕ) (f : ℕ → α) (P : ℕ → Prop) [DecidablePred P] (a : α) :
    (List.range n).foldl (fun p i => if P i then p else p + f i) a = a + ∑ i ∈ range n with ¬ P i, f i := by
  rw [sum_filter, ← foldl_add]
  congr 1
  funext p i
  split_ifs <;> simp

/-! ### Binomial polynomials -/

/-- The binomial polynomial `x (x - 1) ... (x - n + 1) / n!`. -/
def ch (x : K) (n : ℕ) : K := ∏ k ∈ range n, (x - k) / (k + 1)

@[simp] theorem ch_zero (x : K) : ch x 0 = 1 := by simp [ch]

theorem ch_succ (x : K) (n : ℕ) : ch x (n + 1) = ch x n * ((x - n) / (n + 1)) := by
  rw [ch, prod_range_succ, ← ch]

theorem lagVal_eq (nV order : ℕ) (bc : ℕ → K) (node : ℕ → ℕ) :
    lagVal nV order bc node = ∏ i ∈ range nV, ch (order * bc i) (node i) := by
  simp only [lagVal, foldl_mul, one_mul]
  rfl

section
variable [CharZero K]

theorem ch_eq_choose (x : K) (n : ℕ) : ch x n = Ring.choose x n := by
  rw [Ring.choose_eq_smul]
  induction n with
  | zero => simp [descPochhammer]
  | succ n ih =>
    rw [ch_succ, ih, descPochhammer_succ_right, Polynomial.smeval_mul, Nat.factorial_succ]
    have h : (n : K) + 1 ≠ 0 := Nat.cast_add_one_ne_zero n
    have h2 : (n.factorial : K) ≠ 0 := Nat.cast_ne_zero.2 n.factorial_ne_zero
    have e : (Polynomial.X - (n : Polynomial ℤ)).smeval x = x - n := by
      rw [Polynomial.smeval_sub, Polynomial.smeval_X, Polynomial.smeval_natCast]
      simp
    rw [e]
    simp only [smul_eq_mul]
    push_cast
    field_simp

theorem ch_nat (m n : ℕ) : ch (m : K) n = (m.choose n : K) := by
  rw [ch_eq_choose, Ring.choose_natCast]

/-- Vandermonde identity for several variables. -/
theorem vandermonde {ι : Type} [DecidableEq ι] (s : Finset ι) (x : ι → K) (n : ℕ) :
    ∑ m ∈ finsuppAntidiag s n, ∏ i ∈ s, ch (x i) (m i) = ch (∑ i ∈ s, x i) n := by
  have h : ∀ t : Finset ι, PowerSeries.binomialSeries K (∑ i ∈ t, x i) =
      ∏ i ∈ t, PowerSeries.binomialSeries K (x i) := by
    intro t
    induction t using Finset.induction_on with
    | empty => simp [PowerSeries.binomialSeries_zero]
    | insert a t ha ih => rw [sum_insert ha, prod_insert ha, PowerSeries.binomialSeries_add, ih]
  have := congrArg (PowerSeries.coeff n) (h s)
  rw [PowerSeries.coeff_prod, PowerSeries.binomialSeries_coeff] at this
  simp only [PowerSeries.binomialSeries_coeff, smul_eq_mul, mul_one, ← ch_eq_choose] at this
  exact this.symm

/-- `C(a, m) C(x, a) = C(x, m) C(x - m, a - m)`. -/
theorem ch_mul (x : K) (m k : ℕ) : ((m + k).choose m : K) * ch x (m + k) = ch x m * ch (x - m) k := by
  induction k with
  | zero => simp
  | succ k ih =>
    rw [← add_assoc, ch_succ, ch_succ]
    have h1 : ((k : K) + 1) ≠ 0 := Nat.cast_add_one_ne_zero k
    have h2 : ((m + k : ℕ) : K) + 1 ≠ 0 := Nat.cast_add_one_ne_zero _
    have h3 : ((m + k + 1).choose m : K) * ((k : K) + 1) = ((m + k).choose m : K) * ((m + k : ℕ) + 1) := by
      have := Nat.choose_mul_succ_eq (m + k) m
      rw [show m + k + 1 - m = k + 1 by omega] at this
      exact_mod_cast this.symm
    calc ((m + k + 1).choose m : K) * (ch x (m + k) * ((x - (m + k : ℕ)) / ((m + k : ℕ) + 1)))
        = ((m + k + 1).choose m * (k + 1)) * ch x (m + k) * ((x - (m + k : ℕ)) / ((m + k : ℕ) + 1)) / (k + 1) := by
          field_simp
      _ = (((m + k).choose m : K) * ch x (m + k)) * ((x - (m + k : ℕ)) / (k + 1)) := by
          rw [h3]; field_simp
      _ = _ := by rw [ih]; push_cast; ring

end

end Verif.Fem
