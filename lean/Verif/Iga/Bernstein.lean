import Verif.Np.Vec
import Mathlib.RingTheory.Polynomial.Bernstein
import Mathlib.Tactic.Ring
import Mathlib.Tactic.Linarith
import Mathlib.Tactic.LinearCombination

/-!
# Evaluation of the Bernstein basis

sfepy/discrete/iga/iga.py:682-726 and sfepy/discrete/iga/extmods/nurbs.c:278-316
-/

namespace Iga

open Verif.Np

variable {K : Type*} [CommRing K]

/-- The loop over the functions: `tmp = x * funs[ifun]`, `funs[ifun] = (1 - x) * funs[ifun] + prev`,
`prev = tmp` for `ifun < m`.
sfepy/discrete/iga/iga.py:711-715, 720-724; sfepy/discrete/iga/extmods/nurbs.c:295-300, 308-313 -/
def bernSweep (x : K) (m : ℕ) (funs : ℕ → K) : ℕ → K :=
  ((List.range m).foldl (fun (s : (ℕ → K) × K) i =>
    (upd s.1 i ((1 - x) * s.1 i + s.2), x * s.1 i)) (funs, 0)).1

/-- The functions of the degree `degree - 1`, as they are before the derivatives are evaluated.
sfepy/discrete/iga/iga.py:703-715; sfepy/discrete/iga/extmods/nurbs.c:285-301 -/
def bernLower (x : K) (degree : ℕ) : ℕ → K :=
  (List.range' 1 (degree - 1)).foldl (fun funs ip => bernSweep x (ip + 1) funs)
    (upd (fun _ => 0) 0 1)

/-- `eval_bernstein_basis(x, degree)`: the values and the derivatives. For `ifun = 0`, `funs[-1]`
is the last item, `funs[degree]` (the C code omits it).
sfepy/discrete/iga/iga.py:701-726 -/
def evalBernstein (x : K) (degree : ℕ) : (ℕ → K) × (ℕ → K) :=
  if degree = 0 then (upd (fun _ => 0) 0 1, fun _ => 0)
  else
    let f := bernLower x degree
    (bernSweep x (degree + 1) f,
      fun i => degree * ((if i = 0 then f degree else f (i - 1)) - f i))

/-! ### Lemmas -/

theorem bernSweep_apply (x : K) (m : ℕ) (f : ℕ → K) (i : ℕ) :
    bernSweep x m f i = if i < m then (1 - x) * f i + (if i = 0 then 0 else x * f (i - 1)) else f i := by
  have key : ∀ m, ∀ s : (ℕ → K) × K,
      s = (List.range m).foldl (fun (s : (ℕ → K) × K) i =>
        (upd s.1 i ((1 - x) * s.1 i + s.2), x * s.1 i)) (f, 0) →
      s.2 = (if m = 0 then 0 else x * f (m - 1)) ∧ ∀ i, s.1 i = if i < m then (1 - x) * f i +
        (if i = 0 then 0 else x * f (i - 1)) else f i := by
    intro m
    induction m with
    | zero => rintro s rfl; simp
    | succ m ih =>
      rintro s rfl
      obtain ⟨h1, h2⟩ := ih _ rfl
      rw [List.range_succ, List.foldl_append, List.foldl_cons, List.foldl_nil]
      generalize (List.range m).foldl (fun (s : (ℕ → K) × K) i =>
        (upd s.1 i ((1 - x) * s.1 i + s.2), x * s.1 i)) (f, 0) = s at h1 h2
      refine ⟨?_, ?_⟩
      · simp [h2]
      · intro i
        by_cases hi : i = m
        · subst hi
          simp [upd, h1, h2]
        · simp only [upd, hi, if_false, h2]
          by_cases h : i < m
          · rw [if_pos h, if_pos (show i < m + 1 by omega)]
          · rw [if_neg h, if_neg (show ¬ i < m + 1 by omega)]
  exact (key m _ rfl).2 i

/-- The values of the Bernstein polynomials. -/
def bern (n k : ℕ) (x : K) : K := n.choose k * x ^ k * (1 - x) ^ (n - k)

theorem bern_eq (n k : ℕ) (x : K) : bern n k x = n.choose k * x ^ k * (1 - x) ^ (n - k) := rfl

theorem bern_eval (n k : ℕ) (x : K) : bern n k x = (bernsteinPolynomial K n k).eval x := by
  simp [bern, bernsteinPolynomial]

theorem bern_degree_zero (k : ℕ) (x : K) : upd (fun _ => (0 : K)) 0 1 k = bern 0 k x := by
  by_cases h : k = 0
  · simp [upd, bern_eq, h]
  · simp [upd, bern_eq, h, Nat.choose_eq_zero_of_lt (Nat.pos_of_ne_zero h)]

theorem bern_zero_succ (n : ℕ) (x : K) : bern (n + 1) 0 x = (1 - x) * bern n 0 x := by
  simp only [bern_eq, Nat.choose_zero_right, Nat.cast_one, pow_zero, Nat.sub_zero]
  ring

theorem bern_succ_succ (n k : ℕ) (x : K) :
    bern (n + 1) (k + 1) x = (1 - x) * bern n (k + 1) x + x * bern n k x := by
  simp only [bern_eq, Nat.add_sub_add_right]
  rcases Nat.lt_or_ge n (k + 1) with h | h
  · rw [Nat.choose_succ_succ, Nat.choose_eq_zero_of_lt h]
    push_cast
    ring
  · obtain ⟨j, rfl⟩ := Nat.exists_eq_add_of_le h
    rw [Nat.choose_succ_succ, show k + 1 + j - k = j + 1 by omega,
      show k + 1 + j - (k + 1) = j by omega]
    push_cast
    ring

theorem bern_of_lt (n k : ℕ) (x : K) (h : n < k) : bern n k x = 0 := by
  rw [bern_eq, Nat.choose_eq_zero_of_lt h]; simp

theorem bernLower_eq (x : K) (n : ℕ) (i : ℕ) : bernLower x (n + 1) i = bern n i x := by
  unfold bernLower
  rw [Nat.add_sub_cancel]
  induction n generalizing i with
  | zero => exact bern_degree_zero i x
  | succ n ih =>
    rw [List.range'_concat, List.foldl_append, List.foldl_cons, List.foldl_nil, bernSweep_apply]
    have e : 1 + 1 * n + 1 = n + 2 := by omega
    rw [e]
    by_cases h : i < n + 2
    · rw [if_pos h, ih]
      cases i with
      | zero => rw [if_pos rfl, add_zero, bern_zero_succ]
      | succ i => rw [if_neg (Nat.succ_ne_zero i), Nat.add_sub_cancel, ih, bern_succ_succ]
    · rw [if_neg h, ih, bern_of_lt _ _ _ (by omega), bern_of_lt _ _ _ (by omega)]

/-! ### Property theorems -/

/-- **C76.** The evaluated functions are the Bernstein polynomials
`(n choose k) x^k (1 - x)^(n - k)`. -/
theorem C76_bernstein_values (x : K) (n k : ℕ) :
    (evalBernstein x n).1 k = n.choose k * x ^ k * (1 - x) ^ (n - k) := by
  rw [← bern_eq]
  unfold evalBernstein
  cases n with
  | zero => exact bern_degree_zero k x
  | succ n =>
    rw [if_neg (Nat.succ_ne_zero n)]
    simp only [bernSweep_apply, bernLower_eq]
    by_cases h : k < n + 1 + 1
    · rw [if_pos h]
      cases k with
      | zero => rw [if_pos rfl, add_zero, bern_zero_succ]
      | succ k => rw [if_neg (Nat.succ_ne_zero k), Nat.add_sub_cancel, bern_succ_succ]
    · rw [if_neg h, bern_of_lt _ _ _ (by omega), bern_of_lt _ _ _ (by omega)]

/-- **C76.** The evaluated derivatives are the values of the derivatives of the Bernstein
polynomials. -/
theorem C76_bernstein_derivatives (x : K) (n k : ℕ) (hk : k ≤ n) :
    (evalBernstein x n).2 k = (Polynomial.derivative (bernsteinPolynomial K n k)).eval x := by
  unfold evalBernstein
  cases n with
  | zero =>
    obtain rfl : k = 0 := by omega
    simp [bernsteinPolynomial]
  | succ n =>
    rw [if_neg (Nat.succ_ne_zero n)]
    simp only [bernLower_eq]
    cases k with
    | zero =>
      rw [if_pos rfl, bern_of_lt n (n + 1) x (by omega), bernsteinPolynomial.derivative_zero,
        bern_eval]
      simp only [Polynomial.eval_mul, Polynomial.eval_neg, Polynomial.eval_natCast, Polynomial.eval_add,
        Polynomial.eval_one, Nat.cast_succ, Nat.add_sub_cancel]
      ring
    | succ k =>
      rw [if_neg (Nat.succ_ne_zero k), Nat.add_sub_cancel, bernsteinPolynomial.derivative_succ]
      simp [bern_eval]

/-- **C76.** The Bernstein basis is a partition of unity, and the derivatives sum to zero. -/
theorem C76_bernstein_partition (x : K) (n : ℕ) :
    ∑ k ∈ Finset.range (n + 1), (evalBernstein x n).1 k = 1 ∧
    ∑ k ∈ Finset.range (n + 1), (evalBernstein x n).2 k = 0 := by
  constructor
  · have h := congrArg (Polynomial.eval x) (bernsteinPolynomial.sum K n)
    rw [Polynomial.eval_finsetSum, Polynomial.eval_one] at h
    rw [← h]
    refine Finset.sum_congr rfl fun k _ => ?_
    rw [C76_bernstein_values, ← bern_eq, bern_eval]
  · have h := congrArg (fun q => Polynomial.eval x (Polynomial.derivative q))
      (bernsteinPolynomial.sum K n)
    simp only [Polynomial.derivative_sum, Polynomial.eval_finsetSum, Polynomial.derivative_one,
      Polynomial.eval_zero] at h
    rw [← h]
    exact Finset.sum_congr rfl fun k hk =>
      C76_bernstein_derivatives x n k (by have := Finset.mem_range.1 hk; omega)

end Iga
