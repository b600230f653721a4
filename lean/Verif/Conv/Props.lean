import Verif.Conv.Model
import Mathlib.Algebra.BigOperators.Field
import Mathlib.Algebra.BigOperators.Intervals
import Mathlib.Analysis.SpecialFunctions.ExpDeriv
import Mathlib.Tactic.Linarith
import Mathlib.Tactic.FieldSimp
import Mathlib.Tactic.NormNum

/-!
# C142, C143: convolution kernels
-/

open Finset

namespace Verif.Conv

variable {K : Type} [Fintype K]

/-! ## C142: decay, derivative and integral of a kernel -/

/-- The mean decay of a synchronous kernel `d_i C` is its decay `d_i / d_0`. -/
theorem C142_mean_decay (n : ℕ) (d : ℕ → ℝ) (C : K → ℝ) (hC : ∑ k, |C k| * C k ≠ 0) (hd : d (n / 2) ≠ 0)
    (i : ℕ) : meanDecay n (fun i k => d i * C k) i = d i / d 0 := by
  have hC1 : ∑ k, |C k| ≠ 0 := by
    intro h
    apply hC
    apply Finset.sum_eq_zero
    intro k _
    have := (Finset.sum_eq_zero_iff_of_nonneg fun k _ => abs_nonneg (C k)).1 h k (Finset.mem_univ k)
    rw [this, zero_mul]
  have key : ∀ i, ∑ k, |d (n / 2) * C k| / (∑ l, |d (n / 2) * C l|) * (d i * C k) =
      d i * ((∑ k, |C k| * C k) / ∑ l, |C l|) := by
    intro i
    have h2 : ∑ l, |d (n / 2) * C l| = |d (n / 2)| * ∑ l, |C l| := by
      rw [Finset.mul_sum]; exact Finset.sum_congr rfl fun l _ => abs_mul _ _
    rw [h2]
    generalize hS : ∑ l, |C l| = S at hC1
    rw [Finset.sum_div, Finset.mul_sum]
    apply Finset.sum_congr rfl
    intro k _
    rw [abs_mul]
    have : |d (n / 2)| ≠ 0 := abs_ne_zero.2 hd
    field_simp
  simp only [meanDecay]
  rw [key i, key 0]
  have : (∑ k, |C k| * C k) / ∑ l, |C l| ≠ 0 := div_ne_zero hC hC1
  rw [mul_div_mul_right _ _ this]

/-- The decay starts with one. -/
theorem C142_decay_start (n : ℕ) (c : ℕ → K → ℝ) (h : ∑ k, |c (n / 2) k| * c 0 k ≠ 0) : meanDecay n c 0 = 1 := by
  have hS : ∑ l, |c (n / 2) l| ≠ 0 := by
    intro h'
    apply h
    apply Finset.sum_eq_zero
    intro k _
    have := (Finset.sum_eq_zero_iff_of_nonneg fun k _ => abs_nonneg (c (n / 2) k)).1 h' k (Finset.mem_univ k)
    rw [this, zero_mul]
  simp only [meanDecay]
  apply div_self
  have : ∑ k, |c (n / 2) k| / (∑ l, |c (n / 2) l|) * c 0 k = (∑ k, |c (n / 2) k| * c 0 k) / ∑ l, |c (n / 2) l| := by
    rw [Finset.sum_div]; exact Finset.sum_congr rfl fun k _ => by ring
  rw [this]
  exact div_ne_zero h hS

/-- The integral of the derivative of a kernel is the change of the kernel. -/
theorem C142_diff_int (n : ℕ) (hn : 0 < n) (t : ℕ → ℝ) (ht : ∀ i, i + 1 < n → t i < t (i + 1)) (c : ℕ → K → ℝ)
    (k : K) : integrateForward n t (diffDt n t c) k = c (n - 1) k - c 0 k := by
  unfold integrateForward
  rw [← Finset.sum_range_sub (fun i => c i k) (n - 1)]
  apply Finset.sum_congr rfl
  intro i hi
  have hi' : i + 1 < n := by have := Finset.mem_range.1 hi; omega
  simp only [diffDt, if_pos hi']
  have := ht i hi'
  rw [div_mul_cancel₀]
  linarith

/-- The derivative of a kernel that is affine in time is its slope, and zero in the last time. -/
theorem C142_diff_affine (n : ℕ) (t : ℕ → ℝ) (ht : ∀ i, i + 1 < n → t i < t (i + 1)) (b s : K → ℝ) (i : ℕ) (k : K) :
    (i + 1 < n → diffDt n t (fun i k => b k + s k * t i) i k = s k) ∧
      (n ≤ i + 1 → diffDt n t (fun i k => b k + s k * t i) i k = 0) := by
  constructor
  · intro h
    simp only [diffDt, if_pos h]
    have := ht i h
    have h0 : t (i + 1) - t i ≠ 0 := by linarith
    rw [div_eq_iff h0]
    ring
  · intro h
    simp only [diffDt, if_neg (by omega : ¬ i + 1 < n)]

/-- The trapezoidal scheme is exact for kernels affine in time, the forward scheme for constant ones. -/
theorem C142_integral_exact (n : ℕ) (t : ℕ → ℝ) (b s : K → ℝ) (k : K) :
    integrateTrapezoid n t (fun i k => b k + s k * t i) k =
        b k * (t (n - 1) - t 0) + s k * (t (n - 1) ^ 2 - t 0 ^ 2) / 2 ∧
      integrateForward n t (fun _ k => b k) k = b k * (t (n - 1) - t 0) := by
  constructor
  · unfold integrateTrapezoid
    rw [← Finset.sum_range_sub t, ← Finset.sum_range_sub (fun i => t i ^ 2), Finset.mul_sum, Finset.mul_sum,
      Finset.sum_div, ← Finset.sum_add_distrib]
    apply Finset.sum_congr rfl
    intro i _
    ring
  · unfold integrateForward
    rw [← Finset.sum_range_sub t, Finset.mul_sum]

/-- For a kernel that does not grow the forward scheme is not below the trapezoidal one. -/
theorem C142_forward_bound (n : ℕ) (t : ℕ → ℝ) (ht : ∀ i, i + 1 < n → t i < t (i + 1)) (c : ℕ → K → ℝ) (k : K)
    (hc : ∀ i, i + 1 < n → c (i + 1) k ≤ c i k) : integrateTrapezoid n t c k ≤ integrateForward n t c k := by
  apply Finset.sum_le_sum
  intro i hi
  have hi' : i + 1 < n := by have := Finset.mem_range.1 hi; omega
  apply mul_le_mul_of_nonneg_right _ (by linarith [ht i hi'])
  linarith [hc i hi']

/-- The exponential kernel `c0 e(t)` as a function of time. -/
noncomputable def expKernel (c0 : ℝ) (ec : ℝ × ℝ) (x : ℝ) : ℝ := c0 * (ec.1 * Real.exp (-(ec.2 * x)))

/-- The values of the exponential kernel are those of `c0 e(t)`, `diff_dt` gives its derivative. -/
theorem C142_exp_diff (t : ℕ → ℝ) (c : ℕ → K → ℝ) (ec : ℝ × ℝ) (i : ℕ) (k : K) :
    getExp t c ec i k = expKernel (c 0 k) ec (t i) ∧
      HasDerivAt (expKernel (c 0 k) ec) (diffDtExp t c ec i k) (t i) := by
  constructor
  · simp only [getExp, evalExp, expKernel, neg_mul]
  · have h1 : HasDerivAt (fun x => -(ec.2 * x)) (-ec.2) (t i) := by
      have h := (hasDerivAt_id (t i)).const_mul (-ec.2)
      simpa using h
    have h2 := ((h1.exp).const_mul ec.1).const_mul (c 0 k)
    refine h2.congr_deriv ?_
    simp only [diffDtExp, evalExp, neg_mul]
    ring

/-- `int_dt` gives the exact integral of the exponential kernel from the first to the last time, for any first
time: the increment of an antiderivative. -/
theorem C142_exp_int (n : ℕ) (t : ℕ → ℝ) (c : ℕ → K → ℝ) (ec : ℝ × ℝ) (h1 : ec.1 ≠ 0) (h2 : ec.2 ≠ 0) (k : K) :
    ∃ F : ℝ → ℝ, (∀ x, HasDerivAt F (expKernel (c 0 k) ec x) x) ∧ intDtExp n t c ec k = F (t (n - 1)) - F (t 0) := by
  refine ⟨fun x => -(c 0 k * (ec.1 * Real.exp (-(ec.2 * x)))) / ec.2, fun x => ?_, ?_⟩
  · have h1 : HasDerivAt (fun x => -(ec.2 * x)) (-ec.2) x := by
      have h := (hasDerivAt_id x).const_mul (-ec.2)
      simpa using h
    have h3 := ((((h1.exp).const_mul ec.1).const_mul (c 0 k)).neg).div_const ec.2
    refine h3.congr_deriv ?_
    simp only [expKernel]
    field_simp
  · simp only [intDtExp, evalExp, neg_mul]
    have : Real.exp (-(ec.2 * t 0)) ≠ 0 := Real.exp_ne_zero _
    field_simp
    ring

/-- Starting at time zero, the initial guess of the fit is exact for exponential data. -/
theorem C142_guess (x y : ℕ → ℝ) (hx0 : x 0 = 0) (hx1 : x 1 ≠ 0) (a b : ℝ) (ha : a ≠ 0)
    (hy : ∀ i, y i = evalExp (a, b) (x i)) : expGuess x y = (a, b) := by
  have h0 : y 0 = a := by rw [hy, hx0]; simp [evalExp]
  have h1 : y 1 / y 0 = Real.exp (-b * x 1) := by
    rw [h0, hy]; simp only [evalExp]; rw [mul_div_cancel_left₀ _ ha]
  unfold expGuess
  rw [h1, Real.log_exp, h0, hx0, sub_zero, neg_mul, neg_neg, mul_div_cancel_right₀ _ hx1]

/-- Starting at another time it is not: the amplitude is that of the first time. -/
theorem C142_guess_shifted : ∃ (x y : ℕ → ℝ) (a b : ℝ), a ≠ 0 ∧ x 0 < x 1 ∧ (∀ i, y i = evalExp (a, b) (x i)) ∧
    expGuess x y ≠ (a, b) := by
  refine ⟨fun i => i + 1, fun i => evalExp (1, 1) (i + 1), 1, 1, one_ne_zero, by norm_num, fun _ => rfl, ?_⟩
  intro h
  have h1 := (Prod.mk.inj h).1
  simp only [evalExp, one_mul] at h1
  have h2 : Real.exp (-1 * (((0 : ℕ) : ℝ) + 1)) < 1 := by
    rw [Real.exp_lt_one_iff]; norm_num
  linarith

/-! ## C143: interpolation of a kernel for the lags of a time history -/

/-- The kernel between the times of its samples: `v` is the value at `x`, if `x` is between two neighbouring
times, in proportion to the distances. -/
def IsInterpolated (m : ℕ) (s : ℕ → ℝ) (g : ℕ → ℝ) (x v : ℝ) : Prop :=
  (∃ i, i < m ∧ x = s i ∧ v = g i) ∨
    ∃ i, i + 1 < m ∧ s i < x ∧ x < s (i + 1) ∧ (s (i + 1) - s i) * v = (s (i + 1) - x) * g i + (x - s i) * g (i + 1)

theorem argmaxGe_spec (m : ℕ) (s : ℕ → ℝ) (td : ℝ) (h : ∃ i < m, td ≤ s i) :
    argmaxGe m s td < m ∧ td ≤ s (argmaxGe m s td) ∧ ∀ j < argmaxGe m s td, s j < td := by
  unfold argmaxGe
  obtain ⟨i, hi, hti⟩ := h
  have hsome : ((List.range m).find? fun i => decide (td ≤ s i)).isSome := by
    rw [List.find?_isSome]
    exact ⟨i, by simpa using hi, by simpa using hti⟩
  obtain ⟨k, hk⟩ := Option.isSome_iff_exists.1 hsome
  rw [hk, Option.getD_some]
  rw [List.find?_range_eq_some] at hk
  refine ⟨by simpa using hk.2.1, by simpa using hk.1, fun j hj => ?_⟩
  have := hk.2.2 j hj
  simpa using this

/-- For a lag within the range of the kernel the result is the linear interpolation of the kernel; in
the times of the samples it is the sample. -/
theorem C143_interpolation (m : ℕ) (hm : 2 ≤ m) (s : ℕ → ℝ) (hs : ∀ i j, i < j → j < m → s i < s j)
    (mat : ℕ → K → ℝ) (td : ℝ) (h0 : s 0 ≤ td) (h1 : td ≤ s (m - 1)) (k : K) :
    IsInterpolated m s (fun i => mat i k) td (interpAt m s mat td k) := by
  obtain ⟨a1, a2, a3⟩ := argmaxGe_spec m s td ⟨m - 1, by omega, h1⟩
  simp only [interpAt]
  set i1 := argmaxGe m s td with hi1
  by_cases hz : i1 = 0
  · rw [if_pos hz, hz]
    have e : td = s 0 := le_antisymm (by rw [← hz]; exact a2) h0
    left
    refine ⟨0, by omega, e, ?_⟩
    have hlt := hs 0 (m - 1) (by omega) (by omega)
    have hne : s 0 - s (m - 1) ≠ 0 := by linarith
    rw [e, sub_self, zero_div, zero_mul, zero_add, div_self hne, one_mul]
  · rw [if_neg hz]
    have hlt := hs (i1 - 1) i1 (by omega) a1
    have hne : s i1 - s (i1 - 1) ≠ 0 := by linarith
    have hd := a3 (i1 - 1) (by omega)
    rcases lt_or_eq_of_le a2 with h | h
    · right
      refine ⟨i1 - 1, by omega, hd, ?_, ?_⟩
      · rw [Nat.sub_add_cancel (by omega)]; exact h
      · rw [Nat.sub_add_cancel (by omega)]; field_simp
    · left
      refine ⟨i1, a1, h, ?_⟩
      rw [h, sub_self, zero_div, zero_mul, zero_add, div_self hne, one_mul]

/-- The linear interpolation is determined. -/
theorem C143_unique (m : ℕ) (s g : ℕ → ℝ) (hs : ∀ i j, i < j → j < m → s i < s j) (x v v' : ℝ)
    (h : IsInterpolated m s g x v) (h' : IsInterpolated m s g x v') : v = v' := by
  have mono : ∀ i j, i < m → j < m → s i < s j → i < j := by
    intro i j hi hj h
    by_contra hc
    rcases Nat.lt_or_ge j i with h2 | h2
    · have := hs j i h2 hi; linarith
    · have : i = j := by omega
      subst this; linarith
  rcases h with ⟨i, hi, e, rfl⟩ | ⟨i, hi, l, r, e⟩ <;> rcases h' with ⟨j, hj, e', rfl⟩ | ⟨j, hj, l', r', e'⟩
  · rcases Nat.lt_trichotomy i j with h | h | h
    · have := hs i j h hj; linarith
    · subst h; rfl
    · have := hs j i h hi; linarith
  · rw [e] at l' r'
    have := mono _ _ (by omega) hi l'
    have := mono _ _ hi hj r'
    omega
  · rw [e'] at l r
    have := mono _ _ (by omega) hj l
    have := mono _ _ hj hi r
    omega
  · have := mono _ _ (by omega) hj (l.trans r')
    have := mono _ _ (by omega) hi (l'.trans r)
    have : i = j := by omega
    subst this
    have hlt := hs i (i + 1) (by omega) hi
    have : (s (i + 1) - s i) * (v - v') = 0 := by rw [mul_sub, e, e', sub_self]
    rcases mul_eq_zero.1 this with h | h <;> linarith

/-- A lag that exceeds the last sample by a rounding error (at most `1e-12` is let through) gives nearly
the last sample: the last and first samples with the weights `1 + r` and `-r`, `r = (td - s_last) / (s_last - s_0)`. -/
theorem C143_past_end (m : ℕ) (hm : 2 ≤ m) (s : ℕ → ℝ) (hs : ∀ i j, i < j → j < m → s i < s j)
    (mat : ℕ → K → ℝ) (td : ℝ) (h1 : s (m - 1) < td) (k : K) :
    interpAt m s mat td k = mat (m - 1) k +
      (td - s (m - 1)) / (s (m - 1) - s 0) * (mat (m - 1) k - mat 0 k) := by
  have hnone : ((List.range m).find? fun i => decide (td ≤ s i)) = none := by
    rw [List.find?_eq_none]
    intro i hi
    have hi' : i < m := by simpa using hi
    have : s i ≤ s (m - 1) := by
      rcases Nat.lt_or_ge i (m - 1) with h | h
      · exact (hs i (m - 1) h (by omega)).le
      · rw [show i = m - 1 by omega]
    simp only [decide_eq_true_eq, not_le]
    linarith
  have ha : argmaxGe m s td = 0 := by unfold argmaxGe; rw [hnone]; rfl
  simp only [interpAt, ha, if_true]
  have hlt := hs 0 (m - 1) (by omega) (by omega)
  have hne : s 0 - s (m - 1) ≠ 0 := by linarith
  have hne' : s (m - 1) - s 0 ≠ 0 := by linarith
  have e : s 0 - s (m - 1) = -(s (m - 1) - s 0) := by ring
  rw [e]
  field_simp
  ring

/-- The steps that are in the memory: the lags of all steps from the current one back to this one are at most
the last time of the kernel (and a tolerance). -/
def Remembered (m : ℕ) (s : ℕ → ℝ) (tn : ℝ) (times : ℕ → ℝ) (step j : ℕ) : Prop :=
  ∀ l, j ≤ l → l < step → tn - times l ≤ s (m - 1) + 1e-12

/-- The list has one matrix for each remembered step, from the current step back: the `j`-th one is the kernel
at the lag of the step `step - j`; the first one is the kernel at zero.  It ends before the first step that
is not remembered. -/
theorem C143_history (m : ℕ) (s : ℕ → ℝ) (mat : ℕ → K → ℝ) (tn : ℝ) (times : ℕ → ℝ) (step : ℕ) :
    (interpConvMat m s mat tn times step)[0]? = some (mat 0) ∧
    ∀ j, 0 < j → (interpConvMat m s mat tn times step)[j]? =
      open Classical in
      if j < step ∧ Remembered m s tn times step (step - j) then some (interpAt m s mat (tn - times (step - j)))
      else none := by
  refine ⟨rfl, ?_⟩
  have key : ∀ (p j : ℕ), (interpLoop m s mat tn times p)[j]? =
      open Classical in
      if j < p ∧ ∀ l, p - j ≤ l → l ≤ p → tn - times l ≤ s (m - 1) + 1e-12 then
        some (interpAt m s mat (tn - times (p - j))) else none := by
    intro p
    induction p with
    | zero => intro j; simp [interpLoop]
    | succ p ih =>
      intro j
      simp only [interpLoop]
      by_cases h : tn - times (p + 1) - 1e-12 > s (m - 1)
      · rw [if_pos h, if_neg]
        · rfl
        · rintro ⟨_, h2⟩
          have := h2 (p + 1) (by omega) le_rfl
          linarith
      · rw [if_neg h]
        push Not at h
        cases j with
        | zero =>
          rw [if_pos]
          · rfl
          · refine ⟨by omega, fun l hl hl' => ?_⟩
            have : l = p + 1 := by omega
            subst this
            linarith
        | succ j =>
          rw [List.getElem?_cons_succ, ih j]
          have e : p + 1 - (j + 1) = p - j := by omega
          rw [e]
          congr 1
          rw [eq_iff_iff]
          constructor
          · rintro ⟨h1, h2⟩
            refine ⟨by omega, fun l hl hl' => ?_⟩
            rcases Nat.lt_or_ge p l with hp | hp
            · have : l = p + 1 := by omega
              subst this
              linarith
            · exact h2 l hl hp
          · rintro ⟨h1, h2⟩
            exact ⟨by omega, fun l hl hl' => h2 l hl (by omega)⟩
  intro j hj
  obtain ⟨j, rfl⟩ : ∃ j', j = j' + 1 := ⟨j - 1, by omega⟩
  rw [interpConvMat, List.getElem?_cons_succ, key]
  have e : step - 1 - j = step - (j + 1) := by omega
  rw [e]
  congr 1
  rw [eq_iff_iff]
  unfold Remembered
  constructor
  · rintro ⟨h1, h2⟩
    exact ⟨by omega, fun l hl hl' => h2 l hl (by omega)⟩
  · rintro ⟨h1, h2⟩
    exact ⟨by omega, fun l hl hl' => h2 l hl (by omega)⟩

/-- A kernel affine in time is reproduced for all lags within its range. -/
theorem C143_affine (m : ℕ) (hm : 2 ≤ m) (s : ℕ → ℝ) (hs : ∀ i j, i < j → j < m → s i < s j) (b r : K → ℝ)
    (td : ℝ) (h0 : s 0 ≤ td) (h1 : td ≤ s (m - 1)) (k : K) :
    interpAt m s (fun i k => b k + r k * s i) td k = b k + r k * td := by
  refine C143_unique m s (fun i => b k + r k * s i) hs td _ _ (C143_interpolation m hm s hs _ td h0 h1 k) ?_
  rcases C143_interpolation m hm s hs (fun i (_ : K) => b k + r k * s i) td h0 h1 k with ⟨i, hi, e, _⟩ | ⟨i, hi, l, u, _⟩
  · exact Or.inl ⟨i, hi, e, by rw [e]⟩
  · exact Or.inr ⟨i, hi, l, u, by ring⟩

example : ∑ k : Fin 2, |(![1, -2] : Fin 2 → ℝ) k| * (![1, -2] : Fin 2 → ℝ) k ≠ 0 := by
  simp [Fin.sum_univ_two]; norm_num

example : ∀ i j : ℕ, i < j → j < 4 → (i : ℝ) < j := fun i j h _ => by exact_mod_cast h

example : interpAt 4 (fun i => (i : ℝ)) (fun i (_ : Unit) => 1 + 2 * (i : ℝ)) (3 / 2) () = 4 := by
  rw [C143_affine 4 (by norm_num) (fun i => (i : ℝ)) (fun i j h _ => by exact_mod_cast h) (fun _ => 1) (fun _ => 2)]
  all_goals norm_num

end Verif.Conv
