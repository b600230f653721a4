/-
The Lobatto functions: derivatives, ends, parity, kernels, orthonormality of the derivatives, completeness.
-/
import Verif.Poly.Lobatto
import Mathlib.Analysis.SpecialFunctions.Integrals.Basic
import Mathlib.Algebra.Polynomial.Eval.Degree
import Mathlib.Tactic.NormNum
import Mathlib.Tactic.LinearCombination
import Mathlib.Tactic.IntervalCases

namespace Verif.Poly.Lob

open Finset

/-! ### Derivatives -/

theorem env_update (x r : ℝ) : Function.update (env x r) 0 = fun y => env y r := by
  funext y i
  by_cases h : i = 0
  · subst h; simp [env]
  · simp [env, h]

theorem deriv_of_same {e d : PE} (h : PE.same d (e.diff 0) = true) (x r : ℝ) :
    HasDerivAt (fun x => e.eval (env x r)) (d.eval (env x r)) x := by
  have := PE.hasDerivAt e (env x r) 0 x
  rw [env_update] at this
  exact this.congr_deriv (PE.eval_eq_of_same h _).symm

theorem dLobattoQ : ∀ k < 11, PE.same (dLobattoTab.getD k (.c 0)) ((lobattoTab.getD k (.c 0)).diff 0) = true ∧
    dLobattoRad.getD k 1 = lobattoRad.getD k 1 := by decide +kernel

theorem dKernelQ : ∀ k < 9, PE.same (dKernelTab.getD k (.c 0))
    ((kernelTab.getD k (.c 0)).diff 0) = true ∧
    (dKernelRad.getD k 1 = kernelRad.getD k 1 ∨ PE.usesOnly 1 (dKernelTab.getD k (.c 0)) = true) := by decide +kernel

theorem dLegendreQ : ∀ k < 11, PE.same (dLegendreTab.getD k (.c 0)) ((legendreTab.getD k (.c 0)).diff 0) = true := by
  decide +kernel

/-- **C101**: `d_lobatto[k]` is the derivative of `lobatto[k]`. -/
theorem C101_lobatto_derivative (k : ℕ) (hk : k ≤ 10) (x : ℝ) : HasDerivAt (lob k) (dLob k x) x := by
  obtain ⟨h1, h2⟩ := dLobattoQ k (by omega)
  unfold lob dLob
  rw [h2]
  exact deriv_of_same h1 x _

/-- **C101**: `d_kernel[k - 2]` is the derivative of `kernel[k - 2]`. -/
theorem C101_kernel_derivative (k : ℕ) (hk : 2 ≤ k ∧ k ≤ 10) (x : ℝ) : HasDerivAt (ker k) (dKer k x) x := by
  obtain ⟨h1, h2⟩ := dKernelQ (k - 2) (by omega)
  unfold ker dKer
  rcases h2 with h2 | h2
  · rw [h2]
    exact deriv_of_same h1 x _
  · rw [PE.eval_congr h2 (ρ' := env x √(kernelRad.getD (k - 2) 1)) fun i hi => ?_]
    · exact deriv_of_same h1 x _
    · have : i = 0 := Fin.ext (by simp at hi ⊢; omega)
      subst this; simp [env]

/-- **C101**: `d_legendre[k]` is the derivative of `legendre[k]`. -/
theorem C101_legendre_derivative (k : ℕ) (hk : k ≤ 10) (x : ℝ) : HasDerivAt (leg k) (dLeg k x) x :=
  deriv_of_same (dLegendreQ k (by omega)) x 0

/-! ### Identities -/

/-- The substitution of the point. -/
def sub0 (e : PE) (i : Fin 4) : PE := if i = 0 then e else .v i

theorem eval_sub0 (e a : PE) (x r : ℝ) : (PE.subst (sub0 e) a).eval (env x r) = a.eval (env (e.eval (env x r)) r) := by
  rw [PE.eval_subst]
  congr 1
  funext i
  by_cases h : i = 0
  · subst h; simp [sub0, env]
  · simp [sub0, h, PE.eval, env]

theorem lob_at (k : ℕ) (e a : PE) (h : PE.same (PE.subst (sub0 e) (lobattoTab.getD k (.c 0))) a = true) (x : ℝ) :
    lob k (e.eval (env x √(lobattoRad.getD k 1))) = a.eval (env x √(lobattoRad.getD k 1)) := by
  rw [lob, ← eval_sub0, PE.eval_eq_of_same h]

theorem endsQ : ∀ k < 11, 2 ≤ k → PE.same (PE.subst (sub0 (.c 1)) (lobattoTab.getD k (.c 0))) (.c 0) = true ∧
    PE.same (PE.subst (sub0 (.c (-1))) (lobattoTab.getD k (.c 0))) (.c 0) = true ∧
    PE.same (PE.subst (sub0 (.mul (.c (-1)) (.v 0))) (lobattoTab.getD k (.c 0)))
      (.mul (.c ((-1) ^ k)) (lobattoTab.getD k (.c 0))) = true := by decide +kernel

/-- **C101**: the first two functions are the linear ones. -/
theorem C101_lobatto_linear (x : ℝ) : lob 0 x = (1 - x) / 2 ∧ lob 1 x = (1 + x) / 2 := by
  constructor
  · have := PE.eval_eq_of_same (K := ℝ) (a := lobattoTab.getD 0 (.c 0)) (b := .mul (.sub (.c 1) (.v 0)) (.c (1 / 2)))
      (by decide +kernel) (env x √(lobattoRad.getD 0 1))
    rw [lob, this]
    simp [PE.eval, env]; ring
  · have := PE.eval_eq_of_same (K := ℝ) (a := lobattoTab.getD 1 (.c 0)) (b := .mul (.add (.c 1) (.v 0)) (.c (1 / 2)))
      (by decide +kernel) (env x √(lobattoRad.getD 1 1))
    rw [lob, this]
    simp [PE.eval, env]; ring

/-- **C101**: the functions of the orders at least two vanish in both ends. -/
theorem C101_lobatto_ends (k : ℕ) (hk : 2 ≤ k ∧ k ≤ 10) : lob k 1 = 0 ∧ lob k (-1) = 0 := by
  obtain ⟨h1, h2, -⟩ := endsQ k (by omega) hk.1
  have a := lob_at k _ _ h1 0
  have b := lob_at k _ _ h2 0
  simp [PE.eval] at a b
  exact ⟨a, b⟩

/-- **C101**: the functions of the orders at least two are even or odd, as their orders. -/
theorem C101_lobatto_parity (k : ℕ) (hk : 2 ≤ k ∧ k ≤ 10) (x : ℝ) : lob k (-x) = (-1) ^ k * lob k x := by
  have a := lob_at k _ _ (endsQ k (by omega) hk.1).2.2 x
  simp [PE.eval, env] at a
  rw [a]; rfl

theorem kernelQ : ∀ k < 11, 2 ≤ k → PE.same (lobattoTab.getD k (.c 0))
    (.mul (.mul (lobattoTab.getD 0 (.c 0)) (lobattoTab.getD 1 (.c 0))) (kernelTab.getD (k - 2) (.c 0))) = true ∧
    kernelRad.getD (k - 2) 1 = lobattoRad.getD k 1 := by decide +kernel

theorem uses01 : ∀ k < 2, PE.usesOnly 1 (lobattoTab.getD k (.c 0)) = true := by decide +kernel

/-- **C101**: a function of the order at least two is the product of the linear ones and of its kernel. -/
theorem C101_lobatto_kernel (k : ℕ) (hk : 2 ≤ k ∧ k ≤ 10) (x : ℝ) : lob k x = lob 0 x * lob 1 x * ker k x := by
  obtain ⟨h1, h2⟩ := kernelQ k (by omega) hk.1
  have e : ∀ j < 2, lob j x = (lobattoTab.getD j (.c 0)).eval (env x √(lobattoRad.getD k 1)) := by
    intro j hj
    rw [lob]
    refine PE.eval_congr (uses01 j hj) fun i hi => ?_
    have : i = 0 := Fin.ext (by simp at hi ⊢; omega)
    subst this; simp [env]
  rw [e 0 (by omega), e 1 (by omega), ker, h2, lob, PE.eval_eq_of_same h1]
  rfl

/-! ### The Legendre functions -/

theorem legRecQ : ∀ n : ℕ, n < 10 → 1 ≤ n → PE.same (.mul (.c ((n : ℚ) + 1)) (legendreTab.getD (n + 1) (.c 0)))
    (.sub (.mul (.c (2 * (n : ℚ) + 1)) (.mul (.v 0) (legendreTab.getD n (.c 0)))) (.mul (.c (n : ℚ)) (legendreTab.getD (n - 1) (.c 0))))
    = true := by decide +kernel

/-- **C101**: the Legendre functions are the Legendre polynomials (Bonnet's recurrence). -/
theorem C101_legendre_recurrence (x : ℝ) : leg 0 x = 1 ∧ leg 1 x = x ∧ ∀ n : ℕ, 1 ≤ n → n < 10 →
    ((n : ℝ) + 1) * leg (n + 1) x = (2 * n + 1) * (x * leg n x) - n * leg (n - 1) x := by
  refine ⟨?_, ?_, fun n h1 h2 => ?_⟩
  · have := PE.eval_eq_of_same (K := ℝ) (a := legendreTab.getD 0 (.c 0)) (b := .c 1) (by decide +kernel) (env x 0)
    rw [leg, this]; simp [PE.eval]
  · have := PE.eval_eq_of_same (K := ℝ) (a := legendreTab.getD 1 (.c 0)) (b := .v 0) (by decide +kernel) (env x 0)
    rw [leg, this]; simp [PE.eval, env]
  · have := PE.eval_eq_of_same (K := ℝ) (legRecQ n h2 h1) (env x 0)
    simpa [PE.eval, env, leg] using this

/-- The integral of a polynomial in the normal form, if it is one in the first variable. -/
def integN (l : List (PE.Mono × ℚ)) : ℚ := (l.map fun t => t.2 * ((1 - (-1 : ℚ) ^ (t.1.1 + 1)) / ((t.1.1 : ℚ) + 1))).sum

def only0 (l : List (PE.Mono × ℚ)) : Bool := l.all fun t => t.1.2.1 == 0 && t.1.2.2.1 == 0 && t.1.2.2.2 == 0

theorem integral_evalN (l : List (PE.Mono × ℚ)) (h : only0 l = true) (r : ℝ) :
    IntervalIntegrable (fun x => PE.evalN (env x r) l) MeasureTheory.volume (-1) 1 ∧
    ∫ x in (-1 : ℝ)..1, PE.evalN (env x r) l = (integN l : ℝ) := by
  induction l with
  | nil => simp [PE.evalN, integN]
  | cons t ts ih =>
    simp only [only0, List.all_cons, Bool.and_eq_true, beq_iff_eq] at h
    obtain ⟨⟨⟨h1, h2⟩, h3⟩, h4⟩ := h
    obtain ⟨i1, i2⟩ := ih (by simpa [only0] using h4)
    have e : (fun x => PE.evalN (env x r) (t :: ts)) = fun x => (t.2 : ℝ) * x ^ t.1.1 + PE.evalN (env x r) ts := by
      funext x
      simp [PE.evalN, PE.evalMono, env, h1, h2, h3]
    have c : IntervalIntegrable (fun x : ℝ => (t.2 : ℝ) * x ^ t.1.1) MeasureTheory.volume (-1) 1 :=
      (by fun_prop : Continuous fun x : ℝ => (t.2 : ℝ) * x ^ t.1.1).intervalIntegrable _ _
    rw [e]
    refine ⟨c.add i1, ?_⟩
    rw [intervalIntegral.integral_add c i1, i2, intervalIntegral.integral_const_mul, integral_pow]
    simp only [integN, List.map_cons, List.sum_cons]
    push_cast
    rw [one_pow]

theorem legIntQ : ∀ i < 11, ∀ j < 11, only0 (PE.mul (legendreTab.getD i (.c 0)) (legendreTab.getD j (.c 0))).norm = true ∧
    integN (PE.mul (legendreTab.getD i (.c 0)) (legendreTab.getD j (.c 0))).norm =
      if i = j then 2 / (2 * (i : ℚ) + 1) else 0 := by decide +kernel

/-- **C101**: the Legendre functions are orthogonal. -/
theorem C101_legendre_orthogonal (i j : ℕ) (hi : i ≤ 10) (hj : j ≤ 10) :
    ∫ x in (-1 : ℝ)..1, leg i x * leg j x = if i = j then 2 / (2 * (i : ℝ) + 1) else 0 := by
  obtain ⟨h1, h2⟩ := legIntQ i (by omega) j (by omega)
  have := (integral_evalN _ h1 0).2
  rw [h2] at this
  simp only [PE.evalN_norm, PE.eval] at this
  unfold leg
  rw [this]
  split_ifs <;> push_cast <;> rfl

theorem dLobLegQ : ∀ k < 11, 2 ≤ k → ∃ c ∈ ([1, 1, 1 / 2, 1 / 2, 1 / 2, 3 / 2, 1 / 2, 1 / 2, 1 / 2, 1 / 2, 1 / 2] : List ℚ)[k]?,
    PE.same (dLobattoTab.getD k (.c 0)) (.mul (.mul (.c c) (.v 3)) (legendreTab.getD (k - 1) (.c 0))) = true ∧
    c ^ 2 * (dLobattoRad.getD k 1 : ℚ) = (2 * k - 1) / 2 ∧ 0 ≤ c := by decide +kernel

theorem legUses : ∀ k < 11, PE.usesOnly 1 (legendreTab.getD k (.c 0)) = true := by decide +kernel

/-- **C101**: the derivatives are the normalized Legendre functions. -/
theorem C101_lobatto_legendre (k : ℕ) (hk : 2 ≤ k ∧ k ≤ 10) (x : ℝ) :
    dLob k x = √((2 * k - 1) / 2) * leg (k - 1) x := by
  obtain ⟨c, -, h1, h2, h3⟩ := dLobLegQ k (by omega) hk.1
  have e : √((2 * (k : ℝ) - 1) / 2) = c * √((dLobattoRad.getD k 1 : ℕ) : ℝ) := by
    have h2 : (c : ℝ) ^ 2 * ((dLobattoRad.getD k 1 : ℕ) : ℝ) = (2 * k - 1) / 2 := by exact_mod_cast congrArg (fun q : ℚ => (q : ℝ)) h2
    rw [← h2, Real.sqrt_mul (sq_nonneg _), Real.sqrt_sq (by exact_mod_cast h3)]
  rw [e, dLob, PE.eval_eq_of_same h1]
  simp only [PE.eval]
  congr 1
  rw [leg]
  refine PE.eval_congr (legUses _ (by omega)) fun i hi => ?_
  have : i = 0 := Fin.ext (by simp at hi ⊢; omega)
  subst this; simp [env]

/-- **C101**: the derivatives of the functions of the orders at least two are orthonormal. -/
theorem C101_lobatto_orthonormal (i j : ℕ) (hi : 2 ≤ i ∧ i ≤ 10) (hj : 2 ≤ j ∧ j ≤ 10) :
    ∫ x in (-1 : ℝ)..1, dLob i x * dLob j x = if i = j then 1 else 0 := by
  have e : (fun x => dLob i x * dLob j x) =
      fun x => (√((2 * i - 1) / 2) * √((2 * j - 1) / 2)) * (leg (i - 1) x * leg (j - 1) x) := by
    funext x
    rw [C101_lobatto_legendre i hi, C101_lobatto_legendre j hj]
    ring
  rw [e, intervalIntegral.integral_const_mul, C101_legendre_orthogonal _ _ (by omega) (by omega)]
  by_cases h : i = j
  · subst h
    have hp : (0 : ℝ) < 2 * i - 1 := by
      have : (2 : ℝ) ≤ i := by exact_mod_cast hi.1
      linarith
    rw [if_pos rfl, if_pos rfl, Real.mul_self_sqrt (by linarith), Nat.cast_sub (by omega)]
    push_cast
    have : 2 * ((i : ℝ) - 1) + 1 = 2 * i - 1 := by ring
    rw [this]
    field_simp
  · rw [if_neg h, if_neg (by omega), mul_zero]

/-! ### Completeness -/

/-- The powers as combinations of the functions without the square roots. -/
def invTab : List (List ℚ) := [
  [1, 1],
  [-1, 1],
  [1, 1, 4],
  [-1, 1, 0, 4],
  [1, 1, 24 / 5, 0, 16 / 5],
  [-1, 1, 0, 40 / 7, 0, 16 / 21],
  [1, 1, 36 / 7, 0, 16 / 3, 0, 32 / 21],
  [-1, 1, 0, 20 / 3, 0, 16 / 11, 0, 32 / 33],
  [1, 1, 16 / 3, 0, 224 / 33, 0, 128 / 39, 0, 256 / 429],
  [-1, 1, 0, 80 / 11, 0, 288 / 143, 0, 128 / 55, 0, 256 / 715],
  [1, 1, 60 / 11, 0, 1120 / 143, 0, 64 / 13, 0, 3840 / 2431, 0, 512 / 2431]]

/-- The combination of the functions with the square roots replaced by one. -/
def comb (l : List ℚ) : PE :=
  (List.range l.length).foldr (fun k acc => .add (.mul (.c (l.getD k 0))
    (PE.subst (fun i => if i = 3 then .c 1 else .v i) (lobattoTab.getD k (.c 0)))) acc) (.c 0)

theorem invQ : ∀ n < 11, PE.same (.pow (.v 0) n) (comb (invTab.getD n [])) = true ∧
    (invTab.getD n []).length = max n 1 + 1 := by decide +kernel

theorem radQ : ∀ k < 11, PE.same (lobattoTab.getD k (.c 0)) (.mul (if k < 2 then .c 1 else .v 3)
    (PE.subst (fun i => if i = 3 then .c 1 else .v i) (lobattoTab.getD k (.c 0)))) = true ∧ 0 < lobattoRad.getD k 1 := by
  decide +kernel

theorem radOne : ∀ k < 2, lobattoRad.getD k 1 = 1 := by decide

/-- The value with the square root replaced by one. -/
theorem lob_rad (k : ℕ) (hk : k < 11) (x : ℝ) :
    (PE.subst (fun i => if i = 3 then .c 1 else .v i) (lobattoTab.getD k (.c 0))).eval (env x √(lobattoRad.getD k 1)) =
      (√(lobattoRad.getD k 1))⁻¹ * lob k x ∧ ∀ r, 
    (PE.subst (fun i => if i = 3 then .c 1 else .v i) (lobattoTab.getD k (.c 0))).eval (env x r) =
    (PE.subst (fun i => if i = 3 then .c 1 else .v i) (lobattoTab.getD k (.c 0))).eval (env x √(lobattoRad.getD k 1)) := by
  obtain ⟨h1, h2⟩ := radQ k hk
  constructor
  · rw [lob, PE.eval_eq_of_same h1, PE.eval]
    by_cases h : k < 2
    · simp only [h, if_true, PE.eval, radOne k h]; simp
    · have : √((lobattoRad.getD k 1 : ℕ) : ℝ) ≠ 0 := (Real.sqrt_pos.2 (by exact_mod_cast h2)).ne'
      simp only [h, if_false, PE.eval]
      rw [show env x √(lobattoRad.getD k 1) 3 = √(lobattoRad.getD k 1) from rfl, inv_mul_cancel_left₀ this]
  · intro r
    rw [PE.eval_subst, PE.eval_subst]
    congr 1
    funext i
    by_cases h : i = 3
    · subst h; simp [PE.eval]
    · simp [h, PE.eval, env]

theorem comb_eval (l : List ℚ) (hl : l.length ≤ 11) (x r : ℝ) :
    (comb l).eval (env x r) = ∑ k ∈ range l.length, (l.getD k 0 * (√(lobattoRad.getD k 1))⁻¹) * lob k x := by
  have : ∀ L : List ℕ, (∀ k ∈ L, k < 11) → ((L.foldr (fun k acc => PE.add (.mul (.c (l.getD k 0))
    (PE.subst (fun i => if i = 3 then .c 1 else .v i) (lobattoTab.getD k (.c 0)))) acc) (.c 0)).eval (env x r)) =
    (L.map fun k => ((l.getD k 0 : ℝ) * (√(lobattoRad.getD k 1))⁻¹) * lob k x).sum := by
    intro L hL
    induction L with
    | nil => simp [PE.eval]
    | cons k L ih =>
      obtain ⟨h1, h2⟩ := lob_rad k (hL k List.mem_cons_self) x
      simp only [List.foldr_cons, PE.eval, List.map_cons, List.sum_cons]
      rw [ih fun k hk => hL k (List.mem_cons_of_mem _ hk), h2, h1]
      ring
  rw [comb, this _ fun k hk => by have := List.mem_range.1 hk; omega, Finset.sum_range]
  rw [← List.sum_ofFn, List.ofFn_eq_map]
  rw [← List.map_coe_finRange_eq_range, List.map_map]
  rfl

/-- **C101**: the functions of the orders up to `o` span the polynomials of the degrees up to `o`. -/
theorem C101_lobatto_complete (o : ℕ) (ho : 1 ≤ o ∧ o ≤ 10) (p : Polynomial ℝ) (hp : p.natDegree ≤ o) :
    ∃ a : ℕ → ℝ, ∀ x, p.eval x = ∑ k ∈ range (o + 1), a k * lob k x := by
  have pw : ∀ n ≤ o, ∃ a : ℕ → ℝ, ∀ x : ℝ, x ^ n = ∑ k ∈ range (o + 1), a k * lob k x := by
    intro n hn
    obtain ⟨h1, h2⟩ := invQ n (by omega)
    refine ⟨fun k => if k < (invTab.getD n []).length then
      ((invTab.getD n []).getD k 0 : ℝ) * (√(lobattoRad.getD k 1))⁻¹ else 0, fun x => ?_⟩
    have e := PE.eval_eq_of_same (K := ℝ) h1 (env x 0)
    rw [comb_eval _ (by omega)] at e
    have e' : x ^ n = (PE.pow (.v 0) n).eval (env x 0) := by simp [PE.eval, env]
    rw [e', e]
    rw [← sum_subset (s₁ := range (invTab.getD n []).length) (s₂ := range (o + 1))
      (fun k hk => mem_range.2 (by have := mem_range.1 hk; omega))
      fun k _ hk => by simp only; rw [if_neg (fun h => hk (mem_range.2 h)), zero_mul]]
    exact sum_congr rfl fun k hk => by simp only; rw [if_pos (mem_range.1 hk)]
  choose! a ha using pw
  refine ⟨fun k => ∑ n ∈ range (p.natDegree + 1), p.coeff n * a n k, fun x => ?_⟩
  rw [Polynomial.eval_eq_sum_range]
  calc _ = ∑ n ∈ range (p.natDegree + 1), p.coeff n * ∑ k ∈ range (o + 1), a n k * lob k x :=
        sum_congr rfl fun n hn => by rw [ha n (by have := mem_range.1 hn; omega) x]
    _ = _ := by
        simp only [mul_sum, sum_mul]
        rw [sum_comm]
        exact sum_congr rfl fun k _ => sum_congr rfl fun n _ => by ring

/-! ### The tensor product functions -/

/-- **C102**: the gradients of the tensor product functions are their derivatives, on elements of the size one. -/
theorem C102_lobatto_gradient (dim : ℕ) (node : ℕ → ℕ) (hn : ∀ d < dim, node d ≤ 10) (cmin cmax : ℝ)
    (hc : cmax - cmin = 1) (x : ℕ → ℝ) (ir : ℕ) (hr : ir < dim) :
    HasDerivAt (fun t => evalTP dim node cmin cmax (Function.update x ir t)) (evalTPGrad dim node cmin cmax x ir) (x ir) := by
  unfold evalTP evalTPGrad
  have split : ∀ f : ℕ → ℝ, ∏ i ∈ range dim, f i = f ir * ∏ i ∈ (range dim).erase ir, f i := fun f =>
    (mul_prod_erase _ _ (mem_range.2 hr)).symm
  have e : (fun t => ∏ ii ∈ range dim, lob (node ii) (xi cmin cmax (Function.update x ir t ii))) =
      fun t => lob (node ir) (xi cmin cmax t) * ∏ ii ∈ (range dim).erase ir, lob (node ii) (xi cmin cmax (x ii)) := by
    funext t
    rw [split]
    simp only [Function.update_self]
    congr 1
    refine prod_congr rfl fun i hi => ?_
    rw [Function.update_of_ne (ne_of_mem_erase hi)]
  rw [e, split]
  have hx : HasDerivAt (fun t => xi cmin cmax t) 2 (x ir) := by
    have : (fun t => xi cmin cmax t) = fun t => 2 * t + (-2 * cmin - 1) := by
      funext t; rw [xi, hc]; ring
    rw [this]
    exact (((hasDerivAt_id' (x ir)).const_mul 2).add_const _).congr_deriv (by ring)
  have h1 := (C101_lobatto_derivative (node ir) (hn ir hr) (xi cmin cmax (x ir))).comp (x ir) hx
  refine (h1.mul_const (∏ ii ∈ (range dim).erase ir, lob (node ii) (xi cmin cmax (x ii)))).congr_deriv ?_
  have e2 : (∏ ii ∈ (range dim).erase ir, if ir = ii then dLob (node ii) (xi cmin cmax (x ii))
      else lob (node ii) (xi cmin cmax (x ii))) = ∏ ii ∈ (range dim).erase ir, lob (node ii) (xi cmin cmax (x ii)) :=
    prod_congr rfl fun i hi => if_neg (ne_of_mem_erase hi).symm
  rw [if_pos rfl, e2]
  ring

end Verif.Poly.Lob
