/-
The Legendre-Gauss-Lobatto nodes and weights of the spectral elements.
-/
import Verif.Poly.LegQuad
import Verif.Poly.BernProps

namespace Verif.Poly

open Polynomial Verif.Fem

/-! ### The passes keep the symmetry and the ends -/

theorem lglStep_neg (p : ℕ) (hp : 1 ≤ p) (x : ℝ) : lglStep p (-x) = - lglStep p x := by
  unfold lglStep
  simp only [legP_eval, leg_parity]
  obtain ⟨q, rfl⟩ : ∃ q, p = q + 1 := ⟨p - 1, by omega⟩
  simp only [Nat.add_sub_cancel]
  have hs : ((-1 : ℝ) ^ q) ≠ 0 := pow_ne_zero _ (by norm_num)
  have e : (-x * ((-1) ^ (q + 1) * (legPoly (q + 1)).eval x) - (-1) ^ q * (legPoly q).eval x) /
      ((((q + 1 : ℕ) : ℝ) + 1) * ((-1) ^ (q + 1) * (legPoly (q + 1)).eval x)) =
      - ((x * (legPoly (q + 1)).eval x - (legPoly q).eval x) / ((((q + 1 : ℕ) : ℝ) + 1) * (legPoly (q + 1)).eval x)) := by
    rw [show (-x * ((-1) ^ (q + 1) * (legPoly (q + 1)).eval x) - (-1) ^ q * (legPoly q).eval x) =
        (-1) ^ q * (x * (legPoly (q + 1)).eval x - (legPoly q).eval x) by rw [pow_succ]; ring,
      show ((((q + 1 : ℕ) : ℝ) + 1) * ((-1) ^ (q + 1) * (legPoly (q + 1)).eval x)) =
        (-1) ^ q * -((((q + 1 : ℕ) : ℝ) + 1) * (legPoly (q + 1)).eval x) by rw [pow_succ]; ring,
      mul_div_mul_left _ _ hs, div_neg]
  rw [e]
  ring

theorem lglStep_one (p : ℕ) : lglStep p (1 : ℝ) = 1 := by
  unfold lglStep
  simp only [legP_eval, (leg_one _).1]
  simp

theorem lglNodes_succ (p : ℕ) (x0 : ℕ → ℝ) (n i : ℕ) : lglNodes p x0 (n + 1) i = lglStep p (lglNodes p x0 n i) := by
  rw [lglNodes, Function.iterate_succ_apply']
  rfl

/-- **C108**: the nodes are symmetric, the first and the last node are the ends of the interval, whatever number of
passes is done from the first guess, and the weights are symmetric. -/
theorem C108_lgl_symmetric (p : ℕ) (hp : 1 ≤ p) (n : ℕ) :
    lglNodes p (lglGuess p) n 0 = 1 ∧ lglNodes p (lglGuess p) n p = -1 ∧
    (∀ i ≤ p, lglNodes p (lglGuess p) n (p - i) = - lglNodes p (lglGuess p) n i) ∧
    ∀ i ≤ p, lglWeights p (lglGuess p) n (p - i) = lglWeights p (lglGuess p) n i := by
  have hp0 : (p : ℝ) ≠ 0 := Nat.cast_ne_zero.2 (by omega)
  have h0 : ∀ n, lglNodes p (lglGuess p) n 0 = 1 := by
    intro n
    induction n with
    | zero => simp [lglNodes, lglGuess]
    | succ n ih => rw [lglNodes_succ, ih, lglStep_one]
  have hs : ∀ n, ∀ i ≤ p, lglNodes p (lglGuess p) n (p - i) = - lglNodes p (lglGuess p) n i := by
    intro n i hi
    induction n with
    | zero =>
      simp only [lglNodes, lglGuess, Function.iterate_zero, id]
      rw [Nat.cast_sub hi, ← Real.cos_pi_sub]
      congr 1
      field_simp
    | succ n ih => rw [lglNodes_succ, lglNodes_succ, ih, lglStep_neg p hp]
  refine ⟨h0 n, ?_, hs n, fun i hi => ?_⟩
  · have := hs n 0 (by omega)
    rwa [Nat.sub_zero, h0] at this
  · unfold lglWeights
    rw [hs _ i hi, legP_eval, legP_eval, leg_parity, mul_pow, ← pow_mul, mul_comm p 2, pow_mul]
    simp

/-! ### The quadrature -/

/-- `(1 - x^2) P_p'`. -/
noncomputable def lobPoly (p : ℕ) : ℝ[X] := (1 - X ^ 2) * derivative (legPoly p)

theorem lobPoly_eq (p : ℕ) (hp : 1 ≤ p) : lobPoly p = C (p : ℝ) * (legPoly (p - 1) - X * legPoly p) := by
  obtain ⟨q, rfl⟩ : ∃ q, p = q + 1 := ⟨p - 1, by omega⟩
  obtain ⟨hA, -, -⟩ := leg_identities q
  rw [Nat.add_sub_cancel, lobPoly]
  push_cast
  linear_combination -hA

theorem lobPoly_degree (p : ℕ) (hp : 1 ≤ p) :
    (lobPoly p).natDegree ≤ p + 1 ∧ (lobPoly p).coeff (p + 1) = -((p : ℝ) * legLead p) := by
  rw [lobPoly_eq p hp]
  obtain ⟨h1, h2⟩ := leg_degree p
  have h3 := (leg_degree (p - 1)).1
  constructor
  · refine (natDegree_C_mul_le _ _).trans ((natDegree_sub_le _ _).trans (max_le (by omega) (natDegree_mul_le.trans ?_)))
    rw [natDegree_X]; omega
  · rw [coeff_C_mul, coeff_sub, coeff_X_mul, h2, coeff_eq_zero_of_natDegree_lt (by omega)]
    ring

theorem lobPoly_orth (p : ℕ) (hp : 1 ≤ p) (q : ℝ[X]) (hq : q.natDegree + 2 ≤ p) : integ (lobPoly p * q) = 0 := by
  rw [lobPoly_eq p hp, show C (p : ℝ) * (legPoly (p - 1) - X * legPoly p) * q =
    C (p : ℝ) * (legPoly (p - 1) * q - legPoly p * (X * q)) by ring, integ_C, integ_sub,
    leg_orth _ _ (by omega), leg_orth _ _ (lt_of_le_of_lt natDegree_mul_le (by rw [natDegree_X]; omega))]
  simp

theorem lobPoly_orth0 (p : ℕ) (hp : 1 ≤ p) (q : ℝ[X]) (hq : q.degree + 2 ≤ p) : integ (lobPoly p * q) = 0 := by
  by_cases h : q = 0
  · rw [h, mul_zero, integ_zero]
  · refine lobPoly_orth p hp q ?_
    rw [degree_eq_natDegree h] at hq
    exact_mod_cast hq

theorem lobPoly_deriv (p : ℕ) : derivative (lobPoly p) = - (C ((p : ℝ) * (p + 1)) * legPoly p) := by
  rw [← leg_ode, ← derivative_neg, lobPoly]
  congr 1
  ring

section
variable {p : ℕ} {xs : ℕ → ℝ}

/-- The zeros are all the nodes. -/
theorem lobPoly_nodal (hp : 1 ≤ p) (hinj : ∀ i ≤ p, ∀ j ≤ p, xs i = xs j → i = j)
    (hz : ∀ i ≤ p, (lobPoly p).eval (xs i) = 0) :
    lobPoly p = C (-((p : ℝ) * legLead p)) * Lagrange.nodal (Finset.range (p + 1)) xs := by
  obtain ⟨h1, h2⟩ := lobPoly_degree p hp
  have hI : Set.InjOn xs (Finset.range (p + 1)) := fun i hi j hj h =>
    hinj i (by simpa [Nat.lt_succ_iff] using hi) j (by simpa [Nat.lt_succ_iff] using hj) h
  rw [← sub_eq_zero]
  refine Polynomial.eq_zero_of_degree_lt_of_eval_index_eq_zero (Finset.range (p + 1)) hI ?_ ?_
  · have hn : (Lagrange.nodal (Finset.range (p + 1)) xs).natDegree = p + 1 := by
      rw [Lagrange.natDegree_nodal, Finset.card_range]
    have hm : (Lagrange.nodal (Finset.range (p + 1)) xs).coeff (p + 1) = 1 := by
      have := Lagrange.nodal_monic (s := Finset.range (p + 1)) (v := xs)
      rw [Monic, leadingCoeff, hn] at this
      exact this
    rw [Finset.card_range, degree_lt_iff_coeff_zero]
    intro m hm'
    rw [coeff_sub, coeff_C_mul]
    rcases Nat.lt_or_ge (p + 1) m with h | h
    · rw [coeff_eq_zero_of_natDegree_lt (p := lobPoly p) (by omega), coeff_eq_zero_of_natDegree_lt (by omega)]
      simp
    · obtain rfl : m = p + 1 := by omega
      rw [h2, hm, mul_one, sub_self]
  · intro i hi
    have hi' : i ≤ p := by have := Finset.mem_range.1 hi; omega
    rw [eval_sub, hz i hi', eval_mul, Lagrange.eval_nodal_at_node hi, mul_zero, sub_zero]

/-- The integral of a Lagrange function of the nodes is the weight. -/
theorem lob_weight (hp : 1 ≤ p) (hinj : ∀ i ≤ p, ∀ j ≤ p, xs i = xs j → i = j)
    (hz : ∀ i ≤ p, (lobPoly p).eval (xs i) = 0) {i : ℕ} (hi : i ≤ p) (hP : (legPoly p).eval (xs i) ≠ 0) :
    integ (Lagrange.basis (Finset.range (p + 1)) xs i) =
      2 / ((p : ℝ) * (p + 1) * (legPoly p).eval (xs i) ^ 2) := by
  have hi' : i ∈ Finset.range (p + 1) := Finset.mem_range.2 (by omega)
  have hI : Set.InjOn xs (Finset.range (p + 1)) := fun i hi j hj h =>
    hinj i (by simpa [Nat.lt_succ_iff] using hi) j (by simpa [Nat.lt_succ_iff] using hj) h
  set c : ℝ := -((p : ℝ) * legLead p) with hc
  have hp0 : (p : ℝ) ≠ 0 := Nat.cast_ne_zero.2 (by omega)
  have hp1 : (p : ℝ) + 1 ≠ 0 := by positivity
  have hc0 : c ≠ 0 := neg_ne_zero.2 (mul_ne_zero hp0 (legLead_ne p))
  set g := Lagrange.nodal ((Finset.range (p + 1)).erase i) xs with hg
  have hlob : lobPoly p = (X - C (xs i)) * (C c * g) := by
    rw [lobPoly_nodal hp hinj hz, Lagrange.nodal_eq_mul_nodal_erase hi']
    ring
  have hgn : g.natDegree = p := by
    rw [hg, Lagrange.natDegree_nodal, Finset.card_erase_of_mem hi', Finset.card_range, Nat.add_sub_cancel]
  have hgm : g.coeff p = 1 := by
    have := Lagrange.nodal_monic (s := (Finset.range (p + 1)).erase i) (v := xs)
    rw [Monic, leadingCoeff, ← hg, hgn] at this
    exact this
  -- the derivative in the node
  have hd : c * g.eval (xs i) = -((p : ℝ) * (p + 1) * (legPoly p).eval (xs i)) := by
    have h := congrArg (fun f => eval (xs i) (derivative f)) hlob
    simp only [lobPoly_deriv, derivative_mul, derivative_sub, derivative_X, derivative_C, eval_mul, eval_add, eval_neg,
      eval_sub, eval_X, eval_C, sub_self, zero_mul, add_zero, sub_zero, one_mul, eval_one] at h
    exact h.symm
  -- the integral
  obtain ⟨s, hs⟩ : ∃ s, legPoly p - C ((legPoly p).eval (xs i)) = (X - C (xs i)) * s :=
    (dvd_iff_isRoot.2 (by simp [IsRoot.def]) : X - C (xs i) ∣ _)
  have hPs : legPoly p = C ((legPoly p).eval (xs i)) + (X - C (xs i)) * s := by rw [← hs]; ring
  obtain ⟨q, rfl⟩ : ∃ q, p = q + 1 := ⟨p - 1, by omega⟩
  have hsn : s.natDegree ≤ q ∧ s.coeff q = legLead (q + 1) := by
    have hdeg : s.natDegree ≤ q := by
      by_cases h0 : s = 0
      · rw [h0]; simp
      · have h1 : ((X - C (xs i)) * s).natDegree = 1 + s.natDegree := by
          rw [natDegree_mul (X_sub_C_ne_zero _) h0, natDegree_X_sub_C]
        rw [← hs] at h1
        have h2 : (legPoly (q + 1) - C ((legPoly (q + 1)).eval (xs i))).natDegree ≤ q + 1 :=
          (natDegree_sub_C (R := ℝ)).le.trans (leg_degree (q + 1)).1
        omega
    refine ⟨hdeg, ?_⟩
    have h := congrArg (fun f => coeff f (q + 1)) hPs
    simp only [coeff_add, sub_mul, coeff_sub, coeff_X_mul, coeff_C_mul, (leg_degree (q + 1)).2, coeff_C_succ] at h
    rw [coeff_eq_zero_of_natDegree_lt (by omega : s.natDegree < q + 1)] at h
    linarith
  have h1 : integ (legPoly (q + 1) * (C c * g)) = -(q + 1 : ℝ) * (2 / (2 * (q + 1) + 1)) := by
    rw [leg_top (q + 1) _ ((natDegree_C_mul_le _ _).trans hgn.le), coeff_C_mul, hgm, hc]
    have := legLead_ne (q + 1)
    push_cast
    field_simp
  have h2 : integ (legPoly (q + 1) * (C c * g)) =
      (legPoly (q + 1)).eval (xs i) * integ (C c * g) + integ (lobPoly (q + 1) * s) := by
    rw [← integ_C, ← integ_add]
    congr 1
    rw [hlob]
    linear_combination (C c * g) * hPs
  have h3 : integ (lobPoly (q + 1) * s) = 2 - 2 * (q + 1 : ℝ) / (2 * (q + 1) + 1) := by
    rw [lobPoly_eq _ hp, Nat.add_sub_cancel, show C ((q + 1 : ℕ) : ℝ) * (legPoly q - X * legPoly (q + 1)) * s =
      C ((q + 1 : ℕ) : ℝ) * (legPoly q * s - legPoly (q + 1) * (X * s)) by ring, integ_C, integ_sub,
      leg_top q s hsn.1, leg_top (q + 1) (X * s) (natDegree_mul_le.trans (by rw [natDegree_X]; omega)), coeff_X_mul,
      hsn.2, div_self (legLead_ne _), legLead]
    have := legLead_ne q
    have a : (2 * (q : ℝ) + 1) ≠ 0 := by positivity
    have b : (q : ℝ) + 1 ≠ 0 := by positivity
    have d : (2 * ((q : ℝ) + 1) + 1) ≠ 0 := by positivity
    push_cast
    field_simp
  have h4 : (legPoly (q + 1)).eval (xs i) * integ (C c * g) = -2 := by
    have : (2 * ((q : ℝ) + 1) + 1) ≠ 0 := by positivity
    rw [h1, h3] at h2
    have h5 : (legPoly (q + 1)).eval (xs i) * integ (C c * g) =
        -(q + 1 : ℝ) * (2 / (2 * (q + 1) + 1)) - (2 - 2 * (q + 1 : ℝ) / (2 * (q + 1) + 1)) := by linarith
    rw [h5]
    ring
  have hb : Lagrange.basis (Finset.range (q + 1 + 1)) xs i = C (1 / (c * g.eval (xs i))) * (C c * g) := by
    rw [Lagrange.basis_eq_prod_sub_inv_mul_nodal_div hi', Lagrange.nodal_erase_eq_nodal_div hi' |>.symm, ← hg,
      Lagrange.nodalWeight_eq_eval_nodal_erase_inv, ← hg, ← mul_assoc, ← C_mul]
    congr 2
    field_simp
  rw [hb, integ_C, hd, eq_div_iff (by positivity)]
  have e : integ (C c * g) = -2 / (legPoly (q + 1)).eval (xs i) := by rw [eq_div_iff hP, mul_comm]; exact h4
  rw [e]
  push_cast at *
  field_simp

/-- **C108**: nodes that are not changed by a pass are the zeros of `(1 - x^2) P_p'`, and with the weights they integrate
the polynomials of the degree at most `2 p - 1` over `[-1, 1]` exactly. -/
theorem C108_lgl_quadrature (p : ℕ) (hp : 1 ≤ p) (xs : ℕ → ℝ) (hinj : ∀ i ≤ p, ∀ j ≤ p, xs i = xs j → i = j)
    (hP : ∀ i ≤ p, legP p (xs i) ≠ 0) (hfix : ∀ i ≤ p, lglStep p (xs i) = xs i) :
    (∀ i ≤ p, ((1 - X ^ 2) * derivative (legPoly p)).eval (xs i) = 0) ∧
    ∀ f : ℝ[X], f.natDegree ≤ 2 * p - 1 →
      ∑ i ∈ Finset.range (p + 1), lglWeights p xs 1 i * f.eval (xs i) = ∫ x in (-1 : ℝ)..1, f.eval x := by
  have hz : ∀ i ≤ p, (lobPoly p).eval (xs i) = 0 := by
    intro i hi
    have h := hfix i hi
    rw [lglStep, sub_eq_self, div_eq_zero_iff] at h
    have hn : ((p : ℝ) + 1) * legP p (xs i) ≠ 0 := mul_ne_zero (by positivity) (hP i hi)
    have h := h.resolve_right hn
    rw [lobPoly_eq p hp]
    simp only [eval_mul, eval_sub, eval_C, eval_X, ← legP_eval]
    rw [show legP (p - 1) (xs i) - xs i * legP p (xs i) = 0 by linarith, mul_zero]
  refine ⟨hz, fun f hf => ?_⟩
  have hI : Set.InjOn xs (Finset.range (p + 1)) := fun i hi j hj h =>
    hinj i (by simpa [Nat.lt_succ_iff] using hi) j (by simpa [Nat.lt_succ_iff] using hj) h
  set N := Lagrange.nodal (Finset.range (p + 1)) xs with hN
  have hm : N.Monic := Lagrange.nodal_monic
  have hNd : N.natDegree = p + 1 := by rw [hN, Lagrange.natDegree_nodal, Finset.card_range]
  set r := f %ₘ N with hr
  set q := f /ₘ N with hq
  have hf' : f = r + N * q := (modByMonic_add_div f N).symm
  have hc0 : -((p : ℝ) * legLead p) ≠ 0 :=
    neg_ne_zero.2 (mul_ne_zero (Nat.cast_ne_zero.2 (by omega)) (legLead_ne p))
  have hNq : integ (N * q) = 0 := by
    have h : integ (lobPoly p * q) = 0 := by
      by_cases h0 : q = 0
      · rw [h0, mul_zero, integ_zero]
      · have h1 := natDegree_divByMonic f hm
        rw [← hq, hNd] at h1
        have h2 : ¬ f.natDegree < N.natDegree := fun h => by
          refine h0 ((divByMonic_eq_zero_iff hm).2 ?_)
          by_cases hf0 : f = 0
          · rw [hf0, degree_zero]; exact bot_lt_iff_ne_bot.2 (degree_ne_bot.2 hm.ne_zero)
          · exact degree_lt_degree h
        exact lobPoly_orth p hp q (by omega)
    rw [lobPoly_nodal hp hinj hz, mul_assoc, integ_C] at h
    exact (mul_eq_zero.1 h).resolve_left hc0
  have hev : ∀ i ∈ Finset.range (p + 1), f.eval (xs i) = r.eval (xs i) := by
    intro i hi
    conv_lhs => rw [hf']
    rw [eval_add, eval_mul, hN, Lagrange.eval_nodal_at_node hi, zero_mul, add_zero]
  have hrd : r.degree < (Finset.range (p + 1)).card := by
    have := degree_modByMonic_lt f hm
    rwa [Lagrange.degree_nodal] at this
  have hint : r = Lagrange.interpolate (Finset.range (p + 1)) xs fun i => r.eval (xs i) :=
    Lagrange.eq_interpolate hI hrd
  show _ = integ f
  rw [hf', integ_add, hNq, add_zero, ← hf']
  conv_rhs => rw [hint]
  rw [Lagrange.interpolate_apply, integ_sum]
  refine Finset.sum_congr rfl fun i hi => ?_
  have hi' : i ≤ p := by have := Finset.mem_range.1 hi; omega
  rw [integ_C, lob_weight hp hinj hz hi' (by rw [← legP_eval]; exact hP i hi'), hev i hi, lglWeights,
    legP_eval, mul_comm]
  rfl

end

end Verif.Poly
