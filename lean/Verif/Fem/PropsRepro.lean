/-
The reproduction of polynomials by the Lagrange bases.
-/
import Verif.Fem.PropsLagVal
import Mathlib.Algebra.MvPolynomial.Degrees
import Mathlib.LinearAlgebra.Span.Basic

namespace Verif.Fem

open Finset

variable {K : Type} [Field K] [CharZero K]

/-- The reproduction of the products of the binomial polynomials. -/
theorem repro_ch (nV o : ℕ) (L : ℕ → K) (hL : ∑ i ∈ range nV, L i = 1) (m : ℕ →₀ ℕ) (hm : m.support ⊆ range nV)
    (hs : ∑ i ∈ range nV, m i ≤ o) :
    ∑ n ∈ finsuppAntidiag (range nV) o, (∏ i ∈ range nV, ch ((n i : ℕ) : K) (m i)) *
      ∏ i ∈ range nV, ch (o * L i) (n i) = ∏ i ∈ range nV, ch (o * L i) (m i) := by
  set M := ∑ i ∈ range nV, m i with hM
  have key : ∑ l ∈ finsuppAntidiag (range nV) (o - M), ∏ i ∈ range nV, ch (o * L i - m i) (l i) = 1 := by
    rw [vandermonde (range nV) (fun i => o * L i - m i) (o - M), sum_sub_distrib, ← mul_sum, hL, mul_one,
      ← Nat.cast_sum, ← hM, ← Nat.cast_sub hs, ch_nat, Nat.choose_self, Nat.cast_one]
  calc _ = ∑ l ∈ finsuppAntidiag (range nV) (o - M), ∏ i ∈ range nV, (ch (o * L i) (m i) * ch (o * L i - m i) (l i)) := by
        symm
        refine sum_of_injOn (fun l => m + l) (fun l _ l' _ h => add_left_cancel h) ?_ ?_ ?_
        · intro l hl
          have hl : l ∈ finsuppAntidiag (range nV) (o - M) := hl
          rw [mem_finsuppAntidiag] at hl
          show m + l ∈ finsuppAntidiag (range nV) o
          rw [mem_finsuppAntidiag]
          refine ⟨?_, fun i hi => ?_⟩
          · simp only [Finsupp.coe_add, Pi.add_apply, sum_add_distrib]
            rw [hl.1]
            omega
          · rcases mem_union.1 (Finsupp.support_add hi) with h | h
            · exact hm h
            · exact hl.2 h
        · intro n hn hnot
          rw [mem_finsuppAntidiag] at hn
          have : ∃ i ∈ range nV, n i < m i := by
            by_contra hc
            push Not at hc
            have hle : m ≤ n := fun i => by
              by_cases hi : i ∈ range nV
              · exact hc i hi
              · rw [Finsupp.notMem_support_iff.1 fun h => hi (hm h)]
                exact Nat.zero_le _
            refine hnot ⟨n - m, ?_, ?_⟩
            · show n - m ∈ finsuppAntidiag (range nV) (o - M)
              rw [mem_finsuppAntidiag]
              refine ⟨?_, fun i hi => hn.2 (Finsupp.support_tsub hi)⟩
              have : ∑ i ∈ range nV, (n - m) i + M = o := by
                rw [hM, ← sum_add_distrib, ← hn.1]
                exact sum_congr rfl fun i hi => by
                  rw [Finsupp.tsub_apply]; have := hle i; omega
              show ∑ i ∈ range nV, (n - m) i = o - M
              omega
            · exact add_tsub_cancel_of_le hle
          obtain ⟨i, hi, hlt⟩ := this
          rw [prod_eq_zero hi (by rw [ch_nat, Nat.choose_eq_zero_of_lt hlt, Nat.cast_zero]), zero_mul]
        · intro l _
          rw [← prod_mul_distrib]
          refine prod_congr rfl fun i _ => ?_
          simp only [Finsupp.coe_add, Pi.add_apply]
          rw [ch_nat, ch_mul]
    _ = ∑ l ∈ finsuppAntidiag (range nV) (o - M), (∏ i ∈ range nV, ch (o * L i) (m i)) *
          ∏ i ∈ range nV, ch (o * L i - m i) (l i) := sum_congr rfl fun l _ => prod_mul_distrib
    _ = _ := by rw [← mul_sum, key, mul_one]

/-- The span of the products of the binomial polynomials of the total degree at most `k`. -/
def chSpan (K : Type) [Field K] (nV o k : ℕ) : Submodule K ((ℕ → K) → K) :=
  Submodule.span K {f | ∃ m : ℕ →₀ ℕ, m.support ⊆ range nV ∧ ∑ i ∈ range nV, m i ≤ k ∧
    f = fun L : ℕ → K => ∏ i ∈ range nV, ch (o * L i) (m i)}

omit [CharZero K] in
theorem chSpan_mono {nV o k k' : ℕ} (h : k ≤ k') : chSpan K nV o k ≤ chSpan K nV o k' :=
  Submodule.span_mono fun _ ⟨m, h1, h2, h3⟩ => ⟨m, h1, h2.trans h, h3⟩

omit [CharZero K] in
theorem chSpan_one (nV o : ℕ) : (fun _ => 1 : (ℕ → K) → K) ∈ chSpan K nV o 0 :=
  Submodule.subset_span ⟨0, by simp, by simp, by simp⟩

theorem chSpan_mul {nV o k i : ℕ} (ho : 1 ≤ o) (hi : i < nV) {f : (ℕ → K) → K} (hf : f ∈ chSpan K nV o k) :
    (fun L => L i * f L) ∈ chSpan K nV o (k + 1) := by
  have ho' : (o : K) ≠ 0 := Nat.cast_ne_zero.2 (by omega)
  refine Submodule.span_induction (p := fun f _ => (fun L => L i * f L) ∈ chSpan K nV o (k + 1)) ?_ ?_ ?_ ?_ hf
  · rintro f ⟨m, h1, h2, rfl⟩
    have hi' : i ∈ range nV := mem_range.2 hi
    have h3 : (fun L : ℕ → K => ∏ j ∈ range nV, ch (o * L j) ((m + Finsupp.single i 1 : ℕ →₀ ℕ) j)) ∈ chSpan K nV o (k + 1) := by
      refine Submodule.subset_span ⟨m + Finsupp.single i 1, fun j hj => ?_, ?_, rfl⟩
      · rcases mem_union.1 (Finsupp.support_add hj) with h | h
        · exact h1 h
        · rw [mem_singleton.1 (Finsupp.support_single_subset h)]
          exact hi'
      · simp only [Finsupp.coe_add, Pi.add_apply, sum_add_distrib]
        have : ∑ j ∈ range nV, (Finsupp.single i 1 : ℕ →₀ ℕ) j = 1 := by
          simp only [Finsupp.single_apply]
          rw [Finset.sum_ite_eq]; simp [hi]
        omega
    have h4 : (fun L : ℕ → K => ∏ j ∈ range nV, ch (o * L j) (m j)) ∈ chSpan K nV o (k + 1) :=
      Submodule.subset_span ⟨m, h1, by omega, rfl⟩
    have h5 := (chSpan K nV o (k + 1)).add_mem ((chSpan K nV o (k + 1)).smul_mem ((m i + 1 : K) / o) h3)
      ((chSpan K nV o (k + 1)).smul_mem ((m i : K) / o) h4)
    convert h5 using 1
    funext L
    simp only [Pi.add_apply, Pi.smul_apply, smul_eq_mul]
    rw [← mul_prod_erase _ _ hi', ← mul_prod_erase _ (fun j => ch (o * L j) ((m + Finsupp.single i 1 : ℕ →₀ ℕ) j)) hi']
    have e : ∏ j ∈ (range nV).erase i, ch (o * L j) ((m + Finsupp.single i 1 : ℕ →₀ ℕ) j) =
        ∏ j ∈ (range nV).erase i, ch (o * L j) (m j) := prod_congr rfl fun j hj => by
      rw [Finsupp.add_apply, Finsupp.single_eq_of_ne (Finset.ne_of_mem_erase hj), Nat.add_zero]
    rw [e, Finsupp.add_apply, Finsupp.single_eq_same, ch_succ]
    have : (m i : K) + 1 ≠ 0 := Nat.cast_add_one_ne_zero _
    field_simp
    ring
  · simp only [Pi.zero_apply, mul_zero]
    exact (chSpan K nV o (k + 1)).zero_mem
  · intro f g _ _ hf hg
    convert (chSpan K nV o (k + 1)).add_mem hf hg using 1
    funext L
    simp [mul_add]
  · intro a f _ hf
    convert (chSpan K nV o (k + 1)).smul_mem a hf using 1
    funext L
    simp only [Pi.smul_apply, smul_eq_mul]
    ring

/-- Multiplication by a linear combination of the barycentric coordinates. -/
theorem chSpan_lin {nV o k : ℕ} (ho : 1 ≤ o) (c : ℕ → K) {f : (ℕ → K) → K} (hf : f ∈ chSpan K nV o k) :
    (fun L => (∑ i ∈ range nV, L i * c i) * f L) ∈ chSpan K nV o (k + 1) := by
  have : (fun L => (∑ i ∈ range nV, L i * c i) * f L) = ∑ i ∈ range nV, c i • fun L : ℕ → K => L i * f L := by
    funext L
    rw [Finset.sum_apply, sum_mul]
    refine sum_congr rfl fun i _ => ?_
    simp only [Pi.smul_apply, smul_eq_mul]
    ring
  rw [this]
  exact Submodule.sum_mem _ fun i hi => Submodule.smul_mem _ _ (chSpan_mul ho (mem_range.1 hi) hf)

theorem chSpan_pow {nV o k : ℕ} (ho : 1 ≤ o) (c : ℕ → K) {f : (ℕ → K) → K} (hf : f ∈ chSpan K nV o k) (a : ℕ) :
    (fun L => (∑ i ∈ range nV, L i * c i) ^ a * f L) ∈ chSpan K nV o (k + a) := by
  induction a with
  | zero => simpa using hf
  | succ a ih =>
    have := chSpan_lin ho c ih
    rw [add_assoc] at this
    convert this using 1
    funext L
    ring

/-- Polynomials of the Cartesian coordinates. -/
theorem chSpan_poly {nV o n : ℕ} (ho : 1 ≤ o) (c : ℕ → Fin n → K) (P : MvPolynomial (Fin n) K) {k : ℕ}
    (hP : P.totalDegree ≤ k) :
    (fun L => MvPolynomial.eval (fun r => ∑ i ∈ range nV, L i * c i r) P) ∈ chSpan K nV o k := by
  have hm : ∀ (s : Finset (Fin n)) (al : Fin n → ℕ), (fun L : ℕ → K => ∏ r ∈ s, (∑ i ∈ range nV, L i * c i r) ^ al r) ∈
      chSpan K nV o (∑ r ∈ s, al r) := by
    intro s al
    induction s using Finset.induction_on with
    | empty => simpa using chSpan_one nV o
    | insert r s hr ih =>
      have := chSpan_pow ho (fun i => c i r) ih (al r)
      rw [sum_insert hr, add_comm]
      convert this using 1
      funext L
      rw [prod_insert hr]
  have e : (fun L : ℕ → K => MvPolynomial.eval (fun r => ∑ i ∈ range nV, L i * c i r) P) =
      ∑ d ∈ P.support, P.coeff d • fun L : ℕ → K => ∏ r, (∑ i ∈ range nV, L i * c i r) ^ d r := by
    funext L
    rw [MvPolynomial.eval_eq', Finset.sum_apply]
    rfl
  rw [e]
  refine Submodule.sum_mem _ fun d hd => Submodule.smul_mem _ _ (chSpan_mono ?_ (hm univ d))
  have := MvPolynomial.le_totalDegree hd
  rw [Finsupp.sum_fintype _ _ fun _ => rfl] at this
  exact this.trans hP

/-- The reproduction of the functions of the span. -/
theorem repro_span (nV o : ℕ) (ho : 1 ≤ o) (L : ℕ → K) (hL : ∑ i ∈ range nV, L i = 1) {f : (ℕ → K) → K}
    (hf : f ∈ chSpan K nV o o) :
    ∑ n ∈ finsuppAntidiag (range nV) o, f (fun i => (n i : K) / o) * ∏ i ∈ range nV, ch (o * L i) (n i) = f L := by
  have ho' : (o : K) ≠ 0 := Nat.cast_ne_zero.2 (by omega)
  refine Submodule.span_induction (p := fun f _ => ∑ n ∈ finsuppAntidiag (range nV) o,
    f (fun i => (n i : K) / o) * ∏ i ∈ range nV, ch (o * L i) (n i) = f L) ?_ ?_ ?_ ?_ hf
  · rintro f ⟨m, h1, h2, rfl⟩
    simp only [mul_div_cancel₀ _ ho']
    exact repro_ch nV o L hL m h1 h2
  · simp
  · intro f g _ _ hf hg
    simp only [Pi.add_apply, add_mul, sum_add_distrib, hf, hg]
  · intro a f _ hf
    simp only [Pi.smul_apply, smul_eq_mul, mul_assoc, ← mul_sum, hf]

/-- The reproduction of the polynomials of the degree at most the order. -/
theorem repro_poly (nV o : ℕ) (ho : 1 ≤ o) (L : ℕ → K) (hL : ∑ i ∈ range nV, L i = 1) {n : ℕ} (c : ℕ → Fin n → K)
    (P : MvPolynomial (Fin n) K) (hP : P.totalDegree ≤ o) :
    ∑ m ∈ finsuppAntidiag (range nV) o, MvPolynomial.eval (fun r => ∑ i ∈ range nV, (m i : K) / o * c i r) P *
      ∏ i ∈ range nV, ch (o * L i) (m i) = MvPolynomial.eval (fun r => ∑ i ∈ range nV, L i * c i r) P :=
  repro_span nV o ho L hL (chSpan_poly ho c P hP)

end Verif.Fem
