/-
The Lagrange bases on the tensor product elements: nodal values, reproduction of polynomials.
-/
import Verif.Fem.PropsLagrange
import Mathlib.Algebra.BigOperators.Pi

namespace Verif.Fem

open Finset

section
variable {K : Type} [Field K]

theorem tenVal_eq (dim o : ℕ) (bc : ℕ → ℕ → K) (node : ℕ → ℕ) :
    tenVal dim o bc node = ∏ d ∈ range dim, lagVal 2 o (bc d) fun i => node (2 * d + i) := by
  rw [tenVal, foldl_mul, one_mul]

theorem baryVal_two (mtxI : ℕ → ℕ → K) (x y : ℕ → K) (h : x 0 = y 0) : baryVal 2 mtxI x = baryVal 2 mtxI y := by
  funext i
  simp [baryVal, List.range_succ, h]

variable [CharZero K]

/-- One dimension. -/
theorem repro_1d (o : ℕ) (ho : 1 ≤ o) (L : ℕ → K) (hL : L 0 + L 1 = 1) (c : ℕ → K) (a : ℕ) (ha : a ≤ o) :
    ∑ m ∈ range (o + 1), ((((o - m : ℕ) : K) * c 0 + m * c 1) / o) ^ a * (ch (o * L 0) (o - m) * ch (o * L 1) m) =
      (L 0 * c 0 + L 1 * c 1) ^ a := by
  have key := repro_span 2 o ho L (by simpa [sum_range_succ] using hL)
    (chSpan_mono (by omega) (chSpan_pow (k := 0) ho c (chSpan_one 2 o) a) : _ ∈ chSpan K 2 o o)
  simp only [mul_one, sum_range_succ, range_zero, sum_empty, zero_add, prod_range_succ, prod_empty, one_mul] at key
  rw [← key]
  symm
  refine sum_nbij' (fun m => m 1) (fun b => Finsupp.single 0 (o - b) + Finsupp.single 1 b) ?_ ?_ ?_ ?_ ?_
  · intro m hm
    rw [mem_finsuppAntidiag] at hm
    have := hm.1
    simp only [sum_range_succ, range_zero, sum_empty, zero_add] at this
    rw [mem_range]; omega
  · intro b hb
    rw [mem_range] at hb
    rw [mem_finsuppAntidiag]
    constructor
    · simp [sum_range_succ]
      omega
    · intro i hi
      rcases mem_union.1 (Finsupp.support_add hi) with h | h
      · have := mem_singleton.1 (Finsupp.support_single_subset h); simp [this]
      · have := mem_singleton.1 (Finsupp.support_single_subset h); simp [this]
  · intro m hm
    rw [mem_finsuppAntidiag] at hm
    have h1 := hm.1
    simp only [sum_range_succ, range_zero, sum_empty, zero_add] at h1
    ext i
    rw [Finsupp.add_apply]
    by_cases h0 : i = 0
    · subst h0; simp; omega
    · by_cases h2 : i = 1
      · subst h2; simp
      · rw [Finsupp.single_eq_of_ne h0, Finsupp.single_eq_of_ne h2]
        symm
        apply Finsupp.notMem_support_iff.1
        intro hc
        have := mem_range.1 (hm.2 hc)
        omega
  · intro b hb; simp
  · intro m hm
    rw [mem_finsuppAntidiag] at hm
    have h1 := hm.1
    simp only [sum_range_succ, range_zero, sum_empty, zero_add] at h1
    have h0 : m 0 = o - m 1 := by omega
    rw [h0]
    congr 2
    ring

theorem lag2 (o : ℕ) (bc : ℕ → K) (row : ℕ → ℕ) : lagVal 2 o bc row = ch (o * bc 0) (row 0) * ch (o * bc 1) (row 1) := by
  rw [lagVal_eq]; simp [prod_range_succ]

/-- The reproduction of polynomials on tensor product elements. -/
theorem ten_repro {g : Gel} (hg : IsTensor g) {o : ℕ} (ho : 1 ≤ o) {cMin cMax : K} {mtxI : ℕ → ℕ → K}
    (h : IsRefInv 2 (ends cMin cMax) mtxI) (x : ℕ → K) (P : MvPolynomial (Fin g.dim) K)
    (hP : ∀ d, P.degreeOf d ≤ o) :
    ∑ k ∈ range (tensorNodes g o).length,
      tenVal g.dim o (fun d => baryVal 2 mtxI fun _ => x d) (rowAt (tensorNodes g o) k) *
        MvPolynomial.eval (fun r : Fin g.dim => tensorNodeCoor o cMin cMax (rowAt (tensorNodes g o) k) r) P =
      MvPolynomial.eval (fun r : Fin g.dim => x r) P := by
  set L : ℕ → ℕ → K := fun d => baryVal 2 mtxI fun _ => x d with hLdef
  have hL : ∀ d, L d 0 + L d 1 = 1 := fun d => by
    have := bary_sum h fun _ => x d
    simpa [sum_range_succ] using this
  have hp : ∀ d, L d 0 * cMin + L d 1 * cMax = x d := fun d => by
    have := bary_point h (fun _ => x d) (r := 0) (by norm_num)
    simpa [sum_range_succ, ends] using this
  have e1 : ∀ k ∈ range (tensorNodes g o).length,
      tenVal g.dim o L (rowAt (tensorNodes g o) k) *
        MvPolynomial.eval (fun r : Fin g.dim => tensorNodeCoor o cMin cMax (rowAt (tensorNodes g o) k) r) P =
      (fun m : Fin g.dim → ℕ => (∏ d : Fin g.dim, (ch (o * L d 0) (o - m d) * ch (o * L d 1) (m d))) *
        MvPolynomial.eval (fun r : Fin g.dim => (((o - m r : ℕ) : K) * cMin + m r * cMax) / o) P)
        fun d => rowAt (tensorNodes g o) k (2 * d + 1) := by
    intro k hk
    have hr := tensor_trow hg ho (mem_range.1 hk)
    have h0 : ∀ d < g.dim, rowAt (tensorNodes g o) k (2 * d) = o - rowAt (tensorNodes g o) k (2 * d + 1) := fun d hd => by
      have := hr d hd; omega
    rw [tenVal_eq, prod_range]
    congr 1
    · refine prod_congr rfl fun d _ => ?_
      rw [lag2]
      simp only [add_zero]
      rw [h0 d d.2]
    · congr 2
      funext r
      rw [tensorNodeCoor, h0 r r.2]
  rw [sum_congr rfl e1, tensor_sum hg ho (fun m : Fin g.dim → ℕ => (∏ d : Fin g.dim, (ch (o * L d 0) (o - m d) * ch (o * L d 1) (m d))) *
        MvPolynomial.eval (fun r : Fin g.dim => (((o - m r : ℕ) : K) * cMin + m r * cMax) / o) P)]
  simp only [MvPolynomial.eval_eq', mul_sum]
  rw [sum_comm]
  refine sum_congr rfl fun a ha => ?_
  have e2 : ∀ m : Fin g.dim → ℕ, (∏ d : Fin g.dim, (ch (o * L d 0) (o - m d) * ch (o * L d 1) (m d))) *
      (P.coeff a * ∏ r : Fin g.dim, ((((o - m r : ℕ) : K) * cMin + m r * cMax) / o) ^ a r) =
      P.coeff a * ∏ r : Fin g.dim, (((((o - m r : ℕ) : K) * cMin + m r * cMax) / o) ^ a r *
        (ch (o * L r 0) (o - m r) * ch (o * L r 1) (m r))) := fun m => by
    rw [mul_left_comm, ← prod_mul_distrib]
    exact congrArg _ (prod_congr rfl fun r _ => mul_comm _ _)
  simp only [e2]
  rw [← mul_sum]
  congr 1
  have := (prod_univ_sum (fun _ : Fin g.dim => range (o + 1)) fun (r : Fin g.dim) (m : ℕ) =>
    ((((o - m : ℕ) : K) * cMin + m * cMax) / o) ^ a r * (ch (o * L r 0) (o - m) * ch (o * L r 1) m)).symm
  rw [this]
  refine prod_congr rfl fun r _ => ?_
  have h1 := repro_1d o ho (L r) (hL r) (fun i => ends cMin cMax i 0) (a r)
    ((MvPolynomial.monomial_le_degreeOf r ha).trans (hP r))
  simp only [ends, if_true, one_ne_zero, if_false] at h1
  rw [h1, hp r]

end

section
variable {K : Type} [Field K] [LinearOrder K] [IsStrictOrderedRing K]

theorem tenCoors_eq {dim : ℕ} {mtxI : ℕ → ℕ → K} {eps : K} (he : 0 ≤ eps) {ce : Bool} {x : ℕ → K}
    (h : CleanT dim mtxI eps ce x) :
    ∃ bc, tenCoors dim mtxI eps ce x = some bc ∧ ∀ d < dim, ∀ i < 2, bc d i = baryVal 2 mtxI (fun _ => x d) i := by
  have key : ∀ d < dim, ∃ bc, baryCoors 2 mtxI eps ce (fun j => x (d + j)) = some bc ∧
      ∀ i < 2, bc i = baryVal 2 mtxI (fun _ => x d) i := fun d hd => by
    have e := baryVal_two mtxI (fun j => x (d + j)) (fun _ => x d) rfl
    have hc : Clean 2 mtxI eps ce fun j => x (d + j) := by
      have := h d hd
      simp only [Clean, e] at this ⊢
      exact this
    obtain ⟨bc, e1, e2⟩ := baryCoors_eq he hc
    exact ⟨bc, e1, fun i hi => by rw [e2 i hi, e]⟩
  refine ⟨_, by rw [tenCoors, if_neg]; intro hc; rw [List.any_eq_true] at hc
                obtain ⟨d, hd, hs⟩ := hc
                obtain ⟨bc, e, _⟩ := key d (List.mem_range.1 hd)
                rw [e] at hs; simp at hs, fun d hd i hi => ?_⟩
  obtain ⟨bc, e, e2⟩ := key d hd
  simp only [e, Option.getD_some, e2 i hi]

theorem tenVal_congr {K : Type} [Field K] {dim o : ℕ} {bc bc' : ℕ → ℕ → K} {row : ℕ → ℕ}
    (h : ∀ d < dim, ∀ i < 2, bc d i = bc' d i) : tenVal dim o bc row = tenVal dim o bc' row := by
  rw [tenVal_eq, tenVal_eq]
  exact prod_congr rfl fun d hd => lagVal_congr (h d (mem_range.1 hd))

theorem evalTensor_eq {dim o : ℕ} {mtxI : ℕ → ℕ → K} {eps : K} (he : 0 ≤ eps) {ce : Bool} {x : ℕ → K}
    (h : CleanT dim mtxI eps ce x) (N : List Nod) :
    ∃ φ, evalTensor dim o mtxI eps ce N x = some φ ∧ φ.length = N.length ∧
      ∀ k < N.length, φ[k]? = some (tenVal dim o (fun d => baryVal 2 mtxI fun _ => x d) (rowAt N k)) := by
  obtain ⟨bc, e, hb⟩ := tenCoors_eq he h
  refine ⟨_, by rw [evalTensor, e]; rfl, by rw [List.length_map], fun k hk => ?_⟩
  rw [map_row N (fun r => tenVal dim o bc r) hk, tenVal_congr hb]

theorem baryNode1 {o : ℕ} (ho : 1 ≤ o) {cMin cMax : K} {mtxI : ℕ → ℕ → K} (h : IsRefInv 2 (ends cMin cMax) mtxI)
    {row : ℕ → ℕ} {d : ℕ} (hr : row (2 * d) + row (2 * d + 1) = o) {i : ℕ} (hi : i < 2) :
    baryVal 2 mtxI (fun _ => tensorNodeCoor o cMin cMax row d) i = row (2 * d + i) / o := by
  have hs : SRow 2 o fun i => if i < 2 then row (2 * d + i) else 0 :=
    ⟨by simpa [sum_range_succ] using hr, fun i hi => by simp [not_lt.2 hi]⟩
  have := bary_node ho h hs hi
  rw [if_pos hi] at this
  rw [← this]
  refine congrFun (baryVal_two mtxI _ _ ?_) i
  simp [tensorNodeCoor, simplexNodeCoor, sum_range_succ, ends]

theorem cleanT_node {dim o : ℕ} (ho : 1 ≤ o) {cMin cMax : K} {mtxI : ℕ → ℕ → K} (h : IsRefInv 2 (ends cMin cMax) mtxI)
    {row : ℕ → ℕ} (hr : TRow dim o row) (eps : K) (ce : Bool) :
    CleanT dim mtxI eps ce (tensorNodeCoor o cMin cMax row) := by
  intro d hd i hi
  left
  rw [baryNode1 ho h (hr d hd) hi]
  have ho' : (0 : K) < o := Nat.cast_pos.2 (by omega)
  have : row (2 * d + i) ≤ o := by
    have := hr d hd
    interval_cases i
    · simp only [add_zero]; omega
    · omega
  exact ⟨by positivity, by rw [div_le_one ho']; exact_mod_cast this⟩

/-- The value of the function `k'` in the node `k` is one if `k = k'` and zero otherwise. -/
theorem C56_tensor_nodal (g : Gel) (hg : IsTensor g) (o : ℕ) (ho : 1 ≤ o) (cMin cMax : K) (mtxI : ℕ → ℕ → K)
    (h : IsRefInv 2 (ends cMin cMax) mtxI) (eps : K) (he : 0 ≤ eps) (ce : Bool) (k : ℕ)
    (hk : k < (tensorNodes g o).length) :
    ∃ φ, evalTensor g.dim o mtxI eps ce (tensorNodes g o)
        (tensorNodeCoor o cMin cMax (rowAt (tensorNodes g o) k)) = some φ ∧
      ∀ k' < (tensorNodes g o).length, φ[k']? = some (if k' = k then 1 else 0) := by
  have hr := tensor_trow hg ho hk
  obtain ⟨φ, e, _, hφ⟩ := evalTensor_eq (o := o) he (cleanT_node ho h hr eps ce) (tensorNodes g o)
  refine ⟨φ, e, fun k' hk' => ?_⟩
  rw [hφ k' hk']
  congr 1
  have hr' := tensor_trow hg ho hk'
  have hb := fun d (hd : d < g.dim) i (hi : i < 2) => baryNode1 ho h (hr d hd) hi
  rw [tenVal_eq]
  split_ifs with hkk
  · subst hkk
    exact prod_eq_one fun d hd => lagVal_self ho _ (hb d (mem_range.1 hd))
  · by_cases hc : ∀ d < g.dim, rowAt (tensorNodes g o) k' (2 * d + 1) = rowAt (tensorNodes g o) k (2 * d + 1)
    · exact absurd (tensor_rows_inj hg ho hk' hk hc) hkk
    · push Not at hc
      obtain ⟨d, hd, hne⟩ := hc
      refine prod_eq_zero (mem_range.2 hd) (lagVal_other ho _ ?_ (hb d hd) ⟨1, by norm_num, hne⟩)
      simp only [sum_range_succ, range_zero, sum_empty, zero_add, add_zero]
      rw [hr d hd, hr' d hd]

/-- Interpolation of a polynomial of the degree at most the order in each variable is exact. -/
theorem C56_tensor_polynomials (g : Gel) (hg : IsTensor g) (o : ℕ) (ho : 1 ≤ o) (cMin cMax : K) (mtxI : ℕ → ℕ → K)
    (h : IsRefInv 2 (ends cMin cMax) mtxI) (eps : K) (he : 0 ≤ eps) (ce : Bool) (x : ℕ → K)
    (hx : CleanT g.dim mtxI eps ce x) :
    ∃ φ, evalTensor g.dim o mtxI eps ce (tensorNodes g o) x = some φ ∧
      φ.length = (tensorNodes g o).length ∧
      ∀ P : MvPolynomial (Fin g.dim) K, (∀ d, P.degreeOf d ≤ o) →
      ∑ k ∈ range (tensorNodes g o).length, φ.getD k 0 *
        MvPolynomial.eval (fun r : Fin g.dim => tensorNodeCoor o cMin cMax (rowAt (tensorNodes g o) k) r) P =
      MvPolynomial.eval (fun r : Fin g.dim => x r) P := by
  obtain ⟨φ, e, hlen, hφ⟩ := evalTensor_eq (o := o) he hx (tensorNodes g o)
  refine ⟨φ, e, hlen, fun P hP => ?_⟩
  rw [← ten_repro hg ho h x P hP]
  refine sum_congr rfl fun k hk => ?_
  rw [List.getD_eq_getElem?_getD, hφ k (mem_range.1 hk), Option.getD_some]

/-- The sum of the functions is one. -/
theorem C56_tensor_unity (g : Gel) (hg : IsTensor g) (o : ℕ) (ho : 1 ≤ o) (cMin cMax : K) (mtxI : ℕ → ℕ → K)
    (h : IsRefInv 2 (ends cMin cMax) mtxI) (eps : K) (he : 0 ≤ eps) (ce : Bool) (x : ℕ → K)
    (hx : CleanT g.dim mtxI eps ce x) :
    ∃ φ, evalTensor g.dim o mtxI eps ce (tensorNodes g o) x = some φ ∧ φ.sum = 1 := by
  obtain ⟨φ, e, hlen, hP⟩ := C56_tensor_polynomials g hg o ho cMin cMax mtxI h eps he ce x hx
  refine ⟨φ, e, ?_⟩
  have := hP 1 (by simp)
  simp only [map_one, mul_one] at this
  rw [← this, ← hlen, Finset.sum_range, ← Fin.sum_univ_getElem]
  exact sum_congr rfl fun i _ => by simp

end

end Verif.Fem
