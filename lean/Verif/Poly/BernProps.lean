/-
The Bernstein elements: partition of unity, positivity, polynomials, gradients, continuity.
-/
import Verif.Poly.Bern
import Verif.Fem.PropsContTensor
import Verif.Fem.PropsLagGrad
import Mathlib.Data.Nat.Choose.Multinomial
import Mathlib.Analysis.Calculus.Deriv.Pow
import Mathlib.Analysis.Calculus.Deriv.Polynomial

namespace Verif.Poly

open Finset Verif.Fem

/-! ### Lemmas -/

section
variable {K : Type} [Field K]

theorem bernBary_sum (dim : ℕ) (x : ℕ → K) : ∑ i ∈ range (dim + 1), bernBary dim x i = 1 := by
  rw [sum_range_succ']
  simp [bernBary, foldl_add]

theorem bernCoef_eq (dim o : ℕ) (m : ℕ → ℕ) :
    bernCoef dim o m = (o.factorial : K) / ∏ i ∈ range (dim + 1), ((m i).factorial : K) := by
  rw [bernCoef, foldl_mul, one_mul]

theorem bernVal_eq {dim : ℕ} (hd : dim ≠ 0) (o : ℕ) (bc : ℕ → K) (m : ℕ → ℕ) :
    bernVal dim o bc m = bernCoef dim o m * ∏ i ∈ range (dim + 1), bc i ^ m i := by
  rw [bernVal, if_neg hd, foldl_mul, one_mul]

theorem foldlM_some {α : Type} (n : ℕ) (f : α → ℕ → Option α) (g : α → ℕ → α) (a : α)
    (h : ∀ i < n, ∀ a, f a i = some (g a i)) : (List.range n).foldlM f a = some ((List.range n).foldl g a) := by
  induction n with
  | zero => simp
  | succ n ih =>
    rw [List.range_succ, List.foldlM_append, ih fun i hi => h i (by omega)]
    simp [h n (by omega)]

theorem foldlM_none {α : Type} (n : ℕ) (f : α → ℕ → Option α) (a : α) (i : ℕ) (hi : i < n) (h : ∀ a, f a i = none) :
    (List.range n).foldlM f a = none := by
  induction n with
  | zero => omega
  | succ n ih =>
    rw [List.range_succ, List.foldlM_append]
    rcases Nat.lt_succ_iff_lt_or_eq.1 hi with hi | rfl
    · rw [ih hi]; rfl
    · cases (List.range i).foldlM f a with
      | none => rfl
      | some b => simp [h b]

variable [DecidableEq K]

theorem bernTerm_some {dim : ℕ} (o : ℕ) (bc : ℕ → K) (m : ℕ → ℕ) (r : ℕ) {ib : ℕ} (hib : ib < dim + 1)
    (h : m ib = 0 → bc ib ≠ 0) :
    bernTerm dim o bc m r ib = some (bernCoef dim o m *
      ((∏ j ∈ (range (dim + 1)).erase ib, bc j ^ m j) * ((m ib : K) * bc ib ^ (m ib - 1) * bernBgrad ib r))) := by
  have hp : npPower (bc ib) ((m ib : ℤ) - 1) = some (bc ib ^ ((m ib : ℤ) - 1)) := by
    rw [npPower, if_neg]
    rintro ⟨h1, h2⟩
    exact h (by omega) h2
  have he : (m ib : K) * bc ib ^ ((m ib : ℤ) - 1) = (m ib : K) * bc ib ^ (m ib - 1) := by
    rcases Nat.eq_zero_or_pos (m ib) with h0 | h0
    · simp [h0]
    · rw [show (m ib : ℤ) - 1 = ((m ib - 1 : ℕ) : ℤ) by omega, zpow_natCast]
  rw [bernTerm, foldlM_some _ _ (fun val im => val * if ib = im then (m ib : K) * bc ib ^ (m ib - 1) * bernBgrad ib r
    else bc im ^ m im)]
  · rw [foldl_mul, ← mul_prod_erase _ _ (mem_range.2 hib), if_pos rfl]
    congr 2
    rw [mul_comm]
    congr 1
    exact prod_congr rfl fun j hj => by rw [if_neg (ne_of_mem_erase hj).symm]
  · intro im him a
    split_ifs with e
    · subst e
      rw [hp, Option.map_some, he]
    · rfl

theorem bernTerm_none {dim : ℕ} (o : ℕ) (bc : ℕ → K) (m : ℕ → ℕ) (r : ℕ) {ib : ℕ} (hib : ib < dim + 1)
    (h : m ib = 0) (h0 : bc ib = 0) : bernTerm dim o bc m r ib = none := by
  refine foldlM_none _ _ _ ib hib fun a => ?_
  rw [if_pos rfl, npPower, if_pos ⟨by omega, h0⟩]
  rfl

theorem bernGrad_some {dim : ℕ} (o : ℕ) (bc : ℕ → K) (m : ℕ → ℕ) (r : ℕ)
    (h : ∀ i ≤ dim, m i = 0 → bc i ≠ 0) :
    bernGrad dim o bc m r = some (bernCoef dim o m * ∑ i ∈ range (dim + 1),
      (∏ j ∈ (range (dim + 1)).erase i, bc j ^ m j) * ((m i : K) * bc i ^ (m i - 1) * bernBgrad i r)) := by
  rw [bernGrad, foldlM_some _ _ (fun dval ib => dval + bernCoef dim o m *
      ((∏ j ∈ (range (dim + 1)).erase ib, bc j ^ m j) * ((m ib : K) * bc ib ^ (m ib - 1) * bernBgrad ib r)))]
  · rw [foldl_add, zero_add, mul_sum]
  · intro i hi a
    rw [bernTerm_some o bc m r hi (h i (by omega))]
    rfl

/-- **C104**: a gradient of a function of a Bernstein simplex is a finite number only in the points, where no
barycentric coordinate with the zero exponent is zero: on the facet opposite to the vertex `i`, the gradients of all
the functions that do not vanish there are not numbers. -/
theorem C104_bernstein_simplex_gradient_nan (dim o : ℕ) (x : ℕ → K) (row : ℕ → ℕ) (r : ℕ) :
    bernGrad dim o (bernBary dim x) row r = none ↔ ∃ i ≤ dim, row i = 0 ∧ bernBary dim x i = 0 := by
  constructor
  · intro h
    by_contra hc
    push Not at hc
    rw [bernGrad_some o _ row r hc] at h
    exact Option.some_ne_none _ h
  · rintro ⟨i, hi, h1, h2⟩
    refine foldlM_none _ _ _ i (by omega) fun a => ?_
    rw [bernTerm_none o _ row r (by omega) h1 h2]
    rfl

end

/-! ### Values -/

section
variable {K : Type} [Field K] [CharZero K]

theorem gel_nV {g : Gel} (hg : IsSimplex g) : g.nV = g.dim + 1 ∧ g.dim ≠ 0 := by
  rcases hg with rfl | rfl | rfl <;> decide

/-- The multinomial theorem with factorials. -/
theorem sum_bern (nV o : ℕ) (L : ℕ → K) :
    ∑ m ∈ finsuppAntidiag (range nV) o, (o.factorial : K) / (∏ i ∈ range nV, ((m i).factorial : K)) *
      ∏ i ∈ range nV, L i ^ m i = (∑ i ∈ range nV, L i) ^ o := by
  rw [sum_pow_eq_sum_piAntidiag]
  refine sum_bij' (fun m _ => ⇑m) (fun f hf => Finsupp.onFinset (range nV) f fun i hi => (mem_piAntidiag.1 hf).2 i hi)
    ?_ ?_ ?_ ?_ ?_
  · intro m hm
    rw [mem_finsuppAntidiag] at hm
    exact mem_piAntidiag.2 ⟨hm.1, fun i hi => hm.2 (Finsupp.mem_support_iff.2 hi)⟩
  · intro f hf
    rw [mem_finsuppAntidiag]
    exact ⟨(mem_piAntidiag.1 hf).1, Finsupp.support_onFinset_subset⟩
  · intro m _; ext; rfl
  · intro f _; rfl
  · intro m hm
    rw [mem_finsuppAntidiag] at hm
    congr 1
    have := Nat.multinomial_spec (range nV) m
    rw [hm.1] at this
    rw [← this, Nat.cast_mul, Nat.cast_prod, mul_div_cancel_left₀]
    exact prod_ne_zero_iff.2 fun i _ => Nat.cast_ne_zero.2 (Nat.factorial_ne_zero _)

theorem map_sum_row {α : Type} [AddCommMonoid α] (N : List Nod) (f : (ℕ → ℕ) → α) :
    (N.map fun n => f n.row).sum = ∑ k ∈ range N.length, f (rowAt N k) := by
  rw [Finset.sum_range]
  have := (Fin.sum_univ_getElem (N.map fun n => f n.row)).symm
  rw [this]
  refine Fintype.sum_equiv (finCongr (by simp)) _ _ fun i => ?_
  have hi : (i : ℕ) < N.length := lt_of_lt_of_eq i.2 (List.length_map _)
  have h := map_row N f hi
  rw [List.getElem?_eq_getElem (by simpa using hi), Option.some.injEq] at h
  exact h

theorem getElem_map_row {α : Type} (N : List Nod) (f : (ℕ → ℕ) → α) {k : ℕ} (hk : k < N.length) (d : α) :
    (N.map fun n => f n.row).getD k d = f (rowAt N k) := by
  rw [List.getD_eq_getElem?_getD, map_row N f hk, Option.getD_some]

/-- **C104**: the functions of a Bernstein simplex are a partition of unity. -/
theorem C104_bernstein_simplex_unity (g : Gel) (hg : IsSimplex g) (o : ℕ) (ho : 1 ≤ o) (x : ℕ → K) :
    (evalBernSimplex g.dim o (simplexNodes g o) x).sum = 1 := by
  obtain ⟨h1, h2⟩ := gel_nV hg
  rw [evalBernSimplex, map_sum_row _ fun r => bernVal g.dim o (bernBary g.dim x) r,
    simplex_sum hg ho fun m => bernVal g.dim o (bernBary g.dim x) m]
  simp only [bernVal_eq h2, bernCoef_eq]
  rw [← h1, sum_bern, h1, bernBary_sum, one_pow]

/-! ### Polynomials -/

/-- The span of the products of the barycentric coordinates of the degree `k`. -/
def monSpan (K : Type) [Field K] (dim k : ℕ) : Submodule K ((ℕ → K) → K) :=
  Submodule.span K {f | ∃ m : ℕ →₀ ℕ, m ∈ finsuppAntidiag (range (dim + 1)) k ∧
    f = fun x : ℕ → K => ∏ i ∈ range (dim + 1), bernBary dim x i ^ m i}

omit [CharZero K] in
theorem monSpan_mul {dim k i : ℕ} (hi : i ≤ dim) {f : (ℕ → K) → K} (hf : f ∈ monSpan K dim k) :
    (fun x => bernBary dim x i * f x) ∈ monSpan K dim (k + 1) := by
  have hi' : i ∈ range (dim + 1) := mem_range.2 (by omega)
  refine Submodule.span_induction (p := fun f _ => (fun x => bernBary dim x i * f x) ∈ monSpan K dim (k + 1))
    ?_ ?_ ?_ ?_ hf
  · rintro f ⟨m, hm, rfl⟩
    rw [mem_finsuppAntidiag] at hm
    refine Submodule.subset_span ⟨m + Finsupp.single i 1, mem_finsuppAntidiag.2 ⟨?_, fun j hj => ?_⟩, ?_⟩
    · simp only [Finsupp.coe_add, Pi.add_apply, sum_add_distrib, hm.1]
      congr 1
      simp only [Finsupp.single_apply]
      rw [Finset.sum_ite_eq, if_pos hi']
    · rcases mem_union.1 (Finsupp.support_add hj) with h | h
      · exact hm.2 h
      · rw [mem_singleton.1 (Finsupp.support_single_subset h)]
        exact hi'
    · funext x
      show bernBary dim x i * ∏ i ∈ range (dim + 1), bernBary dim x i ^ m i = _
      rw [← mul_prod_erase _ (fun j => bernBary dim x j ^ m j) hi', ← mul_prod_erase _ (fun j => bernBary dim x j ^ (m + Finsupp.single i 1 : ℕ →₀ ℕ) j) hi']
      rw [Finsupp.add_apply, Finsupp.single_eq_same, pow_succ, ← mul_assoc, mul_comm (bernBary dim x i)]
      congr 1
      exact prod_congr rfl fun j hj => by
        rw [Finsupp.add_apply, Finsupp.single_eq_of_ne (Finset.ne_of_mem_erase hj), Nat.add_zero]
  · simp only [Pi.zero_apply, mul_zero]
    exact (monSpan K dim (k + 1)).zero_mem
  · intro f g _ _ hf hg
    convert (monSpan K dim (k + 1)).add_mem hf hg using 1
    funext x
    simp [mul_add]
  · intro a f _ hf
    convert (monSpan K dim (k + 1)).smul_mem a hf using 1
    funext x
    simp only [Pi.smul_apply, smul_eq_mul]
    ring

omit [CharZero K] in
theorem monSpan_succ {dim k : ℕ} : monSpan K dim k ≤ monSpan K dim (k + 1) := fun f hf => by
  have : f = ∑ i ∈ range (dim + 1), fun x : ℕ → K => bernBary dim x i * f x := by
    funext x
    rw [Finset.sum_apply, ← sum_mul, bernBary_sum, one_mul]
  rw [this]
  exact Submodule.sum_mem _ fun i hi => monSpan_mul (by have := mem_range.1 hi; omega) hf

omit [CharZero K] in
theorem monSpan_le {dim k k' : ℕ} (h : k ≤ k') : monSpan K dim k ≤ monSpan K dim k' := by
  induction k', h using Nat.le_induction with
  | base => exact le_rfl
  | succ n _ ih => exact ih.trans monSpan_succ

omit [CharZero K] in
theorem monSpan_one (dim : ℕ) : (fun _ => 1 : (ℕ → K) → K) ∈ monSpan K dim 0 :=
  Submodule.subset_span ⟨0, by simp, by simp⟩

omit [CharZero K] in
theorem monSpan_pow {dim k j : ℕ} (hj : j < dim) {f : (ℕ → K) → K} (hf : f ∈ monSpan K dim k) (a : ℕ) :
    (fun x => x j ^ a * f x) ∈ monSpan K dim (k + a) := by
  induction a with
  | zero => simpa using hf
  | succ a ih =>
    have := monSpan_mul (i := j + 1) (by omega) ih
    rw [add_assoc] at this
    convert this using 1
    funext x
    simp only [bernBary, Nat.succ_ne_zero, if_false, Nat.add_sub_cancel]
    ring

omit [CharZero K] in
theorem monSpan_poly {dim k : ℕ} (P : MvPolynomial (Fin dim) K) (hP : P.totalDegree ≤ k) :
    (fun x : ℕ → K => MvPolynomial.eval (fun r : Fin dim => x r) P) ∈ monSpan K dim k := by
  have hm : ∀ (s : Finset (Fin dim)) (al : Fin dim → ℕ), (fun x : ℕ → K => ∏ r ∈ s, x r ^ al r) ∈
      monSpan K dim (∑ r ∈ s, al r) := by
    intro s al
    induction s using Finset.induction_on with
    | empty => simpa using monSpan_one dim
    | insert r s hr ih =>
      have := monSpan_pow r.2 ih (al r)
      rw [sum_insert hr, add_comm]
      convert this using 1
      funext x
      rw [prod_insert hr]
  have e : (fun x : ℕ → K => MvPolynomial.eval (fun r : Fin dim => x r) P) =
      ∑ d ∈ P.support, P.coeff d • fun x : ℕ → K => ∏ r : Fin dim, x r ^ d r := by
    funext x
    rw [MvPolynomial.eval_eq', Finset.sum_apply]
    rfl
  rw [e]
  refine Submodule.sum_mem _ fun d hd => Submodule.smul_mem _ _ (monSpan_le ?_ (hm univ d))
  have := MvPolynomial.le_totalDegree hd
  rw [Finsupp.sum_fintype _ _ fun _ => rfl] at this
  exact this.trans hP

theorem simplex_row_exists {g : Gel} (hg : IsSimplex g) {o : ℕ} (ho : 1 ≤ o) {m : ℕ →₀ ℕ}
    (hm : m ∈ finsuppAntidiag (range g.nV) o) : ∃ k < (simplexNodes g o).length, rowAt (simplexNodes g o) k = m := by
  classical
  by_contra hc
  push Not at hc
  have := simplex_sum hg ho fun r => if r = m then 1 else 0
  rw [sum_eq_zero fun k hk => if_neg (hc k (mem_range.1 hk)), sum_eq_single_of_mem m hm, if_pos rfl] at this
  · omega
  · intro b _ hb
    exact if_neg fun h => hb (DFunLike.coe_injective h)

/-- **C104**: each polynomial of the degree at most the order is a combination of the functions of a Bernstein
simplex. -/
theorem C104_bernstein_simplex_polynomials (g : Gel) (hg : IsSimplex g) (o : ℕ) (ho : 1 ≤ o)
    (P : MvPolynomial (Fin g.dim) K) (hP : P.totalDegree ≤ o) :
    ∃ c : ℕ → K, ∀ x : ℕ → K, ∑ k ∈ range (simplexNodes g o).length,
      c k * (evalBernSimplex g.dim o (simplexNodes g o) x).getD k 0 = MvPolynomial.eval (fun r : Fin g.dim => x r) P := by
  obtain ⟨h1, h2⟩ := gel_nV hg
  have key : ∀ f ∈ monSpan K g.dim o, ∃ c : ℕ → K, ∀ x : ℕ → K, ∑ k ∈ range (simplexNodes g o).length,
      c k * (evalBernSimplex g.dim o (simplexNodes g o) x).getD k 0 = f x := by
    intro f hf
    refine Submodule.span_induction (p := fun f _ => ∃ c : ℕ → K, ∀ x : ℕ → K, ∑ k ∈ range (simplexNodes g o).length,
      c k * (evalBernSimplex g.dim o (simplexNodes g o) x).getD k 0 = f x) ?_ ?_ ?_ ?_ hf
    · rintro f ⟨m, hm, rfl⟩
      obtain ⟨k, hk, e⟩ := simplex_row_exists hg ho (h1 ▸ hm)
      refine ⟨fun l => if l = k then (bernCoef g.dim o m)⁻¹ else 0, fun x => ?_⟩
      rw [sum_eq_single_of_mem k (mem_range.2 hk) fun b _ hb => by simp only [if_neg hb, zero_mul]]
      simp only [if_true]
      rw [evalBernSimplex, getElem_map_row _ (fun r => bernVal g.dim o (bernBary g.dim x) r) hk, e, bernVal_eq h2,
        inv_mul_cancel_left₀]
      rw [bernCoef_eq]
      exact div_ne_zero (Nat.cast_ne_zero.2 (Nat.factorial_ne_zero _))
        (prod_ne_zero_iff.2 fun i _ => Nat.cast_ne_zero.2 (Nat.factorial_ne_zero _))
    · exact ⟨fun _ => 0, by simp⟩
    · rintro f f' _ _ ⟨c, hc⟩ ⟨c', hc'⟩
      exact ⟨fun k => c k + c' k, fun x => by
        simp only [add_mul, sum_add_distrib, hc, hc', Pi.add_apply]⟩
    · rintro a f _ ⟨c, hc⟩
      exact ⟨fun k => a * c k, fun x => by
        simp only [mul_assoc, ← mul_sum, hc, Pi.smul_apply, smul_eq_mul]⟩
  exact key _ (monSpan_poly P hP)

/-! ### Continuity -/

/-- **C106**: the functions of a Bernstein field on simplices are continuous. -/
theorem C106_continuous_bernstein_simplex (g : Gel) (hg : IsSimplex g) (o : ℕ) (ho : 1 ≤ o) (d : FieldData)
    (M : MeshOk g d) (u : ℤ → K) (el el' : ℕ) (hel : el < d.cells.length) (hel' : el' < d.cells.length) (x x' : ℕ → K)
    (hw : ∀ v, meshWeight g.nV (d.conn (d.cells.getD el 0)) (bernBary g.dim x) v =
      meshWeight g.nV (d.conn (d.cells.getD el' 0)) (bernBary g.dim x') v) :
    fieldValue (setupGlobalBasis g (simplexNodes g o) o d).1 u
        (fun k => (evalBernSimplex g.dim o (simplexNodes g o) x).getD k 0) (simplexNodes g o).length el =
      fieldValue (setupGlobalBasis g (simplexNodes g o) o d).1 u
        (fun k => (evalBernSimplex g.dim o (simplexNodes g o) x').getD k 0) (simplexNodes g o).length el' := by
  obtain ⟨h1, h2⟩ := gel_nV hg
  have key : ∀ el x, fieldValue (setupGlobalBasis g (simplexNodes g o) o d).1 u
      (fun k => (evalBernSimplex g.dim o (simplexNodes g o) x).getD k 0) (simplexNodes g o).length el =
      (o.factorial : K) * fieldValue (setupGlobalBasis g (simplexNodes g o) o d).1 u (fun k => ∏ i ∈ range g.nV,
        (fun (b : K) (n : ℕ) => b ^ n / (n.factorial : K)) (bernBary g.dim x i) (rowAt (simplexNodes g o) k i))
        (simplexNodes g o).length el := by
    intro el x
    rw [fieldValue, fieldValue, mul_sum]
    refine sum_congr rfl fun k hk => ?_
    rw [evalBernSimplex, getElem_map_row _ (fun r => bernVal g.dim o (bernBary g.dim x) r) (mem_range.1 hk),
      bernVal_eq h2, bernCoef_eq, h1, prod_div_distrib]
    ring
  rw [key, key, continuous_simplex (h := fun (b : K) (n : ℕ) => b ^ n / (n.factorial : K)) (fun b => by simp)
    (fun n hn => by simp [hn]) g hg o ho d M u el el' hel hel' _ _ hw]

/-! ### Tensor product elements -/

omit [CharZero K] in
theorem prodVal_eq (dim : ℕ) (B : ℕ → ℕ → K) (node : ℕ → ℕ) : prodVal dim B node = ∏ i ∈ range dim, B i (node i) := by
  rw [prodVal, foldl_mul, one_mul]

omit [CharZero K] in
theorem prodGrad_eq (dim : ℕ) (B dB : ℕ → ℕ → K) (node : ℕ → ℕ) {r : ℕ} (hr : r < dim) :
    prodGrad dim B dB node r = dB r (node r) * ∏ d ∈ (range dim).erase r, B d (node d) := by
  rw [prodGrad, foldl_mul, one_mul, ← mul_prod_erase _ _ (mem_range.2 hr), if_pos rfl]
  congr 1
  exact prod_congr rfl fun d hd => by rw [if_neg (ne_of_mem_erase hd)]

/-- The sum over the nodes of a tensor product element of products is a product of sums. -/
theorem tensor_prod_sum {g : Gel} (hg : IsTensor g) {o : ℕ} (ho : 1 ≤ o) (B : ℕ → ℕ → K) :
    ∑ k ∈ range (tensorNodes g o).length, ∏ i ∈ range g.dim, B i (rowAt (tensorNodes g o) k (2 * i + 1)) =
      ∏ i ∈ range g.dim, ∑ a ∈ range (o + 1), B i a := by
  have := tensor_sum hg ho fun m : Fin g.dim → ℕ => ∏ i : Fin g.dim, B i (m i)
  rw [← Finset.prod_univ_sum] at this
  rw [prod_range fun i => ∑ a ∈ range (o + 1), B i a, ← this]
  exact sum_congr rfl fun k _ => prod_range fun i => B i (rowAt (tensorNodes g o) k (2 * i + 1))

/-- **C105**: the functions of a Bernstein tensor product element are a partition of unity. -/
theorem C105_bernstein_tensor_unity (g : Gel) (hg : IsTensor g) (o : ℕ) (ho : 1 ≤ o) (x : ℕ → K) :
    (evalBernTensor g.dim o (tensorNodes g o) x).sum = 1 := by
  rw [evalBernTensor, map_sum_row _ fun r => prodVal g.dim (fun ii => (Iga.evalBernstein (x ii) o).1) (oddCols r)]
  simp only [prodVal_eq, oddCols]
  rw [tensor_prod_sum hg ho fun i => (Iga.evalBernstein (x i) o).1]
  exact prod_eq_one fun i _ => (Iga.C76_bernstein_partition (x i) o).1

omit [CharZero K] in
/-- A power is a combination of the 1D Bernstein functions. -/
theorem bern_pow [CharZero K] {o a : ℕ} (ha : a ≤ o) (x : K) :
    ∑ k ∈ range (o + 1), ((k.choose a : K) / (o.choose a : K)) * (Iga.evalBernstein x o).1 k = x ^ a := by
  have hne : (o.choose a : K) ≠ 0 := Nat.cast_ne_zero.2 (Nat.choose_pos ha).ne'
  have h1 := (Iga.C76_bernstein_partition x (o - a)).1
  simp only [Iga.C76_bernstein_values] at h1 ⊢
  rw [show o + 1 = a + (o - a + 1) by omega, sum_range_add, sum_eq_zero, zero_add]
  · conv_rhs => rw [show x ^ a = x ^ a * 1 from (mul_one _).symm]
    refine Eq.trans ?_ (congrArg (x ^ a * ·) h1)
    simp only [mul_sum]
    refine sum_congr rfl fun k hk => ?_
    have hk : k ≤ o - a := by have := mem_range.1 hk; omega
    have e : (o.choose (a + k) : K) * ((a + k).choose a : K) = (o.choose a : K) * ((o - a).choose k : K) := by
      have := Nat.choose_mul (n := o) (k := a + k) (s := a) (by omega)
      rw [Nat.add_sub_cancel_left] at this
      exact_mod_cast this
    rw [show o - (a + k) = o - a - k by omega, div_mul_eq_mul_div, div_eq_iff hne]
    generalize o - a - k = q at *
    rw [pow_add]
    linear_combination (x ^ a * x ^ k * (1 - x) ^ q) * e
  · intro k hk
    rw [Nat.choose_eq_zero_of_lt (mem_range.1 hk)]
    simp

/-- **C105**: each polynomial of the degree at most the order in each variable is a combination of the functions of a
Bernstein tensor product element. -/
theorem C105_bernstein_tensor_polynomials (g : Gel) (hg : IsTensor g) (o : ℕ) (ho : 1 ≤ o)
    (P : MvPolynomial (Fin g.dim) K) (hP : ∀ d, P.degreeOf d ≤ o) :
    ∃ c : ℕ → K, ∀ x : ℕ → K, ∑ k ∈ range (tensorNodes g o).length,
      c k * (evalBernTensor g.dim o (tensorNodes g o) x).getD k 0 = MvPolynomial.eval (fun r : Fin g.dim => x r) P := by
  let al : (Fin g.dim →₀ ℕ) → ℕ → ℕ := fun e i => if h : i < g.dim then e ⟨i, h⟩ else 0
  refine ⟨fun k => ∑ e ∈ P.support, P.coeff e * ∏ i ∈ range g.dim,
    (((rowAt (tensorNodes g o) k (2 * i + 1)).choose (al e i) : K) / (o.choose (al e i) : K)), fun x => ?_⟩
  rw [MvPolynomial.eval_eq']
  simp only [sum_mul]
  rw [sum_comm]
  refine sum_congr rfl fun e he => ?_
  have h1 : ∀ k ∈ range (tensorNodes g o).length, (P.coeff e * ∏ i ∈ range g.dim,
      (((rowAt (tensorNodes g o) k (2 * i + 1)).choose (al e i) : K) / (o.choose (al e i) : K))) *
      (evalBernTensor g.dim o (tensorNodes g o) x).getD k 0 = P.coeff e * ∏ i ∈ range g.dim,
      (fun (i : ℕ) (a : ℕ) => ((a.choose (al e i) : K) / (o.choose (al e i) : K)) * (Iga.evalBernstein (x i) o).1 a) i
        (rowAt (tensorNodes g o) k (2 * i + 1)) := by
    intro k hk
    rw [evalBernTensor, getElem_map_row _
      (fun r => prodVal g.dim (fun ii => (Iga.evalBernstein (x ii) o).1) (oddCols r)) (mem_range.1 hk), prodVal_eq,
      mul_assoc, ← prod_mul_distrib]
    rfl
  rw [sum_congr rfl h1, ← mul_sum, tensor_prod_sum hg ho
    (fun (i : ℕ) (a : ℕ) => ((a.choose (al e i) : K) / (o.choose (al e i) : K)) * (Iga.evalBernstein (x i) o).1 a),
    prod_range]
  congr 1
  refine prod_congr rfl fun i _ => ?_
  have hal : al e i = e i := by simp [al]
  rw [hal]
  exact bern_pow (MvPolynomial.degreeOf_le_iff.1 (hP i) e he) (x i)

instance (o : ℕ) : Sym1 o (fun (s : K) => (Iga.evalBernstein s o).1) where
  zero a _ := by
    rw [Iga.C76_bernstein_values]
    rcases Nat.eq_zero_or_pos a with rfl | h
    · simp
    · rw [if_neg (by omega), zero_pow (by omega)]; simp
  symm a ha s := by
    rw [Iga.C76_bernstein_values, Iga.C76_bernstein_values, Nat.choose_symm ha, Nat.sub_sub_self ha, sub_sub_cancel]
    ring

/-- The barycentric coordinates in each direction of the reference element `[0, 1]^n`. -/
def unitBc (x : ℕ → K) (i e : ℕ) : K := if e = 0 then 1 - x i else x i

/-- **C106**: the functions of a Bernstein field on tensor product elements are continuous. -/
theorem C106_continuous_bernstein_tensor (g : Gel) (hg : IsTensor g) (o : ℕ) (ho : 1 ≤ o) (d : FieldData)
    (M : MeshOk g d) (u : ℤ → K) (el el' : ℕ) (hel : el < d.cells.length) (hel' : el' < d.cells.length) (x x' : ℕ → K)
    (hw : ∀ v, meshWeight g.nV (d.conn (d.cells.getD el 0)) (tensorWeight g.dim (unitBc x)) v =
      meshWeight g.nV (d.conn (d.cells.getD el' 0)) (tensorWeight g.dim (unitBc x')) v) :
    fieldValue (setupGlobalBasis g (tensorNodes g o) o d).1 u
        (fun k => (evalBernTensor g.dim o (tensorNodes g o) x).getD k 0) (tensorNodes g o).length el =
      fieldValue (setupGlobalBasis g (tensorNodes g o) o d).1 u
        (fun k => (evalBernTensor g.dim o (tensorNodes g o) x').getD k 0) (tensorNodes g o).length el' := by
  have key : ∀ el x, fieldValue (setupGlobalBasis g (tensorNodes g o) o d).1 u
      (fun k => (evalBernTensor g.dim o (tensorNodes g o) x).getD k 0) (tensorNodes g o).length el =
      fieldValue (setupGlobalBasis g (tensorNodes g o) o d).1 u (fun k => ∏ i ∈ range g.dim,
        (fun (s : K) => (Iga.evalBernstein s o).1) (unitBc x i 1) (rowAt (tensorNodes g o) k (2 * i + 1)))
        (tensorNodes g o).length el := by
    intro el x
    refine sum_congr rfl fun k hk => ?_
    simp only
    rw [evalBernTensor, getElem_map_row _
      (fun r => prodVal g.dim (fun ii => (Iga.evalBernstein (x ii) o).1) (oddCols r)) (mem_range.1 hk), prodVal_eq]
    rfl
  rw [key, key]
  exact continuous_tensor (φ := fun (s : K) => (Iga.evalBernstein s o).1) g hg o ho d M u el el' hel hel' _ _
    (fun i _ => by simp [unitBc]) (fun i _ => by simp [unitBc]) hw

end

/-! ### Positivity -/

section
variable {K : Type} [Field K] [LinearOrder K] [IsStrictOrderedRing K]

theorem simplex_vert {g : Gel} (hg : IsSimplex g) {o i : ℕ} (hi : i < g.nV) :
    i < (simplexNodes g o).length ∧ rowAt (simplexNodes g o) i = fun k => if k = i then o else 0 := by
  rcases hg with rfl | rfl | rfl
  · exact ⟨by rw [(shape12 o).length]; have : gel12.nV = 2 := rfl; omega, row12_vert hi⟩
  · exact ⟨by rw [(shape23 o).length]; have : gel23.nV = 3 := rfl; omega, row23_vert hi⟩
  · exact ⟨by rw [(shape34 o).length]; have : gel34.nV = 4 := rfl; omega, row34_vert hi⟩

/-- **C104**: the functions of a Bernstein simplex have values in `[0, 1]` in its points. -/
theorem C104_bernstein_simplex_positive (g : Gel) (hg : IsSimplex g) (o : ℕ) (ho : 1 ≤ o) (x : ℕ → K)
    (h0 : ∀ i < g.dim, 0 ≤ x i) (h1 : ∑ i ∈ range g.dim, x i ≤ 1) :
    ∀ φ ∈ evalBernSimplex g.dim o (simplexNodes g o) x, 0 ≤ φ ∧ φ ≤ 1 := by
  have hb : ∀ i ∈ range (g.dim + 1), 0 ≤ bernBary g.dim x i := by
    intro i hi
    rw [bernBary, foldl_add, zero_add]
    split_ifs
    · linarith
    · exact h0 _ (by have := mem_range.1 hi; omega)
  have hp : ∀ φ ∈ evalBernSimplex g.dim o (simplexNodes g o) x, 0 ≤ φ := by
    intro φ hφ
    obtain ⟨n, -, rfl⟩ := List.mem_map.1 hφ
    rw [bernVal_eq (gel_nV hg).2, bernCoef_eq]
    exact mul_nonneg (div_nonneg (Nat.cast_nonneg _) (prod_nonneg fun i _ => Nat.cast_nonneg _))
      (prod_nonneg fun i hi => pow_nonneg (hb i hi) _)
  exact fun φ hφ => ⟨hp φ hφ, C104_bernstein_simplex_unity g hg o ho x ▸ List.single_le_sum hp φ hφ⟩

/-- **C105**: the functions of a Bernstein tensor product element have values in `[0, 1]` in its points. -/
theorem C105_bernstein_tensor_positive (g : Gel) (hg : IsTensor g) (o : ℕ) (ho : 1 ≤ o) (x : ℕ → K)
    (h0 : ∀ i < g.dim, 0 ≤ x i ∧ x i ≤ 1) :
    ∀ φ ∈ evalBernTensor g.dim o (tensorNodes g o) x, 0 ≤ φ ∧ φ ≤ 1 := by
  have hp : ∀ φ ∈ evalBernTensor g.dim o (tensorNodes g o) x, 0 ≤ φ := by
    intro φ hφ
    obtain ⟨n, -, rfl⟩ := List.mem_map.1 hφ
    rw [prodVal_eq]
    refine prod_nonneg fun i hi => ?_
    obtain ⟨h1, h2⟩ := h0 i (mem_range.1 hi)
    rw [Iga.C76_bernstein_values]
    exact mul_nonneg (mul_nonneg (Nat.cast_nonneg _) (pow_nonneg h1 _)) (pow_nonneg (sub_nonneg.2 h2) _)
  exact fun φ hφ => ⟨hp φ hφ, C105_bernstein_tensor_unity g hg o ho x ▸ List.single_le_sum hp φ hφ⟩

/-- **C104**: in a vertex of the reference simplex the function of the vertex is one, the other functions are zero, so
that the DOF of a vertex is the value in the vertex. -/
theorem C104_bernstein_simplex_vertices (g : Gel) (hg : IsSimplex g) (o : ℕ) (ho : 1 ≤ o) (v : ℕ) (hv : v < g.nV)
    (k : ℕ) (hk : k < (simplexNodes g o).length) :
    (evalBernSimplex g.dim o (simplexNodes g o) fun j => if j + 1 = v then (1 : K) else 0).getD k 0 =
      if k = v then 1 else 0 := by
  obtain ⟨h1, h2⟩ := gel_nV hg
  have hb : ∀ i ∈ range (g.dim + 1), bernBary g.dim (fun j => if j + 1 = v then (1 : K) else 0) i = if i = v then 1 else 0 := by
    intro i hi
    rw [bernBary, foldl_add, zero_add]
    rcases Nat.eq_zero_or_pos i with rfl | h
    · rw [if_pos rfl]
      rcases Nat.eq_zero_or_pos v with rfl | h'
      · simp
      · rw [if_neg (by omega), sum_eq_single_of_mem (v - 1) (mem_range.2 (by omega)), if_pos (by omega), sub_self]
        intro b _ hb
        rw [if_neg (by omega)]
    · rw [if_neg (by omega), Nat.sub_add_cancel h]
  rw [evalBernSimplex, getElem_map_row _ (fun r => bernVal g.dim o (bernBary g.dim _) r) hk, bernVal_eq h2,
    prod_congr rfl fun i hi => by rw [hb i hi]]
  obtain ⟨hv1, hv2⟩ := simplex_vert hg (o := o) hv
  split_ifs with e
  · subst e
    rw [bernCoef_eq, hv2, ← mul_prod_erase _ (fun i => (((if i = k then o else 0).factorial : ℕ) : K))
      (mem_range.2 (h1 ▸ hv)), prod_eq_one, prod_eq_one]
    · simp [Nat.factorial_ne_zero]
    · intro i _
      by_cases h : i = k <;> simp [h]
    · intro i hi
      rw [if_neg (ne_of_mem_erase hi)]; simp
  · have : ∃ i < g.nV, i ≠ v ∧ rowAt (simplexNodes g o) k i ≠ 0 := by
      by_contra hc
      push Not at hc
      refine e (simplex_rows_inj hg ho hk hv1 ?_)
      obtain ⟨hs, hz⟩ := simplex_srow hg ho hk
      rw [hv2]
      funext i
      split_ifs with hi
      · subst hi
        exact (sum_eq_single_of_mem i (mem_range.2 hv) fun b hb hne => hc b (mem_range.1 hb) hne).symm.trans hs
      · by_cases h : i < g.nV
        · exact hc i h hi
        · exact hz i (by omega)
    obtain ⟨i, hi, hne, h0⟩ := this
    rw [prod_eq_zero (mem_range.2 (h1 ▸ hi)) (by rw [if_neg hne, zero_pow h0]), mul_zero]

end

/-! ### Gradients -/

theorem hasDerivAt_bernBary (dim : ℕ) (x : ℕ → ℝ) {r : ℕ} (hr : r < dim) (i : ℕ) :
    HasDerivAt (fun t => bernBary dim (Function.update x r t) i) (bernBgrad i r) (x r) := by
  have hu : ∀ j, HasDerivAt (fun t => Function.update x r t j) (if j = r then 1 else 0) (x r) := by
    intro j
    split_ifs with h
    · subst h
      simp only [Function.update_self]
      exact hasDerivAt_id (x j)
    · simp only [Function.update_of_ne h]
      exact hasDerivAt_const _ _
  simp only [bernBary, bernBgrad, foldl_add, zero_add]
  split_ifs with h0 h1
  · have := (hasDerivAt_sum (u := range dim) fun j _ => hu j).const_sub 1
    rw [Finset.sum_ite_eq', if_pos (mem_range.2 hr)] at this
    exact this
  · subst h1
    simpa using hu r
  · have := hu (i - 1)
    rwa [if_neg (by omega)] at this

/-- **C104**: the gradients of the functions of a Bernstein simplex are their partial derivatives, in the points where
they are numbers: no zero barycentric coordinate has the zero exponent.  In the interior of the simplex this is always
so. -/
theorem C104_bernstein_simplex_gradient (dim : ℕ) (hd : dim ≠ 0) (o : ℕ) (N : List Nod) (x : ℕ → ℝ) (r : ℕ)
    (hr : r < dim) (k : ℕ) (hk : k < N.length) (h : ∀ i ≤ dim, rowAt N k i = 0 → bernBary dim x i ≠ 0) :
    ∃ D, (evalBernSimplexGrad dim o N x r).getD k none = some D ∧
      HasDerivAt (fun t => (evalBernSimplex dim o N (Function.update x r t)).getD k 0) D (x r) := by
  refine ⟨_, by
    rw [evalBernSimplexGrad, getElem_map_row _ (fun row => bernGrad dim o (bernBary dim x) row r) hk,
      bernGrad_some o _ _ r h], ?_⟩
  have e : (fun t => (evalBernSimplex dim o N (Function.update x r t)).getD k 0) = fun t =>
      bernCoef dim o (rowAt N k) * ∏ i ∈ range (dim + 1), bernBary dim (Function.update x r t) i ^ rowAt N k i := by
    funext t
    rw [evalBernSimplex, getElem_map_row _ (fun row => bernVal dim o (bernBary dim (Function.update x r t)) row) hk,
      bernVal_eq hd]
  rw [e]
  have := (hasDerivAt_prod (u := range (dim + 1)) fun i _ =>
    (hasDerivAt_bernBary dim x hr i).pow (rowAt N k i)).const_mul (bernCoef dim o (rowAt N k))
  simp only [Function.update_eq_self, Pi.pow_apply] at this
  exact this

theorem hasDerivAt_bern1 (o a : ℕ) (ha : a ≤ o) (s : ℝ) :
    HasDerivAt (fun s => (Iga.evalBernstein s o).1 a) ((Iga.evalBernstein s o).2 a) s := by
  rw [Iga.C76_bernstein_derivatives s o a ha]
  have := (bernsteinPolynomial ℝ o a).hasDerivAt s
  refine this.congr_of_eventuallyEq (Filter.Eventually.of_forall fun t => ?_)
  show (Iga.evalBernstein t o).1 a = _
  rw [Iga.C76_bernstein_values, ← Iga.bern_eq, Iga.bern_eval]

/-- Products of 1D functions: the gradient. -/
theorem hasDerivAt_prodVal {dim : ℕ} (b db : ℝ → ℕ → ℝ) (x : ℕ → ℝ) (node : ℕ → ℕ) {r : ℕ} (hr : r < dim)
    (h : HasDerivAt (fun s => b s (node r)) (db (x r) (node r)) (x r)) :
    HasDerivAt (fun t => prodVal dim (fun i => b (Function.update x r t i)) node)
      (prodGrad dim (fun i => b (x i)) (fun i => db (x i)) node r) (x r) := by
  have e : (fun t => prodVal dim (fun i => b (Function.update x r t i)) node) = fun t =>
      b t (node r) * ∏ d ∈ (range dim).erase r, b (x d) (node d) := by
    funext t
    rw [prodVal_eq, ← mul_prod_erase _ _ (mem_range.2 hr), Function.update_self]
    congr 1
    exact prod_congr rfl fun d hd => by rw [Function.update_of_ne (ne_of_mem_erase hd)]
  rw [e, prodGrad_eq _ _ _ _ hr]
  exact h.mul_const _

/-- **C105**: the gradients of the functions of a Bernstein tensor product element are their partial derivatives. -/
theorem C105_bernstein_tensor_gradient (g : Gel) (hg : IsTensor g) (o : ℕ) (ho : 1 ≤ o) (x : ℕ → ℝ) (r : ℕ)
    (hr : r < g.dim) (k : ℕ) (hk : k < (tensorNodes g o).length) :
    HasDerivAt (fun t => (evalBernTensor g.dim o (tensorNodes g o) (Function.update x r t)).getD k 0)
      ((evalBernTensorGrad g.dim o (tensorNodes g o) x r).getD k 0) (x r) := by
  have hrow := tensor_trow hg ho hk
  simp only [evalBernTensor, evalBernTensorGrad]
  rw [getElem_map_row _ (fun row => prodGrad g.dim (fun ii => (Iga.evalBernstein (x ii) o).1)
    (fun ii => (Iga.evalBernstein (x ii) o).2) (oddCols row) r) hk]
  refine (hasDerivAt_prodVal (fun s => (Iga.evalBernstein s o).1) (fun s => (Iga.evalBernstein s o).2) x
    (oddCols (rowAt (tensorNodes g o) k)) hr (hasDerivAt_bern1 o _ ?_ _)).congr_of_eventuallyEq
    (Filter.Eventually.of_forall fun t => ?_)
  · have := hrow r hr
    rw [oddCols]; omega
  · exact getElem_map_row _ (fun row => prodVal g.dim
      (fun ii => (Iga.evalBernstein (Function.update x r t ii) o).1) (oddCols row)) hk 0

end Verif.Poly
