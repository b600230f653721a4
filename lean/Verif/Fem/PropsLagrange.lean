/-
The Lagrange bases on simplices and tensor product elements: nodal values, reproduction of polynomials.
-/
import Verif.Fem.PropsRows
import Verif.Fem.PropsRepro
import Verif.Fem.SpecLagrange
import Mathlib.Algebra.BigOperators.Field
import Mathlib.Algebra.Order.Field.Basic
import Mathlib.Tactic.Positivity

namespace Verif.Fem

open Finset

section
variable {K : Type} [Field K]

theorem baryVal_eq (nV : ℕ) (mtxI : ℕ → ℕ → K) (x : ℕ → K) (i : ℕ) :
    baryVal nV mtxI x i = ∑ r ∈ range (nV - 1), mtxI i r * x r + mtxI i (nV - 1) := by
  rw [baryVal, foldl_add, zero_add]

theorem bary_sum {nV : ℕ} {coors mtxI : ℕ → ℕ → K} (h : IsRefInv nV coors mtxI) (x : ℕ → K) :
    ∑ i ∈ range nV, baryVal nV mtxI x i = 1 := by
  have hn := h.pos
  simp only [baryVal_eq, sum_add_distrib]
  rw [sum_comm]
  have : ∀ r ∈ range (nV - 1), ∑ i ∈ range nV, mtxI i r * x r = 0 := fun r hr => by
    rw [mem_range] at hr
    rw [← sum_mul, h.ones r (by omega), if_neg (by omega), zero_mul]
  rw [sum_eq_zero this, zero_add, h.ones _ (by omega), if_pos rfl]

theorem bary_point {nV : ℕ} {coors mtxI : ℕ → ℕ → K} (h : IsRefInv nV coors mtxI) (x : ℕ → K) {r : ℕ}
    (hr : r < nV - 1) : ∑ i ∈ range nV, baryVal nV mtxI x i * coors i r = x r := by
  simp only [baryVal_eq, add_mul, sum_add_distrib, sum_mul]
  rw [sum_comm]
  have : ∀ s ∈ range (nV - 1), ∑ i ∈ range nV, mtxI i s * x s * coors i r = if r = s then x s else 0 := fun s hs => by
    rw [mem_range] at hs
    have := h.coor r s hr (by omega)
    calc _ = (∑ i ∈ range nV, coors i r * mtxI i s) * x s := by
          rw [sum_mul]; exact sum_congr rfl fun i _ => by ring
      _ = _ := by rw [this]; split_ifs <;> simp
  rw [sum_congr rfl this]
  have h2 := h.coor r (nV - 1) hr (by omega)
  rw [if_neg (by omega)] at h2
  rw [sum_congr rfl fun i _ => mul_comm (mtxI i (nV - 1)) (coors i r), h2, add_zero, sum_ite_eq]
  simp [hr]

theorem bary_combo {nV : ℕ} {coors mtxI : ℕ → ℕ → K} (h : IsRefInv nV coors mtxI) (w : ℕ → K)
    (hw : ∑ i ∈ range nV, w i = 1) {i : ℕ} (hi : i < nV) :
    baryVal nV mtxI (fun r => ∑ j ∈ range nV, w j * coors j r) i = w i := by
  rw [baryVal_eq]
  have e : ∑ r ∈ range (nV - 1), mtxI i r * ∑ j ∈ range nV, w j * coors j r =
      ∑ j ∈ range nV, w j * ∑ r ∈ range (nV - 1), mtxI i r * coors j r := by
    simp only [mul_sum]
    rw [sum_comm]
    exact sum_congr rfl fun _ _ => sum_congr rfl fun _ _ => by ring
  have e2 : mtxI i (nV - 1) = ∑ j ∈ range nV, w j * mtxI i (nV - 1) := by rw [← sum_mul, hw, one_mul]
  rw [e, e2, ← sum_add_distrib]
  have : ∀ j ∈ range nV, w j * ∑ r ∈ range (nV - 1), mtxI i r * coors j r + w j * mtxI i (nV - 1) =
      if i = j then w j else 0 := fun j hj => by
    rw [← mul_add, h.left i j hi (mem_range.1 hj)]
    split_ifs <;> simp
  rw [sum_congr rfl this, sum_ite_eq]
  simp [hi]

variable [CharZero K]

theorem bary_node {nV o : ℕ} (ho : 1 ≤ o) {coors mtxI : ℕ → ℕ → K} (h : IsRefInv nV coors mtxI) {row : ℕ → ℕ}
    (hr : SRow nV o row) {i : ℕ} (hi : i < nV) : baryVal nV mtxI (simplexNodeCoor nV o coors row) i = row i / o := by
  have ho' : (o : K) ≠ 0 := Nat.cast_ne_zero.2 (by omega)
  have e : simplexNodeCoor nV o coors row = fun r => ∑ j ∈ range nV, (row j / o : K) * coors j r := by
    funext r
    rw [simplexNodeCoor, sum_div]
    exact sum_congr rfl fun j _ => by ring
  rw [e, bary_combo h _ ?_ hi]
  rw [← sum_div, ← Nat.cast_sum, hr.1, div_self ho']

/-- The values in the points with the barycentric coordinates given by a row. -/
theorem lagVal_row {nV o : ℕ} (ho : 1 ≤ o) (bc : ℕ → K) {row row' : ℕ → ℕ} 
    (hb : ∀ i < nV, bc i = row' i / o) : lagVal nV o bc row = ∏ i ∈ range nV, ((row' i).choose (row i) : K) := by
  have ho' : (o : K) ≠ 0 := Nat.cast_ne_zero.2 (by omega)
  rw [lagVal_eq]
  refine prod_congr rfl fun i hi => ?_
  rw [hb i (mem_range.1 hi), mul_div_cancel₀ _ ho', ch_nat]

theorem lagVal_self {nV o : ℕ} (ho : 1 ≤ o) (bc : ℕ → K) {row : ℕ → ℕ}
    (hb : ∀ i < nV, bc i = row i / o) : lagVal nV o bc row = 1 := by
  rw [lagVal_row ho bc hb]; exact prod_eq_one fun i _ => by simp

theorem lagVal_other {nV o : ℕ} (ho : 1 ≤ o) (bc : ℕ → K) {row row' : ℕ → ℕ}
    (hr : ∑ i ∈ range nV, row i = ∑ i ∈ range nV, row' i)
    (hb : ∀ i < nV, bc i = row' i / o) (hne : ∃ i < nV, row i ≠ row' i) : lagVal nV o bc row = 0 := by
  rw [lagVal_row ho bc hb]
  have : ∃ i ∈ range nV, row' i < row i := by
    by_contra hc
    push Not at hc
    obtain ⟨i, hi, h⟩ := hne
    exact h ((sum_eq_sum_iff_of_le hc).1 hr i (mem_range.2 hi))
  obtain ⟨i, hi, hlt⟩ := this
  exact prod_eq_zero hi (by rw [Nat.choose_eq_zero_of_lt hlt, Nat.cast_zero])

/-- The reproduction of polynomials on simplices. -/
theorem lag_repro {g : Gel} (hg : IsSimplex g) {o : ℕ} (ho : 1 ≤ o) {coors mtxI : ℕ → ℕ → K}
    (h : IsRefInv g.nV coors mtxI) (x : ℕ → K) (P : MvPolynomial (Fin (g.nV - 1)) K) (hP : P.totalDegree ≤ o) :
    ∑ k ∈ range (simplexNodes g o).length,
      lagVal g.nV o (baryVal g.nV mtxI x) (rowAt (simplexNodes g o) k) *
        MvPolynomial.eval (fun r : Fin (g.nV - 1) => simplexNodeCoor g.nV o coors (rowAt (simplexNodes g o) k) r) P =
      MvPolynomial.eval (fun r : Fin (g.nV - 1) => x r) P := by
  rw [simplex_sum hg ho fun row => lagVal g.nV o (baryVal g.nV mtxI x) row *
    MvPolynomial.eval (fun r : Fin (g.nV - 1) => simplexNodeCoor g.nV o coors row r) P]
  have := repro_poly g.nV o ho (baryVal g.nV mtxI x) (bary_sum h x) (fun i (r : Fin (g.nV - 1)) => coors i r) P hP
  have e : (fun r : Fin (g.nV - 1) => ∑ i ∈ range g.nV, baryVal g.nV mtxI x i * coors i r) = fun r : Fin (g.nV - 1) => x r :=
    funext fun r => bary_point h x r.2
  rw [e] at this
  rw [← this]
  refine sum_congr rfl fun m _ => ?_
  rw [lagVal_eq, mul_comm]
  congr 2
  refine congrArg _ (funext fun r => ?_)
  rw [simplexNodeCoor, sum_div]
  exact sum_congr rfl fun j _ => by ring

end

/-! ### Snapping -/

section
variable {K : Type} [Field K] [LinearOrder K] [IsStrictOrderedRing K]

theorem snap_id {eps v : K} (h0 : 0 ≤ v) (h1 : v ≤ 1) : snap eps v = (v, false) := by
  simp [snap, not_lt.2 h0, not_lt.2 h1]

theorem snap_out {eps v : K} (he : 0 ≤ eps) (h : v ≤ -eps ∨ 1 + eps ≤ v) :
    (snap eps v).1 = v := by
  simp only [snap]
  rcases h with h | h
  · have h1 : ¬ -eps < v := not_lt.2 h
    have h2 : ¬ 1 < v := by intro hc; linarith
    split_ifs <;> simp_all
  · have h1 : ¬ v < 0 := by intro hc; linarith
    have h2 : ¬ v < 1 + eps := not_lt.2 h
    split_ifs <;> simp_all

theorem baryCoors_eq {nV : ℕ} {mtxI : ℕ → ℕ → K} {eps : K} (he : 0 ≤ eps) {ce : Bool} {x : ℕ → K}
    (h : Clean nV mtxI eps ce x) :
    ∃ bc, baryCoors nV mtxI eps ce x = some bc ∧ ∀ i < nV, bc i = baryVal nV mtxI x i := by
  refine ⟨fun ic => (snap eps (baryVal nV mtxI x ic)).1, ?_, fun i hi => ?_⟩
  · rw [baryCoors, if_neg]
    intro hc
    rw [Bool.and_eq_true, List.any_eq_true] at hc
    obtain ⟨hce, i, hi, hs⟩ := hc
    rcases h i (List.mem_range.1 hi) with ⟨h0, h1⟩ | ⟨h0, _⟩
    · rw [snap_id h0 h1] at hs; simp at hs
    · rw [hce] at h0; simp at h0
  · rcases h i hi with ⟨h0, h1⟩ | ⟨_, h1⟩
    · simp [snap_id h0 h1]
    · exact snap_out he h1

theorem lagVal_congr {K : Type} [Field K] {nV o : ℕ} {bc bc' : ℕ → K} {row : ℕ → ℕ} (h : ∀ i < nV, bc i = bc' i) :
    lagVal nV o bc row = lagVal nV o bc' row := by
  rw [lagVal_eq, lagVal_eq]
  exact prod_congr rfl fun i hi => by rw [h i (mem_range.1 hi)]

theorem map_row {α : Type} (N : List Nod) (f : (ℕ → ℕ) → α) {k : ℕ} (hk : k < N.length) :
    (N.map fun n => f n.row)[k]? = some (f (rowAt N k)) := by
  rw [List.getElem?_map, rowAt, List.getElem?_eq_getElem hk]
  rfl

end

section
variable {K : Type} [Field K] [LinearOrder K] [IsStrictOrderedRing K]

theorem evalSimplex_eq {nV o : ℕ} {mtxI : ℕ → ℕ → K} {eps : K} (he : 0 ≤ eps) {ce : Bool} {x : ℕ → K}
    (h : Clean nV mtxI eps ce x) (N : List Nod) :
    ∃ φ, evalSimplex nV o mtxI eps ce N x = some φ ∧
      ∀ k < N.length, φ[k]? = some (lagVal nV o (baryVal nV mtxI x) (rowAt N k)) := by
  obtain ⟨bc, e, hb⟩ := baryCoors_eq he h
  refine ⟨_, by rw [evalSimplex, e]; rfl, fun k hk => ?_⟩
  rw [map_row N (fun r => lagVal nV o bc r) hk, lagVal_congr hb]

theorem clean_node {nV o : ℕ} (ho : 1 ≤ o) {coors mtxI : ℕ → ℕ → K} (h : IsRefInv nV coors mtxI) {row : ℕ → ℕ}
    (hr : SRow nV o row) (eps : K) (ce : Bool) : Clean nV mtxI eps ce (simplexNodeCoor nV o coors row) := by
  intro i hi
  left
  rw [bary_node ho h hr hi]
  have ho' : (0 : K) < o := Nat.cast_pos.2 (by omega)
  have : row i ≤ o := by
    rw [← hr.1]
    exact single_le_sum (f := row) (fun _ _ => Nat.zero_le _) (mem_range.2 hi)
  exact ⟨by positivity, by rw [div_le_one ho']; exact_mod_cast this⟩

/-- The value of the function `k'` in the node `k` is one if `k = k'` and zero otherwise. -/
theorem C56_simplex_nodal (g : Gel) (hg : IsSimplex g) (o : ℕ) (ho : 1 ≤ o) (coors mtxI : ℕ → ℕ → K)
    (h : IsRefInv g.nV coors mtxI) (eps : K) (he : 0 ≤ eps) (ce : Bool) (k : ℕ) (hk : k < (simplexNodes g o).length) :
    ∃ φ, evalSimplex g.nV o mtxI eps ce (simplexNodes g o)
        (simplexNodeCoor g.nV o coors (rowAt (simplexNodes g o) k)) = some φ ∧
      ∀ k' < (simplexNodes g o).length, φ[k']? = some (if k' = k then 1 else 0) := by
  have hr := simplex_srow hg ho hk
  obtain ⟨φ, e, hφ⟩ := evalSimplex_eq (o := o) he (clean_node ho h hr eps ce) (simplexNodes g o)
  refine ⟨φ, e, fun k' hk' => ?_⟩
  rw [hφ k' hk']
  congr 1
  have hb := fun i (hi : i < g.nV) => bary_node ho h hr hi
  have hr' := simplex_srow hg ho hk'
  split_ifs with hkk
  · subst hkk
    exact lagVal_self ho _ hb
  · refine lagVal_other ho _ (hr'.1.trans hr.1.symm) hb ?_
    by_contra hc
    push Not at hc
    refine hkk (simplex_rows_inj hg ho hk' hk (funext fun i => ?_))
    by_cases hi : i < g.nV
    · exact hc i hi
    · rw [hr.2 i (by omega), hr'.2 i (by omega)]

/-- Interpolation of a polynomial of the degree at most the order is exact. -/
theorem C56_simplex_polynomials (g : Gel) (hg : IsSimplex g) (o : ℕ) (ho : 1 ≤ o) (coors mtxI : ℕ → ℕ → K)
    (h : IsRefInv g.nV coors mtxI) (eps : K) (he : 0 ≤ eps) (ce : Bool) (x : ℕ → K)
    (hx : Clean g.nV mtxI eps ce x) :
    ∃ φ, evalSimplex g.nV o mtxI eps ce (simplexNodes g o) x = some φ ∧
      φ.length = (simplexNodes g o).length ∧
      ∀ P : MvPolynomial (Fin g.dim) K, P.totalDegree ≤ o →
      ∑ k ∈ range (simplexNodes g o).length, φ.getD k 0 *
        MvPolynomial.eval (fun r : Fin g.dim => simplexNodeCoor g.nV o coors (rowAt (simplexNodes g o) k) r) P =
      MvPolynomial.eval (fun r : Fin g.dim => x r) P := by
  obtain ⟨φ, e, hφ⟩ := evalSimplex_eq (o := o) he hx (simplexNodes g o)
  have hlen : φ.length = (simplexNodes g o).length := by
    rw [evalSimplex, Option.map_eq_some_iff] at e
    obtain ⟨bc, _, e⟩ := e
    rw [← e, List.length_map]
  refine ⟨φ, e, hlen, fun P hP => ?_⟩
  have hd : g.dim = g.nV - 1 := by rcases hg with rfl | rfl | rfl <;> rfl
  revert P
  rw [hd]
  intro P hP
  rw [← lag_repro hg ho h x P hP]
  refine sum_congr rfl fun k hk => ?_
  rw [List.getD_eq_getElem?_getD, hφ k (mem_range.1 hk), Option.getD_some]

/-- The sum of the functions is one. -/
theorem C56_simplex_unity (g : Gel) (hg : IsSimplex g) (o : ℕ) (ho : 1 ≤ o) (coors mtxI : ℕ → ℕ → K)
    (h : IsRefInv g.nV coors mtxI) (eps : K) (he : 0 ≤ eps) (ce : Bool) (x : ℕ → K)
    (hx : Clean g.nV mtxI eps ce x) :
    ∃ φ, evalSimplex g.nV o mtxI eps ce (simplexNodes g o) x = some φ ∧ φ.sum = 1 := by
  obtain ⟨φ, e, hlen, hP⟩ := C56_simplex_polynomials g hg o ho coors mtxI h eps he ce x hx
  refine ⟨φ, e, ?_⟩
  have := hP 1 (by simp)
  simp only [map_one, mul_one] at this
  rw [← this, ← hlen, Finset.sum_range, ← Fin.sum_univ_getElem]
  exact sum_congr rfl fun i _ => by simp

/-- Points outside of the element are refused. -/
theorem C56_outside (nV o : ℕ) (mtxI : ℕ → ℕ → K) (eps : K) (he : 0 ≤ eps) (N : List Nod) (x : ℕ → K) :
    evalSimplex nV o mtxI eps true N x = none ↔
      ∃ i < nV, baryVal nV mtxI x i < 0 ∧ baryVal nV mtxI x i ≤ -eps ∨
        1 < baryVal nV mtxI x i ∧ 1 + eps ≤ baryVal nV mtxI x i := by
  have key : ∀ v : K, (snap eps v).2 = true ↔ v < 0 ∧ v ≤ -eps ∨ 1 < v ∧ 1 + eps ≤ v := by
    intro v
    simp only [snap]
    rcases lt_or_ge v 0 with h | h
    · have h1 : ¬ 1 < v := by intro hc; linarith
      have h2 : ¬ (1 : K) < 0 := by norm_num
      by_cases hv : -eps < v
      · simp [h, hv, h1, h2]
      · simp [h, hv, h1, not_lt.1 hv]
    · rcases lt_or_ge 1 v with h' | h'
      · by_cases hv : v < 1 + eps
        · simp [not_lt.2 h, h', hv]
        · simp [not_lt.2 h, h', hv, not_lt.1 hv]
      · simp [not_lt.2 h, not_lt.2 h']
  rw [evalSimplex, Option.map_eq_none_iff, baryCoors]
  simp only [Bool.true_and, List.any_eq_true, List.mem_range, key]
  split_ifs with hc
  · simpa using hc
  · simpa using hc

/-- Points outside of the element closer than the tolerance are evaluated with the barycentric coordinates clipped to
`[0, 1]`. -/
theorem C56_snapped (nV o : ℕ) (mtxI : ℕ → ℕ → K) (eps : K) (ce : Bool) (N : List Nod) (x : ℕ → K)
    (h : ∀ i < nV, -eps < baryVal nV mtxI x i ∧ baryVal nV mtxI x i < 1 + eps) :
    evalSimplex nV o mtxI eps ce N x =
      some (N.map fun n => lagVal nV o (fun i => max 0 (min 1 (baryVal nV mtxI x i))) n.row) := by
  have key : ∀ v : K, -eps < v → v < 1 + eps → snap eps v = (max 0 (min 1 v), false) := by
    intro v h1 h2
    simp only [snap]
    rcases lt_or_ge v 0 with h | h
    · have h0 : ¬ (1 : K) < 0 := by norm_num
      have h3 : v ≤ 1 := by linarith
      rw [min_eq_right h3, max_eq_left h.le]
      simp [h, h1, h0]
    · rcases lt_or_ge 1 v with h' | h'
      · rw [min_eq_left h'.le, max_eq_right zero_le_one]
        simp [not_lt.2 h, h', h2]
      · rw [min_eq_right h', max_eq_right h]
        simp [not_lt.2 h, not_lt.2 h']
  rw [evalSimplex, baryCoors, if_neg, Option.map_some]
  · congr 1
    refine List.map_congr_left fun n _ => lagVal_congr fun i hi => ?_
    rw [key _ (h i hi).1 (h i hi).2]
  · intro hc
    rw [Bool.and_eq_true, List.any_eq_true] at hc
    obtain ⟨-, i, hi, hs⟩ := hc
    have hi := List.mem_range.1 hi
    rw [key _ (h i hi).1 (h i hi).2] at hs
    cases hs

/-- A point outside of the segment by 1/100, with the tolerance 1/10: the value in the vertex. -/
example : evalSimplex 2 1 (fun i r => if i = 0 then (if r = 0 then -1 else 1) else if r = 0 then 1 else 0 : ℕ → ℕ → ℚ) (1 / 10)
    true (simplexNodes gel12 1) (fun _ => -1 / 100) = some [1, 0] := by
  decide +kernel

end

end Verif.Fem
