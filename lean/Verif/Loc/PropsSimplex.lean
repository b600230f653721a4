/-
The coordinates of a point in a simplex: `get_xi_simplex()` inverts the map of the barycentric coordinates.
-/
import Verif.Loc.PropsSearch
import Verif.Fem.PropsLagrange
import Mathlib.LinearAlgebra.Matrix.NonsingularInverse
import Mathlib.LinearAlgebra.Matrix.Adjugate
import Mathlib.Tactic.FieldSimp
import Mathlib.Tactic.Positivity
import Mathlib.Tactic.FinCases
import Mathlib.Algebra.BigOperators.Fin
import Mathlib.Algebra.Order.BigOperators.Ring.Finset

set_option linter.unusedSectionVars false

namespace Verif.Loc

open Finset Verif.Fem

variable {K : Type} [Field K] [LinearOrder K] [IsStrictOrderedRing K]

/-- The matrix of the columns `(vertex, 1)`: its determinant is, up to the sign, `dim!` times the volume. -/
def vertexMatrix (dim : ℕ) (e : ℕ → ℕ → K) : Matrix (Fin (dim + 1)) (Fin (dim + 1)) K :=
  Matrix.of fun r i => if (r : ℕ) < dim then e i r else 1

/-- The cell is a simplex of a non-zero volume: the determinant is not below the limit of `geme_invert3x3()`. -/
def NonDegenerate (dim : ℕ) (e : ℕ → ℕ → K) : Prop := 1 / 10 ^ 55 ≤ |(vertexMatrix dim e).det|

theorem recip_eq {d : K} (h : 1 / 10 ^ 55 ≤ |d|) : recip d = 1 / d := by
  unfold recip; rw [if_neg (not_lt.2 h)]

theorem det_ne {d : K} (h : 1 / 10 ^ 55 ≤ |d|) : d ≠ 0 := by
  rintro rfl
  rw [abs_zero] at h
  exact absurd h (not_le.2 (by positivity))

theorem inv2_mul (m : ℕ → ℕ → K) (h : 1 / 10 ^ 55 ≤ |(Matrix.of fun r c : Fin 2 => m r c).det|) (i j : ℕ)
    (hi : i < 2) (hj : j < 2) : ∑ k ∈ range 2, inv2 m i k * m k j = if i = j then 1 else 0 := by
  have hd := det_ne h
  simp only [Matrix.det_fin_two, Matrix.of_apply] at h hd
  simp only [Fin.val_zero, Fin.val_one] at h hd
  simp only [sum_range_succ, range_zero, sum_empty, zero_add]
  generalize hD : m 0 0 * m 1 1 - m 0 1 * m 1 0 = D at h hd
  interval_cases i <;> interval_cases j <;> simp only [inv2, hD, recip_eq h] <;> field_simp <;> simp <;>
    first | (rw [← hD]; ring) | ring

theorem inv3_mul (m : ℕ → ℕ → K) (h : 1 / 10 ^ 55 ≤ |(Matrix.of fun r c : Fin 3 => m r c).det|) (i j : ℕ)
    (hi : i < 3) (hj : j < 3) : ∑ k ∈ range 3, inv3 m i k * m k j = if i = j then 1 else 0 := by
  have hd := det_ne h
  have e : (Matrix.of fun r c : Fin 3 => m r c).det =
      m 0 0 * cof3 m 0 0 + m 0 1 * cof3 m 1 0 + m 0 2 * cof3 m 2 0 := by
    simp only [Matrix.det_fin_three, Matrix.of_apply, cof3, Fin.val_zero, Fin.val_one, Fin.val_two]; ring
  rw [e] at h hd
  simp only [sum_range_succ, range_zero, sum_empty, zero_add, inv3, recip_eq h]
  have key : cof3 m i 0 * m 0 j + cof3 m i 1 * m 1 j + cof3 m i 2 * m 2 j =
      if i = j then m 0 0 * cof3 m 0 0 + m 0 1 * cof3 m 1 0 + m 0 2 * cof3 m 2 0 else 0 := by
    interval_cases i <;> interval_cases j <;> simp only [cof3] <;> simp <;> ring
  have : ∀ d : K, cof3 m i 0 * d * m 0 j + cof3 m i 1 * d * m 1 j + cof3 m i 2 * d * m 2 j =
      d * (cof3 m i 0 * m 0 j + cof3 m i 1 * m 1 j + cof3 m i 2 * m 2 j) := fun d => by ring
  rw [this, key]
  split
  · field_simp
  · ring

theorem inv4_mul (m : ℕ → ℕ → K) (h : (Matrix.of fun r c : Fin 4 => m r c).det ≠ 0) (i j : ℕ)
    (hi : i < 4) (hj : j < 4) : ∑ k ∈ range 4, inv4 m i k * m k j = if i = j then 1 else 0 := by
  have e : (Matrix.of fun r c : Fin 4 => m r c).det =
      m 0 0 * cof4 m 0 0 + m 0 1 * cof4 m 1 0 + m 0 2 * cof4 m 2 0 + m 0 3 * cof4 m 3 0 := by
    rw [Matrix.det_succ_row_zero, Fin.sum_univ_four]
    have e0 : ∀ j : Fin 3, ((0 : Fin 4).succAbove j : ℕ) = j + 1 := by decide
    have e1 : ∀ j : Fin 3, ((1 : Fin 4).succAbove j : ℕ) = (if (j : ℕ) = 0 then 0 else (j : ℕ) + 1 : ℕ) := by decide
    have e2 : ∀ j : Fin 3, ((2 : Fin 4).succAbove j : ℕ) = (if (j : ℕ) = 2 then 3 else (j : ℕ) : ℕ) := by decide
    have e3 : ∀ j : Fin 3, ((3 : Fin 4).succAbove j : ℕ) = j := by decide
    have e4 : ∀ j : Fin 3, ((Fin.succ j : Fin 4) : ℕ) = j + 1 := by decide
    simp only [Matrix.det_fin_three, Matrix.submatrix_apply, Matrix.of_apply, e0, e1, e2, e3, e4]
    have v0 : ((0 : Fin 3) : ℕ) = 0 := rfl
    have v1 : ((1 : Fin 3) : ℕ) = 1 := rfl
    have v2 : ((2 : Fin 3) : ℕ) = 2 := rfl
    have w0 : ((0 : Fin 4) : ℕ) = 0 := rfl
    have w1 : ((1 : Fin 4) : ℕ) = 1 := rfl
    have w2 : ((2 : Fin 4) : ℕ) = 2 := rfl
    have w3 : ((3 : Fin 4) : ℕ) = 3 := rfl
    simp only [v0, v1, v2, w0, w1, w2, w3, cof4, Nat.reduceDiv, Nat.reduceMod, Nat.reduceAdd, Nat.reduceEqDiff,
      if_true, if_false]
    ring
  rw [e] at h
  simp only [sum_range_succ, range_zero, sum_empty, zero_add, inv4]
  have key : cof4 m i 0 * m 0 j + cof4 m i 1 * m 1 j + cof4 m i 2 * m 2 j + cof4 m i 3 * m 3 j =
      if i = j then m 0 0 * cof4 m 0 0 + m 0 1 * cof4 m 1 0 + m 0 2 * cof4 m 2 0 + m 0 3 * cof4 m 3 0 else 0 := by
    interval_cases i <;> interval_cases j <;>
      simp only [cof4, Nat.reduceDiv, Nat.reduceMod, Nat.reduceEqDiff, if_true, if_false] <;> ring
  have : ∀ d : K, cof4 m i 0 * d * m 0 j + cof4 m i 1 * d * m 1 j + cof4 m i 2 * d * m 2 j + cof4 m i 3 * d * m 3 j =
      d * (cof4 m i 0 * m 0 j + cof4 m i 1 * m 1 j + cof4 m i 2 * m 2 j + cof4 m i 3 * m 3 j) := fun d => by ring
  rw [this, key]
  split
  · field_simp
  · ring

/-- The inverse of the matrix of the vertices. -/
theorem simplexInv_mul {dim : ℕ} (hd : dim = 1 ∨ dim = 2 ∨ dim = 3) {e : ℕ → ℕ → K} (h : NonDegenerate dim e) (i j : ℕ)
    (hi : i < dim + 1) (hj : j < dim + 1) :
    ∑ k ∈ range (dim + 1), simplexInv dim (simplexMtx dim e) i k * simplexMtx dim e k j = if i = j then 1 else 0 := by
  have hM : vertexMatrix dim e = Matrix.of fun r c : Fin (dim + 1) => simplexMtx dim e r c := rfl
  rw [NonDegenerate, hM] at h
  generalize simplexMtx dim e = m at h
  rcases hd with rfl | rfl | rfl
  · have : simplexInv 1 m = inv2 m := by simp [simplexInv]
    rw [this]; exact inv2_mul _ h i j hi hj
  · have : simplexInv 2 m = inv3 m := by simp [simplexInv]
    rw [this]; exact inv3_mul _ h i j hi hj
  · have : simplexInv 3 m = inv4 m := by simp [simplexInv]
    rw [this]; exact inv4_mul _ (det_ne h) i j hi hj

/-- On the other side. -/
theorem mul_simplexInv {dim : ℕ} (hd : dim = 1 ∨ dim = 2 ∨ dim = 3) {e : ℕ → ℕ → K} (h : NonDegenerate dim e) (i j : ℕ)
    (hi : i < dim + 1) (hj : j < dim + 1) :
    ∑ k ∈ range (dim + 1), simplexMtx dim e i k * simplexInv dim (simplexMtx dim e) k j = if i = j then 1 else 0 := by
  have h1 : (Matrix.of fun i k : Fin (dim + 1) => simplexInv dim (simplexMtx dim e) i k) *
      (Matrix.of fun k j : Fin (dim + 1) => simplexMtx dim e k j) = 1 := by
    ext a b
    rw [Matrix.mul_apply, Matrix.one_apply]
    have := simplexInv_mul hd h a b a.2 b.2
    rw [← Fin.sum_univ_eq_sum_range (fun k => simplexInv dim (simplexMtx dim e) a k * simplexMtx dim e k b)] at this
    simpa [Fin.ext_iff] using this
  have h3 := mul_eq_one_comm.1 h1
  have h2 := congrFun (congrFun h3 (⟨i, hi⟩ : Fin (dim + 1))) (⟨j, hj⟩ : Fin (dim + 1))
  rw [Matrix.mul_apply, Matrix.one_apply] at h2
  rw [← Fin.sum_univ_eq_sum_range (fun k => simplexMtx dim e i k * simplexInv dim (simplexMtx dim e) k j)]
  simpa [Fin.ext_iff] using h2

theorem simplexBc_sum (dim : ℕ) (P : ℕ → K) (e : ℕ → ℕ → K) (i : ℕ) :
    simplexBc dim P e i =
      ∑ k ∈ range (dim + 1), (if k < dim then P k else 1) * simplexInv dim (simplexMtx dim e) i k := by
  unfold simplexBc; rw [foldl_add, zero_add]

/-- The barycentric coordinates reproduce the point and their sum is one. -/
theorem bc_row {dim : ℕ} (hd : dim = 1 ∨ dim = 2 ∨ dim = 3) {e : ℕ → ℕ → K} (h : NonDegenerate dim e) (P : ℕ → K) (r : ℕ)
    (hr : r < dim + 1) :
    ∑ i ∈ range (dim + 1), simplexBc dim P e i * simplexMtx dim e r i = if r < dim then P r else 1 := by
  simp only [simplexBc_sum, sum_mul]
  rw [sum_comm]
  have : ∀ k ∈ range (dim + 1), ∑ i ∈ range (dim + 1),
      (if k < dim then P k else 1) * simplexInv dim (simplexMtx dim e) i k * simplexMtx dim e r i =
      (if k < dim then P k else 1) * if r = k then 1 else 0 := by
    intro k hk
    rw [← mul_simplexInv hd h r k hr (mem_range.1 hk), mul_sum]
    exact sum_congr rfl fun i _ => by ring
  rw [sum_congr rfl this]
  simp [hr]

/-- **C111.** The point is the combination of the vertices with the computed barycentric coordinates. -/
theorem C111_barycentric_point {dim : ℕ} (hd : dim = 1 ∨ dim = 2 ∨ dim = 3) {e : ℕ → ℕ → K} (h : NonDegenerate dim e) (P : ℕ → K)
    {r : ℕ} (hr : r < dim) : ∑ i ∈ range (dim + 1), simplexBc dim P e i * e i r = P r := by
  have := bc_row hd h P r (by omega)
  simpa [simplexMtx, hr] using this

/-- The sum of the computed barycentric coordinates is one. -/
theorem bc_sum {dim : ℕ} (hd : dim = 1 ∨ dim = 2 ∨ dim = 3) {e : ℕ → ℕ → K} (h : NonDegenerate dim e) (P : ℕ → K) :
    ∑ i ∈ range (dim + 1), simplexBc dim P e i = 1 := by
  have := bc_row hd h P dim (by omega)
  simpa [simplexMtx] using this

/-- **C111.** The computed barycentric coordinates are the only ones. -/
theorem C111_barycentric_unique {dim : ℕ} (hd : dim = 1 ∨ dim = 2 ∨ dim = 3) {e : ℕ → ℕ → K} (h : NonDegenerate dim e) {P l : ℕ → K}
    (hl : ∑ i ∈ range (dim + 1), l i = 1) (hP : ∀ r < dim, P r = ∑ i ∈ range (dim + 1), l i * e i r) {i : ℕ}
    (hi : i < dim + 1) : simplexBc dim P e i = l i := by
  rw [simplexBc_sum]
  have e1 : ∀ k ∈ range (dim + 1), (if k < dim then P k else 1) * simplexInv dim (simplexMtx dim e) i k =
      ∑ j ∈ range (dim + 1), l j * (simplexInv dim (simplexMtx dim e) i k * simplexMtx dim e k j) := by
    intro k hk
    by_cases hk' : k < dim
    · rw [if_pos hk', hP k hk', sum_mul]
      exact sum_congr rfl fun j _ => by simp only [simplexMtx, hk', if_true]; ring
    · rw [if_neg hk']
      simp only [simplexMtx, hk', if_false, mul_one]
      rw [← sum_mul, hl]
  rw [sum_congr rfl e1, sum_comm]
  have e2 : ∀ j ∈ range (dim + 1),
      ∑ k ∈ range (dim + 1), l j * (simplexInv dim (simplexMtx dim e) i k * simplexMtx dim e k j) =
      l j * if i = j then 1 else 0 := by
    intro j hj
    rw [← mul_sum, simplexInv_mul hd h i j hi (mem_range.1 hj)]
  rw [sum_congr rfl e2]
  simp [hi]

/-- The coordinates in the reference simplex are the barycentric coordinates but the first one. -/
theorem xi_bc {dim r : ℕ} (hr : r < dim) (P : ℕ → K) (e : ℕ → ℕ → K) :
    xiSimplex dim P e r = simplexBc dim P e (r + 1) := by
  unfold xiSimplex
  rw [foldl_add, zero_add]
  simp [refSimplex, hr]

theorem pen_nonneg (v : K) : 0 ≤ pen v := mul_self_nonneg _

theorem pen_zero {v : K} (h : v ≤ 0) : pen v = 0 := by
  unfold pen; rw [max_eq_right h]; simp

theorem pen_lt {v q : K} (hq : q ≤ 10 ^ 4) (h : pen v < q) (hv : 0 ≤ v) : v * v < q := by
  unfold pen at h
  rw [max_eq_left hv] at h
  by_cases h100 : v ≤ 100
  · rwa [min_eq_left h100] at h
  · rw [min_eq_right (not_le.1 h100).le] at h
    norm_num at h
    exact absurd (lt_of_lt_of_le h hq) (by norm_num)

theorem foldl_pair (n : ℕ) (f g : ℕ → K) (a : K × K) :
    (List.range n).foldl (fun (s : K × K) (i : ℕ) => (s.1 + f i, s.2 + g i)) a =
      (a.1 + ∑ i ∈ range n, f i, a.2 + ∑ i ∈ range n, g i) := by
  induction n with
  | zero => simp
  | succ n ih => rw [List.range_succ, List.foldl_append, ih]; simp [sum_range_succ, add_assoc]

/-- The distance is the sum of the penalties of the negative barycentric coordinates. -/
theorem dist_simplex {dim : ℕ} (hd : dim = 1 ∨ dim = 2 ∨ dim = 3) {e : ℕ → ℕ → K} (h : NonDegenerate dim e) (P : ℕ → K) :
    (xiDistSimplex dim P e).dist = ∑ i ∈ range (dim + 1), pen (-simplexBc dim P e i) := by
  unfold xiDistSimplex
  simp only
  rw [foldl_pair]
  simp only [zero_add, zero_sub]
  have hs := bc_sum hd h P
  rw [sum_range_succ'] at hs ⊢
  rw [sum_congr rfl fun r hr => xi_bc (mem_range.1 hr) P e,
    sum_congr rfl fun r hr => by rw [xi_bc (mem_range.1 hr) P e]]
  congr 2
  linarith

/-- The point is in the cell: a convex combination of its vertices. -/
def InSimplex (dim : ℕ) (e : ℕ → ℕ → K) (P : ℕ → K) : Prop :=
  ∃ l : ℕ → K, (∀ i < dim + 1, 0 ≤ l i) ∧ ∑ i ∈ range (dim + 1), l i = 1 ∧
    ∀ r < dim, P r = ∑ i ∈ range (dim + 1), l i * e i r

/-- The cells that contain the point are accepted. -/
theorem accepted_of_inSimplex {dim : ℕ} (hd : dim = 1 ∨ dim = 2 ∨ dim = 3) {e : ℕ → ℕ → K} (h : NonDegenerate dim e)
    {P : ℕ → K} (hP : InSimplex dim e P) {qpEps : K} (hq : 0 < qpEps) : Accepted qpEps (xiDistSimplex dim P e) := by
  obtain ⟨l, h0, h1, h2⟩ := hP
  refine ⟨rfl, ?_⟩
  rw [dist_simplex hd h, sum_eq_zero]
  · exact hq
  · intro i hi
    rw [C111_barycentric_unique hd h h1 h2 (mem_range.1 hi)]
    exact pen_zero (neg_nonpos.2 (h0 i (mem_range.1 hi)))

/-- In an accepted cell, the negative barycentric coordinates are small. -/
theorem bc_of_accepted {dim : ℕ} (hd : dim = 1 ∨ dim = 2 ∨ dim = 3) {e : ℕ → ℕ → K} (h : NonDegenerate dim e)
    {P : ℕ → K} {qpEps : K} (hq : qpEps ≤ 10 ^ 4) (ha : Accepted qpEps (xiDistSimplex dim P e)) {i : ℕ}
    (hi : i < dim + 1) (hn : simplexBc dim P e i < 0) : simplexBc dim P e i * simplexBc dim P e i < qpEps := by
  have h1 := ha.2
  rw [dist_simplex hd h] at h1
  have h2 : pen (-simplexBc dim P e i) < qpEps :=
    lt_of_le_of_lt (single_le_sum (f := fun i => pen (-simplexBc dim P e i)) (fun j _ => pen_nonneg _)
      (mem_range.2 hi)) h1
  have := pen_lt hq h2 (by linarith)
  linarith [this, neg_mul_neg (simplexBc dim P e i) (simplexBc dim P e i)]

/-! ### The potential cells -/

theorem normInf_ge (dim : ℕ) (v : ℕ → K) {r : ℕ} (hr : r < dim) : |v r| ≤ normInf dim v := by
  unfold normInf
  induction dim with
  | zero => omega
  | succ n ih =>
    rw [List.range_succ, List.foldl_append]
    simp only [List.foldl_cons, List.foldl_nil]
    rcases Nat.lt_succ_iff_lt_or_eq.1 hr with h | rfl
    · exact (ih h).trans (le_max_left _ _)
    · exact le_max_right _ _

theorem normInf_le {dim : ℕ} {v : ℕ → K} {b : K} (hb : 0 ≤ b) (h : ∀ r < dim, |v r| ≤ b) : normInf dim v ≤ b := by
  unfold normInf
  induction dim with
  | zero => exact hb
  | succ n ih =>
    rw [List.range_succ, List.foldl_append]
    simp only [List.foldl_cons, List.foldl_nil]
    exact max_le (ih fun r hr => h r (by omega)) (h n (by omega))

theorem radius_ge (dim nV : ℕ) (e : ℕ → ℕ → K) (c : ℕ → K) {i : ℕ} (hi : i < nV) :
    normInf dim (fun r => e i r - c r) ≤ radius dim nV e c := by
  unfold radius
  induction nV with
  | zero => omega
  | succ n ih =>
    rw [List.range_succ, List.foldl_append]
    simp only [List.foldl_cons, List.foldl_nil]
    rcases Nat.lt_succ_iff_lt_or_eq.1 hi with h | rfl
    · exact (ih h).trans (le_max_left _ _)
    · exact le_max_right _ _

theorem radius_nonneg (dim nV : ℕ) (e : ℕ → ℕ → K) (c : ℕ → K) : 0 ≤ radius dim nV e c := by
  unfold radius
  induction nV with
  | zero => exact le_rfl
  | succ n ih =>
    rw [List.range_succ, List.foldl_append]
    simp only [List.foldl_cons, List.foldl_nil]
    exact ih.trans (le_max_left _ _)

/-- **C110.** Each cell of which the point is a convex combination of the vertices is a potential cell, with any
centroid. -/
theorem C110_potential_cells_complete {dim nV nEl : ℕ} (e : ℕ → ℕ → ℕ → K) (centroid : ℕ → ℕ → K) (extrapolate : Bool)
    (incident : List ℕ) {P : ℕ → K} {ic : ℕ} (hic : ic < nEl) {l : ℕ → K} (h0 : ∀ i < nV, 0 ≤ l i)
    (h1 : ∑ i ∈ range nV, l i = 1) (hP : ∀ r < dim, P r = ∑ i ∈ range nV, l i * e ic i r) :
    ic ∈ potentialCells dim nV nEl e centroid extrapolate incident P := by
  have hm : ic ∈ (List.range nEl).filter fun ic =>
      decide (normInf dim (fun r => P r - centroid ic r) ≤ radius dim nV (e ic) (centroid ic)) := by
    rw [List.mem_filter]
    refine ⟨List.mem_range.2 hic, decide_eq_true ?_⟩
    refine normInf_le (radius_nonneg _ _ _ _) fun r hr => ?_
    have : P r - centroid ic r = ∑ i ∈ range nV, l i * (e ic i r - centroid ic r) := by
      simp only [mul_sub]
      rw [sum_sub_distrib, ← hP r hr, ← sum_mul, h1, one_mul]
    rw [this]
    calc |∑ i ∈ range nV, l i * (e ic i r - centroid ic r)|
        ≤ ∑ i ∈ range nV, |l i * (e ic i r - centroid ic r)| := abs_sum_le_sum_abs _ _
      _ ≤ ∑ i ∈ range nV, l i * radius dim nV (e ic) (centroid ic) := by
          refine sum_le_sum fun i hi => ?_
          rw [abs_mul, abs_of_nonneg (h0 i (mem_range.1 hi))]
          exact mul_le_mul_of_nonneg_left
            ((normInf_ge dim (fun r => e ic i r - centroid ic r) hr).trans (radius_ge _ _ _ _ (mem_range.1 hi)))
            (h0 i (mem_range.1 hi))
      _ = radius dim nV (e ic) (centroid ic) := by rw [← sum_mul, h1, one_mul]
  unfold potentialCells
  simp only
  rw [if_neg]
  · exact hm
  · intro hc
    rw [Bool.and_eq_true, List.isEmpty_iff] at hc
    rw [hc.2] at hm
    simp at hm

/-! ### Together -/

/-- `get_ref_coors_general()` for one point of a mesh of simplices
(sfepy/discrete/common/global_interp.py:194-300). -/
def locateSimplex (sqrt : K → K) (dim nEl : ℕ) (e : ℕ → ℕ → ℕ → K) (centroid : ℕ → ℕ → K) (closeLimit qpEps : K)
    (incident : List ℕ) (xi0 P : ℕ → K) : Found K :=
  findRefCoors sqrt (decide (0 < closeLimit)) qpEps closeLimit (fun c => xiDistSimplex dim P (e c)) xi0
    (potentialCells dim (dim + 1) nEl e centroid (decide (0 < closeLimit)) incident P)

/-- **C111.** A point of a cell of a mesh of simplices is found (status 0). -/
theorem C111_locate_complete {dim nEl : ℕ} (hd : dim = 1 ∨ dim = 2 ∨ dim = 3) {e : ℕ → ℕ → ℕ → K}
    (hN : ∀ c < nEl, NonDegenerate dim (e c)) (sqrt : K → K) (centroid : ℕ → ℕ → K) (closeLimit qpEps : K)
    (hq : 0 < qpEps) (incident : List ℕ) (xi0 P : ℕ → K) {c : ℕ} (hc : c < nEl) (hP : InSimplex dim (e c) P) :
    (locateSimplex sqrt dim nEl e centroid closeLimit qpEps incident xi0 P).status = 0 := by
  unfold locateSimplex
  rw [C110_status_zero]
  obtain ⟨l, h0, h1, h2⟩ := id hP
  exact ⟨c, C110_potential_cells_complete e centroid _ incident hc h0 h1 h2, accepted_of_inSimplex hd (hN c hc) hP hq⟩

theorem mem_potential_lt {dim nV nEl : ℕ} {e : ℕ → ℕ → ℕ → K} {centroid : ℕ → ℕ → K} {extrapolate : Bool}
    {incident : List ℕ} (hinc : ∀ c ∈ incident, c < nEl) {P : ℕ → K} {c : ℕ}
    (h : c ∈ potentialCells dim nV nEl e centroid extrapolate incident P) : c < nEl := by
  unfold potentialCells at h
  simp only at h
  split at h
  · exact hinc c h
  · exact List.mem_range.1 (List.mem_filter.1 h).1

/-- **C111.** When the status is 0, the point is the combination of the vertices of the returned cell, the coefficients
sum to one, those with the indices `1, ..., dim` are the returned coordinates, and the negative ones are smaller than the
square root of the tolerance. -/
theorem C111_locate_sound {dim nEl : ℕ} (hd : dim = 1 ∨ dim = 2 ∨ dim = 3) {e : ℕ → ℕ → ℕ → K}
    (hN : ∀ c < nEl, NonDegenerate dim (e c)) (sqrt : K → K) (centroid : ℕ → ℕ → K) (closeLimit qpEps : K)
    (hq : qpEps ≤ 10 ^ 4) (incident : List ℕ) (hinc : ∀ c ∈ incident, c < nEl) (xi0 P : ℕ → K)
    (h : (locateSimplex sqrt dim nEl e centroid closeLimit qpEps incident xi0 P).status = 0) :
    let f := locateSimplex sqrt dim nEl e centroid closeLimit qpEps incident xi0 P
    f.cell < nEl ∧ ∃ l : ℕ → K, ∑ i ∈ range (dim + 1), l i = 1 ∧ (∀ r < dim, f.xi r = l (r + 1)) ∧
      (∀ r < dim, P r = ∑ i ∈ range (dim + 1), l i * e f.cell i r) ∧ ∀ i < dim + 1, l i < 0 → l i * l i < qpEps := by
  intro f
  obtain ⟨pre, post, h1, _, h3, h4⟩ := C110_first_accepted _ _ _ _ _ _ _ h
  have hlt : f.cell < nEl := mem_potential_lt hinc (P := P) (by rw [h1]; simp [f, locateSimplex])
  refine ⟨hlt, simplexBc dim P (e f.cell), bc_sum hd (hN _ hlt) P, fun r hr => ?_,
    fun r hr => (C111_barycentric_point hd (hN _ hlt) P hr).symm, fun i hi hn => bc_of_accepted hd (hN _ hlt) hq h3 hi hn⟩
  rw [← xi_bc hr]
  exact congrFun h4 r

/-- The basis of the Lagrange elements on simplices: `ctx.eval_basis()` of the context made by
`Field.create_basis_context()`: `eps` is 0 and the errors are not checked
(sfepy/discrete/fem/fields_nodal.py:386-402). -/
def simplexBasis (g : Gel) (o : ℕ) (mtxI : ℕ → ℕ → K) (xi : ℕ → K) (k : ℕ) : K :=
  ((evalSimplex g.nV o mtxI 0 false (simplexNodes g o) xi).getD []).getD k 0

theorem simplexBasis_eq (g : Gel) (o : ℕ) (mtxI : ℕ → ℕ → K) (xi : ℕ → K) {k : ℕ}
    (hk : k < (simplexNodes g o).length) :
    simplexBasis g o mtxI xi k = lagVal g.nV o (baryVal g.nV mtxI xi) (rowAt (simplexNodes g o) k) := by
  have hs : ∀ v : K, (snap 0 v).1 = v := by
    intro v
    unfold snap
    simp only [neg_zero, add_zero]
    by_cases h : v < 0
    · simp only [h, if_true, not_lt.2 h.le, if_false]
      rw [if_neg (by linarith)]
    · simp only [h, if_false]
      split
      · rename_i h1; rw [if_neg (not_lt.2 h1.le)]
      · rfl
  simp only [simplexBasis, evalSimplex, baryCoors, Bool.false_and, Bool.false_eq_true, if_false, Option.map_some,
    Option.getD_some, hs]
  rw [List.getD_eq_getElem?_getD, List.getElem?_map, List.getElem?_eq_getElem hk]
  simp only [Option.map_some, Option.getD_some, rowAt, List.getElem?_eq_getElem hk]

/-- **C111.** The evaluation at a point with status 0 of a Lagrange field whose DOFs in the returned cell are the values
of a polynomial of a degree at most the order in the physical nodes is the value of the polynomial. -/
theorem C111_evaluate_exact {g : Gel} (hg : IsSimplex g) {o : ℕ} (ho : 1 ≤ o) {mtxI : ℕ → ℕ → K}
    (hI : IsRefInv g.nV refSimplex mtxI) {nEl : ℕ} {e : ℕ → ℕ → ℕ → K} (hN : ∀ c < nEl, NonDegenerate (g.nV - 1) (e c))
    (sqrt : K → K) (centroid : ℕ → ℕ → K) (closeLimit qpEps : K) (hq : qpEps ≤ 10 ^ 4) (incident : List ℕ)
    (hinc : ∀ c ∈ incident, c < nEl) (xi0 P : ℕ → K)
    (h : (locateSimplex sqrt (g.nV - 1) nEl e centroid closeLimit qpEps incident xi0 P).status = 0)
    (p : MvPolynomial (Fin (g.nV - 1)) K) (hp : p.totalDegree ≤ o) (econn : ℕ × ℕ → ℤ) (u : ℤ → K)
    (hu : ∀ c < nEl, ∀ k < (simplexNodes g o).length, u (econn (c, k)) =
      MvPolynomial.eval (fun r : Fin (g.nV - 1) => simplexNodeCoor g.nV o (e c) (rowAt (simplexNodes g o) k) r) p) :
    evaluateInRc (simplexBasis g o mtxI) econn u (simplexNodes g o).length
        (locateSimplex sqrt (g.nV - 1) nEl e centroid closeLimit qpEps incident xi0 P) =
      MvPolynomial.eval (fun r : Fin (g.nV - 1) => P r) p := by
  have hnV : g.nV - 1 = 1 ∨ g.nV - 1 = 2 ∨ g.nV - 1 = 3 := by rcases hg with rfl | rfl | rfl <;> simp [gel12, gel23, gel34]
  have hn1 : g.nV - 1 + 1 = g.nV := by rcases hg with rfl | rfl | rfl <;> rfl
  obtain ⟨hlt, l, hl1, hl2, hl3, _⟩ := C111_locate_sound hnV hN sqrt centroid closeLimit qpEps hq incident hinc xi0 P h
  generalize locateSimplex sqrt (g.nV - 1) nEl e centroid closeLimit qpEps incident xi0 P = f at *
  rw [hn1] at hl1 hl3
  unfold evaluateInRc
  rw [if_pos (by omega), foldl_add, zero_add]
  -- the barycentric coordinates of the reference element
  have hb : ∀ i < g.nV, baryVal g.nV mtxI f.xi i = l i := by
    have hb1 := bary_sum hI f.xi
    have hb2 : ∀ r < g.nV - 1, baryVal g.nV mtxI f.xi (r + 1) = l (r + 1) := by
      intro r hr
      have h5 := bary_point hI f.xi hr
      rw [hl2 r hr] at h5
      rw [← h5]
      simp only [refSimplex, mul_ite, mul_one, mul_zero]
      rw [sum_ite_eq']
      rw [if_pos (mem_range.2 (by omega))]
    intro i hi
    cases i with
    | succ r => exact hb2 r (by omega)
    | zero =>
      rw [← hn1, sum_range_succ'] at hb1 hl1
      rw [hn1] at hb1
      rw [sum_congr rfl fun r hr => hb2 r (mem_range.1 hr)] at hb1
      have : baryVal g.nV mtxI f.xi 0 = l 0 := by linarith
      exact this
  have key := repro_poly g.nV o ho l hl1 (fun i (r : Fin (g.nV - 1)) => e f.cell i r) p hp
  have e1 : (fun r : Fin (g.nV - 1) => P r) = fun r : Fin (g.nV - 1) => ∑ i ∈ range g.nV, l i * e f.cell i r :=
    funext fun r => hl3 r r.2
  rw [e1, ← key]
  have e2 : ∀ k ∈ range (simplexNodes g o).length, simplexBasis g o mtxI f.xi k * u (econn (f.cell, k)) =
      (fun row => lagVal g.nV o l row *
        MvPolynomial.eval (fun r : Fin (g.nV - 1) => simplexNodeCoor g.nV o (e f.cell) row r) p)
        (rowAt (simplexNodes g o) k) := by
    intro k hk
    rw [mem_range] at hk
    rw [simplexBasis_eq g o mtxI f.xi hk, hu f.cell hlt k hk]
    simp only
    rw [lagVal_eq, lagVal_eq]
    congr 1
    exact prod_congr rfl fun i hi => by rw [hb i (mem_range.1 hi)]
  rw [sum_congr rfl e2, simplex_sum hg ho fun row => lagVal g.nV o l row *
    MvPolynomial.eval (fun r : Fin (g.nV - 1) => simplexNodeCoor g.nV o (e f.cell) row r) p]
  refine sum_congr rfl fun m _ => ?_
  rw [lagVal_eq, mul_comm]
  have e3 : (fun r : Fin (g.nV - 1) => simplexNodeCoor g.nV o (e f.cell) m r) =
      fun r : Fin (g.nV - 1) => ∑ i ∈ range g.nV, (m i : K) / o * e f.cell i r := by
    funext r
    simp only [simplexNodeCoor, sum_div]
    exact sum_congr rfl fun i _ => by ring
  rw [e3]

end Verif.Loc
