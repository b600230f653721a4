/-
C66: division of quadrilaterals and hexahedrons to triangles and tetrahedrons.
-/
import Mathlib.Tactic.Module
import Mathlib.Tactic.LinearCombination
import Mathlib.Tactic.FinCases
import Mathlib.Tactic.IntervalCases
import Mathlib.LinearAlgebra.Matrix.Determinant.Basic
import Mathlib.Tactic.NormNum
import Verif.Mesh.PropsGen

namespace Verif.Mesh

/-! ### The table and the rows -/

/-- **The rows of the divided mesh**: cell `e` gives the rows `e * ns, ..., e * ns + ns - 1`, with the
vertices of the cell in the places of the table; the groups are those of the cell. -/
theorem C66_q2t_rows (nnd : ℕ) (el : List (List ℕ)) {e t : ℕ} {row : List ℕ}
    (he : el[e]? = some row) :
    (nnd > 4 → ∀ tet, q2tHex[t]? = some tet →
      (elemsQ2T nnd el)[e * 6 + t]? = some (tet.map fun v => row.getD v 0)) ∧
    (nnd ≤ 4 → ∀ tri, q2tQuad[t]? = some tri →
      (elemsQ2T nnd el)[e * 2 + t]? = some (tri.map fun v => row.getD v 0)) ∧
    (elemsQ2T nnd el).length = el.length * (if nnd > 4 then 6 else 2) := by
  have hel : e < el.length := (List.getElem?_eq_some_iff.1 he).1
  refine ⟨fun hn tet ht => ?_, fun hn tri ht => ?_, ?_⟩
  · have ht6 : t < 6 := (List.getElem?_eq_some_iff.1 ht).1
    unfold elemsQ2T
    simp only [if_pos hn]
    have hlen : q2tHex.length = 6 := rfl
    rw [hlen, List.getElem?_map, List.getElem?_range (by omega)]
    have h1 : (e * 6 + t) % 6 = t := by omega
    have h2 : (e * 6 + t) / 6 = e := by omega
    simp [h1, h2, List.getD_eq_getElem?_getD, ht, he]
  · have ht2 : t < 2 := (List.getElem?_eq_some_iff.1 ht).1
    unfold elemsQ2T
    simp only [if_neg (not_lt.2 hn)]
    have hlen : q2tQuad.length = 2 := rfl
    rw [hlen, List.getElem?_map, List.getElem?_range (by omega)]
    have h1 : (e * 2 + t) % 2 = t := by omega
    have h2 : (e * 2 + t) / 2 = e := by omega
    simp [h1, h2, List.getD_eq_getElem?_getD, ht, he]
  · unfold elemsQ2T
    split <;> simp [q2tHex, q2tQuad]

/-- The groups of the new cells. -/
theorem C66_q2t_groups (groups : List ℕ) (nn e t g : ℕ) (ht : t < nn) (hg : groups[e]? = some g) :
    (repeatGroups groups nn)[e * nn + t]? = some g := by
  unfold repeatGroups
  rw [getElem?_flatMap_const (n := nn) _ _ (by simp) e t ht, hg]
  simp [ht]

section

variable {K V : Type} [Field K] [LinearOrder K] [IsStrictOrderedRing K] [AddCommGroup V] [Module K V]

/-- The vertices of a simplex of a table, for the vertices `x` of the cell. -/
def corner (x : ℕ → V) (tab : List ℕ) (n : ℕ) : Fin n → V := fun v => x (tab.getD v 0)

/-- A parallelepiped: the vertices are `o + a A + b B + c C` for the reference coordinates
`(a, b, c)`. -/
def IsPar (x : ℕ → V) (o A B C : V) : Prop :=
  ∀ (v a b c : ℕ), hexRef[v]? = some (a, b, c) → x v = o + (a : K) • A + (b : K) • B + (c : K) • C

/-- **The six tetrahedrons cover a parallelepiped exactly.** -/
theorem C66_q2t_hex_cover {x : ℕ → V} {o A B C : V} (hx : IsPar (K := K) x o A B C) (p : V) :
    (∃ a b c : K, (0 ≤ a ∧ a ≤ 1) ∧ (0 ≤ b ∧ b ≤ 1) ∧ (0 ≤ c ∧ c ≤ 1) ∧
      p = o + a • A + b • B + c • C) ↔
    ∃ tet ∈ q2tHex, p ∈ Simplex (K := K) (corner x tet 4) := by
  have x0 := hx 0 0 0 0 rfl
  have x1 := hx 1 1 0 0 rfl
  have x2 := hx 2 1 1 0 rfl
  have x3 := hx 3 0 1 0 rfl
  have x4 := hx 4 0 0 1 rfl
  have x5 := hx 5 1 0 1 rfl
  have x6 := hx 6 1 1 1 rfl
  have x7 := hx 7 0 1 1 rfl
  simp only [Nat.cast_zero, Nat.cast_one] at x0 x1 x2 x3 x4 x5 x6 x7
  constructor
  · rintro ⟨a, b, c, ⟨ha0, ha1⟩, ⟨hb0, hb1⟩, ⟨hc0, hc1⟩, rfl⟩
    have mk : ∀ tet ∈ q2tHex, ∀ w0 w1 w2 w3 : K, 0 ≤ w0 → 0 ≤ w1 → 0 ≤ w2 → 0 ≤ w3 →
        w0 + w1 + w2 + w3 = 1 →
        o + a • A + b • B + c • C = w0 • x (tet.getD 0 0) + w1 • x (tet.getD 1 0) +
          w2 • x (tet.getD 2 0) + w3 • x (tet.getD 3 0) →
        ∃ tet ∈ q2tHex, o + a • A + b • B + c • C ∈ Simplex (K := K) (corner x tet 4) := by
      intro tet ht w0 w1 w2 w3 h0 h1 h2 h3 hs he
      refine ⟨tet, ht, ![w0, w1, w2, w3], ?_, ?_, ?_⟩
      · intro i; fin_cases i <;> simpa
      · simpa [Fin.sum_univ_four] using hs
      · simpa [Fin.sum_univ_four, corner] using he
    rcases le_total a b with hab | hab <;> rcases le_total b c with hbc | hbc <;>
      rcases le_total a c with hac | hac
    · exact mk [0, 7, 4, 6] (by decide) (1 - c) (b - a) (c - b) a (by linarith) (by linarith)
        (by linarith) ha0 (by ring) (by
          simp only [List.getD_cons_zero, List.getD_cons_succ, x0, x7, x4, x6]; module)
    · exact mk [0, 7, 4, 6] (by decide) (1 - c) (b - a) (c - b) a (by linarith) (by linarith)
        (by linarith) ha0 (by ring) (by
          simp only [List.getD_cons_zero, List.getD_cons_succ, x0, x7, x4, x6]; module)
    · exact mk [0, 3, 7, 6] (by decide) (1 - b) (b - c) (c - a) a (by linarith) (by linarith)
        (by linarith) ha0 (by ring) (by
          simp only [List.getD_cons_zero, List.getD_cons_succ, x0, x3, x7, x6]; module)
    · exact mk [0, 2, 3, 6] (by decide) (1 - b) (a - c) (b - a) c (by linarith) (by linarith)
        (by linarith) hc0 (by ring) (by
          simp only [List.getD_cons_zero, List.getD_cons_succ, x0, x2, x3, x6]; module)
    · exact mk [0, 5, 6, 4] (by decide) (1 - c) (a - b) b (c - a) (by linarith) (by linarith)
        hb0 (by linarith) (by ring) (by
          simp only [List.getD_cons_zero, List.getD_cons_succ, x0, x5, x6, x4]; module)
    · exact mk [1, 5, 6, 0] (by decide) (a - c) (c - b) b (1 - a) (by linarith) (by linarith)
        hb0 (by linarith) (by ring) (by
          simp only [List.getD_cons_zero, List.getD_cons_succ, x0, x5, x6, x1]; module)
    · exact mk [1, 6, 2, 0] (by decide) (a - b) c (b - c) (1 - a) (by linarith) hc0
        (by linarith) (by linarith) (by ring) (by
          simp only [List.getD_cons_zero, List.getD_cons_succ, x0, x2, x6, x1]; module)
    · exact mk [1, 6, 2, 0] (by decide) (a - b) c (b - c) (1 - a) (by linarith) hc0
        (by linarith) (by linarith) (by ring) (by
          simp only [List.getD_cons_zero, List.getD_cons_succ, x0, x2, x6, x1]; module)
  · rintro ⟨tet, ht, w, hw, hs, rfl⟩
    simp only [Fin.sum_univ_four] at hs
    simp only [q2tHex, List.mem_cons, List.not_mem_nil, or_false] at ht
    have w0 := hw 0
    have w1 := hw 1
    have w2 := hw 2
    have w3 := hw 3
    rcases ht with rfl | rfl | rfl | rfl | rfl | rfl
    · refine ⟨w 1 + w 3, w 1 + w 2 + w 3, w 3, ⟨by linarith, by linarith⟩, ⟨by linarith, by linarith⟩,
        ⟨by linarith, by linarith⟩, ?_⟩
      have : w 0 = 1 - w 1 - w 2 - w 3 := by linarith
      simp only [Fin.sum_univ_four, corner, Fin.isValue, this]
      simp only [Fin.coe_ofNat_eq_mod, Nat.zero_mod, Nat.reduceMod, List.getD_cons_zero,
        List.getD_cons_succ, x0, x2, x3, x6]
      module
    · refine ⟨w 3, w 1 + w 2 + w 3, w 2 + w 3, ⟨by linarith, by linarith⟩, ⟨by linarith, by linarith⟩,
        ⟨by linarith, by linarith⟩, ?_⟩
      have : w 0 = 1 - w 1 - w 2 - w 3 := by linarith
      simp only [Fin.sum_univ_four, corner, Fin.isValue, this]
      simp only [Fin.coe_ofNat_eq_mod, Nat.zero_mod, Nat.reduceMod, List.getD_cons_zero,
        List.getD_cons_succ, x0, x7, x3, x6]
      module
    · refine ⟨w 3, w 1 + w 3, w 1 + w 2 + w 3, ⟨by linarith, by linarith⟩, ⟨by linarith, by linarith⟩,
        ⟨by linarith, by linarith⟩, ?_⟩
      have : w 0 = 1 - w 1 - w 2 - w 3 := by linarith
      simp only [Fin.sum_univ_four, corner, Fin.isValue, this]
      simp only [Fin.coe_ofNat_eq_mod, Nat.zero_mod, Nat.reduceMod, List.getD_cons_zero,
        List.getD_cons_succ, x0, x7, x4, x6]
      module
    · refine ⟨w 1 + w 2, w 2, w 1 + w 2 + w 3, ⟨by linarith, by linarith⟩, ⟨by linarith, by linarith⟩,
        ⟨by linarith, by linarith⟩, ?_⟩
      have : w 0 = 1 - w 1 - w 2 - w 3 := by linarith
      simp only [Fin.sum_univ_four, corner, Fin.isValue, this]
      simp only [Fin.coe_ofNat_eq_mod, Nat.zero_mod, Nat.reduceMod, List.getD_cons_zero,
        List.getD_cons_succ, x0, x5, x4, x6]
      module
    · refine ⟨w 0 + w 1 + w 2, w 2, w 1 + w 2, ⟨by linarith, by linarith⟩, ⟨by linarith, by linarith⟩,
        ⟨by linarith, by linarith⟩, ?_⟩
      have : w 3 = 1 - w 1 - w 2 - w 0 := by linarith
      simp only [Fin.sum_univ_four, corner, Fin.isValue, this]
      simp only [Fin.coe_ofNat_eq_mod, Nat.zero_mod, Nat.reduceMod, List.getD_cons_zero,
        List.getD_cons_succ, x0, x5, x1, x6]
      module
    · refine ⟨w 0 + w 1 + w 2, w 1 + w 2, w 1, ⟨by linarith, by linarith⟩, ⟨by linarith, by linarith⟩,
        ⟨by linarith, by linarith⟩, ?_⟩
      have : w 3 = 1 - w 1 - w 2 - w 0 := by linarith
      simp only [Fin.sum_univ_four, corner, Fin.isValue, this]
      simp only [Fin.coe_ofNat_eq_mod, Nat.zero_mod, Nat.reduceMod, List.getD_cons_zero,
        List.getD_cons_succ, x0, x2, x1, x6]
      module

/-- **Two triangles cover a convex quadrilateral exactly**; convex: the diagonals 0-2 and 1-3 cross in a
point inside both. -/
theorem C66_q2t_quad_cover {x : ℕ → V} {s t : K} (hs : 0 < s ∧ s < 1) (ht : 0 < t ∧ t < 1)
    (hcross : s • x 0 + (1 - s) • x 2 = t • x 1 + (1 - t) • x 3) (p : V) :
    p ∈ Simplex (K := K) (corner x [0, 1, 2, 3] 4) ↔
      ∃ tri ∈ q2tQuad, p ∈ Simplex (K := K) (corner x tri 3) := by
  constructor
  · rintro ⟨w, hw, hsum, rfl⟩
    simp only [Fin.sum_univ_four] at hsum
    have w0 := hw 0
    have w1 := hw 1
    have w2 := hw 2
    have w3 := hw 3
    have ht' : 0 < 1 - t := by linarith [ht.2]
    have hs' : 0 < 1 - s := by linarith [hs.2]
    have key : ∀ m : K, ∑ i, w i • corner x [0, 1, 2, 3] 4 i =
        (w 0 + m * s) • x 0 + (w 1 - m * t) • x 1 + (w 2 + m * (1 - s)) • x 2 +
          (w 3 - m * (1 - t)) • x 3 := by
      intro m
      have h0 : m • (s • x 0 + (1 - s) • x 2) = m • (t • x 1 + (1 - t) • x 3) := by rw [hcross]
      have h1 : ∑ i, w i • corner x [0, 1, 2, 3] 4 i =
          w 0 • x 0 + w 1 • x 1 + w 2 • x 2 + w 3 • x 3 := by
        simp [Fin.sum_univ_four, corner]
      rw [h1, ← sub_eq_zero]
      have h2 : m • (s • x 0 + (1 - s) • x 2) - m • (t • x 1 + (1 - t) • x 3) = 0 :=
        sub_eq_zero.2 h0
      rw [← neg_eq_zero, ← h2]
      module
    by_cases hc : w 1 * (1 - t) ≤ w 3 * t
    · -- remove vertex 1
      refine ⟨[0, 2, 3], by decide, ![w 0 + w 1 / t * s, w 2 + w 1 / t * (1 - s),
        w 3 - w 1 / t * (1 - t)], ?_, ?_, ?_⟩
      · intro i
        fin_cases i
        · have : 0 ≤ w 1 / t * s := by have := div_nonneg w1 ht.1.le; exact mul_nonneg this hs.1.le
          simp; linarith
        · have : 0 ≤ w 1 / t * (1 - s) := mul_nonneg (div_nonneg w1 ht.1.le) hs'.le
          simp; linarith
        · have : w 1 / t * (1 - t) ≤ w 3 := by
            rw [div_mul_eq_mul_div, div_le_iff₀ ht.1]; exact hc
          simp; linarith
      · simp only [Fin.sum_univ_three, Matrix.cons_val_zero, Matrix.cons_val_one, Matrix.cons_val]
        have : w 1 / t * t = w 1 := div_mul_cancel₀ _ ht.1.ne'
        linear_combination hsum + this
      · rw [key (w 1 / t)]
        have : w 1 / t * t = w 1 := div_mul_cancel₀ _ ht.1.ne'
        simp [Fin.sum_univ_three, corner, this]
    · refine ⟨[0, 1, 2], by decide, ![w 0 + w 3 / (1 - t) * s, w 1 - w 3 / (1 - t) * t,
        w 2 + w 3 / (1 - t) * (1 - s)], ?_, ?_, ?_⟩
      · intro i
        fin_cases i
        · have : 0 ≤ w 3 / (1 - t) * s := mul_nonneg (div_nonneg w3 ht'.le) hs.1.le
          simp; linarith
        · have : w 3 / (1 - t) * t ≤ w 1 := by
            rw [div_mul_eq_mul_div, div_le_iff₀ ht']; exact (not_le.1 hc).le
          simp; linarith
        · have : 0 ≤ w 3 / (1 - t) * (1 - s) := mul_nonneg (div_nonneg w3 ht'.le) hs'.le
          simp; linarith
      · simp only [Fin.sum_univ_three, Matrix.cons_val_zero, Matrix.cons_val_one, Matrix.cons_val]
        have : w 3 / (1 - t) * (1 - t) = w 3 := div_mul_cancel₀ _ ht'.ne'
        linear_combination hsum + this
      · rw [key (w 3 / (1 - t))]
        have : w 3 / (1 - t) * (1 - t) = w 3 := div_mul_cancel₀ _ ht'.ne'
        simp [Fin.sum_univ_three, corner, this]
  · rintro ⟨tri, htri, w, hw, hsum, rfl⟩
    simp only [Fin.sum_univ_three] at hsum
    have w0 := hw 0
    have w1 := hw 1
    have w2 := hw 2
    simp only [q2tQuad, List.mem_cons, List.not_mem_nil, or_false] at htri
    rcases htri with rfl | rfl
    · refine ⟨![w 0, w 1, w 2, 0], ?_, ?_, ?_⟩
      · intro i; fin_cases i <;> simp [w0, w1, w2]
      · simpa [Fin.sum_univ_four] using hsum
      · simp [Fin.sum_univ_four, Fin.sum_univ_three, corner]
    · refine ⟨![w 0, 0, w 1, w 2], ?_, ?_, ?_⟩
      · intro i; fin_cases i <;> simp [w0, w1, w2]
      · simpa [Fin.sum_univ_four, add_assoc] using hsum
      · simp [Fin.sum_univ_four, Fin.sum_univ_three, corner]

end

/-! ### Volumes and orientation -/

section

variable {K : Type} [Field K]

/-- Six times the signed volume of a tetrahedron. -/
def vol6 (x : Fin 4 → Fin 3 → K) : K :=
  Matrix.det (Matrix.of fun i : Fin 3 => fun j => x i.succ j - x 0 j)

/-- Twice the signed area of a triangle. -/
def area2 (x : Fin 3 → Fin 2 → K) : K :=
  Matrix.det (Matrix.of fun i : Fin 2 => fun j => x i.succ j - x 0 j)

/-- **Each of the six tetrahedrons of a parallelepiped has a sixth of its volume, with the same
orientation.** -/
theorem C66_q2t_hex_volume [CharZero K] {x : ℕ → Fin 3 → K} {o A B C : Fin 3 → K}
    (hx : IsPar (K := K) x o A B C) {tet : List ℕ} (ht : tet ∈ q2tHex) :
    vol6 (corner x tet 4) = Matrix.det (Matrix.of ![A, B, C]) := by
  have x0 := hx 0 0 0 0 rfl
  have x1 := hx 1 1 0 0 rfl
  have x2 := hx 2 1 1 0 rfl
  have x3 := hx 3 0 1 0 rfl
  have x4 := hx 4 0 0 1 rfl
  have x5 := hx 5 1 0 1 rfl
  have x6 := hx 6 1 1 1 rfl
  have x7 := hx 7 0 1 1 rfl
  simp only [Nat.cast_zero, Nat.cast_one, one_smul, zero_smul, add_zero] at x0 x1 x2 x3 x4 x5 x6 x7
  simp only [q2tHex, List.mem_cons, List.not_mem_nil, or_false] at ht
  rcases ht with rfl | rfl | rfl | rfl | rfl | rfl <;>
    · simp [vol6, corner, Matrix.det_fin_three, x0, x1, x2, x3, x4, x5, x6, x7]
      ring

/-- **The areas of the two triangles add up to the area of the quadrilateral** (half of the cross
product of the diagonals), for any quadrilateral. -/
theorem C66_q2t_quad_area (x : ℕ → Fin 2 → K) :
    (q2tQuad.map fun tri => area2 (corner x tri 3)).sum =
      (x 2 0 - x 0 0) * (x 3 1 - x 1 1) - (x 2 1 - x 0 1) * (x 3 0 - x 1 0) := by
  simp [q2tQuad, area2, corner, Matrix.det_fin_two]
  ring

end

/-! ### Conformity -/

/-- Position of a vertex of a hexahedron in the grid. -/
def gridPos (i j k : ℕ) (v : ℕ) : ℕ × ℕ × ℕ :=
  let r := hexRef.getD v (0, 0, 0)
  (i + r.1, j + r.2.1, k + r.2.2)

/-- The facets of a tetrahedron. -/
def facets (t : List ℕ) : List (List ℕ) :=
  [[t.getD 0 0, t.getD 1 0, t.getD 2 0], [t.getD 0 0, t.getD 1 0, t.getD 3 0],
   [t.getD 0 0, t.getD 2 0, t.getD 3 0], [t.getD 1 0, t.getD 2 0, t.getD 3 0]]

theorem conform_local : ∀ a ∈ [0, 1, 2], ∀ b ∈ [0, 1, 2], ∀ c ∈ [0, 1, 2], ∀ tet ∈ q2tHex,
    ∀ f ∈ facets tet,
      (∀ v ∈ f, ∃ v' ∈ List.range 8, gridPos 1 1 1 v = gridPos a b c v') →
      ∃ tet' ∈ q2tHex, ∀ v ∈ f, ∃ v' ∈ tet', gridPos 1 1 1 v = gridPos a b c v' := by
  decide +kernel

theorem facets_lt : ∀ tet ∈ q2tHex, ∀ f ∈ facets tet, ∀ v ∈ f, v < 8 := by decide

theorem tets_lt : ∀ tet ∈ q2tHex, ∀ v ∈ tet, v < 8 := by decide

theorem grid_index_inj {n1 n2 : ℕ} {a b : ℕ × ℕ × ℕ} (hb1 : a.2.1 < n1) (hb2 : b.2.1 < n1)
    (hc1 : a.2.2 < n2) (hc2 : b.2.2 < n2)
    (h : (a.1 * n1 + a.2.1) * n2 + a.2.2 = (b.1 * n1 + b.2.1) * n2 + b.2.2) : a = b := by
  have h2 : a.2.2 = b.2.2 := by
    have := congrArg (· % n2) h
    simpa [Nat.mul_add_mod', Nat.mod_eq_of_lt hc1, Nat.mod_eq_of_lt hc2] using this
  have hn2 : 0 < n2 := by omega
  have h3 : a.1 * n1 + a.2.1 = b.1 * n1 + b.2.1 := by
    rw [h2] at h
    exact Nat.eq_of_mul_eq_mul_right hn2 (Nat.add_right_cancel h)
  have h4 : a.2.1 = b.2.1 := by
    have := congrArg (· % n1) h3
    simpa [Nat.mul_add_mod', Nat.mod_eq_of_lt hb1, Nat.mod_eq_of_lt hb2] using this
  have hn1 : 0 < n1 := by omega
  have h5 : a.1 = b.1 := by
    rw [h4] at h3
    exact Nat.eq_of_mul_eq_mul_right hn1 (Nat.add_right_cancel h3)
  exact Prod.ext h5 (Prod.ext h4 h2)

/-- **The divided block mesh is conforming**: if all vertices of a facet of a tetrahedron made of a cell
belong to another cell of the block mesh, then a tetrahedron of the other cell has this facet, too. -/
theorem C66_q2t_conforming {n0 n1 n2 e e' : ℕ} {row row' : List ℕ}
    (he : (tensorConn3 n0 n1 n2)[e]? = some row) (he' : (tensorConn3 n0 n1 n2)[e']? = some row')
    {tet f : List ℕ} (ht : tet ∈ q2tHex) (hf : f ∈ facets tet)
    (hsub : ∀ v ∈ f, row.getD v 0 ∈ row') :
    ∃ tet' ∈ q2tHex, ∀ v ∈ f, row.getD v 0 ∈ tet'.map fun v' => row'.getD v' 0 := by
  have hcell : ∀ (e : ℕ) (row : List ℕ), (tensorConn3 n0 n1 n2)[e]? = some row → ∃ i j k, i + 1 < n0 ∧ j + 1 < n1 ∧
      k + 1 < n2 ∧ row = hexRef.map fun r => ((i + r.1) * n1 + (j + r.2.1)) * n2 + (k + r.2.2) := by
    intro e row h
    have hl : e < (n0 - 1) * (n1 - 1) * (n2 - 1) := by
      have := (List.getElem?_eq_some_iff.1 h).1
      simpa [tensorConn3, ofColumns] using this
    obtain ⟨i, j, k, hi, hj, hk, rfl⟩ := cell_of_lt3 hl
    rw [tensorConn3_get (by omega) (by omega) (by omega)] at h
    injection h with h
    exact ⟨i, j, k, by omega, by omega, by omega, h.symm⟩
  obtain ⟨i, j, k, hi, hj, hk, rfl⟩ := hcell e row he
  obtain ⟨i', j', k', hi', hj', hk', rfl⟩ := hcell e' row' he'
  have hv8 : ∀ v ∈ f, v < 8 := facets_lt tet ht f hf
  have hbits : ∀ v < 8, (hexRef.getD v (0, 0, 0)).1 ≤ 1 ∧ (hexRef.getD v (0, 0, 0)).2.1 ≤ 1 ∧
      (hexRef.getD v (0, 0, 0)).2.2 ≤ 1 := by decide
  have hget : ∀ i j k v, v < 8 →
      (hexRef.map fun r => ((i + r.1) * n1 + (j + r.2.1)) * n2 + (k + r.2.2)).getD v 0 =
      ((gridPos i j k v).1 * n1 + (gridPos i j k v).2.1) * n2 + (gridPos i j k v).2.2 := by
    intro i j k v hv
    interval_cases v <;> rfl
  -- equal vertices have equal grid positions
  have hpos : ∀ v ∈ f, ∃ v' < 8, gridPos i j k v = gridPos i' j' k' v' := by
    intro v hv
    obtain ⟨v', hv', hvv⟩ := List.mem_iff_getElem.1 (hsub v hv)
    have hv8' : v' < 8 := by simpa [hexRef] using hv'
    refine ⟨v', hv8', ?_⟩
    have h1 : (hexRef.map fun r => ((i' + r.1) * n1 + (j' + r.2.1)) * n2 + (k' + r.2.2)).getD v' 0 =
        (hexRef.map fun r => ((i + r.1) * n1 + (j + r.2.1)) * n2 + (k + r.2.2)).getD v 0 := by
      rw [← hvv, List.getD_eq_getElem?_getD, List.getElem?_eq_getElem hv']
      rfl
    rw [hget i j k v (hv8 v hv), hget i' j' k' v' hv8'] at h1
    have b := hbits v (hv8 v hv)
    have b' := hbits v' hv8'
    refine (grid_index_inj (n1 := n1) (n2 := n2) ?_ ?_ ?_ ?_ h1).symm <;>
      simp only [gridPos] <;> omega
  -- neighbouring cells
  obtain ⟨v0, hv0⟩ : ∃ v, v ∈ f := by
    simp only [facets, List.mem_cons, List.not_mem_nil, or_false] at hf
    rcases hf with rfl | rfl | rfl | rfl <;> exact ⟨_, List.mem_cons_self⟩
  have hnb : (i' ≤ i + 1 ∧ i ≤ i' + 1) ∧ (j' ≤ j + 1 ∧ j ≤ j' + 1) ∧ (k' ≤ k + 1 ∧ k ≤ k' + 1) := by
    obtain ⟨v', hv', h⟩ := hpos v0 hv0
    have b := hbits v0 (hv8 v0 hv0)
    have b' := hbits v' hv'
    simp only [gridPos, Prod.mk.injEq] at h
    omega
  have hshift : ∀ v v', gridPos i j k v = gridPos i' j' k' v' ↔
      gridPos 1 1 1 v = gridPos (i' + 1 - i) (j' + 1 - j) (k' + 1 - k) v' := by
    intro v v'
    simp only [gridPos, Prod.mk.injEq]
    omega
  have hm : ∀ x, x ≤ 2 → x ∈ [0, 1, 2] := by
    intro x hx
    interval_cases x <;> decide
  obtain ⟨tet', ht', h'⟩ := conform_local (i' + 1 - i) (hm _ (by omega)) (j' + 1 - j) (hm _ (by omega))
    (k' + 1 - k) (hm _ (by omega)) tet ht f hf (by
      intro v hv
      obtain ⟨v', hv', h⟩ := hpos v hv
      exact ⟨v', List.mem_range.2 hv', (hshift v v').1 h⟩)
  refine ⟨tet', ht', fun v hv => ?_⟩
  obtain ⟨v', hv', h⟩ := h' v hv
  have h8 : v' < 8 := tets_lt tet' ht' v' hv'
  rw [List.mem_map]
  refine ⟨v', hv', ?_⟩
  rw [hget _ _ _ _ h8, hget _ _ _ _ (hv8 v hv), (hshift v v').2 h]

end Verif.Mesh
