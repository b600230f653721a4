/-
C60: faces: normals and surface elements; cells in a space of a higher dimension.
-/
import Verif.Term.Refmap
import Mathlib.Tactic.Ring
import Mathlib.Tactic.FieldSimp
import Mathlib.Tactic.LinearCombination
import Mathlib.Tactic.Positivity
import Mathlib.Algebra.BigOperators.Fin
import Mathlib.LinearAlgebra.Matrix.Adjugate
import Mathlib.LinearAlgebra.Matrix.NonsingularInverse
import Mathlib.Tactic.FinCases
import Mathlib.Tactic.Linarith

namespace Verif.Term

open Finset

/-- The scalar product. -/
def dot {n : ℕ} (a b : Fin n → ℝ) : ℝ := ∑ i, a i * b i

theorem dot_two (a b : Fin 2 → ℝ) : dot a b = a 0 * b 0 + a 1 * b 1 := by
  simp [dot, Fin.sum_univ_two]

theorem dot_three (a b : Fin 3 → ℝ) : dot a b = a 0 * b 0 + a 1 * b 1 + a 2 * b 2 := by
  simp [dot, Fin.sum_univ_three]

/-- C60: an edge in the plane with the tangent `t`, not shorter than the tolerance: `det` is the weight times
the length element, `normal` is a unit vector orthogonal to the edge and points from the side of the cell: from
the vectors `p` on the left of the edge. -/
theorem C60_edge (eps w : ℝ) (heps : 0 < eps) (t : Fin 2 → ℝ) (ht : eps ≤ √(dot t t)) :
    let r := face2 eps w t
    r.1 = w * √(dot t t) ∧ dot r.2 r.2 = 1 ∧ dot r.2 t = 0 ∧
      ∀ p : Fin 2 → ℝ, dot r.2 p * √(dot t t) = -(t 0 * p 1 - t 1 * p 0) := by
  have hD : t 0 ^ 2 + t 1 ^ 2 = dot t t := by rw [dot_two]; ring
  have hs : 0 < √(dot t t) := lt_of_lt_of_le heps ht
  have hsq : √(dot t t) ^ 2 = dot t t := Real.sq_sqrt (Real.sqrt_pos.1 hs).le
  have h1 : ¬ |√(dot t t)| < eps := by rw [abs_of_pos hs]; exact not_lt.2 ht
  unfold face2
  simp only [hD, if_neg h1]
  generalize √(dot t t) = s at *
  refine ⟨mul_comm _ _, ?_, ?_, fun p => ?_⟩
  · rw [dot_two]
    simp only [Matrix.cons_val_zero, Matrix.cons_val_one]
    field_simp
    rw [hsq, dot_two]; ring
  · rw [dot_two]
    simp only [Matrix.cons_val_zero, Matrix.cons_val_one]
    field_simp
    ring
  · rw [dot_two]
    simp only [Matrix.cons_val_zero, Matrix.cons_val_one]
    field_simp
    ring

/-- C60: a face in the space with the tangents `a`, `b`: `det` is the weight times the area of the
parallelogram of the tangents (the square root of their Gram determinant), `normal` is a unit vector orthogonal
to both, oriented as their cross product. -/
theorem C60_face (eps w : ℝ) (heps : 0 < eps) (a b : Fin 3 → ℝ)
    (ht : eps ≤ √(dot a a * dot b b - dot a b ^ 2)) :
    let r := face3 eps w a b
    r.1 = w * √(dot a a * dot b b - dot a b ^ 2) ∧ dot r.2 r.2 = 1 ∧ dot r.2 a = 0 ∧ dot r.2 b = 0 ∧
      ∀ p : Fin 3 → ℝ, dot r.2 p * √(dot a a * dot b b - dot a b ^ 2) = dot (cross a b) p := by
  have hD : (a 1 * b 2 - b 1 * a 2) ^ 2 + (a 0 * b 2 - b 0 * a 2) ^ 2 + (a 0 * b 1 - b 0 * a 1) ^ 2 =
      dot a a * dot b b - dot a b ^ 2 := by simp only [dot_three]; ring
  have hs : 0 < √(dot a a * dot b b - dot a b ^ 2) := lt_of_lt_of_le heps ht
  have hsq : √(dot a a * dot b b - dot a b ^ 2) ^ 2 = dot a a * dot b b - dot a b ^ 2 :=
    Real.sq_sqrt (Real.sqrt_pos.1 hs).le
  have h1 : ¬ |√(dot a a * dot b b - dot a b ^ 2)| < eps := by rw [abs_of_pos hs]; exact not_lt.2 ht
  unfold face3
  simp only [hD, if_neg h1]
  have hsq2 := hsq.trans hD.symm
  generalize √(dot a a * dot b b - dot a b ^ 2) = s at *
  refine ⟨mul_comm _ _, ?_, ?_, ?_, fun p => ?_⟩
  · rw [dot_three]
    simp only [Matrix.cons_val_zero, Matrix.cons_val_one, Matrix.cons_val]
    field_simp
    rw [hsq2]
    ring
  · rw [dot_three]
    simp only [Matrix.cons_val_zero, Matrix.cons_val_one, Matrix.cons_val]
    field_simp
    ring
  · rw [dot_three]
    simp only [Matrix.cons_val_zero, Matrix.cons_val_one, Matrix.cons_val]
    field_simp
    ring
  · rw [dot_three, dot_three]
    simp only [Matrix.cons_val_zero, Matrix.cons_val_one, Matrix.cons_val, cross]
    field_simp
    ring

/-- C60: the outward normal of an edge of a convex cell: if the cell lies on the left of its edge from `x0` to
`x1`, then the normal points out of it: no point of the cell is in its direction. -/
theorem C60_outward (eps w l : ℝ) (heps : 0 < eps) (hl : 0 < l) (x0 x1 : Fin 2 → ℝ) (cell : Set (Fin 2 → ℝ))
    (hlong : eps ≤ √(dot (fun k => l * (x1 k - x0 k)) fun k => l * (x1 k - x0 k)))
    (hleft : ∀ y ∈ cell, 0 ≤ (x1 0 - x0 0) * (y 1 - x0 1) - (x1 1 - x0 1) * (y 0 - x0 0)) :
    ∀ y ∈ cell, dot (face2 eps w fun k => l * (x1 k - x0 k)).2 (fun k => y k - x0 k) ≤ 0 := by
  intro y hy
  have h := (C60_edge eps w heps _ hlong).2.2.2 fun k => y k - x0 k
  have hs := lt_of_lt_of_le heps hlong
  have h2 : dot (face2 eps w fun k => l * (x1 k - x0 k)).2 (fun k => y k - x0 k) *
      √(dot (fun k => l * (x1 k - x0 k)) fun k => l * (x1 k - x0 k)) ≤ 0 := by
    rw [h]
    have := mul_nonneg hl.le (hleft y hy)
    linarith
  by_contra hc
  exact absurd (mul_pos (not_le.1 hc) hs) (not_lt.2 h2)

/-- C60: the outward normals of an interval, in a mesh with the coordinates `x` of the vertices: if the first
vertex of the mesh is its left end, the normals of both the ends point out. -/
theorem C60_point (w : ℝ) (x : ℕ → ℝ) (n v : ℕ) (hleft : ∀ k < n, x 0 ≤ x k)
    (hv : v = 0 ∨ ∀ k < n, x k ≤ x v) (k : ℕ) (hk : k < n) :
    (face1 w v).1 = w ∧ |(face1 w v).2| = 1 ∧ (face1 w v).2 * (x k - x v) ≤ 0 := by
  unfold face1
  by_cases h0 : v = 0
  · subst h0
    have := hleft k hk
    simp only [if_true]
    exact ⟨trivial, by norm_num, by linarith⟩
  · have := hv.resolve_left h0 k hk
    simp only [if_neg h0]
    exact ⟨trivial, by norm_num, by linarith⟩

/-- C60, a finding: in a mesh of an interval numbered from the right to the left both the normals point
into the interval. -/
theorem C60_point_inward (w : ℝ) (x : ℕ → ℝ) (n : ℕ) (hn : 0 < n) (hdec : x n < x 0) :
    0 < (face1 w 0).2 * (x n - x 0) ∧ 0 < (face1 w n).2 * (x 0 - x n) := by
  unfold face1
  rw [if_pos rfl, if_neg hn.ne']
  constructor <;> simp only <;> linarith

/-! ### Cells in a space of a higher dimension -/

/-- The rotation about the axis `(u1, u2, 0)`. -/
theorem rot_poly (c s u1 u2 : ℝ) (hu : u1 ^ 2 + u2 ^ 2 = 1) (hcs : c ^ 2 + s ^ 2 = 1)
    (R : Matrix (Fin 3) (Fin 3) ℝ)
    (hR : ∀ i j, R i j = (if i = j then c else 0) + !![u1 ^ 2 * (1 - c), u1 * u2 * (1 - c), u2 * s;
      u1 * u2 * (1 - c), u2 ^ 2 * (1 - c), -u1 * s; -u2 * s, u1 * s, 0] i j) :
    (∀ i j, ∑ k, R i k * R j k = if i = j then 1 else 0) ∧ R.det = 1 ∧
      R 2 0 = -u2 * s ∧ R 2 1 = u1 * s ∧ R 2 2 = c := by
  have r00 : R 0 0 = c + u1 ^ 2 * (1 - c) := by rw [hR]; rfl
  have r01 : R 0 1 = u1 * u2 * (1 - c) := by rw [hR]; exact zero_add _
  have r02 : R 0 2 = u2 * s := by rw [hR]; exact zero_add _
  have r10 : R 1 0 = u1 * u2 * (1 - c) := by rw [hR]; exact zero_add _
  have r11 : R 1 1 = c + u2 ^ 2 * (1 - c) := by rw [hR]; rfl
  have r12 : R 1 2 = -u1 * s := by rw [hR]; exact zero_add _
  have r20 : R 2 0 = -u2 * s := by rw [hR]; exact zero_add _
  have r21 : R 2 1 = u1 * s := by rw [hR]; exact zero_add _
  have r22 : R 2 2 = c := by rw [hR]; exact add_zero _
  refine ⟨fun i j => ?_, ?_, r20, r21, r22⟩
  · rw [Fin.sum_univ_three]
    have a00 : R 0 0 * R 0 0 + R 0 1 * R 0 1 + R 0 2 * R 0 2 = 1 := by
      rw [r00, r01, r02]
      linear_combination (u1 ^ 2 * (1 - c) ^ 2 + (1 - c ^ 2)) * hu + u2 ^ 2 * hcs
    have a01 : R 0 0 * R 1 0 + R 0 1 * R 1 1 + R 0 2 * R 1 2 = 0 := by
      rw [r00, r01, r02, r10, r11, r12]
      linear_combination (u1 * u2 * (1 - c) ^ 2) * hu - u1 * u2 * hcs
    have a02 : R 0 0 * R 2 0 + R 0 1 * R 2 1 + R 0 2 * R 2 2 = 0 := by
      rw [r00, r01, r02, r20, r21, r22]; ring
    have a11 : R 1 0 * R 1 0 + R 1 1 * R 1 1 + R 1 2 * R 1 2 = 1 := by
      rw [r10, r11, r12]
      linear_combination (u2 ^ 2 * (1 - c) ^ 2 + (1 - c ^ 2)) * hu + u1 ^ 2 * hcs
    have a12 : R 1 0 * R 2 0 + R 1 1 * R 2 1 + R 1 2 * R 2 2 = 0 := by
      rw [r10, r11, r12, r20, r21, r22]; ring
    have a22 : R 2 0 * R 2 0 + R 2 1 * R 2 1 + R 2 2 * R 2 2 = 1 := by
      rw [r20, r21, r22]
      linear_combination s ^ 2 * hu + hcs
    fin_cases i <;> fin_cases j
    · exact a00
    · exact a01
    · exact a02
    · show R 1 0 * R 0 0 + R 1 1 * R 0 1 + R 1 2 * R 0 2 = 0
      rw [← a01]; ring
    · exact a11
    · exact a12
    · show R 2 0 * R 0 0 + R 2 1 * R 0 1 + R 2 2 * R 0 2 = 0
      rw [← a02]; ring
    · show R 2 0 * R 1 0 + R 2 1 * R 1 1 + R 2 2 * R 1 2 = 0
      rw [← a12]; ring
    · exact a22
  · rw [Matrix.det_fin_three, r00, r01, r02, r10, r11, r12, r20, r21, r22]
    linear_combination (c * (c * (1 - c)) + s ^ 2 * (c + (1 - c) * (u1 ^ 2 + u2 ^ 2 + 1))) * hu + hcs

/-- What the rotation of `transform_coors_to_lower_dim()` does: it is an orthogonal matrix with the
determinant 1 that turns `bv` to the third axis. -/
theorem rot32_spec (bv : Fin 3 → ℝ)
    (h : 1e-16 < √(bv 0 ^ 2 + bv 1 ^ 2) ∨ (bv 0 = 0 ∧ bv 1 = 0 ∧ 0 < bv 2)) :
    (∀ i j, ∑ k, rot32 bv i k * rot32 bv j k = if i = j then 1 else 0) ∧ (rot32 bv).det = 1 ∧
    (∀ j, rot32 bv 2 j * √(dot bv bv) = bv j) := by
  have hD : bv 0 ^ 2 + bv 1 ^ 2 + bv 2 ^ 2 = dot bv bv := by rw [dot_three]; ring
  rw [← hD]
  rcases h with h | ⟨h0, h1, h2⟩
  · have hab : 0 < √(bv 0 ^ 2 + bv 1 ^ 2) := lt_trans (by norm_num) h
    have habsq : √(bv 0 ^ 2 + bv 1 ^ 2) ^ 2 = bv 0 ^ 2 + bv 1 ^ 2 := Real.sq_sqrt (by positivity)
    have hp : 0 < bv 0 ^ 2 + bv 1 ^ 2 := Real.sqrt_pos.1 hab
    have hb : 0 < √(bv 0 ^ 2 + bv 1 ^ 2 + bv 2 ^ 2) := Real.sqrt_pos.2 (by positivity)
    have hbsq : √(bv 0 ^ 2 + bv 1 ^ 2 + bv 2 ^ 2) ^ 2 = bv 0 ^ 2 + bv 1 ^ 2 + bv 2 ^ 2 :=
      Real.sq_sqrt (by positivity)
    have hc : |√(bv 0 ^ 2 + bv 1 ^ 2)| > 1e-16 := by rw [abs_of_pos hab]; exact h
    have hu : (bv 1 / √(bv 0 ^ 2 + bv 1 ^ 2)) ^ 2 + (-bv 0 / √(bv 0 ^ 2 + bv 1 ^ 2)) ^ 2 = 1 := by
      field_simp; rw [habsq]; ring
    have hcs : (bv 2 / √(bv 0 ^ 2 + bv 1 ^ 2 + bv 2 ^ 2)) ^ 2 +
        (√(bv 0 ^ 2 + bv 1 ^ 2) / √(bv 0 ^ 2 + bv 1 ^ 2 + bv 2 ^ 2)) ^ 2 = 1 := by
      field_simp; rw [habsq, hbsq]; ring
    have := rot_poly _ _ _ _ hu hcs (rot32 bv) (fun i j => by
      have e : rot32 bv = _ := if_pos hc
      rw [e])
    refine ⟨this.1, this.2.1, fun j => ?_⟩
    obtain ⟨-, -, r0, r1, r2⟩ := this
    fin_cases j
    · show rot32 bv 2 0 * _ = bv 0
      rw [r0]; field_simp
    · show rot32 bv 2 1 * _ = bv 1
      rw [r1]; field_simp
    · show rot32 bv 2 2 * _ = bv 2
      rw [r2]; field_simp
  · have e1 : √(bv 0 ^ 2 + bv 1 ^ 2 + bv 2 ^ 2) = bv 2 := by
      rw [h0, h1]; simp [Real.sqrt_sq h2.le]
    have e2 : ¬ |√(bv 0 ^ 2 + bv 1 ^ 2)| > 1e-16 := by
      rw [h0, h1]; norm_num
    have hR : rot32 bv = 1 := by
      have e : rot32 bv = _ := if_neg e2
      rw [e]
      ext i j
      rw [Matrix.one_apply, e1, div_self h2.ne']
    rw [hR]
    refine ⟨fun i j => ?_, Matrix.det_one, fun j => ?_⟩
    · simp only [Matrix.one_apply]
      fin_cases i <;> fin_cases j <;> simp [Fin.sum_univ_three]
    · rw [e1]
      fin_cases j <;> simp [Matrix.one_apply, h0, h1]

/-- The differences of the transformed points. -/
theorem toPlane_sub (n : ℕ) (x : ℕ → Fin 3 → ℝ) (k l : ℕ) (i : Fin 2) :
    toPlane n x k i - toPlane n x l i =
      ∑ j, rot32 (cross (fun r => x 1 r - x 0 r) fun r => x (n - 1) r - x 0 r) (Fin.castLE (by omega) i) j *
        (x k j - x l j) := by
  unfold toPlane
  rw [← sum_sub_distrib]
  exact sum_congr rfl fun j _ => by ring

/-- An orthogonal matrix keeps the scalar products; here those of the vectors orthogonal to its third row. -/
theorem orth_two (R : Matrix (Fin 3) (Fin 3) ℝ)
    (h : ∀ i j, ∑ k, R i k * R j k = if i = j then 1 else 0) (v w : Fin 3 → ℝ) (hv : ∑ j, R 2 j * v j = 0) :
    (∑ j, R 0 j * v j) * (∑ j, R 0 j * w j) + (∑ j, R 1 j * v j) * (∑ j, R 1 j * w j) = dot v w := by
  have hRR : R * R.transpose = 1 := by
    ext i j
    rw [Matrix.mul_apply, Matrix.one_apply]
    exact h i j
  have hT : R.transpose * R = 1 := mul_eq_one_comm.1 hRR
  have hcol : ∀ i j, R 0 i * R 0 j + R 1 i * R 1 j + R 2 i * R 2 j = if i = j then 1 else 0 := by
    intro i j
    have := congrFun (congrFun hT i) j
    rw [Matrix.mul_apply, Matrix.one_apply, Fin.sum_univ_three] at this
    exact this
  rw [dot_three]
  simp only [Fin.sum_univ_three] at *
  have c00 : R 0 0 * R 0 0 + R 1 0 * R 1 0 + R 2 0 * R 2 0 = 1 := hcol 0 0
  have c11 : R 0 1 * R 0 1 + R 1 1 * R 1 1 + R 2 1 * R 2 1 = 1 := hcol 1 1
  have c22 : R 0 2 * R 0 2 + R 1 2 * R 1 2 + R 2 2 * R 2 2 = 1 := hcol 2 2
  have c01 : R 0 0 * R 0 1 + R 1 0 * R 1 1 + R 2 0 * R 2 1 = 0 := hcol 0 1
  have c02 : R 0 0 * R 0 2 + R 1 0 * R 1 2 + R 2 0 * R 2 2 = 0 := hcol 0 2
  have c12 : R 0 1 * R 0 2 + R 1 1 * R 1 2 + R 2 1 * R 2 2 = 0 := hcol 1 2
  linear_combination v 0 * w 0 * c00 + v 1 * w 1 * c11 + v 2 * w 2 * c22 + (v 0 * w 1 + v 1 * w 0) * c01 +
    (v 0 * w 2 + v 2 * w 0) * c02 + (v 1 * w 2 + v 2 * w 1) * c12 -
    (R 2 0 * w 0 + R 2 1 * w 1 + R 2 2 * w 2) * hv

/-- C60: a plane cell in the space. Let the normal `bv` of the cell (the cross product of its first and last
edges at its first node) not be parallel to the third axis, or have its direction. Then the transformation to
the plane keeps all the scalar products of the differences of the nodes of a plane cell, and the corner of
the transformed cell has the positive orientation. -/
theorem C60_to_plane (n : ℕ) (x : ℕ → Fin 3 → ℝ)
    (bv : Fin 3 → ℝ) (hbv : bv = cross (fun r => x 1 r - x 0 r) fun r => x (n - 1) r - x 0 r)
    (h : 1e-16 < √(bv 0 ^ 2 + bv 1 ^ 2) ∨ (bv 0 = 0 ∧ bv 1 = 0 ∧ 0 < bv 2))
    (hplane : ∀ k < n, dot bv (fun r => x k r - x 0 r) = 0) :
    (∀ i j k l, i < n → j < n →
      dot (fun r => toPlane n x i r - toPlane n x j r) (fun r => toPlane n x k r - toPlane n x l r) =
        dot (fun r => x i r - x j r) fun r => x k r - x l r) ∧
    (toPlane n x 1 0 - toPlane n x 0 0) * (toPlane n x (n - 1) 1 - toPlane n x 0 1) -
      (toPlane n x 1 1 - toPlane n x 0 1) * (toPlane n x (n - 1) 0 - toPlane n x 0 0) = √(dot bv bv) := by
  have hpos : 0 < √(dot bv bv) := by
    refine Real.sqrt_pos.2 ?_
    rw [dot_three]
    rcases h with h | ⟨h0, h1, h2⟩
    · have : 0 < bv 0 ^ 2 + bv 1 ^ 2 := Real.sqrt_pos.1 (lt_trans (by norm_num) h)
      nlinarith [mul_self_nonneg (bv 2)]
    · rw [h0, h1]; simp [h2.ne']
  obtain ⟨hR, hdet, h3⟩ := rot32_spec bv h
  refine ⟨fun i j k l hi hj => ?_, ?_⟩
  · rw [dot_two]
    simp only [toPlane_sub, ← hbv]
    refine orth_two (rot32 bv) hR _ _ ?_
    have hz : dot bv (fun r => x i r - x j r) = 0 := by
      have h1 := hplane i hi
      have h2 := hplane j hj
      rw [dot_three] at *
      linarith
    have : (∑ r, rot32 bv 2 r * (x i r - x j r)) * √(dot bv bv) = 0 := by
      generalize √(dot bv bv) = S at *
      rw [← hz, sum_mul, dot]
      exact sum_congr rfl fun r _ => by rw [← h3 r]; ring
    exact (mul_eq_zero.1 this).resolve_right hpos.ne'
  · simp only [toPlane_sub, ← hbv, Fin.sum_univ_three]
    -- the third row is the cross product of the first two
    have hc : ∀ a b : Fin 3 → ℝ,
        ((rot32 bv) 0 0 * a 0 + (rot32 bv) 0 1 * a 1 + (rot32 bv) 0 2 * a 2) *
          ((rot32 bv) 1 0 * b 0 + (rot32 bv) 1 1 * b 1 + (rot32 bv) 1 2 * b 2) -
        ((rot32 bv) 1 0 * a 0 + (rot32 bv) 1 1 * a 1 + (rot32 bv) 1 2 * a 2) *
          ((rot32 bv) 0 0 * b 0 + (rot32 bv) 0 1 * b 1 + (rot32 bv) 0 2 * b 2) =
        dot (cross ((rot32 bv) 0) ((rot32 bv) 1)) (cross a b) := by
      intro a b
      rw [dot_three]
      simp only [cross, Matrix.cons_val_zero, Matrix.cons_val_one, Matrix.cons_val]
      ring
    have hrow : ∀ j, cross ((rot32 bv) 0) ((rot32 bv) 1) j = rot32 bv 2 j := by
      have hRR : rot32 bv * (rot32 bv).transpose = 1 := by
        ext i j
        rw [Matrix.mul_apply, Matrix.one_apply]
        exact hR i j
      have had : (rot32 bv).adjugate = (rot32 bv).transpose := by
        have := Matrix.adjugate_mul (rot32 bv)
        rw [hdet, one_smul] at this
        calc (rot32 bv).adjugate = (rot32 bv).adjugate * (rot32 bv * (rot32 bv).transpose) := by
              rw [hRR, Matrix.mul_one]
          _ = _ := by rw [← Matrix.mul_assoc, this, Matrix.one_mul]
      intro j
      have := congrFun (congrFun had j) 2
      rw [Matrix.adjugate_fin_three, Matrix.transpose_apply] at this
      rw [← this]
      fin_cases j <;> simp [cross] <;> ring
    have := hc (fun r => x 1 r - x 0 r) fun r => x (n - 1) r - x 0 r
    rw [← hbv] at this
    refine Eq.trans this ?_
    have hs := Real.mul_self_sqrt (show 0 ≤ dot bv bv from (Real.sqrt_pos.1 hpos).le)
    have e : dot (cross ((rot32 bv) 0) ((rot32 bv) 1)) bv * √(dot bv bv) = √(dot bv bv) * √(dot bv bv) := by
      rw [hs]
      generalize √(dot bv bv) = S at *
      unfold dot
      rw [sum_mul]
      exact sum_congr rfl fun j _ => by
        rw [hrow, ← h3 j]; ring
    exact mul_right_cancel₀ hpos.ne' e

/-- C60, a finding: the cell with the normal opposite to the third axis is not turned: the corner keeps its
negative orientation, so that the evaluation of the mapping ends with a warp violation, while a slightly tilted
cell is turned over (`C60_to_plane`). -/
theorem C60_to_plane_down (n : ℕ) (x : ℕ → Fin 3 → ℝ)
    (bv : Fin 3 → ℝ) (hbv : bv = cross (fun r => x 1 r - x 0 r) fun r => x (n - 1) r - x 0 r)
    (h0 : bv 0 = 0) (h1 : bv 1 = 0) (h2 : bv 2 < 0) :
    (toPlane n x 1 0 - toPlane n x 0 0) * (toPlane n x (n - 1) 1 - toPlane n x 0 1) -
      (toPlane n x 1 1 - toPlane n x 0 1) * (toPlane n x (n - 1) 0 - toPlane n x 0 0) = bv 2 := by
  have e1 : √(bv 0 ^ 2 + bv 1 ^ 2 + bv 2 ^ 2) = -bv 2 := by
    rw [h0, h1]; simp [Real.sqrt_sq_eq_abs, abs_of_neg h2]
  have e2 : ¬ |√(bv 0 ^ 2 + bv 1 ^ 2)| > 1e-16 := by
    rw [h0, h1]; norm_num
  have hR : ∀ i j, rot32 bv i j = if i = j then -1 else 0 := by
    intro i j
    have e : rot32 bv = _ := if_neg e2
    rw [e, e1, div_neg, div_self h2.ne]
  simp only [toPlane_sub, ← hbv, Fin.sum_univ_three, hR]
  have e := congrFun hbv 2
  simp only [cross, Matrix.cons_val] at e
  rw [e]
  simp
  ring

/-- C60: a segment in the plane. The transformation to the axis gives the points of the line of the segment
their signed distances in the direction of its last node, up to a shift. -/
theorem C60_to_axis (n : ℕ) (x : ℕ → Fin 2 → ℝ) (L : ℝ)
    (hL : L = √((x (n - 1) 0 - x 0 0) ^ 2 + (x (n - 1) 1 - x 0 1) ^ 2)) (h : 1e-16 < L)
    (k l : ℕ) (a : ℝ) (hk : ∀ r, x k r - x l r = a * (x (n - 1) r - x 0 r)) :
    toAxis n x k - toAxis n x l = a * L := by
  have hp : 0 < L := lt_trans (by norm_num) h
  have hsq : L ^ 2 = (x (n - 1) 0 - x 0 0) ^ 2 + (x (n - 1) 1 - x 0 1) ^ 2 := by
    rw [hL]; exact Real.sq_sqrt (by positivity)
  have hc : |L| > 1e-16 := by rw [abs_of_pos hp]; exact h
  unfold toAxis
  rw [← sum_sub_distrib, Fin.sum_univ_two]
  have h0 := hk 0
  have h1 := hk 1
  have e : rot21 (fun r => x (n - 1) r - x 0 r) = _ := if_pos (by rw [← hL]; exact hc)
  rw [e, ← hL]
  simp only [Matrix.of_apply, Matrix.cons_val_zero, Matrix.cons_val_one]
  field_simp
  rw [hsq]
  linear_combination (x (n - 1) 0 - x 0 0) * h0 + (x (n - 1) 1 - x 0 1) * h1

end Verif.Term
