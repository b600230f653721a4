/-
C96: directions, selections of points and contact bodies.
-/
import Mathlib.Analysis.SpecialFunctions.Trigonometric.Bounds
import Mathlib.Analysis.SpecialFunctions.Sqrt
import Mathlib.Analysis.Calculus.FDeriv.Pi
import Mathlib.Analysis.Calculus.FDeriv.Pow
import Verif.Geo.Simplex
import Verif.Mech.PropsTransform

namespace Geo

open Matrix

/-! ## Directions -/

/-- Unit vectors. -/
def IsUnit' {d : ℕ} (x : Vec d) : Prop := ∑ i, x i * x i = 1

/-- Orthogonal vectors. -/
def Orth {d : ℕ} (x y : Vec d) : Prop := ∑ i, x i * y i = 0

theorem norm_pos_of_ne {d : ℕ} (x : Vec d) (h : x ≠ 0) : 0 < norm x := by
  refine Real.sqrt_pos.2 (lt_of_le_of_ne (norm2_nonneg x) fun h' => h ((norm2_eq_zero x).1 h'.symm))

theorem unit_div {d : ℕ} (x : Vec d) (h : 0 < norm x) : IsUnit' (fun i => x i / norm x) := by
  unfold IsUnit'
  have h1 := norm_sq x
  rw [norm2] at h1
  have : ∑ i, x i / norm x * (x i / norm x) = (∑ i, x i ^ 2) / norm x ^ 2 := by
    rw [Finset.sum_div]
    refine Finset.sum_congr rfl fun i _ => ?_
    ring
  rw [this, ← h1, div_self (ne_of_gt (pow_pos h 2))]

/-- **C96.**  In 2D a unit vector perpendicular to the given one is returned, the given one rotated by
-90 degrees; the argument itself is overwritten by its unit multiple. -/
theorem C96_perpendiculars_2d (v : Vec 2) (hv : v ≠ 0) :
    IsUnit' (perp2 v).2 ∧ Orth v (perp2 v).2 ∧ IsUnit' (perp2 v).1 ∧
    (∃ a : ℝ, 0 < a ∧ (perp2 v).1 = a • v) ∧ (perp2 v).2 0 = (perp2 v).1 1 ∧ (perp2 v).2 1 = -(perp2 v).1 0 := by
  have hp := norm_pos_of_ne v hv
  have hu := unit_div v hp
  refine ⟨?_, ?_, hu, ⟨1 / norm v, by positivity, ?_⟩, rfl, rfl⟩
  · simp only [IsUnit', Fin.sum_univ_two, perp2, Matrix.cons_val_zero, Matrix.cons_val_one] at hu ⊢
    linarith
  · simp only [Orth, Fin.sum_univ_two, perp2, Matrix.cons_val_zero, Matrix.cons_val_one]
    ring
  · funext i
    simp only [perp2, Pi.smul_apply, smul_eq_mul]
    ring

theorem norm2_cross (x y : Vec 3) : norm2 (cross x y) = norm2 x * norm2 y - dot x y ^ 2 := by
  simp only [norm2, dot, cross, Fin.sum_univ_three, Matrix.cons_val_zero, Matrix.cons_val_one, Matrix.cons_val]
  ring

theorem dot_cross_left (x y : Vec 3) : dot x (cross x y) = 0 := by
  simp only [dot, cross, Fin.sum_univ_three, Matrix.cons_val_zero, Matrix.cons_val_one, Matrix.cons_val]
  ring

theorem dot_cross_right (x y : Vec 3) : dot y (cross x y) = 0 := by
  simp only [dot, cross, Fin.sum_univ_three, Matrix.cons_val_zero, Matrix.cons_val_one, Matrix.cons_val]
  ring

theorem dot_div_right {d : ℕ} (x y : Vec d) (a : ℝ) : dot x (fun i => y i / a) = dot x y / a := by
  simp only [dot, Finset.sum_div]
  exact Finset.sum_congr rfl fun i _ => by ring

/-- **C96.**  In 3D two mutually perpendicular unit vectors perpendicular to the given one are returned, for
every nonzero vector; together with the direction of the vector they are a right-handed basis. -/
theorem C96_perpendiculars_3d (v : Vec 3) (hv : v ≠ 0) :
    IsUnit' (perp3 v).2.1 ∧ IsUnit' (perp3 v).2.2 ∧ Orth v (perp3 v).2.1 ∧ Orth v (perp3 v).2.2 ∧
    Orth (perp3 v).2.1 (perp3 v).2.2 ∧ (∃ a : ℝ, 0 < a ∧ (perp3 v).1 = a • v) ∧
    (Matrix.of ![(perp3 v).1, (perp3 v).2.1, (perp3 v).2.2]).det = 1 := by
  have hp := norm_pos_of_ne v hv
  set u : Vec 3 := fun i => v i / norm v with hu
  have hu1 : IsUnit' u := unit_div v hp
  have hun : norm2 u = 1 := by
    rw [norm2_eq_dot]; exact hu1
  have huv : ∀ w, dot u w = 0 → Orth v w := by
    intro w hw
    have : dot v w = norm v * dot u w := by
      simp only [dot, Finset.mul_sum, hu]
      refine Finset.sum_congr rfl fun i _ => ?_
      field_simp
    unfold Orth
    rw [show ∑ i, v i * w i = dot v w from rfl, this, hw, mul_zero]
  set c : Vec 3 := (if norm (cross u ![0, 0, 1]) < 1 / 10 then cross u ![0, 1, 0] else cross u ![0, 0, 1]) with hc
  have hcu : dot u c = 0 := by
    rw [hc]; split <;> exact dot_cross_left _ _
  have hcp : 0 < norm c := by
    rw [hc]
    split
    · rename_i h
      refine Real.sqrt_pos.2 ?_
      have h2 : norm2 (cross u ![0, 0, 1]) < 1 / 100 := by
        have := norm_sq (cross u ![0, 0, 1])
        have h0 := norm_nonneg (cross u ![0, 0, 1])
        nlinarith
      rw [norm2_cross, hun] at h2 ⊢
      simp only [norm2, dot, Fin.sum_univ_three, Matrix.cons_val_zero, Matrix.cons_val_one, Matrix.cons_val] at h2 hun ⊢
      nlinarith [sq_nonneg (u 0), sq_nonneg (u 1), sq_nonneg (u 2)]
    · rename_i h
      linarith [not_lt.1 h]
  set v1 : Vec 3 := fun i => c i / norm c with hv1
  have h1 : IsUnit' v1 := unit_div c hcp
  have h1u : dot u v1 = 0 := by rw [hv1, dot_div_right, hcu, zero_div]
  have hn1 : norm2 v1 = 1 := by rw [norm2_eq_dot]; exact h1
  have hn2 : norm (cross u v1) = 1 := by
    unfold norm
    rw [norm2_cross, hun, hn1, h1u]
    norm_num
  set v2 : Vec 3 := fun i => cross u v1 i / norm (cross u v1) with hv2
  have hv2' : v2 = cross u v1 := by
    funext i; rw [hv2]; simp only [hn2, div_one]
  have hperp : perp3 v = (u, v1, v2) := rfl
  rw [hperp]
  refine ⟨h1, ?_, huv _ h1u, huv _ ?_, ?_, ⟨1 / norm v, by positivity, ?_⟩, ?_⟩
  · exact unit_div _ (by rw [hn2]; norm_num)
  · simp only [hv2']; exact dot_cross_left _ _
  · simp only [hv2']; exact dot_cross_right _ _
  · funext i
    simp only [hu, Pi.smul_apply, smul_eq_mul]
    ring
  · simp only [hv2', Matrix.det_fin_three, cross, Matrix.of_apply, Matrix.cons_val_zero, Matrix.cons_val_one,
      Matrix.cons_val]
    have := norm2_cross u v1
    rw [hun, hn1, h1u] at this
    simp only [norm2, cross, Fin.sum_univ_three, Matrix.cons_val_zero, Matrix.cons_val_one, Matrix.cons_val] at this
    linarith

/-- **C96.**  `rotation_matrix2d` is the rotation by the angle in degrees: orthogonal, of unit determinant,
additive in the angle, counterclockwise. -/
theorem C96_rotation2d (a b : ℝ) :
    (rotation2d a)ᵀ * rotation2d a = 1 ∧ (rotation2d a).det = 1 ∧
    rotation2d (a + b) = rotation2d a * rotation2d b ∧
    rotation2d 90 *ᵥ ![1, 0] = ![0, 1] ∧ rotation2d 0 = 1 ∧
    (∀ x : Vec 2, norm2 (rotation2d a *ᵥ x) = norm2 x) ∧
    (∀ x : Vec 2, dot x (rotation2d a *ᵥ x) = Real.cos (a * (Real.pi / 180)) * norm2 x) := by
  have cs := Real.sin_sq_add_cos_sq (a * (Real.pi / 180))
  refine ⟨?_, ?_, ?_, ?_, ?_, fun x => ?_, fun x => ?_⟩
  · ext i j
    fin_cases i <;> fin_cases j <;>
      simp [rotation2d, Matrix.mul_apply, Fin.sum_univ_two] <;> nlinarith
  · simp only [rotation2d, Matrix.det_fin_two_of]
    nlinarith
  · ext i j
    fin_cases i <;> fin_cases j <;>
      simp [rotation2d, Matrix.mul_apply, Fin.sum_univ_two, add_mul, Real.cos_add, Real.sin_add] <;> ring
  · have h : (90 : ℝ) * (Real.pi / 180) = Real.pi / 2 := by ring
    funext i
    fin_cases i <;> simp [rotation2d, Matrix.mulVec, dotProduct, Fin.sum_univ_two, h]
  · ext i j
    fin_cases i <;> fin_cases j <;> simp [rotation2d]
  · simp only [norm2, rotation2d, Matrix.mulVec, dotProduct, Fin.sum_univ_two, Matrix.of_apply,
      Matrix.cons_val_zero, Matrix.cons_val_one, Matrix.cons_val', Matrix.cons_val_fin_one]
    have : ∀ s c : ℝ, s ^ 2 + c ^ 2 = 1 → (c * x 0 + -s * x 1) ^ 2 + (s * x 0 + c * x 1) ^ 2 = x 0 ^ 2 + x 1 ^ 2 := by
      intro s c h
      have : (c * x 0 + -s * x 1) ^ 2 + (s * x 0 + c * x 1) ^ 2 = (s ^ 2 + c ^ 2) * (x 0 ^ 2 + x 1 ^ 2) := by ring
      rw [this, h, one_mul]
    exact this _ _ cs
  · simp only [norm2, dot, rotation2d, Matrix.mulVec, dotProduct, Fin.sum_univ_two, Matrix.of_apply,
      Matrix.cons_val_zero, Matrix.cons_val_one, Matrix.cons_val', Matrix.cons_val_fin_one]
    ring

/-! ## Selections of points -/

theorem mem_whereIdx {α : Type} (c : α → Bool) (l : List α) (i : ℕ) :
    i ∈ whereIdx c l ↔ ∃ x, l[i]? = some x ∧ c x = true := by
  unfold whereIdx
  simp only [List.mem_map, List.mem_filter, List.mem_zipIdx_iff_getElem?]
  constructor
  · rintro ⟨⟨x, k⟩, ⟨h1, h2⟩, rfl⟩
    exact ⟨x, h1, h2⟩
  · rintro ⟨x, h1, h2⟩
    exact ⟨(x, i), ⟨h1, h2⟩, rfl⟩

theorem sorted_whereIdx {α : Type} (c : α → Bool) (l : List α) : (whereIdx c l).Pairwise (· < ·) := by
  unfold whereIdx
  rw [List.pairwise_map]
  refine List.Pairwise.filter _ ?_
  have : (l.zipIdx.map Prod.snd).Pairwise (· < ·) := by
    rw [List.zipIdx_map_snd]
    exact List.pairwise_lt_range'
  rw [List.pairwise_map] at this
  exact this

/-- `s` is the coordinate along a unit axis through `c`, and `r` the distance from the axis, of a point: the
point minus its foot `c + s a` is perpendicular to the axis and of length `r`. -/
def TubeCoors (c a x : Vec 3) (s r : ℝ) : Prop :=
  Orth (x - (c + s • a)) a ∧ 0 ≤ r ∧ ∑ i, (x i - (c i + s * a i)) ^ 2 = r ^ 2

theorem tubeCoors_iff (c a x : Vec 3) (ha : IsUnit' a) (s r : ℝ) :
    TubeCoors c a x s r ↔ s = dot (x - c) a ∧ r = norm (cross a (x - c)) := by
  have hau : a 0 * a 0 + a 1 * a 1 + a 2 * a 2 = 1 := by
    have := ha; simpa [IsUnit', Fin.sum_univ_three] using this
  have h1 : Orth (x - (c + s • a)) a ↔ s = dot (x - c) a := by
    simp only [Orth, dot, Fin.sum_univ_three, Pi.sub_apply, Pi.add_apply, Pi.smul_apply, smul_eq_mul]
    have : (x 0 - (c 0 + s * a 0)) * a 0 + (x 1 - (c 1 + s * a 1)) * a 1 + (x 2 - (c 2 + s * a 2)) * a 2 =
        ((x 0 - c 0) * a 0 + (x 1 - c 1) * a 1 + (x 2 - c 2) * a 2) - s * (a 0 * a 0 + a 1 * a 1 + a 2 * a 2) := by
      ring
    rw [this, hau]
    constructor <;> intro h <;> linarith
  have h2 : ∀ s, s = dot (x - c) a → ∑ i, (x i - (c i + s * a i)) ^ 2 = norm2 (cross a (x - c)) := by
    intro s hs
    rw [norm2_cross, dot_comm a, ← hs]
    have e1 : norm2 a = 1 := by rw [norm2_eq_dot]; exact ha
    rw [e1]
    have hs' := hs
    simp only [dot, Fin.sum_univ_three, Pi.sub_apply] at hs'
    simp only [norm2, Fin.sum_univ_three, Pi.sub_apply]
    have : (x 0 - (c 0 + s * a 0)) ^ 2 + (x 1 - (c 1 + s * a 1)) ^ 2 + (x 2 - (c 2 + s * a 2)) ^ 2 =
        ((x 0 - c 0) ^ 2 + (x 1 - c 1) ^ 2 + (x 2 - c 2) ^ 2) -
        2 * s * ((x 0 - c 0) * a 0 + (x 1 - c 1) * a 1 + (x 2 - c 2) * a 2) +
        s ^ 2 * (a 0 * a 0 + a 1 * a 1 + a 2 * a 2) := by ring
    rw [this, hau, ← hs']
    ring
  unfold TubeCoors
  rw [h1]
  constructor
  · rintro ⟨hs, hr, h⟩
    refine ⟨hs, ?_⟩
    rw [h2 s hs, ← norm_sq] at h
    have h0 := norm_nonneg (cross a (x - c))
    rcases sq_eq_sq_iff_eq_or_eq_neg.1 h with h' | h'
    · exact h'.symm
    · linarith
  · rintro ⟨hs, hr⟩
    refine ⟨hs, hr ▸ norm_nonneg _, ?_⟩
    rw [h2 s hs, hr, norm_sq]

/-- **C96.**  With a unit axis, `get_coors_in_tube` returns, in the increasing order, exactly the indices of the
points whose distance from the axis is between the radii and whose foot on the axis is within half of the
length from the centre. -/
theorem C96_tube (coors : List (Vec 3)) (c a : Vec 3) (ha : IsUnit' a) (rIn rOut len : ℝ) :
    (∀ i, i ∈ coorsInTube coors c a rIn rOut len true ↔
      ∃ x s r, coors[i]? = some x ∧ TubeCoors c a x s r ∧ |s| ≤ len / 2 ∧ rIn ≤ r ∧ r ≤ rOut) ∧
    (coorsInTube coors c a rIn rOut len true).Pairwise (· < ·) := by
  constructor
  · intro i
    unfold coorsInTube
    simp only [if_true, mem_whereIdx, Bool.and_eq_true, decide_eq_true_eq, tubeCoors_iff _ _ _ ha]
    constructor
    · rintro ⟨x, hx, ⟨⟨h1, h2⟩, h3⟩, h4⟩
      exact ⟨x, _, _, hx, ⟨rfl, rfl⟩, abs_le.2 ⟨by linarith, by linarith⟩, h3, h4⟩
    · rintro ⟨x, s, r, hx, ⟨rfl, rfl⟩, h1, h2, h3⟩
      obtain ⟨h4, h5⟩ := abs_le.1 h1
      exact ⟨x, hx, ⟨⟨by linarith, by linarith⟩, h2⟩, h3⟩
  · simp only [coorsInTube, if_true]
    exact sorted_whereIdx _ _

/-- **C96.**  With `inside_radii=False` the points outside of the radii are documented, but nothing is ever
selected if the inner radius is smaller than the outer one: the two conditions are joined by "and". -/
theorem C96_tube_outside_is_empty (coors : List (Vec 3)) (c a : Vec 3) (rIn rOut len : ℝ) (h : rIn < rOut) :
    coorsInTube coors c a rIn rOut len false = [] := by
  rw [List.eq_nil_iff_forall_not_mem]
  intro i hi
  unfold coorsInTube at hi
  simp only [Bool.false_eq_true, if_false, mem_whereIdx, Bool.and_eq_true, decide_eq_true_eq] at hi
  obtain ⟨x, -, ⟨-, h3⟩, h4⟩ := hi
  linarith

/-- **C96.**  `get_coors_in_ball` selects, in the increasing order, by the distance from the centre, as
documented in three of the four cases. -/
theorem C96_ball {d : ℕ} (coors : List (Vec d)) (c : Vec d) (r r2 : ℝ) :
    (∀ i, i ∈ coorsInBall coors c r none true ↔
      ∃ x, coors[i]? = some x ∧ √(∑ k, (x k - c k) ^ 2) ≤ r) ∧
    (∀ i, i ∈ coorsInBall coors c r (some r2) true ↔
      ∃ x, coors[i]? = some x ∧ r2 ≤ √(∑ k, (x k - c k) ^ 2) ∧ √(∑ k, (x k - c k) ^ 2) ≤ r) ∧
    (∀ i, i ∈ coorsInBall coors c r none false ↔
      ∃ x, coors[i]? = some x ∧ r ≤ √(∑ k, (x k - c k) ^ 2)) ∧
    (∀ rr inside, (coorsInBall coors c r rr inside).Pairwise (· < ·)) := by
  have e : ∀ x : Vec d, norm (x - c) = √(∑ k, (x k - c k) ^ 2) := fun x => rfl
  refine ⟨fun i => ?_, fun i => ?_, fun i => ?_, fun rr inside => ?_⟩
  · simp [coorsInBall, mem_whereIdx, e]
  · simp only [coorsInBall, if_true, mem_whereIdx, e, Bool.and_eq_true, decide_eq_true_eq, ge_iff_le]
    exact exists_congr fun x => by tauto
  · simp [coorsInBall, mem_whereIdx, e]
  · cases rr <;> cases inside <;> simp only [coorsInBall, Bool.false_eq_true, if_false, if_true] <;>
      exact sorted_whereIdx _ _

/-- **C96.**  In the fourth case `|x - c| >= r | |x - c| <= r2` is documented; the code joins the conditions
by "and", so the result is the documented one only if every point meets both of the conditions or none of
them, and it is empty if `r2 < r`. -/
theorem C96_ball_outside_two_radii {d : ℕ} (coors : List (Vec d)) (c : Vec d) (r r2 : ℝ) :
    (∀ i, i ∈ coorsInBall coors c r (some r2) false ↔
      ∃ x, coors[i]? = some x ∧ r ≤ √(∑ k, (x k - c k) ^ 2) ∧ √(∑ k, (x k - c k) ^ 2) ≤ r2) ∧
    (r2 < r → coorsInBall coors c r (some r2) false = []) ∧
    ((∀ i, i ∈ coorsInBall coors c r (some r2) false ↔
        ∃ x, coors[i]? = some x ∧ (r ≤ √(∑ k, (x k - c k) ^ 2) ∨ √(∑ k, (x k - c k) ^ 2) ≤ r2)) ↔
      ∀ x ∈ coors, (r ≤ √(∑ k, (x k - c k) ^ 2) ↔ √(∑ k, (x k - c k) ^ 2) ≤ r2)) := by
  have e : ∀ x : Vec d, norm (x - c) = √(∑ k, (x k - c k) ^ 2) := fun x => rfl
  have h1 : ∀ i, i ∈ coorsInBall coors c r (some r2) false ↔
      ∃ x, coors[i]? = some x ∧ r ≤ √(∑ k, (x k - c k) ^ 2) ∧ √(∑ k, (x k - c k) ^ 2) ≤ r2 := by
    intro i
    simp only [coorsInBall, Bool.false_eq_true, if_false, mem_whereIdx, e, Bool.and_eq_true, decide_eq_true_eq,
      ge_iff_le]
  refine ⟨h1, fun h => ?_, ?_⟩
  · rw [List.eq_nil_iff_forall_not_mem]
    intro i hi
    obtain ⟨x, -, h3, h4⟩ := (h1 i).1 hi
    linarith
  · constructor
    · intro h x hx
      obtain ⟨i, hi, rfl⟩ := List.getElem_of_mem hx
      have hs : coors[i]? = some coors[i] := List.getElem?_eq_getElem hi
      have h3 := (h1 i).symm.trans (h i)
      constructor
      · intro h4
        obtain ⟨y, hy, h5⟩ := h3.2 ⟨_, hs, Or.inl h4⟩
        rw [hs] at hy; cases hy
        exact h5.2
      · intro h4
        obtain ⟨y, hy, h5⟩ := h3.2 ⟨_, hs, Or.inr h4⟩
        rw [hs] at hy; cases hy
        exact h5.1
    · intro h i
      rw [h1]
      refine exists_congr fun x => ?_
      constructor
      · rintro ⟨hx, h2, -⟩; exact ⟨hx, Or.inl h2⟩
      · rintro ⟨hx, h2⟩
        have := h x (List.mem_of_getElem? hx)
        exact ⟨hx, by tauto⟩

end Geo
