/-
C96: contact bodies.
-/
import Verif.Geo.Contact

namespace Geo

open Matrix

/-! ## Planes -/

theorem planeRot (n : Vec 3) (hn : IsUnit' n) (h : n 0 ^ 2 + n 1 ^ 2 ≠ 0) :
    (Verif.Mech.axisRotation (cross ![0, 0, 1] n) (Real.arccos (n 2))).mulVec n = ![0, 0, 1] := by
  have hu : n 0 * n 0 + n 1 * n 1 + n 2 * n 2 = 1 := by
    have := hn; simpa [IsUnit', Fin.sum_univ_three] using this
  have hp : 0 < n 0 ^ 2 + n 1 ^ 2 := lt_of_le_of_ne (by positivity) (Ne.symm h)
  have h1 : -1 ≤ n 2 := by nlinarith
  have h2 : n 2 ≤ 1 := by nlinarith
  have hc : Real.cos (Real.arccos (n 2)) = n 2 := Real.cos_arccos h1 h2
  set s := √(n 0 ^ 2 + n 1 ^ 2) with hs
  have hs2 : s ^ 2 = n 0 ^ 2 + n 1 ^ 2 := Real.sq_sqrt (le_of_lt hp)
  have hs0 : s ≠ 0 := (Real.sqrt_pos.2 hp).ne'
  have hsin : Real.sin (Real.arccos (n 2)) = s := by
    rw [Real.sin_arccos, hs]
    congr 1
    linarith
  have hnrm : √(cross ![0, 0, 1] n 0 ^ 2 + cross ![0, 0, 1] n 1 ^ 2 + cross ![0, 0, 1] n 2 ^ 2) = s := by
    rw [hs]
    congr 1
    simp [cross]
    ring
  funext i
  unfold Verif.Mech.axisRotation
  simp only [hc, hsin, hnrm]
  fin_cases i <;>
    simp [cross, Matrix.mulVec, dotProduct, Fin.sum_univ_three] <;> field_simp <;> ring_nf
  linarith

theorem unit_bounds (n : Vec 3) (hn : IsUnit' n) : n 0 ^ 2 + n 1 ^ 2 + n 2 ^ 2 = 1 ∧ -1 ≤ n 2 ∧ n 2 ≤ 1 := by
  have hu : n 0 * n 0 + n 1 * n 1 + n 2 * n 2 = 1 := by
    have := hn; simpa [IsUnit', Fin.sum_univ_three] using this
  refine ⟨by linarith, by nlinarith [sq_nonneg (n 0), sq_nonneg (n 1)],
    by nlinarith [sq_nonneg (n 0), sq_nonneg (n 1)]⟩

theorem dot_e3 (n : Vec 3) : dot ![0, 0, 1] n = n 2 := by
  simp [dot, Fin.sum_univ_three]

theorem arccos_le_of (n : Vec 3) (hn : IsUnit' n) :
    let t := Real.arccos (n 2)
    0 ≤ t ∧ t ≤ Real.pi ∧ Real.cos t = n 2 ∧ 0 ≤ Real.sin t ∧ Real.sin t ^ 2 = n 0 ^ 2 + n 1 ^ 2 ∧
    Real.sin t ≤ t ∧ Real.sin t ≤ Real.pi - t := by
  obtain ⟨h1, h2, h3⟩ := unit_bounds n hn
  have hc : Real.cos (Real.arccos (n 2)) = n 2 := Real.cos_arccos h2 h3
  have h0 := Real.arccos_nonneg (n 2)
  have hpi := Real.arccos_le_pi (n 2)
  refine ⟨h0, hpi, hc, Real.sin_nonneg_of_nonneg_of_le_pi h0 hpi, ?_, Real.sin_le h0, ?_⟩
  · have := Real.sin_sq_add_cos_sq (Real.arccos (n 2))
    rw [hc] at this
    linarith
  · rw [← Real.sin_pi_sub]
    exact Real.sin_le (by linarith)

theorem axisRotation_x (a : ℝ) :
    Verif.Mech.axisRotation ![1, 0, 0] a =
      !![1, 0, 0; 0, Real.cos a, Real.sin a; 0, -Real.sin a, Real.cos a] := by
  ext i j
  fin_cases i <;> fin_cases j <;> simp [Verif.Mech.axisRotation]

theorem e1_ne : (![1, 0, 0] : Vec 3) ≠ 0 := by
  intro h
  have := congrFun h 0
  simp at this

theorem cross_e3_ne (n : Vec 3) (h : n 0 ^ 2 + n 1 ^ 2 ≠ 0) : cross ![0, 0, 1] n ≠ 0 := by
  intro hc
  have h0 := congrFun hc 0
  have h1 := congrFun hc 1
  simp [cross] at h0 h1
  exact h (by rw [h0, h1]; ring)

theorem rotX_mulVec (c s : ℝ) (n : Vec 3) :
    (!![1, 0, 0; 0, c, s; 0, -s, c] : Matrix (Fin 3) (Fin 3) ℝ).mulVec n =
      ![n 0, c * n 1 + s * n 2, -s * n 1 + c * n 2] := by
  funext i
  fin_cases i <;> simp [Matrix.mulVec, dotProduct, Fin.sum_univ_three]

theorem antiparallel (n : Vec 3) (s eps : ℝ) (s0 : 0 ≤ s) (hse : s ≤ eps) (he' : eps ≤ 1 / 10 ^ 13)
    (hs : s ^ 2 = n 0 ^ 2 + n 1 ^ 2) (hu : n 0 ^ 2 + n 1 ^ 2 + n 2 ^ 2 = 1) (i : Fin 3) :
    |(![n 0, n 2 * n 1 + s * n 2, -s * n 1 + n 2 * n 2] : Vec 3) i - (![0, 0, 1] : Vec 3) i| ≤ 1 / 10 ^ 12 := by
  have n0 : |n 0| ≤ s := abs_le_of_sq_le_sq (by nlinarith [sq_nonneg (n 1)]) s0
  have n1 : |n 1| ≤ s := abs_le_of_sq_le_sq (by nlinarith [sq_nonneg (n 0)]) s0
  obtain ⟨m1, m2⟩ := abs_le.1 n1
  have h2 : |n 2| ≤ 1 := abs_le_of_sq_le_sq (by nlinarith [sq_nonneg (n 0), sq_nonneg (n 1)]) zero_le_one
  have e13 : (1 : ℝ) / 10 ^ 12 = 10 * (1 / 10 ^ 13) := by norm_num
  have e1 : (1 : ℝ) / 10 ^ 13 ≤ 1 := by norm_num
  rw [e13]
  generalize (1 : ℝ) / 10 ^ 13 = q at he' e1
  have hs2 : s ^ 2 ≤ q := by nlinarith
  fin_cases i
  · change |n 0 - 0| ≤ _
    rw [sub_zero]; linarith
  · change |n 2 * n 1 + s * n 2 - 0| ≤ _
    have h3 : |n 1 + s| ≤ 2 * s := abs_le.2 ⟨by linarith, by linarith⟩
    have : |n 2| * |n 1 + s| ≤ 1 * (2 * s) := mul_le_mul h2 h3 (abs_nonneg _) zero_le_one
    rw [show n 2 * n 1 + s * n 2 - 0 = n 2 * (n 1 + s) by ring, abs_mul]
    linarith
  · change |-s * n 1 + n 2 * n 2 - 1| ≤ _
    have q1 : s * n 1 ≤ s ^ 2 := by nlinarith
    have q2 : -s ^ 2 ≤ s * n 1 := by nlinarith
    have q3 : n 2 * n 2 = 1 - s ^ 2 := by linarith
    rw [q3, abs_le]
    constructor <;> linarith [sq_nonneg s]

theorem planeMtx_spec (n : Vec 3) (hn : IsUnit' n) (eps : ℝ) (he : 0 < eps) (he' : eps ≤ 1 / 10 ^ 13) :
    (planeMtx n eps)ᵀ * planeMtx n eps = 1 ∧ (planeMtx n eps).det = 1 ∧
    (∀ i, |((planeMtx n eps).mulVec n) i - (![0, 0, 1] : Vec 3) i| ≤ 1 / 10 ^ 12) ∧
    (n 0 ^ 2 + n 1 ^ 2 = 0 ∨ eps ^ 2 ≤ n 0 ^ 2 + n 1 ^ 2 → (planeMtx n eps).mulVec n = ![0, 0, 1]) := by
  obtain ⟨hu, hb1, hb2⟩ := unit_bounds n hn
  obtain ⟨t0, tpi, hc, s0, hs, st, spt⟩ := arccos_le_of n hn
  set t := Real.arccos (n 2) with ht
  set s := Real.sin t with hsdef
  have n0 : |n 0| ≤ s := abs_le_of_sq_le_sq (by nlinarith [sq_nonneg (n 1)]) s0
  have n1 : |n 1| ≤ s := abs_le_of_sq_le_sq (by nlinarith [sq_nonneg (n 0)]) s0
  have hpm : planeMtx n eps = if |t| < eps then 1 else if |t - Real.pi| < eps then
      Verif.Mech.axisRotation ![1, 0, 0] t else Verif.Mech.axisRotation (cross ![0, 0, 1] n) t := by
    unfold planeMtx
    rw [dot_e3]
  rw [hpm]
  have small : ∀ x : ℝ, |x| ≤ s → s ≤ eps → |x| ≤ 1 / 10 ^ 12 := by
    intro x hx hse
    refine le_trans hx (le_trans hse (le_trans he' ?_))
    norm_num
  split
  · rename_i h
    rw [abs_of_nonneg t0] at h
    refine ⟨by simp, by simp, ?_, ?_⟩
    · have hse : s ≤ eps := by linarith
      rw [Matrix.one_mulVec]
      intro i
      fin_cases i
      · simpa using small _ n0 hse
      · simpa using small _ n1 hse
      · have h1 := Real.one_sub_sq_div_two_le_cos (x := t)
        rw [hc] at h1
        simp only [Fin.isValue, Fin.reduceFinMk, Matrix.cons_val]
        rw [abs_le]
        have : t ^ 2 ≤ 1 / 10 ^ 13 := by
          have : t ≤ 1 / 10 ^ 13 := by linarith
          have : t ≤ 1 := by linarith [show (1 : ℝ) / 10 ^ 13 ≤ 1 by norm_num]
          nlinarith
        constructor
        · have : (1 : ℝ) / 10 ^ 13 ≤ 1 / 10 ^ 12 := by norm_num
          linarith
        · have : (0 : ℝ) ≤ 1 / 10 ^ 12 := by norm_num
          linarith
    · intro hx
      rw [Matrix.one_mulVec]
      have hz : n 0 ^ 2 + n 1 ^ 2 = 0 := by
        rcases hx with hx | hx
        · exact hx
        · exfalso
          have : s ^ 2 < eps ^ 2 := by
            have : s < eps := by linarith
            nlinarith
          linarith
      have a0 : n 0 = 0 := by nlinarith [sq_nonneg (n 0), sq_nonneg (n 1)]
      have a1 : n 1 = 0 := by nlinarith [sq_nonneg (n 0), sq_nonneg (n 1)]
      have a2 : n 2 = 1 := by
        have h2 : n 2 ^ 2 = 1 := by linarith
        rcases mul_self_eq_one_iff.1 (show n 2 * n 2 = 1 by rw [← pow_two]; exact h2) with h3 | h3
        · exact h3
        · exfalso
          rw [ht, h3, Real.arccos_neg_one] at h
          have := Real.two_le_pi
          have : (1 : ℝ) / 10 ^ 13 ≤ 1 := by norm_num
          linarith
      funext i
      fin_cases i <;> simp [a0, a1, a2]
  · split
    · rename_i h1 h
      have hpt : Real.pi - t < eps := by
        rw [abs_sub_comm, abs_of_nonneg (by linarith)] at h; exact h
      have hse : s ≤ eps := by linarith
      obtain ⟨r1, r2, -⟩ := Verif.Mech.C49_rotation _ e1_ne t t
      refine ⟨r1, r2, ?_, ?_⟩
      · rw [axisRotation_x, hc, ← hsdef, rotX_mulVec]
        exact antiparallel n s eps s0 hse he' hs hu
      · intro hx
        have hz : n 0 ^ 2 + n 1 ^ 2 = 0 := by
          rcases hx with hx | hx
          · exact hx
          · exfalso
            have : s ^ 2 < eps ^ 2 := by
              have : s < eps := by linarith
              nlinarith
            linarith
        have a0 : n 0 = 0 := by nlinarith [sq_nonneg (n 0), sq_nonneg (n 1)]
        have a1 : n 1 = 0 := by nlinarith [sq_nonneg (n 0), sq_nonneg (n 1)]
        have hs00 : s = 0 := by
          have : s ^ 2 = 0 := by linarith
          exact pow_eq_zero_iff (two_ne_zero) |>.1 this
        have h22 : n 2 * n 2 = 1 := by rw [a0, a1] at hu; linarith
        rw [axisRotation_x, hc, ← hsdef, hs00, rotX_mulVec, a0, a1, h22]
        simp
    · rename_i h1 h2
      have hne : n 0 ^ 2 + n 1 ^ 2 ≠ 0 := by
        intro hz
        have h22 : n 2 ^ 2 = 1 := by linarith
        rcases mul_self_eq_one_iff.1 (show n 2 * n 2 = 1 by rw [← pow_two]; exact h22) with h3 | h3
        · rw [ht, h3, Real.arccos_one] at h1
          simp at h1
          linarith
        · rw [ht, h3, Real.arccos_neg_one] at h2
          simp at h2
          linarith
      obtain ⟨r1, r2, -⟩ := Verif.Mech.C49_rotation _ (cross_e3_ne n hne) t t
      have hr := planeRot n hn hne
      rw [← ht] at hr
      refine ⟨r1, r2, fun i => ?_, fun _ => hr⟩
      rw [hr, sub_self, abs_zero]
      norm_num

theorem unit_of_ne (n : Vec 3) (hn : n ≠ 0) : IsUnit' (fun i => n i / norm n) := unit_div n (norm_pos_of_ne n hn)

/-- **C96.**  A contact plane is created for every nonzero normal (no assertion fails, also for the normals
parallel or almost parallel to the axis `z`), with a proper rotation matrix; the distance of a point is the
signed distance: moving the point back along the unit normal by the distance gives a point of the plane
through the anchor, and no point of the plane is nearer. -/
theorem C96_plane (anchor normal : Vec 3) (bounds : List (Vec 3)) (hn : normal ≠ 0) (eps : ℝ) (he : 0 < eps)
    (he' : eps ≤ 1 / 10 ^ 13) :
    ∃ P, mkPlane anchor normal bounds eps = some P ∧
      P.mtxᵀ * P.mtx = 1 ∧ P.mtx.det = 1 ∧ IsUnit' P.normal ∧ (∃ a : ℝ, 0 < a ∧ normal = a • P.normal) ∧
      ∀ x : Vec 3, Orth (x - P.distance x • P.normal - anchor) normal ∧
        ∀ y : Vec 3, Orth (y - anchor) normal → P.distance x ^ 2 ≤ ∑ i, (x i - y i) ^ 2 := by
  have hu := unit_of_ne normal hn
  obtain ⟨h1, h2, h3, -⟩ := planeMtx_spec _ hu eps he he'
  have hp := norm_pos_of_ne normal hn
  have hscale : ∀ i, normal i = norm normal * (normal i / norm normal) := fun i => by
    field_simp
  set u : Vec 3 := fun i => normal i / norm normal with hudef
  have horth : ∀ w : Vec 3, Orth w normal ↔ w 0 * u 0 + w 1 * u 1 + w 2 * u 2 = 0 := by
    intro w
    unfold Orth
    have : ∑ i, w i * normal i = norm normal * (w 0 * u 0 + w 1 * u 1 + w 2 * u 2) := by
      rw [Fin.sum_univ_three, hscale 0, hscale 1, hscale 2]
      simp only [hudef]
      ring
    rw [this, mul_eq_zero, or_iff_right (ne_of_gt hp)]
  have huu : u 0 * u 0 + u 1 * u 1 + u 2 * u 2 = 1 := by
    have := hu; simpa [IsUnit', Fin.sum_univ_three] using this
  refine ⟨_, if_pos h3, h1, h2, hu, ⟨norm normal, hp, funext hscale⟩, fun x => ⟨?_, fun y hy => ?_⟩⟩
  · rw [horth]
    simp only [Plane.distance, dot, Fin.sum_univ_three, Pi.sub_apply, Pi.smul_apply, smul_eq_mul]
    have key : ∀ D : ℝ, D = x 0 * u 0 + x 1 * u 1 + x 2 * u 2 -
        (anchor 0 * u 0 + anchor 1 * u 1 + anchor 2 * u 2) →
        (x 0 - D * u 0 - anchor 0) * u 0 + (x 1 - D * u 1 - anchor 1) * u 1 +
        (x 2 - D * u 2 - anchor 2) * u 2 = 0 := by
      intro D hD
      have : (x 0 - D * u 0 - anchor 0) * u 0 + (x 1 - D * u 1 - anchor 1) * u 1 +
        (x 2 - D * u 2 - anchor 2) * u 2 = x 0 * u 0 + x 1 * u 1 + x 2 * u 2 -
        (anchor 0 * u 0 + anchor 1 * u 1 + anchor 2 * u 2) -
        D * (u 0 * u 0 + u 1 * u 1 + u 2 * u 2) := by ring
      rw [this, huu, hD]
      ring
    exact key _ rfl
  · rw [horth] at hy
    simp only [Pi.sub_apply] at hy
    simp only [Plane.distance, dot, Fin.sum_univ_three]
    have : x 0 * u 0 + x 1 * u 1 + x 2 * u 2 - (anchor 0 * u 0 + anchor 1 * u 1 + anchor 2 * u 2) =
        (x 0 - y 0) * u 0 + (x 1 - y 1) * u 1 + (x 2 - y 2) * u 2 := by linarith
    have key : ∀ D : ℝ, D = (x 0 - y 0) * u 0 + (x 1 - y 1) * u 1 + (x 2 - y 2) * u 2 →
        D ^ 2 ≤ (x 0 - y 0) ^ 2 + (x 1 - y 1) ^ 2 + (x 2 - y 2) ^ 2 := by
      intro D hD
      have e : (x 0 - y 0 - D * u 0) ^ 2 + (x 1 - y 1 - D * u 1) ^ 2 + (x 2 - y 2 - D * u 2) ^ 2 =
          (x 0 - y 0) ^ 2 + (x 1 - y 1) ^ 2 + (x 2 - y 2) ^ 2 -
          2 * D * ((x 0 - y 0) * u 0 + (x 1 - y 1) * u 1 + (x 2 - y 2) * u 2) +
          D ^ 2 * (u 0 * u 0 + u 1 * u 1 + u 2 * u 2) := by ring
      rw [huu, ← hD] at e
      nlinarith [sq_nonneg (x 0 - y 0 - D * u 0), sq_nonneg (x 1 - y 1 - D * u 1),
        sq_nonneg (x 2 - y 2 - D * u 2)]
    exact key _ this

/-- **C96.**  Apart from the normals that are within `eps` of the axis `z` but not parallel to it, the mask of a
contact plane is the point-in-polygon test of the orthogonal projections to the plane, in the coordinates of
a right-handed orthonormal basis with the unit normal; so it does not change when points move along the
normal. -/
theorem C96_plane_mask (normal : Vec 3) (hn : normal ≠ 0) (eps : ℝ) (he : 0 < eps) (he' : eps ≤ 1 / 10 ^ 13)
    (hg : normal 0 ^ 2 + normal 1 ^ 2 = 0 ∨ eps ^ 2 * (∑ i, normal i ^ 2) ≤ normal 0 ^ 2 + normal 1 ^ 2) :
    ∃ u w : Vec 3, IsUnit' u ∧ IsUnit' w ∧ Orth u w ∧ Orth u normal ∧ Orth w normal ∧
      0 < (Matrix.of ![u, w, normal]).det ∧
      ∀ (anchor : Vec 3) (bounds : List (Vec 3)) P, mkPlane anchor normal bounds eps = some P →
        (∀ x, P.mask x = inPolygon (bounds.map fun b => (∑ i, u i * b i, ∑ i, w i * b i))
          (∑ i, u i * x i, ∑ i, w i * x i)) ∧
        ∀ x (t : ℝ), P.mask (x + t • normal) = P.mask x := by
  have hunit := unit_of_ne normal hn
  obtain ⟨h1, h2, -, h4⟩ := planeMtx_spec _ hunit eps he he'
  have hp := norm_pos_of_ne normal hn
  have hscale : ∀ i, normal i = norm normal * (normal i / norm normal) := fun i => by
    field_simp
  have hsq : norm normal ^ 2 = ∑ i, normal i ^ 2 := norm_sq normal
  have hR := h4 (by
    have e : (normal 0 / norm normal) ^ 2 + (normal 1 / norm normal) ^ 2 =
        (normal 0 ^ 2 + normal 1 ^ 2) / norm normal ^ 2 := by ring
    rw [e]
    rcases hg with hg | hg
    · left; rw [hg, zero_div]
    · right; rw [le_div_iff₀ (pow_pos hp 2), hsq]; exact hg)
  set m : Vec 3 := fun i => normal i / norm normal with hm
  set R := planeMtx m eps with hRdef
  have hRn : R.mulVec normal = fun i => norm normal * (![0, 0, 1] : Vec 3) i := by
    have : normal = norm normal • m := funext hscale
    rw [this, Matrix.mulVec_smul, hR]
    have h5 : norm (norm normal • m) = norm normal := by rw [← this]
    funext i
    simp only [Pi.smul_apply, smul_eq_mul, h5]
  have h1' : R * Rᵀ = 1 := mul_eq_one_comm.1 h1
  have row : ∀ i j, ∑ k, R i k * R j k = if i = j then 1 else 0 := by
    intro i j
    have := congrFun (congrFun h1' i) j
    rw [Matrix.mul_apply, Matrix.one_apply] at this
    exact this
  have hN : ∀ i, ∑ k, R i k * normal k = norm normal * (![0, 0, 1] : Vec 3) i := fun i => congrFun hRn i
  refine ⟨R 0, R 1, row 0 0, row 1 1, row 0 1, ?_, ?_, ?_, ?_⟩
  · exact (hN 0).trans (by simp)
  · exact (hN 1).trans (by simp)
  · -- the third row of the matrix is the unit normal
    have h3 : ∀ k, R 2 k = m k := by
      intro k
      have e := congrFun (congrArg (fun v => Rᵀ.mulVec v) hR) k
      simp only [Matrix.mulVec_mulVec, h1, Matrix.one_mulVec] at e
      rw [e]
      simp [Matrix.mulVec, dotProduct, Fin.sum_univ_three, Matrix.transpose_apply]
    have hdet : (Matrix.of ![R 0, R 1, normal]).det = norm normal * R.det := by
      rw [Matrix.det_fin_three, Matrix.det_fin_three]
      simp only [Matrix.of_apply, Matrix.cons_val_zero, Matrix.cons_val_one, Matrix.cons_val, h3]
      rw [hscale 0, hscale 1, hscale 2]
      simp only [hm]
      ring
    rw [hdet, h2, mul_one]
    exact hp
  · intro anchor bounds P hP
    have hPm : P.mtx = R ∧ P.bounds2d = bounds.map fun b => xy (R.mulVec b) := by
      unfold mkPlane at hP
      simp only at hP
      split at hP
      · cases hP; exact ⟨rfl, rfl⟩
      · cases hP
    have hmask : ∀ x, P.mask x = inPolygon (bounds.map fun b => (∑ i, R 0 i * b i, ∑ i, R 1 i * b i))
          (∑ i, R 0 i * x i, ∑ i, R 1 i * x i) := by
      intro x
      unfold Plane.mask
      rw [hPm.1, hPm.2]
      rfl
    refine ⟨hmask, fun x t => ?_⟩
    rw [hmask, hmask]
    have e : ∀ k : Fin 3, (![0, 0, 1] : Vec 3) k = 0 → ∑ i, R k i * (x + t • normal) i = ∑ i, R k i * x i := by
      intro k hk
      have : ∑ i, R k i * (x + t • normal) i = ∑ i, R k i * x i + t * ∑ i, R k i * normal i := by
        rw [Finset.mul_sum, ← Finset.sum_add_distrib]
        refine Finset.sum_congr rfl fun i _ => ?_
        simp only [Pi.add_apply, Pi.smul_apply, smul_eq_mul]
        ring
      rw [this, hN, hk]
      ring
    rw [e 0 (by simp), e 1 (by simp)]

/-! ## Spheres -/

/-- **C96.**  The mask of a contact sphere selects the points within the radius enlarged by the relative
tolerance; the penetration is nonnegative exactly for the points in the sphere, and it is the distance to its
surface. -/
theorem C96_sphere {d : ℕ} (c x : Vec d) (r eps : ℝ) (hr : 0 ≤ r) (he : -1 ≤ eps) :
    (sphereMask c r eps x = true ↔ √(∑ i, (x i - c i) ^ 2) ≤ (1 + eps) * r) ∧
    sphereDistance c r x = r - √(∑ i, (x i - c i) ^ 2) := by
  constructor
  · unfold sphereMask
    rw [decide_eq_true_eq, Real.sqrt_le_left (mul_nonneg (by linarith) hr), mul_pow]
    rfl
  · unfold sphereDistance norm norm2
    congr 2
    refine Finset.sum_congr rfl fun i _ => ?_
    simp only [Pi.sub_apply]
    ring

theorem hasFDerivAt_norm {d : ℕ} (c x : Vec d) (hx : x ≠ c) :
    HasFDerivAt (fun y : Vec d => norm (c - y))
      (∑ i, (-((c - x) i / norm (c - x))) • (ContinuousLinearMap.proj i : Vec d →L[ℝ] ℝ)) x := by
  have hp : 0 < norm (c - x) := norm_pos_of_ne _ (sub_ne_zero.2 (Ne.symm hx))
  have h2 : HasFDerivAt (fun y : Vec d => norm2 (c - y))
      (∑ i, (2 * (c - x) i * -1) • (ContinuousLinearMap.proj i : Vec d →L[ℝ] ℝ)) x := by
    unfold norm2
    refine HasFDerivAt.fun_sum fun i _ => ?_
    have h0 : HasFDerivAt (fun y : Vec d => y i) (ContinuousLinearMap.proj i : Vec d →L[ℝ] ℝ) x :=
      hasFDerivAt_apply i x
    have h1 := (h0.const_sub (c i)).pow 2
    refine h1.congr_fderiv ?_
    ext v
    simp
  have h3 := h2.sqrt (by
    have := norm_sq (c - x)
    have : 0 < norm2 (c - x) := by rw [← this]; positivity
    exact ne_of_gt this)
  refine h3.congr_fderiv ?_
  rw [Finset.smul_sum]
  refine Finset.sum_congr rfl fun i _ => ?_
  rw [smul_smul]
  congr 1
  change 1 / (2 * norm (c - x)) * (2 * (c - x) i * -1) = _
  field_simp

/-- **C96.**  `_get_derivatives` are the (Fréchet) derivatives, w.r.t. the coordinates of the point, of the
penetration and of the components of the unit normal, away from the centre. -/
theorem C96_sphere_derivatives {d : ℕ} (c x : Vec d) (r : ℝ) (hx : x ≠ c) :
    HasFDerivAt (sphereDistance c r)
      (∑ i, (sphereDerivatives c x).1 i • (ContinuousLinearMap.proj i : Vec d →L[ℝ] ℝ)) x ∧
    (∀ k, HasFDerivAt (fun y : Vec d => (c k - y k) / √(∑ i, (c i - y i) ^ 2))
      (∑ i, (sphereDerivatives c x).2 k i • (ContinuousLinearMap.proj i : Vec d →L[ℝ] ℝ)) x) ∧
    (∀ k, (sphereDerivatives c x).1 k = (c k - x k) / √(∑ i, (c i - x i) ^ 2)) := by
  have hp : 0 < norm (c - x) := norm_pos_of_ne _ (sub_ne_zero.2 (Ne.symm hx))
  have hN := hasFDerivAt_norm c x hx
  refine ⟨?_, fun k => ?_, fun k => rfl⟩
  · have := hN.const_sub r
    refine this.congr_fderiv ?_
    rw [← Finset.sum_neg_distrib]
    refine Finset.sum_congr rfl fun i _ => ?_
    rw [← neg_smul, neg_neg]
    rfl
  · have h0 : HasFDerivAt (fun y : Vec d => y k) (ContinuousLinearMap.proj k : Vec d →L[ℝ] ℝ) x :=
      hasFDerivAt_apply k x
    have hinv : HasFDerivAt (fun y : Vec d => (norm (c - y))⁻¹) _ x :=
      (hasDerivAt_inv (ne_of_gt hp)).comp_hasFDerivAt x hN
    have h1 := (h0.const_sub (c k)).mul hinv
    refine (h1.congr_fderiv ?_).congr_of_eventuallyEq ?_
    · ext v
      simp only [sphereDerivatives, _root_.add_apply, _root_.smul_apply,
        _root_.neg_apply, ContinuousLinearMap.proj_apply, _root_.sum_apply,
        smul_eq_mul, Matrix.of_apply]
      have hk : v k = ∑ i, (if k = i then 1 else 0) * v i := by
        simp
      rw [hk, ← Finset.sum_neg_distrib, Finset.mul_sum, Finset.mul_sum, Finset.mul_sum,
        ← Finset.sum_add_distrib]
      refine Finset.sum_congr rfl fun i _ => ?_
      have e : (c - x) k = c k - x k := rfl
      rw [e]
      field_simp
      ring
    · exact Filter.Eventually.of_forall fun y => div_eq_mul_inv _ _

/-- **C96.**  If every point is farther than `1e-8` from the centre, the normals are the unit vectors from the
points to the centre. -/
theorem C96_sphere_normals {d : ℕ} (c : Vec d) (points : List (Vec d))
    (h : ∀ x ∈ points, 1 / 10 ^ 8 < √(∑ i, (c i - x i) ^ 2)) :
    sphereNormals c points = some (points.map fun x => fun k => (c k - x k) / √(∑ i, (c i - x i) ^ 2)) := by
  have hf : (points.map fun x => c - x).filter (fun v => decide (norm v > 1 / 10 ^ 8)) =
      points.map fun x => c - x := by
    rw [List.filter_eq_self]
    intro v hv
    obtain ⟨x, hx, rfl⟩ := List.mem_map.1 hv
    exact decide_eq_true (h x hx)
  unfold sphereNormals
  simp only [hf, List.length_map, if_true, Option.some.injEq]
  rw [List.zipWith_map_left, List.zipWith_map_left, List.zipWith_map_right, List.zipWith_self]
  refine List.map_congr_left fun x hx => ?_
  rw [if_pos (show decide (norm (c - x) > 1 / 10 ^ 8) = true from decide_eq_true (h x hx))]
  rfl

/-- **C96.**  Otherwise, for two or more points, the protection against the division by zero does not work:
unless exactly one point is far, the call fails; if exactly one point is far, its normal is returned for it,
and its unnormalized vector for all the other points. -/
theorem C96_sphere_normals_near {d : ℕ} (c : Vec d) (points : List (Vec d)) (h2 : 2 ≤ points.length)
    (hn : ∃ x ∈ points, √(∑ i, (c i - x i) ^ 2) ≤ 1 / 10 ^ 8) :
    (points.countP (fun x => decide (1 / 10 ^ 8 < √(∑ i, (c i - x i) ^ 2))) ≠ 1 → sphereNormals c points = none) ∧
    ∀ l x r, points = l ++ x :: r → 1 / 10 ^ 8 < √(∑ i, (c i - x i) ^ 2) →
      (∀ y ∈ l ++ r, √(∑ i, (c i - y i) ^ 2) ≤ 1 / 10 ^ 8) →
      sphereNormals c points = some (l.map (fun _ => c - x) ++
        (fun k => (c k - x k) / √(∑ i, (c i - x i) ^ 2)) :: r.map (fun _ => c - x)) := by
  have hc : ((points.map fun x => c - x).filter (fun v => decide (norm v > 1 / 10 ^ 8))).length =
      points.countP (fun x => decide (1 / 10 ^ 8 < √(∑ i, (c i - x i) ^ 2))) := by
    rw [← List.countP_eq_length_filter, List.countP_map]
    rfl
  constructor
  · intro h1
    unfold sphereNormals
    simp only [hc]
    rw [if_neg, if_neg h1, if_neg (by omega)]
    intro he
    rw [List.countP_eq_length] at he
    obtain ⟨x, hx, hx'⟩ := hn
    exact absurd (of_decide_eq_true (he x hx)) (not_lt.2 hx')
  · rintro l x r rfl hx hy
    have hfar : ∀ y ∈ l ++ r, decide (norm (c - y) > 1 / 10 ^ 8) = false := by
      intro y hyy
      exact decide_eq_false (not_lt.2 (hy y hyy))
    have hx' : decide (norm (c - x) > 1 / 10 ^ 8) = true := decide_eq_true hx
    have hsel : ((l ++ x :: r).map fun x => c - x).filter (fun v => decide (norm v > 1 / 10 ^ 8)) = [c - x] := by
      have hnil : ∀ m : List (Vec d), (∀ y ∈ m, decide (norm (c - y) > 1 / 10 ^ 8) = false) →
          (m.map fun x => c - x).filter (fun v => decide (norm v > 1 / 10 ^ 8)) = [] := by
        intro m hm
        rw [List.filter_eq_nil_iff]
        intro v hv
        obtain ⟨y, hyy, rfl⟩ := List.mem_map.1 hv
        rw [hm y hyy]
        simp
      rw [List.map_append, List.map_cons, List.filter_append, List.filter_cons, if_pos hx',
        hnil l fun y h => hfar y (List.mem_append_left _ h), hnil r fun y h => hfar y (List.mem_append_right _ h)]
      rfl
    unfold sphereNormals
    simp only [hsel]
    rw [if_neg (by simp at h2 ⊢; omega), if_pos (by rfl)]
    simp only [List.headD_cons, List.map_map, List.map_append, List.map_cons]
    congr 2
    · refine List.map_congr_left fun y h => ?_
      exact if_neg (by simp only [Function.comp, hfar y (List.mem_append_left _ h)]; exact Bool.false_ne_true)
    · congr 1
      · rw [hx']; rfl
      · refine List.map_congr_left fun y h => ?_
        exact if_neg (by simp only [Function.comp, hfar y (List.mem_append_right _ h)]; exact Bool.false_ne_true)

end Geo
