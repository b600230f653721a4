import Mathlib.Analysis.SpecialFunctions.Pow.Deriv
import Mathlib.Analysis.Calculus.Deriv.Inv
import Mathlib.Analysis.Calculus.Deriv.Slope
import Mathlib.Algebra.Order.BigOperators.Ring.Finset
import Mathlib.Tactic.Linarith
import Mathlib.Tactic.FieldSimp
import Verif.Ct.Model
import Verif.Geo.Model

/-!
# Properties of the contact terms

C145: the force law and the contact bodies.  C146: the terms and their tangents.
-/

open Finset

namespace Verif.Ct

/-! ## Specification -/

/-- The force law of the documentation of `dw_contact_plane`, `dw_contact_sphere`. -/
noncomputable def docForce (k f0 d : ℝ) : ℝ :=
  if f0 = 0 then (if d ≤ 0 then 0 else k * d)
  else if d ≤ -(2 * f0 / k) then 0
  else if d ≤ 0 then k ^ 2 / (4 * f0) * d ^ 2 + k * d + f0
  else k * d + f0

/-- The parameters which are not changed by the tolerance of the code. -/
def GoodPars (k f0 : ℝ) : Prop := 0 < k ∧ (f0 = 0 ∨ 1e-14 ≤ f0)

/-! ## C145 -/

/-- The law of the code is the documented one. -/
theorem C145_force_law (k f0 d : ℝ) (h : GoodPars k f0) : force k f0 d false = docForce k f0 d := by
  obtain ⟨hk, rfl | hf⟩ := h
  · have h1 : ¬ ((0 : ℝ) ≥ 1e-14) := by norm_num
    by_cases hd : d ≤ 0
    · simp [force, smoothF, docForce, epsPar, h1, hd, not_lt.2 hd]
    · simp [force, smoothF, docForce, epsPar, h1, hd, not_le.1 hd]
  · have hf0 : 0 < f0 := lt_of_lt_of_le (by norm_num) hf
    have he : -2.0 * f0 / k = -(2 * f0 / k) := by norm_num; ring
    have h4 : (4.0 : ℝ) = 4 := by norm_num
    simp only [force, smoothF, docForce, epsPar, aPar, ge_iff_le, hf, if_true, he, h4, hf0.ne', if_false,
      Bool.false_eq_true]
    by_cases h1 : d ≤ -(2 * f0 / k)
    · have : d ≤ 0 := h1.trans (by have := div_pos hf0 hk; rw [neg_nonpos]; positivity)
      simp [h1, not_lt.2 h1, not_lt.2 this]
    · by_cases h2 : d ≤ 0
      · simp [h1, h2, not_le.1 h1]
      · simp [h1, h2, not_le.1 h2]

theorem docForce_sq (k f0 d : ℝ) (hk : 0 < k) (hf : 0 < f0) :
    k ^ 2 / (4 * f0) * d ^ 2 + k * d + f0 = (k * d + 2 * f0) ^ 2 / (4 * f0) := by
  field_simp; ring

/-- The contact never pulls. -/
theorem C145_force_nonneg (k f0 d : ℝ) (h : GoodPars k f0) : 0 ≤ force k f0 d false := by
  rw [C145_force_law k f0 d h]
  obtain ⟨hk, rfl | hf⟩ := h
  · simp only [docForce, if_true]
    split_ifs with h1
    · exact le_rfl
    · exact (mul_pos hk (not_le.1 h1)).le
  · have hf0 : 0 < f0 := lt_of_lt_of_le (by norm_num) hf
    simp only [docForce, hf0.ne', if_false]
    split_ifs with h1 h2
    · exact le_rfl
    · rw [docForce_sq k f0 d hk hf0]; positivity
    · have := mul_pos hk (not_le.1 h2); linarith

/-- The force does not decrease with the penetration. -/
theorem C145_force_monotone (k f0 : ℝ) (h : GoodPars k f0) : Monotone fun d => force k f0 d false := by
  intro d e hde
  have hn := C145_force_nonneg k f0 e h
  simp only at hn ⊢
  rw [C145_force_law k f0 e h] at hn ⊢
  rw [C145_force_law k f0 d h]
  obtain ⟨hk, rfl | hf⟩ := h
  · simp only [docForce, if_true] at hn ⊢
    split_ifs at hn ⊢ with h1 h2 h2
    · exact le_rfl
    · exact hn
    · linarith
    · exact mul_le_mul_of_nonneg_left hde hk.le
  · have hf0 : 0 < f0 := lt_of_lt_of_le (by norm_num) hf
    simp only [docForce, hf0.ne', if_false] at hn ⊢
    by_cases h1 : d ≤ -(2 * f0 / k)
    · rw [if_pos h1]; exact hn
    · have h1' : ¬ e ≤ -(2 * f0 / k) := fun h => h1 (hde.trans h)
      rw [if_neg h1, if_neg h1']
      have hp : 0 < k * d + 2 * f0 := by
        have := mul_lt_mul_of_pos_left (not_le.1 h1) hk
        have h2 : k * -(2 * f0 / k) = -(2 * f0) := by field_simp
        linarith
      have hkde := mul_le_mul_of_nonneg_left hde hk.le
      by_cases h2 : e ≤ 0
      · rw [if_pos (hde.trans h2), if_pos h2, docForce_sq k f0 d hk hf0, docForce_sq k f0 e hk hf0]
        apply div_le_div_of_nonneg_right _ (by positivity)
        nlinarith
      · rw [if_neg h2]
        by_cases h3 : d ≤ 0
        · rw [if_pos h3]
          have h4 : k ^ 2 / (4 * f0) * d ^ 2 + k * d ≤ 0 := by
            have : k ^ 2 / (4 * f0) * d ^ 2 + k * d = k * d * (k * d + 4 * f0) / (4 * f0) := by field_simp
            rw [this]
            apply div_nonpos_of_nonpos_of_nonneg _ (by positivity)
            exact mul_nonpos_of_nonpos_of_nonneg (mul_nonpos_of_nonneg_of_nonpos hk.le h3) (by linarith)
          have := mul_pos hk (not_le.1 h2)
          linarith
        · rw [if_neg h3]; linarith

/-- A derivative from the two sides. -/
theorem hasDerivAt_glue (f g h : ℝ → ℝ) (x f' : ℝ) (hg : HasDerivAt g f' x) (hh : HasDerivAt h f' x)
    (hl : ∀ᶠ y in nhds x, y ≤ x → f y = g y) (hr : ∀ᶠ y in nhds x, x ≤ y → f y = h y) : HasDerivAt f f' x := by
  have e1 : HasDerivWithinAt f f' (Set.Iic x) x := by
    refine (hg.hasDerivWithinAt (s := Set.Iic x)).congr_of_eventuallyEq ?_ (hl.self_of_nhds le_rfl)
    exact eventually_nhdsWithin_iff.2 (hl.mono fun y hy hm => hy hm)
  have e2 : HasDerivWithinAt f f' (Set.Ici x) x := by
    refine (hh.hasDerivWithinAt (s := Set.Ici x)).congr_of_eventuallyEq ?_ (hr.self_of_nhds le_rfl)
    exact eventually_nhdsWithin_iff.2 (hr.mono fun y hy hm => hy hm)
  have := e1.union e2
  rwa [Set.Iic_union_Ici, hasDerivWithinAt_univ] at this

theorem quad_deriv (a k f0 d : ℝ) : HasDerivAt (fun y : ℝ => a * y ^ 2 + k * y + f0) (2 * a * d + k) d := by
  have := (((hasDerivAt_pow 2 d).const_mul a).add ((hasDerivAt_id d).const_mul k)).add_const f0
  refine (this.congr_deriv ?_)
  simp; ring

theorem lin_deriv (k f0 d : ℝ) : HasDerivAt (fun y : ℝ => k * y + f0) k d := by
  simpa using ((hasDerivAt_id d).const_mul k).add_const f0

/-- The derivative returned by the code is the derivative of the force: everywhere for `f0 > 0`, everywhere but in
the contact for `f0 = 0`. -/
theorem C145_force_deriv (k f0 d : ℝ) (h : GoodPars k f0) (hd : f0 = 0 → d ≠ 0) :
    HasDerivAt (fun y => force k f0 y false) (force k f0 d true) d := by
  obtain ⟨hk, rfl | hf⟩ := h
  · have h1 : ¬ ((0 : ℝ) ≥ 1e-14) := by norm_num
    rcases lt_or_gt_of_ne (hd rfl) with h2 | h2
    · have e : force k 0 d true = 0 := by simp [force, smoothF, epsPar, h1, not_lt.2 h2.le]
      rw [e]
      refine (hasDerivAt_const d (0 : ℝ)).congr_of_eventuallyEq ?_
      filter_upwards [Iio_mem_nhds h2] with y hy
      have hy' : y < 0 := hy
      simp [force, smoothF, epsPar, h1, not_lt.2 hy'.le]
    · have e : force k 0 d true = k := by simp [force, smoothF, epsPar, h1, h2]
      rw [e]
      refine (lin_deriv k 0 d).congr_of_eventuallyEq ?_
      filter_upwards [Ioi_mem_nhds h2] with y hy
      have hy' : 0 < y := hy
      simp [force, smoothF, epsPar, h1, hy', not_le.2 hy']
  · have hf0 : 0 < f0 := lt_of_lt_of_le (by norm_num) hf
    have he : epsPar k f0 = -(2 * f0 / k) := by simp only [epsPar, ge_iff_le, hf, if_true]; norm_num; ring
    have ha : aPar k f0 = k ^ 2 / (4 * f0) := by simp only [aPar, ge_iff_le, hf, if_true]; norm_num
    have hneg : epsPar k f0 < 0 := by rw [he]; have := div_pos (mul_pos two_pos hf0) hk; linarith
    have hda : 2 * aPar k f0 * epsPar k f0 + k = 0 := by rw [ha, he]; field_simp; ring
    have hva : aPar k f0 * epsPar k f0 ^ 2 + k * epsPar k f0 + f0 = 0 := by rw [ha, he]; field_simp; ring
    set e := epsPar k f0
    set a := aPar k f0
    have f1 : ∀ y b, y ≤ e → force k f0 y b = 0 := fun y b hy => by
      simp only [force, smoothF]
      rw [if_neg (fun h => absurd h.1 (not_lt.2 hy)), if_neg (not_lt.2 (hy.trans hneg.le))]
    have f2 : ∀ y, e < y → y ≤ 0 → force k f0 y false = a * y ^ 2 + k * y + f0 := fun y h1 h2 => by
      simp only [force, smoothF]; rw [if_pos ⟨h1, h2⟩]; simp [a]
    have f2' : ∀ y, e < y → y ≤ 0 → force k f0 y true = 2 * a * y + k := fun y h1 h2 => by
      simp only [force, smoothF]; rw [if_pos ⟨h1, h2⟩]; simp [a]
    have f3 : ∀ y, 0 < y → force k f0 y false = k * y + f0 := fun y h1 => by
      simp [force, smoothF, h1, not_le.2 h1]
    have f3' : ∀ y, 0 < y → force k f0 y true = k := fun y h1 => by
      simp [force, smoothF, h1, not_le.2 h1]
    rcases lt_trichotomy d e with h1 | h1 | h1
    · rw [f1 d true h1.le]
      refine (hasDerivAt_const d (0 : ℝ)).congr_of_eventuallyEq ?_
      filter_upwards [Iio_mem_nhds h1] with y hy
      exact f1 y false (le_of_lt hy)
    · rw [f1 d true h1.le]
      refine hasDerivAt_glue _ (fun _ => 0) (fun y => a * y ^ 2 + k * y + f0) d 0 (hasDerivAt_const _ _)
        (by have := quad_deriv a k f0 d; rwa [h1, hda, ← h1] at this) ?_ ?_
      · exact Filter.Eventually.of_forall fun y hy => f1 y false (hy.trans h1.le)
      · filter_upwards [Iio_mem_nhds (h1.trans_lt hneg)] with y hy hdy
        rcases eq_or_lt_of_le hdy with h2 | h2
        · rw [f1 y false (by rw [← h2, h1]), ← h2, h1, hva]
        · exact f2 y (h1 ▸ h2) (le_of_lt hy)
    · rcases lt_trichotomy d 0 with h2 | h2 | h2
      · rw [f2' d h1 h2.le]
        refine (quad_deriv a k f0 d).congr_of_eventuallyEq ?_
        filter_upwards [Ioo_mem_nhds h1 h2] with y hy
        exact f2 y hy.1 hy.2.le
      · rw [f2' d h1 h2.le]
        have hk' : 2 * a * d + k = k := by rw [h2]; ring
        rw [hk']
        refine hasDerivAt_glue _ (fun y => a * y ^ 2 + k * y + f0) (fun y => k * y + f0) d k
          (by have := quad_deriv a k f0 d; rwa [hk'] at this) (lin_deriv k f0 d) ?_ ?_
        · filter_upwards [Ioi_mem_nhds h1] with y hy hdy
          exact f2 y hy (h2 ▸ hdy)
        · filter_upwards [Ioi_mem_nhds h1] with y hy hdy
          rcases eq_or_lt_of_le hdy with h3 | h3
          · rw [f2 y hy (by rw [← h3, h2]), ← h3, h2]; ring
          · exact f3 y (h2 ▸ h3)
      · rw [f3' d h2]
        refine (lin_deriv k f0 d).congr_of_eventuallyEq ?_
        filter_upwards [Ioi_mem_nhds h2] with y hy
        exact f3 y hy

/-- For `f0 = 0` the force has a kink in the contact. -/
theorem C145_kink (k : ℝ) (hk : 0 < k) : ¬ DifferentiableAt ℝ (fun y => force k 0 y false) 0 := by
  intro h
  have h1 : ¬ ((0 : ℝ) ≥ 1e-14) := by norm_num
  have hd := h.hasDerivAt
  have e1 : HasDerivWithinAt (fun y => force k 0 y false) 0 (Set.Iic 0) 0 := by
    refine (hasDerivWithinAt_const (0 : ℝ) _ (0 : ℝ)).congr (fun y hy => ?_) ?_
    · have hy' : y ≤ 0 := hy
      simp [force, smoothF, epsPar, h1, not_lt.2 hy']
    · simp [force, smoothF, epsPar, h1]
  have e2 : HasDerivWithinAt (fun y => force k 0 y false) k (Set.Ici 0) 0 := by
    refine ((lin_deriv k 0 0).hasDerivWithinAt (s := Set.Ici 0)).congr (fun y hy => ?_) ?_
    · rcases eq_or_lt_of_le (show (0:ℝ) ≤ y from hy) with h2 | h2
      · simp [force, smoothF, epsPar, h1, ← h2]
      · simp [force, smoothF, epsPar, h1, h2, not_le.2 h2]
    · simp [force, smoothF, epsPar, h1]
  have u1 := (uniqueDiffWithinAt_Iic (0:ℝ)).eq_deriv _ e1 hd.hasDerivWithinAt
  have u2 := (uniqueDiffWithinAt_Ici (0:ℝ)).eq_deriv _ e2 hd.hasDerivWithinAt
  rw [← u2] at u1
  exact hk.ne u1

end Verif.Ct
