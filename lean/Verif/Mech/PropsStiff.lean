/-
C31 (elastic stiffness conversions) and C50 (plane stress transformation).
-/
import Verif.Mech.PropsTransform
import Mathlib.LinearAlgebra.Matrix.PosDef

namespace Verif.Mech

open Matrix

/-! ### C31 -/

section field
variable {K : Type} [Field K]

/-- Specification: Hooke's law `s_ij = lam tr(e) d_ij + 2 mu e_ij`. -/
def hooke {d : ℕ} (lam mu : K) (e : Matrix (Fin d) (Fin d) K) : Matrix (Fin d) (Fin d) K :=
  (lam * Matrix.trace e) • 1 + (2 * mu) • e

theorem stiff_entry (dim : ℕ) (lam mu : K) (i j : Fin (dim2sym dim)) :
    stiffnessFromLame dim lam mu i j =
      lam * ((if (i : ℕ) < dim then 1 else 0) * (if (j : ℕ) < dim then 1 else 0)) +
      if (i : ℕ) = (j : ℕ) then mu * ((if (i : ℕ) < dim then 1 else 0) + 1) else 0 := by
  simp only [stiffnessFromLame, oVec, Matrix.add_apply, Matrix.smul_apply, Matrix.of_apply,
    Matrix.diagonal_apply, smul_eq_mul, Fin.ext_iff, mul_ite, mul_zero]

/-- The matrix of `stiffness_from_lame()` is the documented one, in 2D and 3D. -/
theorem C31_stiffness_matrix (lam mu : K) :
    stiffnessFromLame 2 lam mu =
      (!![lam + 2 * mu, lam, 0; lam, lam + 2 * mu, 0; 0, 0, mu] : Matrix (Fin 3) (Fin 3) K) ∧
    stiffnessFromLame 3 lam mu =
      (!![lam + 2 * mu, lam, lam, 0, 0, 0;
          lam, lam + 2 * mu, lam, 0, 0, 0;
          lam, lam, lam + 2 * mu, 0, 0, 0;
          0, 0, 0, mu, 0, 0; 0, 0, 0, 0, mu, 0; 0, 0, 0, 0, 0, mu] :
        Matrix (Fin 6) (Fin 6) K) := by
  constructor
  · apply Matrix.ext
    intro (i : Fin 3) (j : Fin 3)
    refine (stiff_entry 2 lam mu i j).trans ?_
    fin_cases i <;> fin_cases j <;> simp <;> ring
  · apply Matrix.ext
    intro (i : Fin 6) (j : Fin 6)
    refine (stiff_entry 3 lam mu i j).trans ?_
    fin_cases i <;> fin_cases j <;> simp <;> ring

/-- `stiffness_from_lame(3, lam, mu)` as a `6 x 6` matrix (`dim2sym 3` is 6). -/
def stiffLame3 (lam mu : K) : Matrix (Fin 6) (Fin 6) K := stiffnessFromLame 3 lam mu

/-- `stiffness_from_lame(2, lam, mu)` as a `3 x 3` matrix. -/
def stiffLame2 (lam mu : K) : Matrix (Fin 3) (Fin 3) K := stiffnessFromLame 2 lam mu

/-- `stiffness_from_youngpoisson(3, ...)` as a `6 x 6` matrix. -/
def stiffYP3 (young poisson : K) (plane : Plane) : Matrix (Fin 6) (Fin 6) K :=
  stiffnessFromYoungpoisson 3 young poisson plane

/-- `stiffness_from_youngpoisson(2, ...)` as a `3 x 3` matrix. -/
def stiffYP2 (young poisson : K) (plane : Plane) : Matrix (Fin 3) (Fin 3) K :=
  stiffnessFromYoungpoisson 2 young poisson plane

theorem stiffLame3_eq (lam mu : K) : stiffLame3 lam mu =
    !![lam + 2 * mu, lam, lam, 0, 0, 0;
          lam, lam + 2 * mu, lam, 0, 0, 0;
          lam, lam, lam + 2 * mu, 0, 0, 0;
          0, 0, 0, mu, 0, 0; 0, 0, 0, 0, mu, 0; 0, 0, 0, 0, 0, mu] := (C31_stiffness_matrix lam mu).2

theorem stiffLame2_eq (lam mu : K) : stiffLame2 lam mu =
    !![lam + 2 * mu, lam, 0; lam, lam + 2 * mu, 0; 0, 0, mu] := (C31_stiffness_matrix lam mu).1

/-- The stiffness is symmetric in any dimension. -/
theorem C31_symmetric (dim : ℕ) (lam mu : K) :
    (stiffnessFromLame dim lam mu)ᵀ = stiffnessFromLame dim lam mu := by
  unfold stiffnessFromLame
  simp only [Matrix.transpose_add, Matrix.transpose_smul, Matrix.diagonal_transpose]
  congr 2
  ext i j
  simp [mul_comm]

/-- The stiffness acts on the strain of a displacement gradient as Hooke's law for the symmetric
part of the gradient. -/
theorem C31_hooke [CharZero K] (lam mu : K) (g : Matrix (Fin 2) (Fin 2) K)
    (h : Matrix (Fin 3) (Fin 3) K) :
    toFull2 (stiffLame2 lam mu *ᵥ getCauchyStrain2 g) =
      hooke lam mu ((1 / 2 : K) • (g + gᵀ)) ∧
    toFull3 (stiffLame3 lam mu *ᵥ getCauchyStrain3 h) =
      hooke lam mu ((1 / 2 : K) • (h + hᵀ)) := by
  have h2 : (2 : K) ≠ 0 := two_ne_zero
  have key2 : ∀ M : Matrix (Fin 3) (Fin 3) K,
      M = !![lam + 2 * mu, lam, 0; lam, lam + 2 * mu, 0; 0, 0, mu] →
      toFull2 (M *ᵥ getCauchyStrain2 g) = hooke lam mu ((1 / 2 : K) • (g + gᵀ)) := by
    rintro M rfl
    ext i j
    fin_cases i <;> fin_cases j <;>
      simp [toFull2, fullIdx2, hooke, getCauchyStrain2, flat2, Matrix.trace, Matrix.mulVec,
        dotProduct, Fin.sum_univ_succ] <;> field_simp <;> ring
  have key3 : ∀ M : Matrix (Fin 6) (Fin 6) K,
      M = !![lam + 2 * mu, lam, lam, 0, 0, 0;
          lam, lam + 2 * mu, lam, 0, 0, 0;
          lam, lam, lam + 2 * mu, 0, 0, 0;
          0, 0, 0, mu, 0, 0; 0, 0, 0, 0, mu, 0; 0, 0, 0, 0, 0, mu] →
      toFull3 (M *ᵥ getCauchyStrain3 h) = hooke lam mu ((1 / 2 : K) • (h + hᵀ)) := by
    rintro M rfl
    ext i j
    fin_cases i <;> fin_cases j <;>
      simp [toFull3, fullIdx3, hooke, getCauchyStrain3, flat3, Matrix.trace, Matrix.mulVec,
        dotProduct, Fin.sum_univ_succ] <;> field_simp <;> ring
  exact ⟨key2 _ (stiffLame2_eq lam mu), key3 _ (stiffLame3_eq lam mu)⟩

/-- The full tensor is `lam d_ij d_kl + mu (d_ik d_jl + d_il d_jk)`. -/
theorem C31_t4 (lam mu : K) (i j k l : Fin 3) :
    t4FromT2s3 (stiffLame3 lam mu) i j k l =
      lam * ((if i = j then 1 else 0) * (if k = l then 1 else 0)) +
      mu * ((if i = k then 1 else 0) * (if j = l then 1 else 0) +
        (if i = l then 1 else 0) * (if j = k then 1 else 0)) := by
  rw [stiffLame3_eq]
  fin_cases i <;> fin_cases j <;> fin_cases k <;> fin_cases l <;>
    simp [t4FromT2s3, fullIdx3] <;> ring

/-- The matrix of the mixed formulation plus the bulk modulus part is the stiffness (strain
hypothesis): the split used in `u-p` formulations, in every dimension. -/
theorem C31_mixed_split [CharZero K] (dim : ℕ) (lam mu : K) :
    stiffnessFromLameMixed dim lam mu +
      bulkFromLame lam mu • (Matrix.of fun i j : Fin (dim2sym dim) =>
        (if (i : ℕ) < dim then 1 else 0) * (if (j : ℕ) < dim then (1 : K) else 0)) =
    stiffnessFromLame dim lam mu := by
  have h3 : (3 : K) ≠ 0 := by exact_mod_cast (by norm_num : (3 : ℕ) ≠ 0)
  ext i j
  simp only [stiffnessFromLameMixed, stiffnessFromLame, bulkFromLame, oVec, Matrix.add_apply,
    Matrix.smul_apply, Matrix.of_apply, smul_eq_mul]
  field_simp
  ring

/-- Young's modulus and Poisson's ratio survive the round trip through the stiffness matrix, for
both planes and every dimension `≥ 2`. -/
theorem C31_roundtrip [CharZero K] (dim : ℕ) (hdim : 2 ≤ dim) (young poisson : K)
    (hE : young ≠ 0) (h1 : 1 + poisson ≠ 0) (h2 : 1 - 2 * poisson ≠ 0) (h3 : 1 - poisson ≠ 0)
    (plane : Plane) :
    youngpoissonFromStiffness (stiffnessFromYoungpoisson dim young poisson plane) plane =
      some (young, poisson) := by
  have hle : dim ≤ dim2sym dim := dim_le_sym dim
  have htwo : (2 : K) ≠ 0 := two_ne_zero
  have h2' : 1 - poisson * 2 ≠ 0 := by rwa [mul_comm poisson 2]
  have hs3 : dim + 1 ≤ dim2sym dim := by
    have := two_dim2sym dim
    nlinarith
  have lam_entry : ∀ lam mu : K, stiffnessFromLame dim lam mu ⟨0, by omega⟩ ⟨1, by omega⟩ = lam := by
    intro lam mu
    have a0 : 0 < dim := by omega
    have a1 : 1 < dim := by omega
    simp [stiffnessFromLame, oVec, Matrix.diagonal_apply, a0, a1]
  have mu_entry : ∀ lam mu : K, stiffnessFromLame dim lam mu ⟨dim2sym dim - 1, by omega⟩
      ⟨dim2sym dim - 1, by omega⟩ = mu := by
    intro lam mu
    have a0 : ¬ dim2sym dim - 1 < dim := by omega
    simp [stiffnessFromLame, oVec, a0]
  have hd : 2 ≤ dim2sym dim := by omega
  unfold youngpoissonFromStiffness lameFromStiffness stiffnessFromYoungpoisson
  simp only [hd, dif_pos, lam_entry, mu_entry]
  cases plane with
  | strain =>
    simp only [lameFromYoungpoisson, Option.bind_eq_bind, Option.bind_some]
    have hs : young * poisson / ((1 + poisson) * (1 - 2 * poisson)) + young / (2 * (1 + poisson))
        = young / (2 * (1 + poisson) * (1 - 2 * poisson)) := by
      field_simp; ring
    have hs0 : young / (2 * (1 + poisson) * (1 - 2 * poisson)) ≠ 0 := by
      exact div_ne_zero hE (mul_ne_zero (mul_ne_zero htwo h1) h2)
    rw [show (2 * (young * poisson / ((1 + poisson) * (1 - 2 * poisson)))
        + 2 * (young / (2 * (1 + poisson)))) = 2 * (young / (2 * (1 + poisson) * (1 - 2 * poisson)))
      by rw [← hs]; ring, hs]
    change some _ = some _
    congr 2
    · field_simp; ring
    · field_simp
  | stress =>
    simp only [lameFromYoungpoisson, Option.bind_eq_bind, Option.bind_some]
    set lam := young * poisson / ((1 + poisson) * (1 - 2 * poisson)) with hlam
    set mu := young / (2 * (1 + poisson)) with hmu
    have hmu0 : mu ≠ 0 := div_ne_zero hE (mul_ne_zero htwo h1)
    have hlm : lam + 2 * mu = young * (1 - poisson) / ((1 + poisson) * (1 - 2 * poisson)) := by
      rw [hlam, hmu]; field_simp; ring
    have hlm0 : lam + 2 * mu ≠ 0 := by
      rw [hlm]; exact div_ne_zero (mul_ne_zero hE h3) (mul_ne_zero h1 h2)
    have hback : -2 * mu * (2 * lam * mu / (lam + 2 * mu))
        / (2 * lam * mu / (lam + 2 * mu) - 2 * mu) = lam := by
      have : 2 * lam * mu / (lam + 2 * mu) - 2 * mu = -(4 * mu ^ 2) / (lam + 2 * mu) := by
        field_simp; ring
      rw [this]
      have h4 : (4 : K) ≠ 0 := by exact_mod_cast (by norm_num : (4 : ℕ) ≠ 0)
      field_simp
      ring
    rw [hback]
    have hs : lam + mu = young / (2 * (1 + poisson) * (1 - 2 * poisson)) := by
      rw [hlam, hmu]; field_simp; ring
    have hs0 : young / (2 * (1 + poisson) * (1 - 2 * poisson)) ≠ 0 := by
      exact div_ne_zero hE (mul_ne_zero (mul_ne_zero htwo h1) h2)
    rw [show 2 * lam + 2 * mu = 2 * (young / (2 * (1 + poisson) * (1 - 2 * poisson)))
      by rw [← hs]; ring, hs]
    change some _ = some _
    rw [hlam, hmu]
    congr 2
    · field_simp; ring
    · field_simp

example : youngpoissonFromStiffness (stiffnessFromYoungpoisson 3 (210 : ℚ) (3 / 10) .stress) .stress
    = some (210, 3 / 10) :=
  C31_roundtrip 3 (by norm_num) _ _ (by norm_num) (by norm_num) (by norm_num) (by norm_num) _

/-- The documented plane stress stiffness `E/(1 - nu^2) [[1, nu, 0], [nu, 1, 0], [0, 0, (1-nu)/2]]`.
-/
theorem C31_plane_stress_matrix [CharZero K] (young poisson : K)
    (hE : young ≠ 0) (h1 : 1 + poisson ≠ 0) (h2 : 1 - 2 * poisson ≠ 0) (h3 : 1 - poisson ≠ 0) :
    stiffnessFromYoungpoisson 2 young poisson .stress =
      ((young / (1 - poisson ^ 2)) •
        !![1, poisson, 0; poisson, 1, 0; 0, 0, (1 - poisson) / 2] : Matrix (Fin 3) (Fin 3) K) := by
  have htwo : (2 : K) ≠ 0 := two_ne_zero
  have h2' : 1 - poisson * 2 ≠ 0 := by rwa [mul_comm poisson 2]
  have hsq : 1 - poisson ^ 2 = (1 - poisson) * (1 + poisson) := by ring
  unfold stiffnessFromYoungpoisson
  rw [(C31_stiffness_matrix _ _).1]
  simp only [lameFromYoungpoisson]
  have hlm : young * poisson / ((1 + poisson) * (1 - 2 * poisson)) + 2 * (young / (2 * (1 + poisson)))
      = young * (1 - poisson) / ((1 + poisson) * (1 - 2 * poisson)) := by
    field_simp; ring
  rw [hlm, hsq]
  have hl : 2 * (young * poisson / ((1 + poisson) * (1 - 2 * poisson)))
      * (young / (2 * (1 + poisson)))
      / (young * (1 - poisson) / ((1 + poisson) * (1 - 2 * poisson)))
      = young * poisson / ((1 - poisson) * (1 + poisson)) := by
    field_simp
  rw [hl]
  ext i j
  fin_cases i <;> fin_cases j <;> simp <;> field_simp <;> ring

/-- Bulk modulus: `K = E / (3 (1 - 2 nu))`; with the strain hypothesis. -/
theorem C31_bulk [CharZero K] (young poisson : K) (h1 : 1 + poisson ≠ 0)
    (h2 : 1 - 2 * poisson ≠ 0) :
    bulkFromYoungpoisson young poisson .strain = young / (3 * (1 - 2 * poisson)) := by
  have htwo : (2 : K) ≠ 0 := two_ne_zero
  have h2' : 1 - poisson * 2 ≠ 0 := by rwa [mul_comm poisson 2]
  have h3 : (3 : K) ≠ 0 := by exact_mod_cast (by norm_num : (3 : ℕ) ≠ 0)
  simp only [bulkFromYoungpoisson, bulkFromLame, lameFromYoungpoisson]
  field_simp
  ring

/-- The orthotropic stiffness is the inverse of the documented compliance, it is symmetric, and for
isotropic data it is the isotropic stiffness. -/
theorem C31_ortho3 [DecidableEq K] (young poisson shear : Fin 3 → K)
    (D : Matrix (Fin 6) (Fin 6) K) (hD : stiffnessFromYpsOrtho3 young poisson shear = some D) :
    D * complianceOrtho3 young poisson shear = 1 ∧ complianceOrtho3 young poisson shear * D = 1 ∧
    Dᵀ = D := by
  unfold stiffnessFromYpsOrtho3 at hD
  simp only at hD
  split at hD
  · cases hD
  · rename_i hdet
    have hu : IsUnit (complianceOrtho3 young poisson shear).det := isUnit_iff_ne_zero.2 hdet
    obtain rfl := Option.some.inj hD
    refine ⟨Matrix.nonsing_inv_mul _ hu, Matrix.mul_nonsing_inv _ hu, ?_⟩
    rw [Matrix.transpose_nonsing_inv]
    congr 1
    ext i j
    fin_cases i <;> fin_cases j <;> rfl

/-- The orthotropic Hooke law, written out: the strain `e` which has the stress `s = D e` consists of
the axial strains `s_i / E_i` with the lateral contractions `nu_ij / E_i` and of the shears
`s_ij / G_ij`, where `young = (E_1, E_2, E_3)`, `poisson = (nu_12, nu_13, nu_23)`,
`shear = (G_12, G_13, G_23)` and the storage order is 11, 22, 33, 12, 13, 23. -/
theorem C31_ortho3_hooke [DecidableEq K] (young poisson shear : Fin 3 → K)
    (D : Matrix (Fin 6) (Fin 6) K) (hD : stiffnessFromYpsOrtho3 young poisson shear = some D)
    (e s : Fin 6 → K) (hs : s = D *ᵥ e) :
    e 0 = s 0 / young 0 - poisson 0 / young 0 * s 1 - poisson 1 / young 0 * s 2 ∧
    e 1 = - (poisson 0 / young 0) * s 0 + s 1 / young 1 - poisson 2 / young 1 * s 2 ∧
    e 2 = - (poisson 1 / young 0) * s 0 - poisson 2 / young 1 * s 1 + s 2 / young 2 ∧
    e 3 = s 3 / shear 0 ∧ e 4 = s 4 / shear 1 ∧ e 5 = s 5 / shear 2 := by
  have h := (C31_ortho3 young poisson shear D hD).2.1
  have he : e = complianceOrtho3 young poisson shear *ᵥ s := by
    rw [hs, Matrix.mulVec_mulVec, h, Matrix.one_mulVec]
  refine ⟨?_, ?_, ?_, ?_, ?_, ?_⟩ <;> rw [he] <;>
    simp [complianceOrtho3, Matrix.mulVec, dotProduct, Fin.sum_univ_succ] <;> ring

theorem C31_ortho3_isotropic [CharZero K] [DecidableEq K] (young poisson : K)
    (hE : young ≠ 0) (h1 : 1 + poisson ≠ 0) (h2 : 1 - 2 * poisson ≠ 0) :
    stiffnessFromYpsOrtho3 (fun _ => young) (fun _ => poisson)
      (fun _ => young / (2 * (1 + poisson))) =
    some (stiffYP3 young poisson .strain) := by
  have htwo : (2 : K) ≠ 0 := two_ne_zero
  have h2' : 1 - poisson * 2 ≠ 0 := by rwa [mul_comm poisson 2]
  have hinv : stiffYP3 young poisson .strain *
      complianceOrtho3 (fun _ => young) (fun _ => poisson)
        (fun _ => young / (2 * (1 + poisson))) = 1 := by
    change stiffLame3 _ _ * _ = _
    rw [stiffLame3_eq]
    simp only [lameFromYoungpoisson]
    ext i j
    fin_cases i <;> fin_cases j <;>
      simp [complianceOrtho3, Matrix.mul_apply, Fin.sum_univ_succ] <;> field_simp <;> ring
  have hdet : (complianceOrtho3 (fun _ => young) (fun _ => poisson)
        (fun _ => young / (2 * (1 + poisson)))).det ≠ 0 := by
    intro h
    have := congrArg Matrix.det hinv
    rw [Matrix.det_mul, h, mul_zero, Matrix.det_one] at this
    exact zero_ne_one this
  unfold stiffnessFromYpsOrtho3
  simp only [hdet, if_false]
  rw [Matrix.inv_eq_left_inv hinv]

end field

/-- Positive definiteness in 3D: for `mu > 0` and `3 lam + 2 mu > 0` the strain energy of a non-zero
strain is positive. -/
theorem C31_posdef3 (lam mu : ℝ) (hmu : 0 < mu) (hb : 0 < 3 * lam + 2 * mu) (e : Fin 6 → ℝ)
    (he : e ≠ 0) :
    0 < e ⬝ᵥ (stiffLame3 lam mu *ᵥ e) := by
  rw [stiffLame3_eq]
  have hexp : e ⬝ᵥ ((!![lam + 2 * mu, lam, lam, 0, 0, 0;
          lam, lam + 2 * mu, lam, 0, 0, 0;
          lam, lam, lam + 2 * mu, 0, 0, 0;
          0, 0, 0, mu, 0, 0; 0, 0, 0, 0, mu, 0; 0, 0, 0, 0, 0, mu] :
        Matrix (Fin 6) (Fin 6) ℝ) *ᵥ e) =
      (3 * lam + 2 * mu) / 3 * (e 0 + e 1 + e 2) ^ 2
      + 2 * mu / 3 * ((e 0 - e 1) ^ 2 + (e 1 - e 2) ^ 2 + (e 0 - e 2) ^ 2)
      + mu * (e 3 ^ 2 + e 4 ^ 2 + e 5 ^ 2) := by
    simp only [Matrix.mulVec, dotProduct, Fin.sum_univ_succ, Fin.sum_univ_zero]
    simp
    ring
  rw [hexp]
  by_contra hc
  push Not at hc
  have hb3 : 0 < (3 * lam + 2 * mu) / 3 := by linarith
  have hm3 : 0 < 2 * mu / 3 := by linarith
  have p1 : 0 ≤ (3 * lam + 2 * mu) / 3 * (e 0 + e 1 + e 2) ^ 2 := by positivity
  have p2 : 0 ≤ 2 * mu / 3 * ((e 0 - e 1) ^ 2 + (e 1 - e 2) ^ 2 + (e 0 - e 2) ^ 2) := by positivity
  have p3 : 0 ≤ mu * (e 3 ^ 2 + e 4 ^ 2 + e 5 ^ 2) := by positivity
  have z1 : (e 0 + e 1 + e 2) ^ 2 = 0 := by
    have : (3 * lam + 2 * mu) / 3 * (e 0 + e 1 + e 2) ^ 2 = 0 := by linarith
    rcases mul_eq_zero.1 this with h | h
    · linarith
    · exact h
  have z2 : (e 0 - e 1) ^ 2 + (e 1 - e 2) ^ 2 + (e 0 - e 2) ^ 2 = 0 := by
    have : 2 * mu / 3 * ((e 0 - e 1) ^ 2 + (e 1 - e 2) ^ 2 + (e 0 - e 2) ^ 2) = 0 := by linarith
    rcases mul_eq_zero.1 this with h | h
    · linarith
    · exact h
  have z3 : e 3 ^ 2 + e 4 ^ 2 + e 5 ^ 2 = 0 := by
    have : mu * (e 3 ^ 2 + e 4 ^ 2 + e 5 ^ 2) = 0 := by linarith
    rcases mul_eq_zero.1 this with h | h
    · linarith
    · exact h
  have sq0 : ∀ x : ℝ, x ^ 2 ≤ 0 → x = 0 := fun x hx =>
    pow_eq_zero_iff (n := 2) (by norm_num) |>.1 (le_antisymm hx (sq_nonneg x))
  have w0 := sq0 (e 0 + e 1 + e 2) z1.le
  have w1 := sq0 (e 0 - e 1) (by nlinarith [sq_nonneg (e 1 - e 2), sq_nonneg (e 0 - e 2)])
  have w2 := sq0 (e 1 - e 2) (by nlinarith [sq_nonneg (e 0 - e 1), sq_nonneg (e 0 - e 2)])
  have w3 := sq0 (e 3) (by nlinarith [sq_nonneg (e 4), sq_nonneg (e 5)])
  have w4 := sq0 (e 4) (by nlinarith [sq_nonneg (e 3), sq_nonneg (e 5)])
  have w5 := sq0 (e 5) (by nlinarith [sq_nonneg (e 4), sq_nonneg (e 3)])
  apply he
  funext i
  fin_cases i
  · change e 0 = 0; linarith
  · change e 1 = 0; linarith
  · change e 2 = 0; linarith
  · exact w3
  · exact w4
  · exact w5

/-- The conditions are also necessary. -/
theorem C31_posdef3_iff (lam mu : ℝ) :
    (∀ e : Fin 6 → ℝ, e ≠ 0 →
      0 < e ⬝ᵥ (stiffLame3 lam mu *ᵥ e)) ↔
    0 < mu ∧ 0 < 3 * lam + 2 * mu := by
  constructor
  · intro h
    rw [stiffLame3_eq] at h
    constructor
    · have := h ![0, 0, 0, 0, 0, 1] (fun hc => by simpa using congrFun hc 5)
      simpa [Matrix.mulVec, dotProduct, Fin.sum_univ_succ] using this
    · have := h ![1, 1, 1, 0, 0, 0] (fun hc => by simpa using congrFun hc 0)
      simp [Matrix.mulVec, dotProduct, Fin.sum_univ_succ] at this
      linarith
  · rintro ⟨h1, h2⟩ e he
    exact C31_posdef3 lam mu h1 h2 e he

/-- In terms of the engineering constants: `E > 0`, `-1 < nu < 1/2` give positive definiteness. -/
theorem C31_posdef_engineering (young poisson : ℝ) (hE : 0 < young) (h1 : -1 < poisson)
    (h2 : poisson < 1 / 2) (e : Fin 6 → ℝ) (he : e ≠ 0) :
    0 < e ⬝ᵥ (stiffYP3 young poisson .strain *ᵥ e) := by
  have a1 : 0 < 1 + poisson := by linarith
  have a2 : 0 < 1 - 2 * poisson := by linarith
  have a2' : 1 - poisson * 2 ≠ 0 := by linarith
  change 0 < e ⬝ᵥ (stiffLame3 _ _ *ᵥ e)
  apply C31_posdef3 _ _ _ _ e he
  · simp only [lameFromYoungpoisson]; positivity
  · simp only [lameFromYoungpoisson]
    rw [show 3 * (young * poisson / ((1 + poisson) * (1 - 2 * poisson)))
      + 2 * (young / (2 * (1 + poisson))) = young / (1 - 2 * poisson) by field_simp; ring]
    positivity

example : 0 < (![1, -1, 0, 0, 0, 1] : Fin 6 → ℝ) ⬝ᵥ (stiffYP3 210 0.3 .strain *ᵥ ![1, -1, 0, 0, 0, 1]) :=
  C31_posdef_engineering 210 0.3 (by norm_num) (by norm_num) (by norm_num) _
    (fun h => by simpa using congrFun h 0)

/-- Wave speeds: `youngpoisson_from_wave_speeds()` inverts `wave_speeds_from_youngpoisson()`, and
the speeds satisfy `rho vp^2 = lam + 2 mu`, `rho vs^2 = mu`. -/
theorem C31_wave_speeds (young poisson rho : ℝ) (hE : 0 < young) (h1 : -1 < poisson)
    (h2 : poisson < 1 / 2) (hr : 0 < rho) :
    let v := waveSpeedsFromYoungpoisson young poisson rho
    let lm := lameFromYoungpoisson young poisson
    youngpoissonFromWaveSpeeds v.1 v.2 rho = (young, poisson) ∧
    rho * v.1 ^ 2 = lm.1 + 2 * lm.2 ∧ rho * v.2 ^ 2 = lm.2 ∧ 0 < v.2 ∧ v.2 < v.1 := by
  intro v lm
  have a1 : 0 < 1 + poisson := by linarith
  have a2 : 0 < 1 - 2 * poisson := by linarith
  have a2' : 1 - poisson * 2 ≠ 0 := by linarith
  have a3 : 0 < 1 - poisson := by linarith
  have hp : v.1 ^ 2 = young * (1 - poisson) / (rho * (1 + poisson) * (1 - 2 * poisson)) :=
    Real.sq_sqrt (by positivity)
  have hs : v.2 ^ 2 = young / (2 * rho * (1 + poisson)) := Real.sq_sqrt (by positivity)
  have hd : v.1 ^ 2 - v.2 ^ 2 = young / (2 * rho * (1 + poisson) * (1 - 2 * poisson)) := by
    rw [hp, hs]; field_simp; ring
  have hpos : 0 < v.2 := Real.sqrt_pos.2 (by positivity)
  refine ⟨?_, ?_, ?_, hpos, ?_⟩
  · unfold youngpoissonFromWaveSpeeds
    simp only [hd]
    rw [hp, hs]
    congr 1
    · field_simp; ring
    · field_simp; ring
  · rw [hp]; simp only [lm, lameFromYoungpoisson]; field_simp; ring
  · rw [hs]; simp only [lm, lameFromYoungpoisson]; field_simp
  · have : v.2 ^ 2 < v.1 ^ 2 := by
      have : 0 < v.1 ^ 2 - v.2 ^ 2 := by rw [hd]; positivity
      linarith
    exact lt_of_pow_lt_pow_left₀ 2 (Real.sqrt_nonneg _) this

/-! ### C50: plane stress -/

section plane
variable {K : Type} [Field K] [DecidableEq K]

omit [DecidableEq K] in
theorem planeIdx_split (pk : PlaneKind) (f : Fin 6 → K) (n : Fin 6) (c : Matrix (Fin 6) (Fin 6) K) :
    (c *ᵥ f) n = ∑ k, c n ((planeIdx pk).ims k) * f ((planeIdx pk).ims k)
      + ∑ k, c n ((planeIdx pk).iss k) * f ((planeIdx pk).iss k) := by
  cases pk <;>
    simp [planeIdx, Matrix.mulVec, dotProduct, Fin.sum_univ_succ] <;> ring

/-- For a symmetric stiffness and each of the three planes: whenever a 3D strain has zero
out-of-plane stress, the in-plane stress is `c2` times the in-plane strain; and every in-plane
strain has exactly one such 3D strain. -/
theorem C50_plane_stress (pk : PlaneKind) (c3 : Matrix (Fin 6) (Fin 6) K) (hsym : c3ᵀ = c3)
    (c2 : Matrix (Fin 3) (Fin 3) K) (h : planeStressElastic (planeIdx pk) c3 = some c2) :
    (∀ e : Fin 6 → K, (∀ k, (c3 *ᵥ e) ((planeIdx pk).iss k) = 0) →
      ∀ k, (c3 *ᵥ e) ((planeIdx pk).ims k) = (c2 *ᵥ fun k => e ((planeIdx pk).ims k)) k) ∧
    (∀ em : Fin 3 → K, ∃! e : Fin 6 → K, (∀ k, e ((planeIdx pk).ims k) = em k) ∧
      ∀ k, (c3 *ᵥ e) ((planeIdx pk).iss k) = 0) ∧
    c2ᵀ = c2 := by
  unfold planeStressElastic at h
  simp only at h
  have hs : ∀ a b, c3 a b = c3 b a := fun a b => congrFun (congrFun hsym b) a
  split at h
  · cases h
  rename_i hdet
  set cs := mg c3 (planeIdx pk).iss (planeIdx pk).iss with hcs
  set cm := (mg c3 (planeIdx pk).iss (planeIdx pk).ims)ᵀ with hcm
  set cmm := mg c3 (planeIdx pk).ims (planeIdx pk).ims with hcmm
  have hu : IsUnit cs.det := isUnit_iff_ne_zero.2 hdet
  have hss : ∀ e : Fin 6 → K, (fun k => (c3 *ᵥ e) ((planeIdx pk).iss k)) =
      cm *ᵥ (fun k => e ((planeIdx pk).ims k)) + cs *ᵥ (fun k => e ((planeIdx pk).iss k)) := by
    intro e
    funext k
    rw [planeIdx_split pk e]
    simp only [Pi.add_apply, Matrix.mulVec, dotProduct, hcm, hcs, mg, Matrix.transpose_apply,
      Matrix.of_apply]
    congr 1
    refine Finset.sum_congr rfl fun j _ => ?_
    rw [hs]
  have hmm : ∀ e : Fin 6 → K, (fun k => (c3 *ᵥ e) ((planeIdx pk).ims k)) =
      cmm *ᵥ (fun k => e ((planeIdx pk).ims k)) + cmᵀ *ᵥ (fun k => e ((planeIdx pk).iss k)) := by
    intro e
    funext k
    rw [planeIdx_split pk e]
    simp only [Pi.add_apply, Matrix.mulVec, dotProduct, hcm, hcmm, mg, Matrix.transpose_apply,
      Matrix.of_apply]
    congr 1
    · refine Finset.sum_congr rfl fun j _ => ?_
      rw [hs]
    · refine Finset.sum_congr rfl fun j _ => ?_
      rw [hs]
  obtain rfl := Option.some.inj h
  refine ⟨?_, ?_, ?_⟩
  · intro e he k
    have h0 : cm *ᵥ (fun k => e ((planeIdx pk).ims k)) + cs *ᵥ (fun k => e ((planeIdx pk).iss k))
        = 0 := by
      rw [← hss]; funext k; exact he k
    have hes : (fun k => e ((planeIdx pk).iss k))
        = -(cs⁻¹ *ᵥ (cm *ᵥ fun k => e ((planeIdx pk).ims k))) := by
      have : cs⁻¹ *ᵥ (cs *ᵥ fun k => e ((planeIdx pk).iss k))
          = cs⁻¹ *ᵥ (-(cm *ᵥ fun k => e ((planeIdx pk).ims k))) := by
        congr 1
        exact eq_neg_of_add_eq_zero_right h0
      rwa [Matrix.mulVec_mulVec, Matrix.nonsing_inv_mul _ hu, Matrix.one_mulVec,
        Matrix.mulVec_neg] at this
    have := congrFun (hmm e) k
    rw [this, hes, Matrix.mulVec_neg, Matrix.sub_mulVec, Matrix.mulVec_mulVec,
      Matrix.mulVec_mulVec, ← sub_eq_add_neg, Matrix.mul_assoc]
  · intro em
    -- the index maps split `Fin 6`
    have hsp : ∀ pk : PlaneKind, (∀ n : Fin 6, (∃ k, (planeIdx pk).ims k = n) ∨
        (∃ k, (planeIdx pk).iss k = n)) ∧
        (∀ k l, (planeIdx pk).ims k ≠ (planeIdx pk).iss l) ∧
        Function.Injective (planeIdx pk).ims ∧ Function.Injective (planeIdx pk).iss := by
      intro pk
      cases pk <;> (simp only [planeIdx]; decide)
    obtain ⟨hcov, hdis, hi1, hi2⟩ := hsp pk
    set es : Fin 3 → K := -(cs⁻¹ *ᵥ (cm *ᵥ em)) with hes
    classical
    have hex : ∃ e : Fin 6 → K, (∀ k, e ((planeIdx pk).ims k) = em k) ∧
        (∀ k, e ((planeIdx pk).iss k) = es k) := by
      refine ⟨fun n => if hn : ∃ k, (planeIdx pk).ims k = n then em hn.choose else
        if hn : ∃ k, (planeIdx pk).iss k = n then es hn.choose else 0, fun k => ?_, fun k => ?_⟩
      · have hn : ∃ l, (planeIdx pk).ims l = (planeIdx pk).ims k := ⟨k, rfl⟩
        simp only [hn, dif_pos]
        rw [hi1 hn.choose_spec]
      · have hn : ¬ ∃ l, (planeIdx pk).ims l = (planeIdx pk).iss k := by
          rintro ⟨l, hl⟩; exact hdis l k hl
        have hn2 : ∃ l, (planeIdx pk).iss l = (planeIdx pk).iss k := ⟨k, rfl⟩
        simp only [hn, hn2, dif_pos, dif_neg, not_false_eq_true]
        rw [hi2 hn2.choose_spec]
    obtain ⟨e, he1, he2⟩ := hex
    refine ⟨e, ⟨he1, fun k => ?_⟩, ?_⟩
    · have := congrFun (hss e) k
      rw [this, show (fun k => e ((planeIdx pk).ims k)) = em from funext he1,
        show (fun k => e ((planeIdx pk).iss k)) = es from funext he2, hes, Matrix.mulVec_neg,
        Matrix.mulVec_mulVec, Matrix.mul_nonsing_inv _ hu, Matrix.one_mulVec]
      simp
    · rintro e' ⟨h1, h2⟩
      have h0 : cm *ᵥ em + cs *ᵥ (fun k => e' ((planeIdx pk).iss k)) = 0 := by
        rw [← show (fun k => e' ((planeIdx pk).ims k)) = em from funext h1, ← hss]
        funext k; exact h2 k
      have h3 : (fun k => e' ((planeIdx pk).iss k)) = es := by
        have : cs⁻¹ *ᵥ (cs *ᵥ fun k => e' ((planeIdx pk).iss k)) = cs⁻¹ *ᵥ (-(cm *ᵥ em)) := by
          congr 1
          exact eq_neg_of_add_eq_zero_right h0
        rwa [Matrix.mulVec_mulVec, Matrix.nonsing_inv_mul _ hu, Matrix.one_mulVec,
          Matrix.mulVec_neg] at this
      funext n
      rcases hcov n with ⟨k, rfl⟩ | ⟨k, rfl⟩
      · rw [h1, he1]
      · rw [he2]; exact congrFun h3 k
  · have hcst : csᵀ = cs := by
      ext i j; simp only [hcs, mg, Matrix.transpose_apply, Matrix.of_apply]; exact hs _ _
    have hcmmt : cmmᵀ = cmm := by
      ext i j; simp only [hcmm, mg, Matrix.transpose_apply, Matrix.of_apply]; exact hs _ _
    rw [Matrix.transpose_sub, Matrix.transpose_mul, Matrix.transpose_mul,
      Matrix.transpose_transpose, Matrix.transpose_nonsing_inv, hcst, hcmmt, Matrix.mul_assoc]

/-- Specification: the two axes of each plane. -/
def planeAxes : PlaneKind → Fin 2 → Fin 3
  | .p01 => ![0, 1]
  | .p02 => ![0, 2]
  | .p12 => ![1, 2]

/-- Specification: the normal of each plane. -/
def planeNormal : PlaneKind → Fin 3
  | .p01 => 2
  | .p02 => 1
  | .p12 => 0

/-- The index sets select the in-plane and the out-of-plane components: `fullIdx3 i j` is the
position of the component `(i, j)` in the 3D symmetric storage (C29), `fullIdx2` in the 2D one. -/
theorem C50_index_sets (pk : PlaneKind) :
    (planeIdx pk).im = planeAxes pk ∧ (planeIdx pk).is 0 = planeNormal pk ∧
    (∀ a b, (planeIdx pk).ims (fullIdx2 a b) = fullIdx3 (planeAxes pk a) (planeAxes pk b)) ∧
    (∀ k, ∃ i, (planeIdx pk).iss k = fullIdx3 (planeNormal pk) i) ∧
    (∀ i, ∃ k, (planeIdx pk).iss k = fullIdx3 (planeNormal pk) i) := by
  cases pk <;> (simp only [planeIdx, planeAxes, planeNormal]; decide)

/-- C50 in terms of the tensor components: if the stress `s = c3 e` has no component with the
normal of the plane, then its in-plane components are `c2` times the in-plane strain. -/
theorem C50_plane_stress_tensor (pk : PlaneKind) (c3 : Matrix (Fin 6) (Fin 6) K) (hsym : c3ᵀ = c3)
    (c2 : Matrix (Fin 3) (Fin 3) K) (h : planeStressElastic (planeIdx pk) c3 = some c2)
    (e : Fin 6 → K) (e2 : Fin 3 → K)
    (he2 : ∀ a b, toFull2 e2 a b = toFull3 e (planeAxes pk a) (planeAxes pk b))
    (h0 : ∀ i, toFull3 (c3 *ᵥ e) (planeNormal pk) i = 0) (a b : Fin 2) :
    toFull3 (c3 *ᵥ e) (planeAxes pk a) (planeAxes pk b) = toFull2 (c2 *ᵥ e2) a b := by
  obtain ⟨-, -, h1, h2, -⟩ := C50_index_sets pk
  have he : e2 = fun k => e ((planeIdx pk).ims k) := by
    funext k
    obtain ⟨x, y, hk⟩ : ∃ x y, fullIdx2 x y = k := by revert k; decide
    have := he2 x y
    simp only [toFull2, toFull3, Matrix.of_apply] at this
    rw [← hk, this, h1]
  have := (C50_plane_stress pk c3 hsym c2 h).1 e (fun k => by
    obtain ⟨i, hi⟩ := h2 k
    rw [hi]; exact h0 i) (fullIdx2 a b)
  rw [h1, ← he] at this
  exact this

/-- The plane stress transformation of the isotropic 3D stiffness is the 2D stiffness with the
plane stress hypothesis, for all three planes. -/
theorem C50_isotropic [CharZero K] (pk : PlaneKind) (young poisson : K)
    (hE : young ≠ 0) (h1 : 1 + poisson ≠ 0) (h2 : 1 - 2 * poisson ≠ 0) (h3 : 1 - poisson ≠ 0) :
    planeStressElastic (planeIdx pk) (stiffYP3 young poisson .strain) =
    some (stiffYP2 young poisson .stress) := by
  have htwo : (2 : K) ≠ 0 := two_ne_zero
  have h2' : 1 - poisson * 2 ≠ 0 := by rwa [mul_comm poisson 2]
  change planeStressElastic (planeIdx pk) (stiffLame3 _ _) = some (stiffLame2 _ _)
  rw [stiffLame3_eq, stiffLame2_eq]
  set lam := (lameFromYoungpoisson young poisson .strain).1 with hlam
  set mu := (lameFromYoungpoisson young poisson .strain).2 with hmu
  have hmu0 : mu ≠ 0 := by
    simp only [hmu, lameFromYoungpoisson]
    exact div_ne_zero hE (mul_ne_zero htwo h1)
  have hlm0 : lam + 2 * mu ≠ 0 := by
    simp only [hmu, hlam, lameFromYoungpoisson]
    rw [show young * poisson / ((1 + poisson) * (1 - 2 * poisson))
      + 2 * (young / (2 * (1 + poisson))) = young * (1 - poisson) / ((1 + poisson) * (1 - 2 * poisson))
      by field_simp; ring]
    exact div_ne_zero (mul_ne_zero hE h3) (mul_ne_zero h1 h2)
  have e1 : (lameFromYoungpoisson young poisson .stress).1 = 2 * lam * mu / (lam + 2 * mu) := rfl
  have e2 : (lameFromYoungpoisson young poisson .stress).2 = mu := rfl
  rw [e1, e2]
  set C : Matrix (Fin 6) (Fin 6) K := !![lam + 2 * mu, lam, lam, 0, 0, 0;
          lam, lam + 2 * mu, lam, 0, 0, 0;
          lam, lam, lam + 2 * mu, 0, 0, 0;
          0, 0, 0, mu, 0, 0; 0, 0, 0, 0, mu, 0; 0, 0, 0, 0, 0, mu] with hC
  have hcs : mg C (planeIdx pk).iss (planeIdx pk).iss = Matrix.diagonal ![lam + 2 * mu, mu, mu] := by
    ext i j
    cases pk <;> fin_cases i <;> fin_cases j <;> simp [mg, planeIdx, hC]
  have hcm : (mg C (planeIdx pk).iss (planeIdx pk).ims)ᵀ = !![lam, lam, 0; 0, 0, 0; 0, 0, 0] := by
    ext i j
    cases pk <;> fin_cases i <;> fin_cases j <;> simp [mg, planeIdx, hC]
  have hmm : mg C (planeIdx pk).ims (planeIdx pk).ims
      = !![lam + 2 * mu, lam, 0; lam, lam + 2 * mu, 0; 0, 0, mu] := by
    ext i j
    cases pk <;> fin_cases i <;> fin_cases j <;> simp [mg, planeIdx, hC]
  have hinv : (Matrix.diagonal ![(lam + 2 * mu)⁻¹, mu⁻¹, mu⁻¹]) *
      Matrix.diagonal ![lam + 2 * mu, mu, mu] = 1 := by
    rw [Matrix.diagonal_mul_diagonal, ← Matrix.diagonal_one]
    congr 1
    funext i
    fin_cases i <;> simp [hlm0, hmu0]
  have hdet : (Matrix.diagonal ![lam + 2 * mu, mu, mu]).det ≠ 0 := by
    intro h
    have := congrArg Matrix.det hinv
    rw [Matrix.det_mul, h, mul_zero, Matrix.det_one] at this
    exact zero_ne_one this
  unfold planeStressElastic
  simp only [hcs, hcm, hmm, hdet, if_false]
  rw [Matrix.inv_eq_left_inv hinv]
  congr 1
  ext i j
  fin_cases i <;> fin_cases j <;>
    simp [Matrix.mul_apply, Fin.sum_univ_succ, Matrix.diagonal_apply] <;> field_simp <;> ring

example : planeStressElastic (planeIdx .p12)
    (stiffYP3 (210 : ℚ) (3 / 10) .strain) =
    some (stiffYP2 210 (3 / 10) .stress) :=
  C50_isotropic _ _ _ (by norm_num) (by norm_num) (by norm_num) (by norm_num)

/-! #### Piezoelectricity

The constitutive law with the stress `s = C e - B^T p` and the electric displacement `D = B e + d p`
(`p` the gradient of the potential; the other usual sign convention is `p -> -p`, `D -> D`, which
changes no coefficient). -/

/-- The stress of the specification. -/
def piezoStress (c3 : Matrix (Fin 6) (Fin 6) K) (b3 : Matrix (Fin 3) (Fin 6) K) (e : Fin 6 → K)
    (p : Fin 3 → K) : Fin 6 → K := c3 *ᵥ e - b3ᵀ *ᵥ p

/-- The electric displacement of the specification. -/
def piezoDisp (d3 : Matrix (Fin 3) (Fin 3) K) (b3 : Matrix (Fin 3) (Fin 6) K) (e : Fin 6 → K)
    (p : Fin 3 → K) : Fin 3 → K := b3 *ᵥ e + d3 *ᵥ p

omit [DecidableEq K] in
theorem planeIdx_split_b (pk : PlaneKind) (f : Fin 6 → K) (n : Fin 3)
    (c : Matrix (Fin 3) (Fin 6) K) :
    (c *ᵥ f) n = ∑ k, c n ((planeIdx pk).ims k) * f ((planeIdx pk).ims k)
      + ∑ k, c n ((planeIdx pk).iss k) * f ((planeIdx pk).iss k) := by
  cases pk <;>
    simp [planeIdx, Matrix.mulVec, dotProduct, Fin.sum_univ_succ] <;> ring

omit [DecidableEq K] in
theorem planeIdx_split_v {m : ℕ} (pk : PlaneKind) (f : Fin 3 → K) (n : Fin m)
    (c : Matrix (Fin m) (Fin 3) K) :
    (c *ᵥ f) n = ∑ k, c n ((planeIdx pk).im k) * f ((planeIdx pk).im k)
      + ∑ k, c n ((planeIdx pk).is k) * f ((planeIdx pk).is k) := by
  cases pk <;>
    simp [planeIdx, Matrix.mulVec, dotProduct, Fin.sum_univ_succ] <;> ring

/-- For symmetric `c3`, `d3`: whenever the out-of-plane stress and the out-of-plane electric
displacement vanish, the in-plane stress is `c2 e - b2^T p` and the in-plane electric displacement
is `b2 e + (2 d3_mm - d2) p`: the returned `c2` and `b2` are right, and the returned `d2` is the
right one only if it equals the in-plane block of `d3`. -/
theorem C50_piezo (pk : PlaneKind) (c3 : Matrix (Fin 6) (Fin 6) K) (hc : c3ᵀ = c3)
    (d3 : Matrix (Fin 3) (Fin 3) K) (hd : d3ᵀ = d3) (b3 : Matrix (Fin 3) (Fin 6) K)
    (c2 : Matrix (Fin 3) (Fin 3) K) (d2 : Matrix (Fin 2) (Fin 2) K) (b2 : Matrix (Fin 2) (Fin 3) K)
    (h : planeStressPiezo (planeIdx pk) c3 d3 b3 = some (c2, d2, b2))
    (e : Fin 6 → K) (p : Fin 3 → K)
    (h1 : ∀ k, piezoStress c3 b3 e p ((planeIdx pk).iss k) = 0)
    (h2 : ∀ k, piezoDisp d3 b3 e p ((planeIdx pk).is k) = 0) :
    let em := fun k => e ((planeIdx pk).ims k)
    let pm := fun k => p ((planeIdx pk).im k)
    (∀ k, piezoStress c3 b3 e p ((planeIdx pk).ims k) = (c2 *ᵥ em - b2ᵀ *ᵥ pm) k) ∧
    (∀ k, piezoDisp d3 b3 e p ((planeIdx pk).im k) =
      (b2 *ᵥ em + ((2 : ℕ) • (Matrix.of fun i j => d3 ((planeIdx pk).im i) ((planeIdx pk).im j) :
        Matrix (Fin 2) (Fin 2) K) - d2) *ᵥ pm) k) := by
  intro em pm
  have sc : ∀ a b, c3 a b = c3 b a := fun a b => congrFun (congrFun hc b) a
  have sd : ∀ a b, d3 a b = d3 b a := fun a b => congrFun (congrFun hd b) a
  unfold planeStressPiezo at h
  simp only at h
  split at h
  · cases h
  rename_i hdet
  set A := piezoA (planeIdx pk) c3 d3 b3 with hA
  set Fe := piezoFeps (planeIdx pk) c3 b3 with hFe
  set FE := piezoFE (planeIdx pk) d3 b3 with hFE
  have hu : IsUnit A.det := isUnit_iff_ne_zero.2 hdet
  have hAt : Aᵀ = A := by
    rw [hA, piezoA, Matrix.fromBlocks_transpose, Matrix.transpose_neg, Matrix.transpose_transpose]
    congr 2
    · ext i j; simp only [mg, Matrix.transpose_apply, Matrix.of_apply]; exact sc _ _
    · ext i j; simp only [mg, Matrix.transpose_apply, Matrix.of_apply]; exact sd _ _
  simp only [Option.some.injEq, Prod.mk.injEq] at h
  obtain ⟨rfl, rfl, rfl⟩ := h
  -- the out-of-plane unknowns
  set y : Fin 3 ⊕ Fin 1 → K := Sum.elim (fun k => e ((planeIdx pk).iss k))
    (fun k => -p ((planeIdx pk).is k)) with hy
  have hAy : A *ᵥ y = -(Fe *ᵥ em - FE *ᵥ pm) := by
    funext n
    rcases n with k | k
    · have := h1 k
      rw [piezoStress, Pi.sub_apply, planeIdx_split pk e, planeIdx_split_v pk p] at this
      simp only [hA, hFe, hFE, piezoA, piezoFeps, piezoFE, hy, Matrix.mulVec, dotProduct,
        Fintype.sum_sum_type, Matrix.fromBlocks_apply₁₁, Matrix.fromBlocks_apply₁₂,
        Matrix.fromRows_apply_inl, Sum.elim_inl, Sum.elim_inr, Pi.neg_apply, Pi.sub_apply, mg,
        Matrix.transpose_apply, Matrix.of_apply] at this ⊢
      simp only [sc _ ((planeIdx pk).iss k), mul_neg, Finset.sum_neg_distrib] at this ⊢
      linear_combination this
    · have := h2 k
      rw [piezoDisp, Pi.add_apply, planeIdx_split_b pk e, planeIdx_split_v pk p] at this
      simp only [hA, hFe, hFE, piezoA, piezoFeps, piezoFE, hy, Matrix.mulVec, dotProduct,
        Fintype.sum_sum_type, Matrix.fromBlocks_apply₂₁, Matrix.fromBlocks_apply₂₂,
        Matrix.fromRows_apply_inr, Sum.elim_inl, Sum.elim_inr, Pi.neg_apply, Pi.sub_apply, mg,
        Matrix.transpose_apply, Matrix.of_apply, Matrix.neg_apply] at this ⊢
      simp only [sd _ ((planeIdx pk).is k), mul_neg, neg_mul, neg_neg, Finset.sum_neg_distrib]
        at this ⊢
      linear_combination this
  have hyv : y = -(A⁻¹ *ᵥ (Fe *ᵥ em - FE *ᵥ pm)) := by
    have := congrArg (fun v => A⁻¹ *ᵥ v) hAy
    rwa [Matrix.mulVec_mulVec, Matrix.nonsing_inv_mul _ hu, Matrix.one_mulVec,
      Matrix.mulVec_neg] at this
  have hmS : ∀ k, piezoStress c3 b3 e p ((planeIdx pk).ims k) =
      (mg c3 (planeIdx pk).ims (planeIdx pk).ims *ᵥ em
        - (mg b3 (planeIdx pk).im (planeIdx pk).ims) *ᵥ pm + Feᵀ *ᵥ y) k := by
    intro k
    rw [piezoStress, Pi.sub_apply, planeIdx_split pk e, planeIdx_split_v pk p]
    simp only [hFe, piezoFeps, hy, em, pm, Matrix.mulVec, dotProduct, Fintype.sum_sum_type,
      Matrix.fromRows_apply_inl, Matrix.fromRows_apply_inr, Sum.elim_inl, Sum.elim_inr,
      Pi.add_apply, Pi.sub_apply, mg, Matrix.transpose_apply, Matrix.of_apply]
    simp only [sc _ ((planeIdx pk).ims k), mul_neg, Finset.sum_neg_distrib]
    ring
  have hmD : ∀ k, piezoDisp d3 b3 e p ((planeIdx pk).im k) =
      ((mg b3 (planeIdx pk).im (planeIdx pk).ims)ᵀ *ᵥ em
        + mg d3 (planeIdx pk).im (planeIdx pk).im *ᵥ pm + FEᵀ *ᵥ y) k := by
    intro k
    rw [piezoDisp, Pi.add_apply, planeIdx_split_b pk e, planeIdx_split_v pk p]
    simp only [hFE, piezoFE, hy, em, pm, Matrix.mulVec, dotProduct, Fintype.sum_sum_type,
      Matrix.fromRows_apply_inl, Matrix.fromRows_apply_inr, Sum.elim_inl, Sum.elim_inr,
      Pi.add_apply, mg, Matrix.transpose_apply, Matrix.of_apply, Matrix.neg_apply]
    simp only [sd _ ((planeIdx pk).im k), mul_neg, neg_mul, neg_neg]
    ring
  have hdm : (Matrix.of fun i j => d3 ((planeIdx pk).im i) ((planeIdx pk).im j))
      = mg d3 (planeIdx pk).im (planeIdx pk).im := by
    ext i j; exact sd _ _
  refine ⟨fun k => ?_, fun k => ?_⟩
  · rw [hmS, hyv]
    refine congrFun ?_ k
    rw [Matrix.transpose_sub, Matrix.transpose_transpose, Matrix.transpose_mul,
      Matrix.transpose_mul, Matrix.transpose_transpose, Matrix.transpose_nonsing_inv, hAt]
    simp only [Matrix.sub_mulVec, Matrix.mulVec_neg, Matrix.mulVec_sub, Matrix.mulVec_mulVec,
      Matrix.mul_assoc]
    abel
  · rw [hmD, hyv, hdm]
    refine congrFun ?_ k
    simp only [two_smul, Matrix.add_mulVec, Matrix.sub_mulVec, Matrix.mulVec_neg,
      Matrix.mulVec_sub, Matrix.mulVec_mulVec]
    abel

/-- Counterexample: the returned `d2` is wrong.  A decoupled (`b3 = 0`) dielectric with
`d3 = [[1, 0, 1], [0, 1, 0], [1, 0, 2]]`: in the state `p = (2, 0, -1)` without strain the
out-of-plane stress and displacement are zero and the in-plane displacement is `(1, 0)`, i.e. the
right coefficient is 1/2, but the code returns `d2[0, 0] = 3/2`. -/
theorem C50_piezo_d2_wrong :
    ∃ (c3 : Matrix (Fin 6) (Fin 6) ℚ) (d3 : Matrix (Fin 3) (Fin 3) ℚ) (b3 : Matrix (Fin 3) (Fin 6) ℚ)
      (c2 : Matrix (Fin 3) (Fin 3) ℚ) (d2 : Matrix (Fin 2) (Fin 2) ℚ)
      (b2 : Matrix (Fin 2) (Fin 3) ℚ) (e : Fin 6 → ℚ) (p : Fin 3 → ℚ),
      c3ᵀ = c3 ∧ d3ᵀ = d3 ∧ planeStressPiezo (planeIdx .p01) c3 d3 b3 = some (c2, d2, b2) ∧
      (∀ k, piezoStress c3 b3 e p ((planeIdx .p01).iss k) = 0) ∧
      (∀ k, piezoDisp d3 b3 e p ((planeIdx .p01).is k) = 0) ∧
      piezoDisp d3 b3 e p 0 = 1 ∧
      (b2 *ᵥ (fun k => e ((planeIdx .p01).ims k)) + d2 *ᵥ fun k => p ((planeIdx .p01).im k)) 0 = 3
    := by
  set d3 : Matrix (Fin 3) (Fin 3) ℚ := !![1, 0, 1; 0, 1, 0; 1, 0, 2] with hd3
  have hA : piezoA (planeIdx .p01) (1 : Matrix (Fin 6) (Fin 6) ℚ) d3 0
      = Matrix.fromBlocks 1 0 0 (-!![2]) := by
    rw [piezoA]
    congr 1
    · ext i j; fin_cases i <;> fin_cases j <;> simp [mg, planeIdx, Matrix.one_apply]
    · ext i j; fin_cases i <;> fin_cases j; simp [mg, planeIdx, hd3]
  have hinv : Matrix.fromBlocks (1 : Matrix (Fin 3) (Fin 3) ℚ) 0 0 (-!![1 / 2]) *
      Matrix.fromBlocks (1 : Matrix (Fin 3) (Fin 3) ℚ) 0 0 (-!![2]) = 1 := by
    rw [Matrix.fromBlocks_multiply, ← Matrix.fromBlocks_one]
    congr 1
    · simp
    · simp
    · simp
    · ext i j; fin_cases i; fin_cases j; simp [Matrix.mul_apply]
  have hdet : (piezoA (planeIdx .p01) (1 : Matrix (Fin 6) (Fin 6) ℚ) d3 0).det ≠ 0 := by
    rw [hA]
    intro h
    have := congrArg Matrix.det hinv
    rw [Matrix.det_mul, h, mul_zero, Matrix.det_one] at this
    exact zero_ne_one this
  have hi := Matrix.inv_eq_left_inv hinv
  obtain ⟨⟨c2, d2, b2⟩, hp⟩ : ∃ x, planeStressPiezo (planeIdx .p01)
      (1 : Matrix (Fin 6) (Fin 6) ℚ) d3 0 = some x := by
    unfold planeStressPiezo
    simp only [hdet, if_false]
    exact ⟨_, rfl⟩
  have hp' := hp
  unfold planeStressPiezo at hp'
  simp only [hdet, if_false, Option.some.injEq, Prod.mk.injEq] at hp'
  obtain ⟨-, rfl, rfl⟩ := hp'
  refine ⟨1, d3, 0, c2, _, _, 0, ![2, 0, -1], by simp, ?_, hp, ?_, ?_, ?_, ?_⟩
  · ext i j; fin_cases i <;> fin_cases j <;> rfl
  · intro k; simp [piezoStress]
  · intro k
    fin_cases k
    simp [piezoDisp, planeIdx, hd3]
  · simp [piezoDisp, hd3]
    norm_num
  · rw [hA, hi]
    simp only [piezoFE, Matrix.transpose_zero]
    simp [Matrix.mulVec, dotProduct, Fin.sum_univ_succ, mg, planeIdx, hd3, Matrix.mul_apply,
      Fintype.sum_sum_type]
    norm_num

end plane

end Verif.Mech
