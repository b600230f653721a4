/-
C29 (symmetric storage) and C30 (volumetric/deviatoric split, von Mises stress).
-/
import Verif.Mech.Model
import Mathlib.Tactic.LinearCombination
import Mathlib.Tactic.FieldSimp
import Mathlib.Tactic.FinCases
import Mathlib.Tactic.Positivity
import Mathlib.Tactic.NormNum
import Mathlib.LinearAlgebra.Matrix.Symmetric
import Mathlib.Tactic.IntervalCases
import Mathlib.Tactic.Linarith
import Mathlib.Tactic.Ring
import Mathlib.Analysis.InnerProductSpace.PiL2

namespace Verif.Mech

open Matrix

/-! ### C29 -/

theorem two_dim2sym (d : ℕ) : 2 * dim2sym d = (d + 1) * d := by
  unfold dim2sym
  have : 2 ∣ (d + 1) * d := by
    rcases Nat.even_or_odd d with h | h
    · exact Dvd.dvd.mul_left h.two_dvd _
    · exact Dvd.dvd.mul_right (Odd.add_one h).two_dvd _
  omega

theorem sqrt_dim2sym (d : ℕ) : -(1 / 2 : ℝ) + √(2 * (dim2sym d : ℝ) + 1 / 4) = d := by
  have h : (2 * (dim2sym d : ℝ)) = ((d : ℝ) + 1) * d := by exact_mod_cast two_dim2sym d
  rw [h, show ((d : ℝ) + 1) * d + 1 / 4 = (d + 1 / 2) ^ 2 by ring, Real.sqrt_sq (by positivity)]
  ring

/-- `sym2dim()` inverts `dim2sym()` for every space dimension. -/
theorem C29_sym2dim_dim2sym (d : ℕ) : sym2dim (dim2sym d) = some d := by
  unfold sym2dim
  simp only [sqrt_dim2sym, Nat.floor_natCast, if_true]

/-- `sym2dim()` accepts exactly the sizes of the symmetric storage. -/
theorem C29_sym2dim_iff (n d : ℕ) : sym2dim n = some d ↔ n = (d + 1) * d / 2 := by
  constructor
  · intro h
    unfold sym2dim at h
    simp only at h
    split at h
    · rename_i h2
      rw [Option.some.injEq] at h
      rw [h] at h2
      exact h2.symm
    · cases h
  · rintro rfl
    exact C29_sym2dim_dim2sym d

theorem sym2dim_3 : sym2dim 3 = some 2 := (C29_sym2dim_iff 3 2).2 (by norm_num)
theorem sym2dim_6 : sym2dim 6 = some 3 := (C29_sym2dim_iff 6 3).2 (by norm_num)

/-- A size that is not triangular fails the assertion. -/
example : sym2dim 4 = none := by
  rcases h : sym2dim 4 with _ | d
  · rfl
  · have h1 := (C29_sym2dim_iff 4 d).1 h
    have h2 : d ≤ 2 ∨ 3 ≤ d := by omega
    rcases h2 with h2 | h2
    · interval_cases d <;> omega
    · have : 12 ≤ (d + 1) * d := by nlinarith
      omega

variable {α : Type}

/-- sym -> full -> sym is the identity in 2D and 3D. -/
theorem C29_sym_full_sym (t : Fin 3 → α) (s : Fin 6 → α) :
    toSym2 (toFull2 t) = t ∧ toSym3 (toFull3 s) = s := by
  constructor
  · funext k; fin_cases k <;> rfl
  · funext k; fin_cases k <;> rfl

/-- The full tensor is symmetric, and its entries are those named by the documented ordering
`[11, 22, 12]` / `[11, 22, 33, 12, 13, 23]`. -/
theorem C29_full_layout (t : Fin 3 → α) (s : Fin 6 → α) :
    toFull2 t = !![t 0, t 2; t 2, t 1] ∧
    toFull3 s = !![s 0, s 3, s 4; s 3, s 1, s 5; s 4, s 5, s 2] := by
  constructor
  · ext i j; fin_cases i <;> fin_cases j <;> rfl
  · ext i j; fin_cases i <;> fin_cases j <;> rfl

/-- full -> sym -> full is the identity exactly on symmetric tensors. -/
theorem C29_full_sym_full (a : Matrix (Fin 2) (Fin 2) α) (b : Matrix (Fin 3) (Fin 3) α) :
    (toFull2 (toSym2 a) = a ↔ aᵀ = a) ∧ (toFull3 (toSym3 b) = b ↔ bᵀ = b) := by
  refine ⟨⟨fun h => ?_, fun h => ?_⟩, ⟨fun h => ?_, fun h => ?_⟩⟩
  · rw [← h]; ext i j; fin_cases i <;> fin_cases j <;> rfl
  · have e : a 1 0 = a 0 1 := congrFun (congrFun h 0) 1
    ext i j; fin_cases i <;> fin_cases j <;> first | rfl | exact e.symm
  · rw [← h]; ext i j; fin_cases i <;> fin_cases j <;> rfl
  · have e : b 1 0 = b 0 1 := congrFun (congrFun h 0) 1
    have e2 : b 2 0 = b 0 2 := congrFun (congrFun h 0) 2
    have e3 : b 2 1 = b 1 2 := congrFun (congrFun h 1) 2
    ext i j; fin_cases i <;> fin_cases j <;>
      first | rfl | exact e.symm | exact e2.symm | exact e3.symm

/-- The full fourth order tensor has both minor symmetries; it has the major symmetry iff the
matrix is symmetric. -/
theorem C29_t4 (t : Matrix (Fin 3) (Fin 3) α) (s : Matrix (Fin 6) (Fin 6) α) :
    (∀ i j k l, t4FromT2s2 t i j k l = t4FromT2s2 t j i k l ∧
      t4FromT2s2 t i j k l = t4FromT2s2 t i j l k) ∧
    (∀ i j k l, t4FromT2s3 s i j k l = t4FromT2s3 s j i k l ∧
      t4FromT2s3 s i j k l = t4FromT2s3 s i j l k) ∧
    ((∀ i j k l, t4FromT2s2 t i j k l = t4FromT2s2 t k l i j) ↔ tᵀ = t) ∧
    ((∀ i j k l, t4FromT2s3 s i j k l = t4FromT2s3 s k l i j) ↔ sᵀ = s) := by
  have s2 : ∀ i j, fullIdx2 i j = fullIdx2 j i := by decide
  have s3 : ∀ i j, fullIdx3 i j = fullIdx3 j i := by decide
  have o2 : ∀ k, ∃ i j, fullIdx2 i j = k := by decide
  have o3 : ∀ k, ∃ i j, fullIdx3 i j = k := by decide
  refine ⟨fun i j k l => ⟨by rw [t4FromT2s2, s2 i j]; rfl, by rw [t4FromT2s2, s2 k l]; rfl⟩,
    fun i j k l => ⟨by rw [t4FromT2s3, s3 i j]; rfl, by rw [t4FromT2s3, s3 k l]; rfl⟩,
    ⟨fun h => ?_, fun h i j k l => ?_⟩, ⟨fun h => ?_, fun h i j k l => ?_⟩⟩
  · ext a b
    obtain ⟨i, j, rfl⟩ := o2 a
    obtain ⟨k, l, rfl⟩ := o2 b
    exact h k l i j
  · exact congrFun (congrFun h _) _ |>.symm
  · ext a b
    obtain ⟨i, j, rfl⟩ := o3 a
    obtain ⟨k, l, rfl⟩ := o3 b
    exact h k l i j
  · exact congrFun (congrFun h _) _ |>.symm

section field
variable {K : Type} [Field K]

/-- The fourth order tensor acts on a full tensor `e` as the matrix acts on the strain vector of
`e` (with doubled off-diagonal components, as made by `get_cauchy_strain()` of a gradient): the
reason why the storage is the one of engineering strains. -/
theorem C29_t4_contraction (t : Matrix (Fin 3) (Fin 3) K) (g : Matrix (Fin 2) (Fin 2) K)
    (s : Matrix (Fin 6) (Fin 6) K) (h : Matrix (Fin 3) (Fin 3) K) :
    (∀ i j, ∑ k, ∑ l, t4FromT2s2 t i j k l * g k l = toFull2 (t *ᵥ getCauchyStrain2 g) i j) ∧
    (∀ i j, ∑ k, ∑ l, t4FromT2s3 s i j k l * h k l = toFull3 (s *ᵥ getCauchyStrain3 h) i j) := by
  constructor
  · intro i j
    simp only [t4FromT2s2, toFull2, Matrix.of_apply, Matrix.mulVec, dotProduct,
      Fin.sum_univ_succ, Fin.sum_univ_zero, getCauchyStrain2, flat2, fullIdx2]
    simp
    ring
  · intro i j
    simp only [t4FromT2s3, toFull3, Matrix.of_apply, Matrix.mulVec, dotProduct,
      Fin.sum_univ_succ, Fin.sum_univ_zero, getCauchyStrain3, flat3, fullIdx3]
    simp
    ring

/-- `get_cauchy_strain()` gives the symmetric gradient with doubled off-diagonal components; it
vanishes exactly on the skew gradients. -/
theorem C29_cauchy_strain (g : Matrix (Fin 2) (Fin 2) K) (h : Matrix (Fin 3) (Fin 3) K) :
    (∀ i j, toFull2 (getCauchyStrain2 g) i j = if i = j then g i i else g i j + g j i) ∧
    (∀ i j, toFull3 (getCauchyStrain3 h) i j = if i = j then h i i else h i j + h j i) := by
  constructor
  · intro i j
    fin_cases i <;> fin_cases j <;>
      simp [toFull2, getCauchyStrain2, flat2, fullIdx2, add_comm]
  · intro i j
    fin_cases i <;> fin_cases j <;>
      simp [toFull3, getCauchyStrain3, flat3, fullIdx3, add_comm]

/-! ### C30: the split -/

theorem getTraceSym_eq {n d : ℕ} (hn : n = (d + 1) * d / 2) (t : Fin n → K) :
    getTraceSym t = some (∑ i : Fin n, if (i : ℕ) < d then t i else 0) := by
  unfold getTraceSym
  rw [(C29_sym2dim_iff n d).2 hn]; rfl

theorem getVolumetricSym_eq {n d : ℕ} (hn : n = (d + 1) * d / 2) (t : Fin n → K) :
    getVolumetricSym t = some fun i : Fin n =>
      if (i : ℕ) < d then (∑ i : Fin n, if (i : ℕ) < d then t i else 0) / (d : K) else 0 := by
  unfold getVolumetricSym
  rw [(C29_sym2dim_iff n d).2 hn, getTraceSym_eq hn]; rfl

theorem dim_le_sym (d : ℕ) : d ≤ dim2sym d := by
  have := two_dim2sym d
  rcases Nat.eq_zero_or_pos d with h | h
  · omega
  · nlinarith

theorem sum_first_const {n d : ℕ} (h : d ≤ n) (c : K) :
    (∑ i : Fin n, if (i : ℕ) < d then c else 0) = d * c := by
  rw [← Finset.sum_filter, Finset.sum_const]
  have : (Finset.univ.filter fun i : Fin n => (i : ℕ) < d).card = d := by
    rw [Fin.card_filter_val_lt]; omega
  rw [this, nsmul_eq_mul]

/-- Symmetric storage, any space dimension `d ≥ 1`: every tensor is the sum of its volumetric part
and its deviator; the deviator is traceless; the volumetric part is a multiple of the identity with
the trace of the tensor; both parts are fixed by a second application and annihilated by the
other one. -/
theorem C30_split_sym [CharZero K] (n d : ℕ) (hd : 0 < d) (hn : n = (d + 1) * d / 2)
    (t : Fin n → K) :
    ∃ v w : Fin n → K, getVolumetricSym t = some v ∧ getDeviatorSym t = some w ∧
      (∀ i, v i + w i = t i) ∧
      (∃ p : K, ∀ i, v i = if (i : ℕ) < d then p else 0) ∧
      getTraceSym w = some 0 ∧ getTraceSym v = getTraceSym t ∧
      getVolumetricSym v = some v ∧ getDeviatorSym v = some 0 ∧
      getVolumetricSym w = some 0 ∧ getDeviatorSym w = some w := by
  have hdK : (d : K) ≠ 0 := by exact_mod_cast hd.ne'
  have hle : d ≤ n := hn ▸ dim_le_sym d
  set tr : K := ∑ i : Fin n, if (i : ℕ) < d then t i else 0 with htr
  set v : Fin n → K := fun i => if (i : ℕ) < d then tr / (d : K) else 0 with hv
  have htv : (∑ i : Fin n, if (i : ℕ) < d then v i else 0) = tr := by
    have : ∀ i : Fin n, (if (i : ℕ) < d then v i else 0)
        = if (i : ℕ) < d then tr / (d : K) else 0 := by
      intro i
      by_cases h : (i : ℕ) < d <;> simp [hv, h]
    rw [Finset.sum_congr rfl fun i _ => this i, sum_first_const hle]
    field_simp
  have htw : (∑ i : Fin n, if (i : ℕ) < d then (t - v) i else 0) = 0 := by
    have : ∀ i : Fin n, (if (i : ℕ) < d then (t - v) i else 0)
        = (if (i : ℕ) < d then t i else 0) - if (i : ℕ) < d then v i else 0 := by
      intro i
      by_cases h : (i : ℕ) < d <;> simp [h]
    rw [Finset.sum_congr rfl fun i _ => this i, Finset.sum_sub_distrib, htv, ← htr, sub_self]
  have hV : getVolumetricSym t = some v := getVolumetricSym_eq hn t
  have hVv : getVolumetricSym v = some v := by
    rw [getVolumetricSym_eq hn, htv]
  have hVw : getVolumetricSym (t - v) = some 0 := by
    rw [getVolumetricSym_eq hn, htw]
    congr 1
    funext i
    simp
  refine ⟨v, t - v, hV, ?_, fun i => ?_, ⟨tr / d, fun i => rfl⟩, ?_, ?_, hVv, ?_, hVw, ?_⟩
  · unfold getDeviatorSym; rw [hV]; rfl
  · simp
  · rw [getTraceSym_eq hn, htw]
  · rw [getTraceSym_eq hn, getTraceSym_eq hn, htv]
  · unfold getDeviatorSym; rw [hVv]; simp
  · unfold getDeviatorSym; rw [hVw]; simp

example : ∃ v w : Fin 6 → ℚ, getVolumetricSym ![1, 2, 6, 4, 5, 7] = some v ∧
    getDeviatorSym ![1, 2, 6, 4, 5, 7] = some w ∧ v = ![3, 3, 3, 0, 0, 0] := by
  obtain ⟨v, w, h1, h2, -⟩ := C30_split_sym 6 3 (by norm_num) (by norm_num)
    (![1, 2, 6, 4, 5, 7] : Fin 6 → ℚ)
  refine ⟨v, w, h1, h2, ?_⟩
  rw [getVolumetricSym_eq (d := 3) (by norm_num), Option.some.injEq] at h1
  rw [← h1]
  funext i
  fin_cases i <;> simp [Fin.sum_univ_succ] <;> norm_num

/-- The same in the full storage. -/
theorem C30_split_full [CharZero K] (d : ℕ) (hd : 0 < d) (t : Matrix (Fin d) (Fin d) K) :
    getVolumetricFull t + getDeviatorFull t = t ∧
    (∃ p : K, getVolumetricFull t = p • 1) ∧
    Matrix.trace (getDeviatorFull t) = 0 ∧
    Matrix.trace (getVolumetricFull t) = Matrix.trace t ∧
    getVolumetricFull (getVolumetricFull t) = getVolumetricFull t ∧
    getDeviatorFull (getVolumetricFull t) = 0 ∧
    getVolumetricFull (getDeviatorFull t) = 0 ∧
    getDeviatorFull (getDeviatorFull t) = getDeviatorFull t := by
  have hdK : (d : K) ≠ 0 := by exact_mod_cast hd.ne'
  have htf : ∀ a : Matrix (Fin d) (Fin d) K, getTraceFull a = Matrix.trace a := fun a => rfl
  have hv : Matrix.trace (getVolumetricFull t) = Matrix.trace t := by
    unfold getVolumetricFull
    rw [htf, Matrix.trace_smul, Matrix.trace_one, Fintype.card_fin, smul_eq_mul]
    field_simp
  have hw : Matrix.trace (getDeviatorFull t) = 0 := by
    unfold getDeviatorFull
    rw [Matrix.trace_sub, hv, sub_self]
  have hVv : getVolumetricFull (getVolumetricFull t) = getVolumetricFull t := by
    rw [getVolumetricFull, htf, hv]; rfl
  have hVw : getVolumetricFull (getDeviatorFull t) = 0 := by
    rw [getVolumetricFull, htf, hw]; simp
  refine ⟨by simp [getDeviatorFull], ⟨_, rfl⟩, hw, hv, hVv, ?_, hVw, ?_⟩
  · rw [getDeviatorFull, hVv, sub_self]
  · rw [getDeviatorFull, hVw, sub_zero]

/-- Both storages give the same trace, volumetric part and deviator, in 2D and 3D. -/
theorem C30_storages_agree (t : Fin 3 → K) (s : Fin 6 → K) :
    (getTraceSym t = some (getTraceFull (toFull2 t)) ∧
      (getVolumetricSym t).map toFull2 = some (getVolumetricFull (toFull2 t)) ∧
      (getDeviatorSym t).map toFull2 = some (getDeviatorFull (toFull2 t))) ∧
    (getTraceSym s = some (getTraceFull (toFull3 s)) ∧
      (getVolumetricSym s).map toFull3 = some (getVolumetricFull (toFull3 s)) ∧
      (getDeviatorSym s).map toFull3 = some (getDeviatorFull (toFull3 s))) := by
  have e2 : (∑ i : Fin 3, if (i : ℕ) < 2 then t i else 0) = getTraceFull (toFull2 t) := by
    simp [getTraceFull, toFull2, fullIdx2, Fin.sum_univ_succ]
  have e3 : (∑ i : Fin 6, if (i : ℕ) < 3 then s i else 0) = getTraceFull (toFull3 s) := by
    simp [getTraceFull, toFull3, fullIdx3, Fin.sum_univ_succ]
  have v2 : (getVolumetricSym t).map toFull2 = some (getVolumetricFull (toFull2 t)) := by
    rw [getVolumetricSym_eq (d := 2) (by norm_num), Option.map_some, e2]
    congr 1
    ext i j
    fin_cases i <;> fin_cases j <;>
      simp [getVolumetricFull, toFull2, fullIdx2]
  have v3 : (getVolumetricSym s).map toFull3 = some (getVolumetricFull (toFull3 s)) := by
    rw [getVolumetricSym_eq (d := 3) (by norm_num), Option.map_some, e3]
    congr 1
    ext i j
    fin_cases i <;> fin_cases j <;>
      simp [getVolumetricFull, toFull3, fullIdx3]
  refine ⟨⟨?_, v2, ?_⟩, ⟨?_, v3, ?_⟩⟩
  · rw [getTraceSym_eq (d := 2) (by norm_num), e2]
  · unfold getDeviatorSym getDeviatorFull
    rcases h : getVolumetricSym t with _ | v
    · rw [h] at v2; cases v2
    · rw [h, Option.map_some, Option.some.injEq] at v2
      rw [← v2]
      rfl
  · rw [getTraceSym_eq (d := 3) (by norm_num), e3]
  · unfold getDeviatorSym getDeviatorFull
    rcases h : getVolumetricSym s with _ | v
    · rw [h] at v3; cases v3
    · rw [h, Option.map_some, Option.some.injEq] at v3
      rw [← v3]
      rfl

end field

/-! ### C30: the von Mises stress -/

/-- Specification: the double contraction `a : b` of full tensors. -/
def ddot {d : ℕ} (a b : Matrix (Fin d) (Fin d) ℝ) : ℝ := ∑ i, ∑ j, a i j * b i j

theorem getVonMisesSym3 (s : Fin 6 → ℝ) :
    getVonMisesSym s = some (vonMises3 (s 0) (s 1) (s 2) (s 3) (s 4) (s 5)) := by
  unfold getVonMisesSym
  rw [sym2dim_6]
  rfl

theorem getVonMisesSym2 (s : Fin 3 → ℝ) :
    getVonMisesSym s = some (vonMises2 (s 0) (s 1) (s 2)) := by
  unfold getVonMisesSym
  rw [sym2dim_3]
  rfl

/-- Both storages give the same von Mises stress, in 2D and 3D. -/
theorem C30_vonMises_storages (t : Fin 3 → ℝ) (s : Fin 6 → ℝ) :
    getVonMisesFull (toFull2 t) = getVonMisesSym t ∧
    getVonMisesFull (toFull3 s) = getVonMisesSym s := by
  rw [getVonMisesSym3, getVonMisesSym2]
  exact ⟨rfl, rfl⟩

/-- In 3D the von Mises stress is `sqrt(3/2 dev(s) : dev(s))`. -/
theorem C30_vonMises_dev (s : Fin 6 → ℝ) :
    getVonMisesSym s = some (√(3 / 2 * ddot (getDeviatorFull (toFull3 s))
      (getDeviatorFull (toFull3 s)))) := by
  rw [getVonMisesSym3, vonMises3]
  congr 2
  simp [ddot, getDeviatorFull, getVolumetricFull, getTraceFull, toFull3, fullIdx3,
    Fin.sum_univ_succ, Matrix.one_apply]
  ring

/-- The 2D von Mises stress is the 3D one of the plane stress tensor with zero out-of-plane
components. -/
theorem C30_vonMises_plane (s : Fin 3 → ℝ) :
    getVonMisesSym s = getVonMisesSym ![s 0, s 1, 0, s 2, 0, 0] := by
  rw [getVonMisesSym2, getVonMisesSym3, vonMises2, vonMises3]
  congr 2
  simp
  ring

/-- The von Mises stress is non-negative (2D and 3D). -/
theorem C30_vonMises_nonneg (t : Fin 3 → ℝ) (s : Fin 6 → ℝ) :
    (∃ x, getVonMisesSym t = some x ∧ 0 ≤ x) ∧ (∃ x, getVonMisesSym s = some x ∧ 0 ≤ x) :=
  ⟨⟨_, getVonMisesSym2 t, Real.sqrt_nonneg _⟩, ⟨_, getVonMisesSym3 s, Real.sqrt_nonneg _⟩⟩

/-- In 3D the von Mises stress does not see a hydrostatic stress. -/
theorem C30_vonMises_hydro (s : Fin 6 → ℝ) (p : ℝ) :
    getVonMisesSym (s + p • ![1, 1, 1, 0, 0, 0]) = getVonMisesSym s := by
  rw [getVonMisesSym3, getVonMisesSym3, vonMises3, vonMises3]
  simp

/-- In 3D the von Mises stress is zero exactly for hydrostatic stresses. -/
theorem C30_vonMises_zero (s : Fin 6 → ℝ) :
    getVonMisesSym s = some 0 ↔ ∃ p : ℝ, s = ![p, p, p, 0, 0, 0] := by
  rw [getVonMisesSym3, Option.some.injEq, vonMises3, Real.sqrt_eq_zero (by positivity)]
  constructor
  · intro h
    have q := fun x : ℝ => sq_nonneg x
    have h0 : s 0 - s 1 = 0 := by
      apply pow_eq_zero_iff (n := 2) (by norm_num) |>.1
      linarith [q (s 0 - s 1), q (s 1 - s 2), q (s 0 - s 2), q (s 3), q (s 4), q (s 5)]
    have h1 : s 1 - s 2 = 0 := by
      apply pow_eq_zero_iff (n := 2) (by norm_num) |>.1
      linarith [q (s 0 - s 1), q (s 1 - s 2), q (s 0 - s 2), q (s 3), q (s 4), q (s 5)]
    have h3 : s 3 = 0 := by
      apply pow_eq_zero_iff (n := 2) (by norm_num) |>.1
      linarith [q (s 0 - s 1), q (s 1 - s 2), q (s 0 - s 2), q (s 3), q (s 4), q (s 5)]
    have h4 : s 4 = 0 := by
      apply pow_eq_zero_iff (n := 2) (by norm_num) |>.1
      linarith [q (s 0 - s 1), q (s 1 - s 2), q (s 0 - s 2), q (s 3), q (s 4), q (s 5)]
    have h5 : s 5 = 0 := by
      apply pow_eq_zero_iff (n := 2) (by norm_num) |>.1
      linarith [q (s 0 - s 1), q (s 1 - s 2), q (s 0 - s 2), q (s 3), q (s 4), q (s 5)]
    refine ⟨s 0, ?_⟩
    funext i
    fin_cases i
    · rfl
    · change s 1 = s 0; linarith
    · change s 2 = s 0; linarith
    · exact h3
    · exact h4
    · exact h5
  · rintro ⟨p, rfl⟩
    simp

/-- In 2D (plane stress) the von Mises stress is zero only for the zero stress. -/
theorem C30_vonMises_zero2 (s : Fin 3 → ℝ) : getVonMisesSym s = some 0 ↔ s = 0 := by
  have e : s 0 ^ 2 - s 0 * s 1 + s 1 ^ 2 + 3 * s 2 ^ 2
      = (s 0 - s 1 / 2) ^ 2 + 3 / 4 * s 1 ^ 2 + 3 * s 2 ^ 2 := by ring
  rw [getVonMisesSym2, Option.some.injEq, vonMises2, e, Real.sqrt_eq_zero (by positivity)]
  constructor
  · intro h
    have h1 : s 1 = 0 := by
      apply pow_eq_zero_iff (n := 2) (by norm_num) |>.1
      linarith [sq_nonneg (s 0 - s 1 / 2), sq_nonneg (s 1), sq_nonneg (s 2)]
    have h2 : s 2 = 0 := by
      apply pow_eq_zero_iff (n := 2) (by norm_num) |>.1
      linarith [sq_nonneg (s 0 - s 1 / 2), sq_nonneg (s 1), sq_nonneg (s 2)]
    have h0 : s 0 - s 1 / 2 = 0 := by
      apply pow_eq_zero_iff (n := 2) (by norm_num) |>.1
      linarith [sq_nonneg (s 0 - s 1 / 2), sq_nonneg (s 1), sq_nonneg (s 2)]
    funext i
    fin_cases i
    · change s 0 = 0; linarith
    · exact h1
    · exact h2
  · rintro rfl
    simp

/-- Scaling and superposition: the von Mises stress is a seminorm (3D). -/
theorem C30_vonMises_seminorm (s t : Fin 6 → ℝ) (c : ℝ) :
    ∃ x y z w, getVonMisesSym s = some x ∧ getVonMisesSym t = some y ∧
      getVonMisesSym (s + t) = some z ∧ getVonMisesSym (c • s) = some w ∧
      z ≤ x + y ∧ w = |c| * x := by
  refine ⟨_, _, _, _, getVonMisesSym3 s, getVonMisesSym3 t, getVonMisesSym3 _, getVonMisesSym3 _,
    ?_, ?_⟩
  · -- Minkowski for the vector of the six terms
    set f : (Fin 6 → ℝ) → EuclideanSpace ℝ (Fin 6) := fun s =>
      WithLp.toLp 2 ![√(1 / 2) * (s 0 - s 1), √(1 / 2) * (s 1 - s 2), √(1 / 2) * (s 0 - s 2),
        √3 * s 3, √3 * s 4, √3 * s 5] with hf
    have h12 : √(1 / 2 : ℝ) ^ 2 = 1 / 2 := Real.sq_sqrt (by norm_num)
    have h3 : √(3 : ℝ) ^ 2 = 3 := Real.sq_sqrt (by norm_num)
    have key : ∀ s : Fin 6 → ℝ,
        vonMises3 (s 0) (s 1) (s 2) (s 3) (s 4) (s 5) = ‖f s‖ := by
      intro s
      rw [EuclideanSpace.norm_eq, vonMises3]
      congr 1
      simp only [hf, Real.norm_eq_abs, sq_abs, Fin.sum_univ_succ, Fin.sum_univ_zero]
      simp
      simp only [mul_pow]
      have h12' : (√2 ^ 2)⁻¹ = (1 / 2 : ℝ) := by rw [Real.sq_sqrt (by norm_num)]; norm_num
      try simp only [inv_pow]
      try rw [h12']
      rw [h3]
      ring
    rw [key s, key t, key (s + t)]
    have : f (s + t) = f s + f t := by
      ext i
      fin_cases i <;> simp [hf] <;> ring
    rw [this]
    exact norm_add_le _ _
  · simp only [vonMises3, Pi.smul_apply, smul_eq_mul]
    rw [← Real.sqrt_sq_eq_abs, ← Real.sqrt_mul (sq_nonneg c)]
    congr 1
    ring

/-- A non-trivial instance: uniaxial stress 5. -/
example : getVonMisesSym (![5, 0, 0, 0, 0, 0] : Fin 6 → ℝ) = some 5 := by
  rw [getVonMisesSym3, vonMises3]
  congr 1
  rw [show (1 / 2 * (((![5, 0, 0, 0, 0, 0] : Fin 6 → ℝ) 0 - (![5, 0, 0, 0, 0, 0] : Fin 6 → ℝ) 1) ^ 2
    + ((![5, 0, 0, 0, 0, 0] : Fin 6 → ℝ) 1 - (![5, 0, 0, 0, 0, 0] : Fin 6 → ℝ) 2) ^ 2
    + ((![5, 0, 0, 0, 0, 0] : Fin 6 → ℝ) 0 - (![5, 0, 0, 0, 0, 0] : Fin 6 → ℝ) 2) ^ 2
    + 6 * ((![5, 0, 0, 0, 0, 0] : Fin 6 → ℝ) 3 ^ 2 + (![5, 0, 0, 0, 0, 0] : Fin 6 → ℝ) 4 ^ 2
      + (![5, 0, 0, 0, 0, 0] : Fin 6 → ℝ) 5 ^ 2)) : ℝ) = 5 ^ 2 by simp; norm_num]
  exact Real.sqrt_sq (by norm_num)

end Verif.Mech
