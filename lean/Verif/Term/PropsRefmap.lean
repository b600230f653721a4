/-
C60: the data of reference mappings: gradients of basis functions, Jacobians, integrals.
-/
import Verif.Term.Refmap
import Verif.Term.SpecRefmap
import Verif.Linalg.PropsUtils
import Mathlib.Analysis.Calculus.FDeriv.Add
import Mathlib.Analysis.Calculus.FDeriv.Mul
import Mathlib.Analysis.Calculus.FDeriv.Comp
import Mathlib.Analysis.Calculus.InverseFunctionTheorem.FDeriv
import Mathlib.LinearAlgebra.Matrix.ToLin
import Mathlib.LinearAlgebra.Determinant
import Mathlib.MeasureTheory.Function.Jacobian
import Mathlib.MeasureTheory.Measure.Haar.OfBasis
import Mathlib.Topology.Algebra.Module.FiniteDimension

namespace Verif.Term

open Finset Verif.Linalg

/-! ### The inverse -/

theorem invsFast_spec {K : Type} [Field K] {dim : ℕ} (hd : dim = 1 ∨ dim = 2 ∨ dim = 3)
    (a : Matrix (Fin dim) (Fin dim) K) (h : a.det ≠ 0) :
    ((invsFast dim a a.det).getD 0) * a = 1 ∧ a * ((invsFast dim a a.det).getD 0) = 1 := by
  rcases hd with rfl | rfl | rfl
  · exact (C37_invs_fast.2.2 a h).symm
  · exact (C37_invs_fast.2.1 a h).symm
  · exact (C37_invs_fast.1 a h).symm

section ok

variable {K : Type} [Field K] [LinearOrder K] {dim nEl nQp nEP nE : ℕ} {ecoors : ℕ → ℕ → Fin dim → K}
  {bfg : ℕ → ℕ → Fin dim → ℕ → K} {weights : ℕ → K} {ebfg : ℕ → ℕ → Fin dim → ℕ → K} {m : MapData K dim}

theorem evalMapping_ok (h : evalMapping dim nEl nQp nEP ecoors bfg weights nE ebfg = .ok m) :
    (dim = 1 ∨ dim = 2 ∨ dim = 3) ∧
    (∀ c < nEl, ∀ q < nQp, 0 < (mtxRM nEP (bfg c q) (ecoors c)).det) ∧
    (∀ c q, m.det c q = (mtxRM nEP (bfg c q) (ecoors c)).det * weights q) ∧
    (∀ c, m.volume c = ∑ q ∈ range nQp, m.det c q) ∧
    ∀ c q, m.bfg c q = mulInv ((invsFast dim (mtxRM nEP (bfg c q) (ecoors c))
      (mtxRM nEP (bfg c q) (ecoors c)).det).getD 0) (ebfg (if nE = 1 then 0 else c) q) := by
  unfold evalMapping at h
  by_cases hw : (List.range nEl).any fun c => (List.range nQp).any fun q =>
      decide ((mtxRM nEP (bfg c q) (ecoors c)).det ≤ 0)
  · simp only [hw, if_true] at h; cases h
  · simp only [hw] at h
    by_cases hd : dim = 1 ∨ dim = 2 ∨ dim = 3
    · simp only [Bool.false_eq_true, if_false, if_pos hd] at h
      injection h with h
      subst h
      refine ⟨hd, fun c hc q hq => ?_, fun _ _ => rfl, fun _ => rfl, fun _ _ => rfl⟩
      by_contra hle
      exact hw (List.any_eq_true.2 ⟨c, List.mem_range.2 hc, List.any_eq_true.2 ⟨q, List.mem_range.2 hq,
        decide_eq_true (not_lt.1 hle)⟩⟩)
    · simp only [Bool.false_eq_true, if_false, if_neg hd] at h
      cases h

/-- C60: the mapping data are evaluated if and only if the reference mapping keeps the orientation in all the
quadrature points of all the cells. -/
theorem C60_warp (hd : dim = 1 ∨ dim = 2 ∨ dim = 3) :
    (∃ m, evalMapping dim nEl nQp nEP ecoors bfg weights nE ebfg = .ok m) ↔
      ∀ c < nEl, ∀ q < nQp,
        0 < Matrix.det (Matrix.of fun i k : Fin dim => ∑ j ∈ range nEP, bfg c q i j * ecoors c j k) := by
  refine ⟨fun ⟨m, hm⟩ => (evalMapping_ok hm).2.1, fun h => ?_⟩
  unfold evalMapping
  have hw : ¬ ((List.range nEl).any fun c => (List.range nQp).any fun q =>
      decide ((mtxRM nEP (bfg c q) (ecoors c)).det ≤ 0)) = true := by
    intro hx
    obtain ⟨c, hc, hx⟩ := List.any_eq_true.1 hx
    obtain ⟨q, hq, hx⟩ := List.any_eq_true.1 hx
    exact absurd (of_decide_eq_true hx) (not_le.2 (h c (List.mem_range.1 hc) q (List.mem_range.1 hq)))
  simp only [hw, if_pos hd]
  exact ⟨_, rfl⟩

end ok

/-! ### Derivatives -/

theorem clm_apply_eq {d : ℕ} (L : (Fin d → ℝ) →L[ℝ] ℝ) (v : Fin d → ℝ) :
    L v = ∑ i, v i * L (Pi.single i 1) := by
  conv_lhs => rw [pi_eq_sum_univ' v]
  rw [map_sum]
  exact sum_congr rfl fun i _ => by
    rw [map_smul, smul_eq_mul]

theorem isGradAt_sum {d : ℕ} {n : ℕ} {φ : ℕ → (Fin d → ℝ) → ℝ} {ξ : Fin d → ℝ} {g : Fin d → ℕ → ℝ}
    (h : ∀ j < n, IsGradAt (φ j) ξ fun i => g i j) (x : ℕ → ℝ) :
    IsGradAt (fun ξ => ∑ j ∈ range n, φ j ξ * x j) ξ fun i => ∑ j ∈ range n, g i j * x j := by
  choose! L hL hLi using h
  refine ⟨∑ j ∈ range n, x j • L j, ?_, fun i => ?_⟩
  · exact HasFDerivAt.fun_sum fun j hj => (hL j (mem_range.1 hj)).mul_const (x j)
  · rw [ContinuousLinearMap.sum_apply]
    exact sum_congr rfl fun j hj => by
      rw [ContinuousLinearMap.smul_apply, hLi j (mem_range.1 hj), smul_eq_mul, mul_comm]

theorem isStrictGradAt_sum {d : ℕ} {n : ℕ} {φ : ℕ → (Fin d → ℝ) → ℝ} {ξ : Fin d → ℝ} {g : Fin d → ℕ → ℝ}
    (h : ∀ j < n, IsStrictGradAt (φ j) ξ fun i => g i j) (x : ℕ → ℝ) :
    IsStrictGradAt (fun ξ => ∑ j ∈ range n, φ j ξ * x j) ξ fun i => ∑ j ∈ range n, g i j * x j := by
  choose! L hL hLi using h
  refine ⟨∑ j ∈ range n, x j • L j, ?_, fun i => ?_⟩
  · exact HasStrictFDerivAt.fun_sum fun j hj => (hL j (mem_range.1 hj)).mul_const (x j)
  · rw [ContinuousLinearMap.sum_apply]
    exact sum_congr rfl fun j hj => by
      rw [ContinuousLinearMap.smul_apply, hLi j (mem_range.1 hj), smul_eq_mul, mul_comm]

theorem IsStrictGradAt.isGradAt {d : ℕ} {f : (Fin d → ℝ) → ℝ} {x g : Fin d → ℝ} (h : IsStrictGradAt f x g) :
    IsGradAt f x g := by
  obtain ⟨L, hL, h⟩ := h
  exact ⟨L, hL.hasFDerivAt, h⟩

/-- The linear mapping with the transposed matrix. -/
noncomputable def tMap {d : ℕ} (a : Matrix (Fin d) (Fin d) ℝ) : (Fin d → ℝ) →L[ℝ] (Fin d → ℝ) :=
  LinearMap.toContinuousLinearMap (Matrix.toLin' a.transpose)

theorem tMap_apply {d : ℕ} (a : Matrix (Fin d) (Fin d) ℝ) (v : Fin d → ℝ) (k : Fin d) :
    tMap a v k = ∑ i, v i * a i k := by
  unfold tMap
  rw [LinearMap.coe_toContinuousLinearMap', Matrix.toLin'_apply]
  simp [Matrix.mulVec, dotProduct, mul_comm]

theorem tMap_det {d : ℕ} (a : Matrix (Fin d) (Fin d) ℝ) : (tMap a).det = a.det := by
  unfold tMap
  show LinearMap.det (Matrix.toLin' a.transpose) = _
  rw [LinearMap.det_toLin', Matrix.det_transpose]

theorem hasFDerivAt_physMap {d nEP : ℕ} {φ : ℕ → (Fin d → ℝ) → ℝ} {ξ : Fin d → ℝ} {g : Fin d → ℕ → ℝ}
    (h : ∀ j < nEP, IsGradAt (φ j) ξ fun i => g i j) (x : ℕ → Fin d → ℝ) :
    HasFDerivAt (physMap nEP φ x) (tMap (mtxRM nEP g x)) ξ := by
  rw [hasFDerivAt_pi']
  intro k
  obtain ⟨L, hL, hLi⟩ := isGradAt_sum h fun j => x j k
  have : (ContinuousLinearMap.proj k).comp (tMap (mtxRM nEP g x)) = L := by
    ext v
    rw [clm_apply_eq L]
    show tMap _ v k = _
    rw [tMap_apply]
    exact sum_congr rfl fun i _ => by rw [hLi]; rfl
  rw [this]
  exact hL

theorem hasStrictFDerivAt_physMap {d nEP : ℕ} {φ : ℕ → (Fin d → ℝ) → ℝ} {ξ : Fin d → ℝ} {g : Fin d → ℕ → ℝ}
    (h : ∀ j < nEP, IsStrictGradAt (φ j) ξ fun i => g i j) (x : ℕ → Fin d → ℝ) :
    HasStrictFDerivAt (physMap nEP φ x) (tMap (mtxRM nEP g x)) ξ := by
  rw [hasStrictFDerivAt_pi']
  intro k
  obtain ⟨L, hL, hLi⟩ := isStrictGradAt_sum h fun j => x j k
  have : (ContinuousLinearMap.proj k).comp (tMap (mtxRM nEP g x)) = L := by
    ext v
    rw [clm_apply_eq L]
    show tMap _ v k = _
    rw [tMap_apply]
    exact sum_congr rfl fun i _ => by rw [hLi]; rfl
  rw [this]
  exact hL

/-- The chain rule in matrices. -/
theorem chain_mat {d nEP nF : ℕ} {φ ψ : ℕ → (Fin d → ℝ) → ℝ} {ξ : Fin d → ℝ} {g e : Fin d → ℕ → ℝ}
    (hφ : ∀ j < nEP, IsGradAt (φ j) ξ fun i => g i j) (hψ : ∀ k < nF, IsGradAt (ψ k) ξ fun i => e i k)
    (x : ℕ → Fin d → ℝ) (u : ℕ → ℝ) {U : (Fin d → ℝ) → ℝ} {L : (Fin d → ℝ) →L[ℝ] ℝ}
    (hU : HasFDerivAt U L (physMap nEP φ x ξ))
    (hc : ∀ᶠ η in nhds ξ, U (physMap nEP φ x η) = interp nF ψ u η) (i : Fin d) :
    ∑ k, mtxRM nEP g x i k * L (Pi.single k 1) = ∑ k ∈ range nF, e i k * u k := by
  have h1 := hU.comp ξ (hasFDerivAt_physMap hφ x)
  obtain ⟨M, hM, hMi⟩ := isGradAt_sum hψ u
  have h2 : HasFDerivAt (U ∘ physMap nEP φ x) M ξ := hM.congr_of_eventuallyEq hc
  have := h1.unique h2
  have e := hMi i
  rw [← this, ContinuousLinearMap.comp_apply, clm_apply_eq L] at e
  refine Eq.trans ?_ e
  refine sum_congr rfl fun k _ => ?_
  rw [tMap_apply]
  simp [Pi.single_apply]

section main

variable {dim nEl nQp nEP nE : ℕ} {ecoors : ℕ → ℕ → Fin dim → ℝ}
  {bfg : ℕ → ℕ → Fin dim → ℕ → ℝ} {weights : ℕ → ℝ} {ebfg : ℕ → ℕ → Fin dim → ℕ → ℝ} {m : MapData ℝ dim}

/-- C60: the gradients. Let `φ` be the basis of the mapping, `ψ` the basis of the field, `bf_g` and `ebf_g`
their reference gradients in the quadrature point `ξ`. If a function `U` of the physical point coincides near
`ξ` with the field with the coefficients `u` in the cell, then its gradient is `bfg @ u`. -/
theorem C60_gradient (h : evalMapping dim nEl nQp nEP ecoors bfg weights nE ebfg = .ok m)
    {c q : ℕ} (hc : c < nEl) (hq : q < nQp) {φ ψ : ℕ → (Fin dim → ℝ) → ℝ} {ξ : Fin dim → ℝ} {nF : ℕ}
    (hφ : ∀ j < nEP, IsGradAt (φ j) ξ fun i => bfg c q i j)
    (hψ : ∀ k < nF, IsGradAt (ψ k) ξ fun i => ebfg (if nE = 1 then 0 else c) q i k)
    (u : ℕ → ℝ) {U : (Fin dim → ℝ) → ℝ}
    (hU : DifferentiableAt ℝ U (physMap nEP φ (ecoors c) ξ))
    (hUu : ∀ᶠ η in nhds ξ, U (physMap nEP φ (ecoors c) η) = interp nF ψ u η) :
    IsGradAt U (physMap nEP φ (ecoors c) ξ) fun i => ∑ k ∈ range nF, m.bfg c q i k * u k := by
  obtain ⟨hd, hpos, -, -, hb⟩ := evalMapping_ok h
  have hdet := (hpos c hc q hq).ne'
  obtain ⟨L, hL⟩ := hU
  refine ⟨L, hL, fun i => ?_⟩
  have hch := chain_mat hφ hψ (ecoors c) u hL hUu
  have hinv := (invsFast_spec hd _ hdet).1
  generalize hI : (invsFast dim (mtxRM nEP (bfg c q) (ecoors c)) (mtxRM nEP (bfg c q) (ecoors c)).det).getD 0 = I
    at hinv
  rw [hb, hI]
  calc L (Pi.single i 1) = ∑ k, (1 : Matrix (Fin dim) (Fin dim) ℝ) i k * L (Pi.single k 1) := by
        simp [Matrix.one_apply]
    _ = ∑ k, (∑ j, I i j * mtxRM nEP (bfg c q) (ecoors c) j k) * L (Pi.single k 1) := by
        rw [← hinv]; rfl
    _ = ∑ j, I i j * ∑ k, mtxRM nEP (bfg c q) (ecoors c) j k * L (Pi.single k 1) := by
        simp only [sum_mul, mul_sum, mul_assoc]
        exact sum_comm
    _ = ∑ j, I i j * ∑ k ∈ range nF, ebfg (if nE = 1 then 0 else c) q j k * u k := by
        simp only [hch]
    _ = _ := by
        simp only [mulInv, sum_mul, mul_sum, mul_assoc]
        exact sum_comm

/-- C60: such a function exists for all coefficients if the bases are continuously differentiable. -/
theorem C60_field_exists (h : evalMapping dim nEl nQp nEP ecoors bfg weights nE ebfg = .ok m)
    {c q : ℕ} (hc : c < nEl) (hq : q < nQp) {φ ψ : ℕ → (Fin dim → ℝ) → ℝ} {ξ : Fin dim → ℝ} {nF : ℕ}
    (hφ : ∀ j < nEP, IsStrictGradAt (φ j) ξ fun i => bfg c q i j)
    (hψ : ∀ k < nF, IsStrictGradAt (ψ k) ξ fun i => ebfg (if nE = 1 then 0 else c) q i k)
    (u : ℕ → ℝ) :
    ∃ U : (Fin dim → ℝ) → ℝ,
      (∀ᶠ η in nhds ξ, U (physMap nEP φ (ecoors c) η) = interp nF ψ u η) ∧
      IsGradAt U (physMap nEP φ (ecoors c) ξ) fun i => ∑ k ∈ range nF, m.bfg c q i k * u k := by
  obtain ⟨hd, hpos, -, -, hb⟩ := evalMapping_ok h
  have hdet := (hpos c hc q hq).ne'
  have hs := hasStrictFDerivAt_physMap hφ (ecoors c)
  set A := mtxRM nEP (bfg c q) (ecoors c) with hA
  have hdt : (tMap A).det ≠ 0 := by rw [tMap_det]; exact hdet
  let e : (Fin dim → ℝ) ≃L[ℝ] (Fin dim → ℝ) := ContinuousLinearMap.toContinuousLinearEquivOfDetNeZero (tMap A) hdt
  have he : (e : (Fin dim → ℝ) →L[ℝ] (Fin dim → ℝ)) = tMap A :=
    ContinuousLinearMap.coe_toContinuousLinearEquivOfDetNeZero _ _
  have hs' : HasStrictFDerivAt (physMap nEP φ (ecoors c)) (e : (Fin dim → ℝ) →L[ℝ] (Fin dim → ℝ)) ξ := by
    rw [he]; exact hs
  have hleft := hs'.eventually_left_inverse
  have hder := hs'.to_localInverse
  refine ⟨fun y => interp nF ψ u (hs'.localInverse _ _ _ y), ?_, ?_⟩
  · filter_upwards [hleft] with η hη
    rw [hη]
  · refine C60_gradient h hc hq (fun j hj => (hφ j hj).isGradAt) (fun k hk => (hψ k hk).isGradAt) u ?_ ?_
    · obtain ⟨L, hL, -⟩ := isGradAt_sum (fun k hk => (hψ k hk).isGradAt) u
      have hx : hs'.localInverse (physMap nEP φ (ecoors c)) e ξ (physMap nEP φ (ecoors c) ξ) = ξ :=
        hs'.localInverse_apply_image
      have hL' : HasFDerivAt (interp nF ψ u) L
          (hs'.localInverse (physMap nEP φ (ecoors c)) e ξ (physMap nEP φ (ecoors c) ξ)) := by
        rw [hx]; exact hL
      exact (hL'.comp _ hder.hasFDerivAt).differentiableAt
    · filter_upwards [hleft] with η hη
      rw [hη]

/-- C60: the Jacobian. In each quadrature point, `det` is the weight times the determinant of the derivative
of the reference mapping, which is positive. -/
theorem C60_det (h : evalMapping dim nEl nQp nEP ecoors bfg weights nE ebfg = .ok m)
    {c q : ℕ} (hc : c < nEl) (hq : q < nQp) {φ : ℕ → (Fin dim → ℝ) → ℝ} {ξ : Fin dim → ℝ}
    (hφ : ∀ j < nEP, IsGradAt (φ j) ξ fun i => bfg c q i j) :
    m.det c q = weights q * (fderiv ℝ (physMap nEP φ (ecoors c)) ξ).det ∧
      0 < (fderiv ℝ (physMap nEP φ (ecoors c)) ξ).det := by
  obtain ⟨-, hpos, hm, -, -⟩ := evalMapping_ok h
  have := (hasFDerivAt_physMap hφ (ecoors c)).fderiv
  rw [this, tMap_det, hm]
  exact ⟨mul_comm _ _, hpos c hc q hq⟩

/-- C60: integrals. Let the reference mapping of the cell `c` be injective and keep the orientation on the
reference element `E`. If the quadrature is exact for the function `f` transformed to the reference element,
then the sum of the values in the physical quadrature points times `det` is the integral of `f` over the
physical cell. -/
theorem C60_integral (h : evalMapping dim nEl nQp nEP ecoors bfg weights nE ebfg = .ok m)
    {c : ℕ} (hc : c < nEl) {φ : ℕ → (Fin dim → ℝ) → ℝ} {E : Set (Fin dim → ℝ)} (hE : MeasurableSet E)
    {ξ : ℕ → Fin dim → ℝ}
    (hφ : ∀ q < nQp, ∀ j < nEP, IsGradAt (φ j) (ξ q) fun i => bfg c q i j)
    (hdiff : ∀ η ∈ E, ∀ j < nEP, DifferentiableAt ℝ (φ j) η)
    (hinj : Set.InjOn (physMap nEP φ (ecoors c)) E)
    (hor : ∀ η ∈ E, 0 ≤ (fderiv ℝ (physMap nEP φ (ecoors c)) η).det)
    (f : (Fin dim → ℝ) → ℝ)
    (hquad : ∑ q ∈ range nQp, weights q * ((fderiv ℝ (physMap nEP φ (ecoors c)) (ξ q)).det *
        f (physMap nEP φ (ecoors c) (ξ q))) =
      ∫ η in E, (fderiv ℝ (physMap nEP φ (ecoors c)) η).det * f (physMap nEP φ (ecoors c) η)) :
    ∑ q ∈ range nQp, f (physQps nEP (fun q j => φ j (ξ q)) ecoors c q) * m.det c q =
      ∫ y in physMap nEP φ (ecoors c) '' E, f y := by
  have hd : ∀ η ∈ E, HasFDerivWithinAt (physMap nEP φ (ecoors c))
      (fderiv ℝ (physMap nEP φ (ecoors c)) η) E η := by
    intro η hη
    refine HasFDerivAt.hasFDerivWithinAt ?_
    refine DifferentiableAt.hasFDerivAt ?_
    rw [differentiableAt_pi]
    intro k
    exact DifferentiableAt.fun_sum fun j hj => (hdiff η hη j (mem_range.1 hj)).mul_const _
  rw [MeasureTheory.integral_image_eq_integral_abs_det_fderiv_smul _ hE hd hinj]
  have : ∫ η in E, |(fderiv ℝ (physMap nEP φ (ecoors c)) η).det| • f (physMap nEP φ (ecoors c) η) =
      ∫ η in E, (fderiv ℝ (physMap nEP φ (ecoors c)) η).det * f (physMap nEP φ (ecoors c) η) := by
    refine MeasureTheory.setIntegral_congr_fun hE fun η hη => ?_
    simp only [smul_eq_mul, abs_of_nonneg (hor η hη)]
  rw [this, ← hquad]
  refine sum_congr rfl fun q hq => ?_
  rw [(C60_det h hc (mem_range.1 hq) (hφ q (mem_range.1 hq))).1]
  show f (physMap nEP φ (ecoors c) (ξ q)) * _ = _
  ring

/-- C60: the volumes. `volume` of the cell is its Lebesgue measure if the quadrature is exact for the Jacobian. -/
theorem C60_volume (h : evalMapping dim nEl nQp nEP ecoors bfg weights nE ebfg = .ok m)
    {c : ℕ} (hc : c < nEl) {φ : ℕ → (Fin dim → ℝ) → ℝ} {E : Set (Fin dim → ℝ)} (hE : MeasurableSet E)
    {ξ : ℕ → Fin dim → ℝ}
    (hφ : ∀ q < nQp, ∀ j < nEP, IsGradAt (φ j) (ξ q) fun i => bfg c q i j)
    (hdiff : ∀ η ∈ E, ∀ j < nEP, DifferentiableAt ℝ (φ j) η)
    (hinj : Set.InjOn (physMap nEP φ (ecoors c)) E)
    (hor : ∀ η ∈ E, 0 ≤ (fderiv ℝ (physMap nEP φ (ecoors c)) η).det)
    (hquad : ∑ q ∈ range nQp, weights q * (fderiv ℝ (physMap nEP φ (ecoors c)) (ξ q)).det =
      ∫ η in E, (fderiv ℝ (physMap nEP φ (ecoors c)) η).det) :
    m.volume c = (MeasureTheory.volume (physMap nEP φ (ecoors c) '' E)).toReal := by
  have := C60_integral h hc hE hφ hdiff hinj hor (fun _ => 1) (by simpa using hquad)
  rw [(evalMapping_ok h).2.2.2.1]
  simpa [MeasureTheory.measureReal_def] using this

/-- C60: the physical quadrature points. The row `c * n_qp + q` of the values are the coordinates of the image
of the quadrature point `q` in the cell `c`. -/
theorem C60_physical_qps {c q : ℕ} (hq : q < nQp) (φ : ℕ → (Fin dim → ℝ) → ℝ) (ξ : ℕ → Fin dim → ℝ) :
    physQpsFlat nQp nEP (fun q j => φ j (ξ q)) ecoors (c * nQp + q) = physMap nEP φ (ecoors c) (ξ q) := by
  have h0 : 0 < nQp := by omega
  ext k
  unfold physQpsFlat physQps physMap
  rw [Nat.mul_comm c nQp, Nat.mul_add_div h0, Nat.div_eq_of_lt hq, Nat.mul_add_mod, Nat.mod_eq_of_lt hq, Nat.add_zero]

end main

/-! ### `PyCMapping.integrate()` -/

/-- C60: with `mode=1`, `integrate()` gives averages: a constant is its average, and the average is linear and
between bounds of the values if the weights are positive. -/
theorem C60_average {nQp : ℕ} {det : ℕ → ℕ → ℝ} {volume : ℕ → ℝ} (hv : ∀ c, volume c = ∑ q ∈ range nQp, det c q)
    {c : ℕ} (hpos : ∀ q < nQp, 0 < det c q) (hq : 0 < nQp) (dim : ℕ) (field : ℕ → ℕ → ℕ → ℕ → ℝ)
    (r s : ℕ) {lo hi : ℝ} (hb : ∀ q < nQp, lo ≤ field c q r s ∧ field c q r s ≤ hi) :
    ∃ out, integrate nQp det volume dim 1 field = some out ∧ lo ≤ out c r s ∧ out c r s ≤ hi ∧
      out c r s * volume c = ∑ q ∈ range nQp, field c q r s * det c q := by
  have hV : 0 < volume c := by
    rw [hv]; exact sum_pos (fun q h => hpos q (mem_range.1 h)) ⟨0, mem_range.2 hq⟩
  refine ⟨_, by rw [integrate, if_pos (Or.inl (by omega))], ?_, ?_, ?_⟩
  · simp only [if_true]
    rw [le_div_iff₀ hV, hv, mul_sum]
    exact sum_le_sum fun q h => mul_le_mul_of_nonneg_right (hb q (mem_range.1 h)).1 (hpos q (mem_range.1 h)).le
  · simp only [if_true]
    rw [div_le_iff₀ hV, hv, mul_sum]
    exact sum_le_sum fun q h => mul_le_mul_of_nonneg_right (hb q (mem_range.1 h)).2 (hpos q (mem_range.1 h)).le
  · simp only [if_true]
    rw [div_mul_cancel₀ _ hV.ne']

/-- C60: with `mode=0` (and `mode=2`), `integrate()` gives the sums over the quadrature points. -/
theorem C60_sum {nQp : ℕ} {det : ℕ → ℕ → ℝ} {volume : ℕ → ℝ} (dim : ℕ) (field : ℕ → ℕ → ℕ → ℕ → ℝ) (mode : ℕ)
    (hm : mode = 0 ∨ mode = 2) :
    integrate nQp det volume dim mode field = some fun c r s => ∑ q ∈ range nQp, field c q r s * det c q := by
  rcases hm with rfl | rfl <;> rfl

/-- C60, a finding: `integrate()` with a `mode` above 2 of a vector field always fails. -/
theorem C60_integrate_fails {nQp : ℕ} {det : ℕ → ℕ → ℝ} {volume : ℕ → ℝ} {dim mode : ℕ} (hm : 3 ≤ mode)
    (hd : dim ≠ 1) (field : ℕ → ℕ → ℕ → ℕ → ℝ) : integrate nQp det volume dim mode field = none := by
  rw [integrate, if_neg (by omega)]

/-- C60: shapes of material data: `get_shape()` splits the rows `n_el * n_qp` of the data. -/
theorem C60_shape {nQp nEl : ℕ} (hq : 0 < nQp) (h1 : nEl * nQp ≠ 1) :
    qpShape nQp (nEl * nQp) = some (nEl, nQp) := by
  unfold qpShape
  rw [if_pos hq, if_neg h1, Nat.mul_div_cancel _ hq, if_neg (by simp)]

/-- C60: the data with an incompatible number of rows are refused. -/
theorem C60_shape_refused {nQp n : ℕ} (hq : 0 < nQp) (h1 : n ≠ 1) (h : ¬ nQp ∣ n) : qpShape nQp n = none := by
  unfold qpShape
  rw [if_pos hq, if_neg h1, if_pos fun e => h ⟨n / nQp, by rw [mul_comm]; exact e.symm⟩]

/-- C60, a finding: one cell with one quadrature point is taken for a constant parameter: the returned shape
has no cells. -/
theorem C60_shape_single : qpShape 1 (1 * 1) = some (0, 1) := by decide

end Verif.Term
