import Verif.Coef.Props
import Mathlib.Algebra.BigOperators.Ring.Finset
import Mathlib.Algebra.Order.BigOperators.Group.Finset
import Mathlib.LinearAlgebra.BilinearMap
import Mathlib.LinearAlgebra.Matrix.DotProduct
import Mathlib.Data.Matrix.Mul
import Mathlib.Algebra.BigOperators.Field
import Mathlib.Tactic.Abel
import Mathlib.Tactic.FinCases
import Mathlib.Algebra.BigOperators.Fin
import Mathlib.Tactic.NormNum
import Mathlib.Tactic.LinearCombination
import Mathlib.Tactic.FieldSimp
import Mathlib.Tactic.Positivity

/-!
# C141: homogenized coefficients

The correctors are any solutions of the problems solved by `CorrNN`: `w k` in the space `W` (the periodic
displacements with the boundary conditions) with `a(w k + pi k, v) = 0` for all `v` in `W`; the coefficient is
that of `CoefSymSym`: `A k l = a(w k + pi k, w l + pi l) / volume`.
-/

open Finset

namespace Verif.Coef

variable {U : Type} [AddCommGroup U] [Module ℝ U] {K : Type} [Fintype K]

/-- A solution of the corrector problem for the data `p`. -/
def IsCorrector (a : U →ₗ[ℝ] U →ₗ[ℝ] ℝ) (W : Submodule ℝ U) (p w : U) : Prop :=
  w ∈ W ∧ ∀ v ∈ W, a (w + p) v = 0

/-- The homogenized coefficient. -/
noncomputable def hom (a : U →ₗ[ℝ] U →ₗ[ℝ] ℝ) (pi w : K → U) (vol : ℝ) (k l : K) : ℝ :=
  a (w k + pi k) (w l + pi l) / vol

/-- The energy of a macroscopic strain with the components `E`. -/
noncomputable def energy (A : K → K → ℝ) (E : K → ℝ) : ℝ := ∑ k, ∑ l, E k * A k l * E l

/-- The macroscopically affine displacement of the strain `E`. -/
def affine (pi : K → U) (E : K → ℝ) : U := ∑ k, E k • pi k

variable {a : U →ₗ[ℝ] U →ₗ[ℝ] ℝ} {W : Submodule ℝ U} {pi w : K → U} {vol : ℝ}

theorem energy_hom (E : K → ℝ) :
    energy (hom a pi w vol) E = a (affine (fun k => w k + pi k) E) (affine (fun k => w k + pi k) E) / vol := by
  unfold energy hom affine
  rw [map_sum a, LinearMap.sum_apply, Finset.sum_div]
  apply Finset.sum_congr rfl
  intro k _
  rw [map_sum (a (E k • (w k + pi k))), Finset.sum_div]
  apply Finset.sum_congr rfl
  intro l _
  simp only [map_smul, LinearMap.smul_apply, smul_eq_mul]
  ring

theorem affine_add (E : K → ℝ) : affine (fun k => w k + pi k) E = affine w E + affine pi E := by
  simp [affine, smul_add, Finset.sum_add_distrib]

theorem affine_corr (hw : ∀ k, IsCorrector a W (pi k) (w k)) (E : K → ℝ) :
    IsCorrector a W (affine pi E) (affine w E) := by
  refine ⟨Submodule.sum_mem _ fun k _ => Submodule.smul_mem _ _ (hw k).1, fun v hv => ?_⟩
  rw [← affine_add]
  unfold affine
  rw [map_sum, LinearMap.sum_apply]
  apply Finset.sum_eq_zero
  intro k _
  rw [map_smul, LinearMap.smul_apply, (hw k).2 v hv, smul_zero]

omit [Fintype K] in
/-- The coefficient of a symmetric form is symmetric. -/
theorem C141_symmetric (hs : ∀ u v, a u v = a v u) (k l : K) : hom a pi w vol k l = hom a pi w vol l k := by
  unfold hom; rw [hs]

/-- The coefficient of a nonnegative form is nonnegative. -/
theorem C141_nonneg (hp : ∀ u, 0 ≤ a u u) (hv : 0 < vol) (E : K → ℝ) : 0 ≤ energy (hom a pi w vol) E := by
  rw [energy_hom]; exact div_nonneg (hp _) hv.le

/-- The coefficient is positive definite, if only the displacements `N` have no energy and no nonzero
affine displacement is the sum of one of them and of an admissible one. -/
theorem C141_posdef (hp : ∀ u, 0 ≤ a u u) (hv : 0 < vol) (hw : ∀ k, IsCorrector a W (pi k) (w k))
    (N : Submodule ℝ U) (hN : ∀ u, a u u = 0 → u ∈ N)
    (hE : ∀ E : K → ℝ, affine pi E ∈ W ⊔ N → E = 0) (E : K → ℝ) (hne : E ≠ 0) :
    0 < energy (hom a pi w vol) E := by
  rw [energy_hom]
  refine div_pos (lt_of_le_of_ne (hp _) fun h => hne (hE E ?_)) hv
  have h1 := hN _ h.symm
  rw [affine_add] at h1
  have h2 := (affine_corr hw E).1
  have : affine pi E = -affine w E + (affine w E + affine pi E) := by abel
  rw [this]
  exact Submodule.add_mem_sup (W.neg_mem h2) h1

omit [Fintype K] in
/-- One corrector suffices: `a(w k + pi k, pi l)` gives the same coefficient. -/
theorem C141_one_sided (hw : ∀ k, IsCorrector a W (pi k) (w k)) (k l : K) :
    hom a pi w vol k l = a (w k + pi k) (pi l) / vol := by
  unfold hom
  rw [map_add (a (w k + pi k)), (hw k).2 _ (hw l).1, zero_add]

omit [Fintype K] in
/-- The coefficient does not depend on the choice of the correctors (they need not be unique). -/
theorem C141_unique (hs : ∀ u v, a u v = a v u) (w' : K → U) (hw : ∀ k, IsCorrector a W (pi k) (w k))
    (hw' : ∀ k, IsCorrector a W (pi k) (w' k)) (k l : K) : hom a pi w vol k l = hom a pi w' vol k l := by
  have h1 : a (w k + pi k) (w l + pi l) = a (w k + pi k) (w' l + pi l) := by
    rw [map_add (a (w k + pi k)), map_add (a (w k + pi k)), (hw k).2 _ (hw l).1, (hw k).2 _ (hw' l).1]
  have h2 : a (w' l + pi l) (w k + pi k) = a (w' l + pi l) (w' k + pi k) := by
    rw [map_add (a (w' l + pi l)), map_add (a (w' l + pi l)), (hw' l).2 _ (hw k).1, (hw' l).2 _ (hw' k).1]
  unfold hom
  rw [h1, hs, h2, hs]

/-- The energy of the coefficient is the least energy of all admissible fluctuations around the affine
displacement, and it is attained. -/
theorem C141_minimum (hs : ∀ u v, a u v = a v u) (hp : ∀ u, 0 ≤ a u u) (hv : 0 < vol)
    (hw : ∀ k, IsCorrector a W (pi k) (w k)) (E : K → ℝ) :
    (∀ v ∈ W, energy (hom a pi w vol) E ≤ a (v + affine pi E) (v + affine pi E) / vol) ∧
      ∃ v ∈ W, energy (hom a pi w vol) E = a (v + affine pi E) (v + affine pi E) / vol := by
  have hc := affine_corr hw E
  rw [energy_hom, affine_add]
  refine ⟨fun v hvW => ?_, affine w E, hc.1, rfl⟩
  apply div_le_div_of_nonneg_right _ hv.le
  set u := affine w E + affine pi E
  have hd : v + affine pi E = u + (v - affine w E) := by simp only [u]; abel
  have h0 : a u (v - affine w E) = 0 := hc.2 _ (W.sub_mem hvW hc.1)
  have h1 : a (v - affine w E) u = 0 := by rw [hs, h0]
  have h2 : a (u + (v - affine w E)) (u + (v - affine w E)) =
      a u u + a u (v - affine w E) + (a (v - affine w E) u + a (v - affine w E) (v - affine w E)) := by
    rw [map_add a, LinearMap.add_apply, map_add (a u), map_add (a (v - affine w E))]
  rw [hd, h2, h0, h1]
  have := hp (v - affine w E)
  linarith

/-- The Voigt bound: the energy of the coefficient is at most that without fluctuations. -/
theorem C141_voigt (hs : ∀ u v, a u v = a v u) (hp : ∀ u, 0 ≤ a u u) (hv : 0 < vol)
    (hw : ∀ k, IsCorrector a W (pi k) (w k)) (E : K → ℝ) :
    energy (hom a pi w vol) E ≤ a (affine pi E) (affine pi E) / vol := by
  have := (C141_minimum hs hp hv hw E).1 0 W.zero_mem
  simpa using this

/-- A stiffer material gives a stiffer coefficient. -/
theorem C141_monotone (b : U →ₗ[ℝ] U →ₗ[ℝ] ℝ) (z : K → U) (hs : ∀ u v, a u v = a v u) (hp : ∀ u, 0 ≤ a u u)
    (hv : 0 < vol) (hw : ∀ k, IsCorrector a W (pi k) (w k)) (hz : ∀ k, IsCorrector b W (pi k) (z k))
    (hab : ∀ u, a u u ≤ b u u) (E : K → ℝ) :
    energy (hom a pi w vol) E ≤ energy (hom b pi z vol) E := by
  refine ((C141_minimum hs hp hv hw E).1 (affine z E) (affine_corr hz E).1).trans ?_
  rw [energy_hom (a := b), affine_add]
  exact div_le_div_of_nonneg_right (hab _) hv.le

omit [Fintype K] in
/-- Data that differ by a displacement without strain (such as `pi^rs` and `pi^sr`, which differ by a rotation)
give the same coefficients: the non-symmetric index set repeats those of the symmetric one. -/
theorem C141_minor {k k' : K} (hs : ∀ u v, a u v = a v u) (hw : ∀ k, IsCorrector a W (pi k) (w k))
    (hr : ∀ v, a (pi k - pi k') v = 0) (hd : ∀ v ∈ W, a v v = 0 → ∀ u, a v u = 0) (l : K) :
    hom a pi w vol k l = hom a pi w vol k' l := by
  have hW : w k - w k' ∈ W := W.sub_mem (hw k).1 (hw k').1
  have h1 : ∀ v ∈ W, a (w k - w k') v = 0 := by
    intro v hv
    have e1 := (hw k).2 v hv
    have e2 := (hw k').2 v hv
    have e3 := hr v
    simp only [map_add, map_sub, LinearMap.add_apply, LinearMap.sub_apply] at e1 e2 e3 ⊢
    linarith
  have h2 := hd _ hW (h1 _ hW)
  rw [C141_one_sided hw, C141_one_sided hw]
  have e1 := h2 (pi l)
  have e3 := hr (pi l)
  simp only [map_add, map_sub, LinearMap.add_apply, LinearMap.sub_apply] at e1 e3 ⊢
  congr 1
  linarith

/-! ## Forms given by strains in quadrature points -/

variable {Q S : Type} [Fintype Q] [Fintype S]

open Matrix

/-- `a` is the form `∫ e(u) : D : e(v)` with the weights `wt`, the stiffness `D` and the strains `e` in
quadrature points. -/
def IsForm (a : U →ₗ[ℝ] U →ₗ[ℝ] ℝ) (wt : Q → ℝ) (D : Q → Matrix S S ℝ) (e : Q → U →ₗ[ℝ] (S → ℝ)) : Prop :=
  ∀ u v, a u v = ∑ q, wt q * (e q u ⬝ᵥ (D q *ᵥ e q v))

/-- The Reuss bound, in the form of the complementary energy: for each strain `E` and stress `s`,
`2 s . E - s . <D^-1> s <= E . A . E`, where `<D^-1>` is the mean compliance. -/
theorem C141_reuss {wt : Q → ℝ} {D C : Q → Matrix S S ℝ} {e : Q → U →ₗ[ℝ] (S → ℝ)} {pi w : S → U}
    (ha : IsForm a wt D e) (hwt : ∀ q, 0 ≤ wt q) (hv : 0 < vol) (hvol : ∑ q, wt q = vol)
    (hD : ∀ q x, 0 ≤ x ⬝ᵥ (D q *ᵥ x)) (hDs : ∀ q x y, x ⬝ᵥ (D q *ᵥ y) = y ⬝ᵥ (D q *ᵥ x))
    (hC : ∀ q x, D q *ᵥ (C q *ᵥ x) = x)
    (hpi : ∀ q (E : S → ℝ), e q (affine pi E) = E) (hW : ∀ v ∈ W, ∀ i, ∑ q, wt q * e q v i = 0)
    (hw : ∀ k, IsCorrector a W (pi k) (w k)) (E s : S → ℝ) :
    2 * (s ⬝ᵥ E) - s ⬝ᵥ ((∑ q, (wt q / vol) • C q) *ᵥ s) ≤ energy (hom a pi w vol) E := by
  have hc := affine_corr hw E
  rw [energy_hom, affine_add, ha, le_div_iff₀ hv]
  set u := affine w E + affine pi E with hu
  have hpt : ∀ q, 2 * (s ⬝ᵥ e q u) - s ⬝ᵥ (C q *ᵥ s) ≤ e q u ⬝ᵥ (D q *ᵥ e q u) := by
    intro q
    have h0 := hD q (e q u - C q *ᵥ s)
    rw [Matrix.mulVec_sub, hC, sub_dotProduct, dotProduct_sub, dotProduct_sub, hDs q (C q *ᵥ s) (e q u),
      hC] at h0
    have h1 : e q u ⬝ᵥ s = s ⬝ᵥ e q u := dotProduct_comm _ _
    have h2 : (C q *ᵥ s) ⬝ᵥ s = s ⬝ᵥ (C q *ᵥ s) := dotProduct_comm _ _
    rw [h1, h2] at h0
    linarith
  have hmean : ∑ q, wt q * (s ⬝ᵥ e q u) = (s ⬝ᵥ E) * vol := by
    have h1 : ∀ q, wt q * (s ⬝ᵥ e q u) = (∑ i, s i * (wt q * e q (affine w E) i)) + wt q * (s ⬝ᵥ E) := by
      intro q
      rw [hu, map_add, hpi, dotProduct_add, mul_add]
      congr 1
      simp only [dotProduct, Finset.mul_sum]
      exact Finset.sum_congr rfl fun i _ => by ring
    rw [Finset.sum_congr rfl fun q _ => h1 q, Finset.sum_add_distrib, Finset.sum_comm, ← Finset.sum_mul, hvol]
    have : ∑ i, ∑ q, s i * (wt q * e q (affine w E) i) = 0 := by
      apply Finset.sum_eq_zero
      intro i _
      rw [← Finset.mul_sum, hW _ hc.1 i, mul_zero]
    rw [this]; ring
  have hS : (s ⬝ᵥ ((∑ q, (wt q / vol) • C q) *ᵥ s)) * vol = ∑ q, wt q * (s ⬝ᵥ (C q *ᵥ s)) := by
    rw [Matrix.sum_mulVec, dotProduct_sum, Finset.sum_mul]
    apply Finset.sum_congr rfl
    intro q _
    rw [Matrix.smul_mulVec, dotProduct_smul, smul_eq_mul]
    field_simp
  calc (2 * (s ⬝ᵥ E) - s ⬝ᵥ ((∑ q, (wt q / vol) • C q) *ᵥ s)) * vol
      = ∑ q, wt q * (2 * (s ⬝ᵥ e q u) - s ⬝ᵥ (C q *ᵥ s)) := by
        simp only [mul_sub, Finset.sum_sub_distrib]
        rw [← hS, sub_mul, mul_assoc, ← hmean, Finset.mul_sum]
        congr 1
        exact Finset.sum_congr rfl fun q _ => by ring
    _ ≤ _ := Finset.sum_le_sum fun q _ => mul_le_mul_of_nonneg_left (hpt q) (hwt q)

/-- The Voigt bound with the mean stiffness. -/
theorem C141_voigt_mean {wt : Q → ℝ} {D : Q → Matrix S S ℝ} {e : Q → U →ₗ[ℝ] (S → ℝ)} {pi w : S → U}
    (ha : IsForm a wt D e) (hwt : ∀ q, 0 ≤ wt q) (hv : 0 < vol)
    (hD : ∀ q x, 0 ≤ x ⬝ᵥ (D q *ᵥ x)) (hDs : ∀ q x y, x ⬝ᵥ (D q *ᵥ y) = y ⬝ᵥ (D q *ᵥ x))
    (hpi : ∀ q (E : S → ℝ), e q (affine pi E) = E) (hw : ∀ k, IsCorrector a W (pi k) (w k)) (E : S → ℝ) :
    energy (hom a pi w vol) E ≤ E ⬝ᵥ ((∑ q, (wt q / vol) • D q) *ᵥ E) := by
  have hs : ∀ u v, a u v = a v u := fun u v => by
    rw [ha, ha]; exact Finset.sum_congr rfl fun q _ => by rw [hDs]
  have hp : ∀ u, 0 ≤ a u u := fun u => by
    rw [ha]; exact Finset.sum_nonneg fun q _ => mul_nonneg (hwt q) (hD q _)
  refine (C141_voigt hs hp hv hw E).trans (le_of_eq ?_)
  rw [ha, Matrix.sum_mulVec, dotProduct_sum, Finset.sum_div]
  apply Finset.sum_congr rfl
  intro q _
  rw [hpi, Matrix.smul_mulVec, dotProduct_smul, smul_eq_mul]
  ring

/-- A homogeneous material has its own stiffness as the coefficient. -/
theorem C141_homogeneous [DecidableEq S] {wt : Q → ℝ} {D : Matrix S S ℝ} {e : Q → U →ₗ[ℝ] (S → ℝ)} {pi w : S → U}
    (ha : IsForm a wt (fun _ => D) e) (hv : 0 < vol) (hvol : ∑ q, wt q = vol)
    (hDs : ∀ x y, x ⬝ᵥ (D *ᵥ y) = y ⬝ᵥ (D *ᵥ x))
    (hpi : ∀ q k, e q (pi k) = Pi.single k 1) (hW : ∀ v ∈ W, ∀ i, ∑ q, wt q * e q v i = 0)
    (hw : ∀ k, IsCorrector a W (pi k) (w k)) (k l : S) : hom a pi w vol k l = D k l := by
  have hz : ∀ v ∈ W, ∀ l, a v (pi l) = 0 := by
    intro v hvW l
    rw [ha]
    have : ∀ q, wt q * (e q v ⬝ᵥ (D *ᵥ e q (pi l))) = ∑ i, (wt q * e q v i) * (D *ᵥ Pi.single l 1) i := by
      intro q
      rw [hpi]
      simp only [dotProduct, Finset.mul_sum]
      exact Finset.sum_congr rfl fun i _ => by ring
    rw [Finset.sum_congr rfl fun q _ => this q, Finset.sum_comm]
    apply Finset.sum_eq_zero
    intro i _
    rw [← Finset.sum_mul, hW v hvW i, zero_mul]
  rw [C141_one_sided hw, map_add, LinearMap.add_apply, hz _ (hw k).1, zero_add, ha]
  have : ∀ q, wt q * (e q (pi k) ⬝ᵥ (D *ᵥ e q (pi l))) = wt q * D k l := by
    intro q
    rw [hpi, hpi, single_one_dotProduct, Matrix.mulVec_single_one]
    rfl
  rw [Finset.sum_congr rfl fun q _ => this q, ← Finset.sum_mul, hvol]
  field_simp

/-- The coefficient computed by `CoefSymSym` from the correctors stored by `CorrNN`, for any initial states and
any leftover values of variables, is the homogenized coefficient of any solutions of the corrector problems. -/
theorem C141_computed (hs : ∀ u v, a u v = a v u) (dim : ℕ) (pis : ℕ × ℕ → U) (solve : U → U → U)
    (hsolve : ∀ x p, IsCorrector a W p (solve x p)) (x : U) (w : ℕ × ℕ → U)
    (hw : ∀ p, IsCorrector a W (pis p) (w p)) (vs : Vars U) :
    ∃ M, coefSymSym (fun v => match v "Pi1", v "Pi2" with
        | some x, some y => a x y
        | _, _ => 0)
      ⟨[⟨"Pi1", "pis", ["corrs"], "u"⟩], [⟨"Pi2", "pis", ["corrs"], "u"⟩], []⟩
      (fun r => if r = "pis" then some (.states2 dim dim fun r s c => if c = "u" then some (pis (r, s)) else none)
        else if r = "corrs" then some (.states2 dim dim fun r s c =>
          if c = "u" then corrStates solve pis (iterNonsym dim) x (r, s) else none)
        else none) dim vs vol = some M ∧
      M = (iterSym dim).map fun k => (iterSym dim).map fun l => hom a pis w vol k l := by
  have hst : ∀ p ∈ iterSym dim, ∃ y, corrStates solve pis (iterNonsym dim) x p = some y ∧
      IsCorrector a W (pis p) y := by
    rintro ⟨r, c⟩ hp
    have := (C140_iter_sym dim).1 r c |>.1 hp
    exact C140_correctors solve pis (IsCorrector a W) hsolve _ x _ (by
      simp only [iterNonsym, List.mem_flatMap, List.mem_map, List.mem_range, Prod.mk.injEq]
      exact ⟨r, by omega, c, by omega, rfl, rfl⟩)
  classical
  let y : ℕ × ℕ → U := fun p => if h : p ∈ iterSym dim then Classical.choose (hst p h) else w p
  have hy : ∀ p ∈ iterSym dim, corrStates solve pis (iterNonsym dim) x p = some (y p) := by
    intro p h
    simp only [y, dif_pos h]
    exact (Classical.choose_spec (hst p h)).1
  have hyc : ∀ p, IsCorrector a W (pis p) (y p) := by
    intro p
    by_cases h : p ∈ iterSym dim
    · simp only [y, dif_pos h]
      exact (Classical.choose_spec (hst p h)).2
    · simp only [y, dif_neg h]
      exact hw p
  have hval : ∀ p ∈ iterSym dim, ∀ var, itemVal
      (fun r => if r = "pis" then some (.states2 dim dim fun r s c => if c = "u" then some (pis (r, s)) else none)
        else if r = "corrs" then some (.states2 dim dim fun r s c =>
          if c = "u" then corrStates solve pis (iterNonsym dim) x (r, s) else none)
        else none) (pairIdx p) ⟨var, "pis", ["corrs"], "u"⟩ = some (y p + pis p) := by
    rintro ⟨r, c⟩ hp var
    have hb := (C140_iter_sym dim).1 r c |>.1 hp
    have h1 : r < dim ∧ c < dim := by omega
    have h2 := hy _ hp
    simp only [itemVal, pairIdx, corrState, if_pos h1, if_true, Option.bind_some, List.foldl_cons, List.foldl_nil,
      show ("corrs" = "pis") = False by decide, if_false, h2, Option.map_some, add_comm]
  refine Option.isSome_iff_exists.1 ?_ |>.imp fun M hM => ⟨hM, ?_⟩
  · apply C140_succeeds
    all_goals
      intro i hi it hit
      obtain ⟨p, hp, rfl⟩ := List.mem_map.1 hi
      simp only [List.append_nil, List.mem_singleton] at hit
      subst hit
      rw [hval p hp]; rfl
  · rw [C140_bilinear (fun u v => a u v) "Pi1" "Pi2" (by decide) _ _ _ rfl rfl rfl rfl rfl _ vs vol dim
      (fun p => y p + pis p) (fun p hp => ⟨hval p hp _, hval p hp _⟩) M hM]
    apply List.map_congr_left
    intro k _
    apply List.map_congr_left
    intro l _
    exact C141_unique hs w hyc hw k l

/-- A laminate of two springs in series with the stiffnesses 1 and 3: the coefficient is the harmonic mean
`3/2`, below the mean `2`. -/
example : ∃ (a : (ℝ × ℝ) →ₗ[ℝ] (ℝ × ℝ) →ₗ[ℝ] ℝ) (W : Submodule ℝ (ℝ × ℝ)) (w : Fin 1 → ℝ × ℝ),
    (∀ k, IsCorrector a W ((fun _ => (1, 1)) k) (w k)) ∧ hom a (fun _ => (1, 1)) w 2 0 0 = 3 / 2 := by
  refine ⟨LinearMap.mk₂ ℝ (fun u v => u.1 * v.1 + 3 * (u.2 * v.2)) ?_ ?_ ?_ ?_,
    { carrier := {u | u.1 + u.2 = 0}, add_mem' := ?_, zero_mem' := ?_, smul_mem' := ?_ }, fun _ => (1 / 2, -1 / 2), ?_, ?_⟩
  · intro x y z; simp; ring
  · intro c x y; simp; ring
  · intro x y z; simp; ring
  · intro c x y; simp; ring
  · rintro ⟨a, b⟩ ⟨c, d⟩ h1 h2
    simp only [Set.mem_ofPred_eq, Prod.mk_add_mk] at *
    linarith
  · simp
  · rintro c ⟨a, b⟩ h
    simp only [Set.mem_ofPred_eq, Prod.smul_mk, smul_eq_mul] at *
    rw [← mul_add, h, mul_zero]
  · intro k
    refine ⟨by show (1 / 2 : ℝ) + -1 / 2 = 0; norm_num, ?_⟩
    rintro ⟨v1, v2⟩ hv
    have hv' : v1 + v2 = 0 := hv
    simp only [LinearMap.mk₂_apply, Prod.mk_add_mk]
    linear_combination (3 / 2) * hv'
  · simp only [hom, LinearMap.mk₂_apply, Prod.mk_add_mk]
    norm_num

/-- The same laminate by strains in two quadrature points: the hypotheses of the bounds hold. -/
example : ∃ (a : (Fin 2 → ℝ) →ₗ[ℝ] (Fin 2 → ℝ) →ₗ[ℝ] ℝ) (e : Fin 2 → (Fin 2 → ℝ) →ₗ[ℝ] (Fin 1 → ℝ))
    (W : Submodule ℝ (Fin 2 → ℝ)) (w : Fin 1 → Fin 2 → ℝ),
    IsForm a (fun _ => 1) (fun q => diagonal fun _ => ![1, 3] q) e ∧
    (∀ q (E : Fin 1 → ℝ), e q (affine (fun _ => fun _ => 1) E) = E) ∧
    (∀ v ∈ W, ∀ i, ∑ q, (fun _ => (1 : ℝ)) q * e q v i = 0) ∧
    (∀ q x, 0 ≤ x ⬝ᵥ ((diagonal fun _ : Fin 1 => (![1, 3] : Fin 2 → ℝ) q) *ᵥ x)) ∧
    (∀ q x, (diagonal fun _ : Fin 1 => (![1, 3] : Fin 2 → ℝ) q) *ᵥ
      ((diagonal fun _ : Fin 1 => (![1, 1 / 3] : Fin 2 → ℝ) q) *ᵥ x) = x) ∧
    (∀ k, IsCorrector a W ((fun _ => fun _ => 1) k) (w k)) ∧ w 0 0 = 1 / 2 := by
  refine ⟨LinearMap.mk₂ ℝ (fun u v => u 0 * v 0 + 3 * (u 1 * v 1)) ?_ ?_ ?_ ?_,
    fun q => { toFun := fun u _ => u q, map_add' := fun _ _ => rfl, map_smul' := fun _ _ => rfl },
    { carrier := {u | u 0 + u 1 = 0}, add_mem' := ?_, zero_mem' := ?_, smul_mem' := ?_ },
    fun _ => ![1 / 2, -1 / 2], ?_, ?_, ?_, ?_, ?_, ?_, rfl⟩
  · intro x y z; simp; ring
  · intro c x y; simp; ring
  · intro x y z; simp; ring
  · intro c x y; simp; ring
  · intro x y h1 h2
    have h1' : x 0 + x 1 = 0 := h1
    have h2' : y 0 + y 1 = 0 := h2
    show (x 0 + y 0) + (x 1 + y 1) = 0
    linarith
  · show (0 : ℝ) + 0 = 0; norm_num
  · intro c x h
    have h' : x 0 + x 1 = 0 := h
    show c * x 0 + c * x 1 = 0
    rw [← mul_add, h', mul_zero]
  · intro u v
    simp [Fin.sum_univ_two, dotProduct, mulVec_diagonal]
    ring
  · intro q E
    funext i
    fin_cases i
    simp [affine]
  · intro v hv i
    have hv' : v 0 + v 1 = 0 := hv
    simpa [Fin.sum_univ_two] using hv'
  · intro q x
    fin_cases q <;> simp [dotProduct, mulVec_diagonal] <;> nlinarith [mul_self_nonneg (x 0)]
  · intro q x
    funext i
    fin_cases q <;> simp [mulVec_diagonal]
  · intro k
    refine ⟨by show (1 / 2 : ℝ) + -1 / 2 = 0; norm_num, ?_⟩
    intro v hv
    have hv' : v 0 + v 1 = 0 := hv
    simp only [LinearMap.mk₂_apply, Pi.add_apply]
    simp
    linear_combination (3 / 2) * hv'

end Verif.Coef
