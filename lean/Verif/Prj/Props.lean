import Verif.Prj.Model
import Mathlib.Algebra.BigOperators.Fin
import Mathlib.Tactic.Linarith
import Mathlib.Tactic.Ring
import Mathlib.Tactic.NormNum
import Mathlib.Tactic.FinCases

/-!
# Properties of projections (C135, C136)
-/

namespace Verif.Prj

open Matrix Finset

variable {K : Type} [Field K] {nE nQ nC nB nD : ℕ}

/-! ## Specification -/

/-- The value (channel `ch`) of the discrete function with the DOFs `u` in a quadrature point. -/
def value (s : Space K nE nQ nC nB nD) (u : Fin nD → K) (e : Fin nE) (q : Fin nQ) (ch : Fin nC) : K :=
  ∑ a, s.bf e q ch a * u (s.conn e a)

/-- The discrete inner product of two sets of quadrature point data. -/
def inner (s : Space K nE nQ nC nB nD) (f g : Fin nE → Fin nQ → Fin nC → K) : K :=
  ∑ e, ∑ q, (∑ ch, f e q ch * g e q ch) * s.det e q

/-- Only the zero DOF vector gives zero data in all quadrature points. -/
def Unisolvent (s : Space K nE nQ nC nB nD) : Prop :=
  ∀ u : Fin nD → K, (∀ e q ch, value s u e q ch = 0) → u = 0

/-! ## Assembling -/

theorem scatter (cn : Fin nB → Fin nD) (v : Fin nD → K) (X : Fin nB → K) :
    ∑ r, v r * ∑ a, (if cn a = r then X a else 0) = ∑ a, v (cn a) * X a := by
  simp only [mul_sum]
  rw [sum_comm]
  refine sum_congr rfl fun a _ => ?_
  simp only [mul_ite, mul_zero]
  rw [sum_ite_eq univ (cn a) (fun r => v r * X a), if_pos (mem_univ _)]

theorem rhs_inner (s : Space K nE nQ nC nB nD) (f : Fin nE → Fin nQ → Fin nC → K) (v : Fin nD → K) :
    v ⬝ᵥ termRhs s f = inner s (value s v) f := by
  unfold dotProduct termRhs inner
  simp only [mul_sum (s := (univ : Finset (Fin nE)))]
  rw [sum_comm]
  refine sum_congr rfl fun e _ => ?_
  rw [scatter (s.conn e) v]
  simp only [mul_sum]
  rw [sum_comm]
  refine sum_congr rfl fun q _ => ?_
  unfold value
  simp only [sum_mul, mul_sum]
  rw [sum_comm]
  refine sum_congr rfl fun ch _ => sum_congr rfl fun a _ => ?_
  ring

theorem mtx_mulVec (s : Space K nE nQ nC nB nD) (u : Fin nD → K) :
    termMtx s *ᵥ u = termRhs s (value s u) := by
  funext r
  unfold mulVec dotProduct termMtx termRhs
  simp only [sum_mul (s := (univ : Finset (Fin nE)))]
  rw [sum_comm]
  refine sum_congr rfl fun e _ => ?_
  have hx : ∀ x, (∑ a, ∑ b, if s.conn e a = r ∧ s.conn e b = x then
      ∑ q, (∑ ch, s.bf e q ch a * s.bf e q ch b) * s.det e q else 0) * u x
      = ∑ a, if s.conn e a = r then u x * ∑ b, (if s.conn e b = x then
        ∑ q, (∑ ch, s.bf e q ch a * s.bf e q ch b) * s.det e q else 0) else 0 := by
    intro x
    rw [sum_mul]
    refine sum_congr rfl fun a _ => ?_
    by_cases h : s.conn e a = r
    · simp only [h, true_and, if_true]
      rw [mul_comm]
    · simp [h]
  rw [sum_congr rfl fun x _ => hx x, sum_comm]
  refine sum_congr rfl fun a _ => ?_
  by_cases h : s.conn e a = r
  · simp only [h, if_true]
    rw [scatter (s.conn e) u fun b => ∑ q, (∑ ch, s.bf e q ch a * s.bf e q ch b) * s.det e q]
    unfold value
    simp only [mul_sum, sum_mul]
    rw [sum_comm]
    refine sum_congr rfl fun q _ => ?_
    rw [sum_comm]
    exact sum_congr rfl fun ch _ => sum_congr rfl fun b _ => by ring
  · simp [h]

/-! ### `project_to_facets()` assembles the same -/

theorem addAt_eq (rhs : Fin nD → K) (elc : Fin nB → Fin nD) (hinj : Function.Injective elc)
    (lrhs : Fin nB → K) (d : Fin nD) :
    addAt rhs elc lrhs d = rhs d + ∑ a, if elc a = d then lrhs a else 0 := by
  unfold addAt
  cases hl : ((List.finRange nB).filter fun a => decide (elc a = d)).getLast? with
  | none =>
    have hnil := List.getLast?_eq_none_iff.1 hl
    simp only
    rw [sum_eq_zero, add_zero]
    intro a _
    rw [if_neg]
    intro ha
    have : a ∈ (List.finRange nB).filter fun a => decide (elc a = d) := by
      simp [ha]
    rw [hnil] at this
    exact absurd this (by simp)
  | some a0 =>
    have hm := List.mem_of_getLast? hl
    have ha0 : elc a0 = d := by simpa using hm
    simp only
    congr 1
    rw [sum_eq_single a0]
    · rw [if_pos ha0]
    · intro b _ hb
      rw [if_neg]
      intro h
      exact hb (hinj (h.trans ha0.symm))
    · intro h; exact absurd (mem_univ _) h

theorem foldl_add {ι : Type} (l : List ι) (step : (Fin nD → K) → ι → (Fin nD → K)) (g : ι → Fin nD → K)
    (h : ∀ r i d, step r i d = r d + g i d) (r0 : Fin nD → K) (d : Fin nD) :
    (l.foldl step r0) d = r0 d + (l.map fun i => g i d).sum := by
  induction l generalizing r0 with
  | nil => simp
  | cons i l ih => rw [List.foldl_cons, ih, h, List.map_cons, List.sum_cons, add_assoc]

theorem facetRhs_eq (s : Space K nE nQ 1 nB nD) (hinj : ∀ e, Function.Injective (s.conn e))
    (f : Fin nE → Fin nQ → K) : facetRhs s f = termRhs s fun e q _ => f e q := by
  funext d
  unfold facetRhs termRhs
  rw [foldl_add _ _ (fun ii d => ∑ a, if s.conn ii a = d then
      ∑ q, s.bf ii q 0 a * (f ii q * s.det ii q) else 0)
    (fun r i d => addAt_eq r (s.conn i) (hinj i) _ d), ← Fin.sum_univ_def]
  simp only [Pi.zero_apply, zero_add]
  refine sum_congr rfl fun e _ => sum_congr rfl fun a _ => ?_
  congr 1
  refine sum_congr rfl fun q _ => ?_
  rw [Fin.sum_univ_one]
  ring

theorem sum_filter_map {ι : Type} (l : List ι) (p : ι → Prop) [DecidablePred p] (g : ι → K) :
    ((l.filter fun t => decide (p t)).map g).sum = (l.map fun t => if p t then g t else 0).sum := by
  induction l with
  | nil => rfl
  | cons x l ih =>
    by_cases h : p x
    · simp [h, ih]
    · simp [h, ih]

theorem sum_flatMap {ι κ : Type} (l : List ι) (f : ι → List κ) (g : κ → K) :
    ((l.flatMap f).map g).sum = (l.map fun x => ((f x).map g).sum).sum := by
  induction l with
  | nil => rfl
  | cons x l ih => simp [ih]

theorem facetMtx_eq (s : Space K nE nQ 1 nB nD) : facetMtx s = termMtx s := by
  funext r c
  unfold facetMtx facetEntries termMtx
  rw [sum_filter_map, sum_flatMap, ← Fin.sum_univ_def]
  refine sum_congr rfl fun e _ => ?_
  rw [sum_flatMap, ← Fin.sum_univ_def]
  simp only [List.map_map, Function.comp_def]
  rw [sum_comm]
  refine sum_congr rfl fun b _ => ?_
  rw [← Fin.sum_univ_def]
  refine sum_congr rfl fun a _ => ?_
  simp only [Prod.mk.injEq]
  congr 1
  refine sum_congr rfl fun q _ => ?_
  rw [Fin.sum_univ_one]
  ring

/-! ## Inner products -/

theorem inner_add_right (s : Space K nE nQ nC nB nD) (f g h : Fin nE → Fin nQ → Fin nC → K) :
    inner s f (fun e q c => g e q c + h e q c) = inner s f g + inner s f h := by
  unfold inner
  simp only [mul_add, sum_add_distrib, add_mul]

theorem inner_comm (s : Space K nE nQ nC nB nD) (f g : Fin nE → Fin nQ → Fin nC → K) :
    inner s f g = inner s g f := by
  unfold inner
  simp only [mul_comm]

theorem value_sub (s : Space K nE nQ nC nB nD) (u v : Fin nD → K) (e : Fin nE) (q : Fin nQ) (c : Fin nC) :
    value s (u - v) e q c = value s u e q c - value s v e q c := by
  unfold value
  rw [← sum_sub_distrib]
  exact sum_congr rfl fun a _ => by simp only [Pi.sub_apply]; ring

variable [LinearOrder K] [IsStrictOrderedRing K]

theorem inner_self_nonneg (s : Space K nE nQ nC nB nD) (hdet : ∀ e q, 0 < s.det e q)
    (f : Fin nE → Fin nQ → Fin nC → K) : 0 ≤ inner s f f :=
  sum_nonneg fun e _ => sum_nonneg fun q _ =>
    mul_nonneg (sum_nonneg fun c _ => mul_self_nonneg _) (hdet e q).le

theorem inner_self_zero (s : Space K nE nQ nC nB nD) (hdet : ∀ e q, 0 < s.det e q)
    (f : Fin nE → Fin nQ → Fin nC → K) (h : inner s f f = 0) (e : Fin nE) (q : Fin nQ) (c : Fin nC) :
    f e q c = 0 := by
  unfold inner at h
  have hq : ∀ e q, 0 ≤ (∑ ch, f e q ch * f e q ch) * s.det e q := fun e q =>
    mul_nonneg (sum_nonneg fun c _ => mul_self_nonneg _) (hdet e q).le
  have h1 := (sum_eq_zero_iff_of_nonneg fun e _ => sum_nonneg fun q _ => hq e q).1 h e (mem_univ _)
  have h2 := (sum_eq_zero_iff_of_nonneg fun q _ => hq e q).1 h1 q (mem_univ _)
  have h3 := (mul_eq_zero.1 h2).resolve_right (hdet e q).ne'
  have h4 := (sum_eq_zero_iff_of_nonneg fun c _ => mul_self_nonneg _).1 h3 c (mem_univ _)
  exact mul_self_eq_zero.1 h4

/-- The matrix is regular. -/
theorem mtx_regular (s : Space K nE nQ nC nB nD) (hdet : ∀ e q, 0 < s.det e q) (hu : Unisolvent s) :
    IsUnit (termMtx s).det := by
  rw [isUnit_iff_ne_zero]
  intro h0
  obtain ⟨v, hv, hz⟩ := Matrix.exists_mulVec_eq_zero_iff.2 h0
  apply hv
  apply hu
  apply inner_self_zero s hdet
  rw [← rhs_inner, ← mtx_mulVec, hz]
  simp

/-! ## The least squares property -/

theorem solve_orth (s : Space K nE nQ nC nB nD) (hdet : ∀ e q, 0 < s.det e q) (hu : Unisolvent s)
    (f : Fin nE → Fin nQ → Fin nC → K) (v : Fin nD → K) :
    inner s (value s v) (fun e q c => f e q c - value s ((termMtx s)⁻¹ *ᵥ termRhs s f) e q c) = 0 := by
  have h1 : inner s (value s v) (value s ((termMtx s)⁻¹ *ᵥ termRhs s f)) = inner s (value s v) f := by
    rw [← rhs_inner, ← mtx_mulVec, mulVec_mulVec, mul_nonsing_inv _ (mtx_regular s hdet hu),
      one_mulVec, rhs_inner]
  have h2 := inner_add_right s (value s v) (value s ((termMtx s)⁻¹ *ᵥ termRhs s f))
    (fun e q c => f e q c - value s ((termMtx s)⁻¹ *ᵥ termRhs s f) e q c)
  have h3 : (fun e q c => value s ((termMtx s)⁻¹ *ᵥ termRhs s f) e q c
      + (f e q c - value s ((termMtx s)⁻¹ *ᵥ termRhs s f) e q c)) = f := by
    funext e q c; ring
  rw [h3, h1] at h2
  linarith

theorem project_eq (s : Space K nE nQ nC nB nD) (hdet : ∀ e q, 0 < s.det e q) (hu : Unisolvent s)
    (f : Fin nE → Fin nQ → Fin nC → K) (u0 : Fin nD → K) :
    project s f u0 = (termMtx s)⁻¹ *ᵥ termRhs s f := by
  unfold project
  rw [mulVec_sub, mulVec_mulVec, nonsing_inv_mul _ (mtx_regular s hdet hu), one_mulVec]
  simp

theorem projectToFacets_eq (s : Space K nE nQ 1 nB nD) (hinj : ∀ e, Function.Injective (s.conn e))
    (f : Fin nE → Fin nQ → K) :
    projectToFacets s f = (termMtx s)⁻¹ *ᵥ termRhs s fun e q _ => f e q := by
  unfold projectToFacets
  rw [facetMtx_eq, facetRhs_eq s hinj]

theorem best (s : Space K nE nQ nC nB nD) (hdet : ∀ e q, 0 < s.det e q)
    (f : Fin nE → Fin nQ → Fin nC → K) (u w : Fin nD → K)
    (ho : ∀ v, inner s (value s v) (fun e q c => f e q c - value s u e q c) = 0) :
    inner s (fun e q c => f e q c - value s w e q c) (fun e q c => f e q c - value s w e q c)
      = inner s (fun e q c => f e q c - value s u e q c) (fun e q c => f e q c - value s u e q c)
        + inner s (value s (u - w)) (value s (u - w)) := by
  have h := ho (u - w)
  have e1 : (fun e q c => f e q c - value s w e q c)
      = fun e q c => (f e q c - value s u e q c) + value s (u - w) e q c := by
    funext e q c
    rw [value_sub]
    ring
  rw [e1, inner_add_right, inner_comm s _ (value s (u - w)),
    inner_comm s _ (fun e q c => f e q c - value s u e q c), inner_add_right, inner_add_right,
    h, inner_comm s _ (value s (u - w)), h]
  ring

theorem reproduce (s : Space K nE nQ nC nB nD) (hdet : ∀ e q, 0 < s.det e q) (hu : Unisolvent s)
    (w : Fin nD → K) : (termMtx s)⁻¹ *ᵥ termRhs s (value s w) = w := by
  rw [← mtx_mulVec, mulVec_mulVec, nonsing_inv_mul _ (mtx_regular s hdet hu), one_mulVec]

/-! ## C135: projection to facets -/

/-- `project_to_facets()`, for facets with distinct nodes, positive weights, and DOFs determined by the
values in the quadrature points of the facets: the error is orthogonal to all discrete functions; the
result is the only minimizer of the weighted sum of squared errors in the quadrature points; functions of
the discrete space are reproduced exactly. -/
theorem C135_facets (s : Space K nE nQ 1 nB nD) (hinj : ∀ e, Function.Injective (s.conn e))
    (hdet : ∀ e q, 0 < s.det e q) (hu : Unisolvent s) (f : Fin nE → Fin nQ → K) :
    (∀ v : Fin nD → K, ∑ e, ∑ q, (∑ a, s.bf e q 0 a * v (s.conn e a))
      * (f e q - ∑ a, s.bf e q 0 a * projectToFacets s f (s.conn e a)) * s.det e q = 0) ∧
    (∀ w : Fin nD → K, w ≠ projectToFacets s f →
      ∑ e, ∑ q, (f e q - ∑ a, s.bf e q 0 a * projectToFacets s f (s.conn e a)) ^ 2 * s.det e q
        < ∑ e, ∑ q, (f e q - ∑ a, s.bf e q 0 a * w (s.conn e a)) ^ 2 * s.det e q) ∧
    (∀ w : Fin nD → K, (∀ e q, f e q = ∑ a, s.bf e q 0 a * w (s.conn e a)) →
      projectToFacets s f = w) := by
  rw [projectToFacets_eq s hinj]
  set u := (termMtx s)⁻¹ *ᵥ termRhs s fun e q _ => f e q with hud
  have ho := solve_orth s hdet hu (fun e q _ => f e q)
  have hsq : ∀ w : Fin nD → K, inner s (fun e q c => f e q - value s w e q c)
      (fun e q c => f e q - value s w e q c)
      = ∑ e, ∑ q, (f e q - ∑ a, s.bf e q 0 a * w (s.conn e a)) ^ 2 * s.det e q := by
    intro w
    unfold inner
    refine sum_congr rfl fun e _ => sum_congr rfl fun q _ => ?_
    rw [Fin.sum_univ_one]
    unfold value
    ring
  refine ⟨?_, ?_, ?_⟩
  · intro v
    rw [← ho v]
    unfold inner
    refine sum_congr rfl fun e _ => sum_congr rfl fun q _ => ?_
    rw [Fin.sum_univ_one]
    rfl
  · intro w hw
    rw [← hsq, ← hsq, best s hdet (fun e q _ => f e q) u w ho]
    have hpos : 0 < inner s (value s (u - w)) (value s (u - w)) := by
      refine lt_of_le_of_ne (inner_self_nonneg s hdet _) fun h0 => ?_
      exact hw (sub_eq_zero.1 (hu _ (inner_self_zero s hdet _ h0.symm))).symm
    linarith
  · intro w hw
    have : (fun e q (_ : Fin 1) => f e q) = value s w := by
      funext e q c
      rw [hw e q, Subsingleton.elim c 0]
      rfl
    rw [hud, this]
    exact reproduce s hdet hu w

/-! ## C136: L2 and H1 projections -/

/-- The L2 projection (one channel) and the H1 projection (the value and the gradient components as
channels), with positive weights and DOFs determined by the data: independently of the initial state, the
error is orthogonal to all discrete functions, the result is the only minimizer of the squared error in the
corresponding discrete norm, the projection does not increase this norm, and functions of the discrete
space are reproduced exactly, so the projection is idempotent. -/
theorem C136_projection (s : Space K nE nQ nC nB nD) (hdet : ∀ e q, 0 < s.det e q) (hu : Unisolvent s)
    (f : Fin nE → Fin nQ → Fin nC → K) (u0 u1 : Fin nD → K) :
    project s f u0 = project s f u1 ∧
    (∀ v : Fin nD → K, ∑ e, ∑ q, (∑ ch, (∑ a, s.bf e q ch a * v (s.conn e a))
      * (f e q ch - ∑ a, s.bf e q ch a * project s f u0 (s.conn e a))) * s.det e q = 0) ∧
    (∀ w : Fin nD → K, w ≠ project s f u0 →
      ∑ e, ∑ q, (∑ ch, (f e q ch - ∑ a, s.bf e q ch a * project s f u0 (s.conn e a)) ^ 2) * s.det e q
        < ∑ e, ∑ q, (∑ ch, (f e q ch - ∑ a, s.bf e q ch a * w (s.conn e a)) ^ 2) * s.det e q) ∧
    (∑ e, ∑ q, (∑ ch, (∑ a, s.bf e q ch a * project s f u0 (s.conn e a)) ^ 2) * s.det e q
      ≤ ∑ e, ∑ q, (∑ ch, f e q ch ^ 2) * s.det e q) ∧
    (∀ w : Fin nD → K, (∀ e q ch, f e q ch = ∑ a, s.bf e q ch a * w (s.conn e a)) →
      project s f u0 = w) := by
  rw [project_eq s hdet hu, project_eq s hdet hu]
  set u := (termMtx s)⁻¹ *ᵥ termRhs s f with hud
  have ho := solve_orth s hdet hu f
  rw [← hud] at ho
  have hsq : ∀ g : Fin nE → Fin nQ → Fin nC → K, inner s g g
      = ∑ e, ∑ q, (∑ ch, g e q ch ^ 2) * s.det e q := by
    intro g
    unfold inner
    refine sum_congr rfl fun e _ => sum_congr rfl fun q _ => ?_
    congr 1
    exact sum_congr rfl fun ch _ => by ring
  refine ⟨rfl, ho, ?_, ?_, ?_⟩
  · intro w hw
    have h1 := hsq fun e q ch => f e q ch - value s u e q ch
    have h2 := hsq fun e q ch => f e q ch - value s w e q ch
    have hb := best s hdet f u w ho
    have hpos : 0 < inner s (value s (u - w)) (value s (u - w)) := by
      refine lt_of_le_of_ne (inner_self_nonneg s hdet _) fun h0 => ?_
      exact hw (sub_eq_zero.1 (hu _ (inner_self_zero s hdet _ h0.symm))).symm
    unfold value at h1 h2
    rw [← h1, ← h2]
    unfold value at hb hpos
    linarith
  · have hb := best s hdet f u 0 ho
    have hz : ∀ e q ch, value s (0 : Fin nD → K) e q ch = 0 := by
      intro e q ch
      simp [value]
    simp only [hz, sub_zero] at hb
    have h1 := hsq (value s u)
    have h2 := hsq f
    have h3 := inner_self_nonneg s hdet fun e q ch => f e q ch - value s u e q ch
    unfold value at h1
    rw [← h1, ← h2]
    change inner s (value s u) (value s u) ≤ _
    linarith
  · intro w hw
    have : f = value s w := by
      funext e q c
      exact hw e q c
    rw [hud, this]
    exact reproduce s hdet hu w

/-- Projection by components: the entry of the node `n` and the component `ic` of the data vector of the
tensor variable is the entry `n` of the projection of this component. -/
theorem C136_by_component {nT : ℕ} (s : Space K nE nQ nC nB nD)
    (f : Fin nT → Fin nE → Fin nQ → Fin nC → K) (u0 : Fin nD → K) :
    (projectByComponent s f u0).length = nD * nT ∧
    ∀ (n : Fin nD) (ic : Fin nT), (projectByComponent s f u0)[n.1 * nT + ic.1]?
      = some (project s (f ic) u0 n) := by
  have key : ∀ (l : List (Fin nD)) (k : ℕ) (hk : k < l.length) (ic : Fin nT),
      (l.flatMap fun n => (List.finRange nT).map fun ic => project s (f ic) u0 n)[k * nT + ic.1]?
        = some (project s (f ic) u0 l[k]) := by
    intro l
    induction l with
    | nil => intro k hk; simp at hk
    | cons n l ih =>
      intro k hk ic
      rw [List.flatMap_cons]
      cases k with
      | zero =>
        rw [List.getElem?_append_left (by simp)]
        simp
      | succ k =>
        rw [List.getElem?_append_right (by simp; nlinarith)]
        have : (k + 1) * nT + ic.1 - ((List.finRange nT).map fun ic => project s (f ic) u0 n).length
            = k * nT + ic.1 := by
          simp
          rw [Nat.succ_mul]
          omega
        rw [this, ih k (by simpa using hk) ic]
        simp
  refine ⟨?_, ?_⟩
  · unfold projectByComponent
    simp [List.length_flatMap]
  · intro n ic
    have := key (List.finRange nD) n.1 (by simp) ic
    unfold projectByComponent
    rw [this]
    simp

/-! ## Non-vacuity -/

/-- Two linear segments with the trapezoidal rule. -/
def demo : Space ℚ 2 2 1 2 3 where
  conn := fun e a => if e = 0 then (if a = 0 then 0 else 1) else (if a = 0 then 1 else 2)
  bf := fun _ q _ a => if q.1 = a.1 then 1 else 0
  det := fun _ _ => 1 / 2

theorem demo_ok : (∀ e, Function.Injective (demo.conn e)) ∧ (∀ e q, 0 < demo.det e q) ∧
    Unisolvent demo := by
  refine ⟨by decide, fun e q => by norm_num [demo], ?_⟩
  intro u h
  have h0 := h 0 0 0
  have h1 := h 0 1 0
  have h2 := h 1 1 0
  simp [value, demo, Fin.sum_univ_two] at h0 h1 h2
  funext i
  fin_cases i
  · exact h0
  · exact h1
  · exact h2

end Verif.Prj
