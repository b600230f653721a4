/-
Concrete reference mappings.
-/
import Verif.Term.PropsRefmap
import Verif.Term.PropsFace
import Mathlib.Tactic.NormNum

namespace Verif.Term

open Finset

/-- A triangle: `bf_g` of the linear basis. -/
def exBfg {K : Type} [Field K] (_c _q : ℕ) (i : Fin 2) (j : ℕ) : K :=
  if j = 0 then -1 else if j = (i : ℕ) + 1 then 1 else 0

/-- Two cells `(0, 1, 2)` and `(1, 3, 2)` of a square with the side 2. -/
def exCoors {K : Type} [Field K] (c j : ℕ) (k : Fin 2) : K :=
  cellCoors (fun v k => ([![0, 0], ![2, 0], ![0, 2], ![2, 2]] : List (Fin 2 → K)).getD v 0 k)
    (fun c j => ([[0, 1, 2], [1, 3, 2]].getD c []).getD j 0) c j k

def exMap {K : Type} [Field K] [LinearOrder K] : Except MapErr (MapData K 2) :=
  evalMapping 2 2 1 3 exCoors exBfg (fun _ => 1 / 2) 1 exBfg

/-- The areas and the gradients of the two triangles. -/
example : (exMap (K := ℚ)).toOption.map (fun m =>
    ((m.volume 0, m.volume 1), (m.bfg 0 0 0 1, m.bfg 0 0 1 2), (m.bfg 1 0 0 0, m.bfg 1 0 1 0), m.bfg 1 0 0 2)) =
    some ((2, 2), (1 / 2, 1 / 2), (0, -1 / 2), -1 / 2) := by decide +kernel

/-- With two nodes swapped: the warp violation. -/
example : (evalMapping 2 1 1 3 (fun c j => exCoors c (2 - j)) exBfg (fun _ => (1 : ℚ) / 2) 1 exBfg).toOption.isNone =
    true := by decide +kernel

/-- The hypotheses of the theorems on the gradients are met by the linear basis of the triangle. -/
def exPhi (j : ℕ) (ξ : Fin 2 → ℝ) : ℝ := if j = 0 then 1 - ξ 0 - ξ 1 else if j = 1 then ξ 0 else ξ 1

theorem exPhi_grad (ξ : Fin 2 → ℝ) (j : ℕ) (hj : j < 3) : IsStrictGradAt (exPhi j) ξ fun i => exBfg 0 0 i j := by
  have p0 : HasStrictFDerivAt (fun ξ : Fin 2 → ℝ => ξ 0) (ContinuousLinearMap.proj (R := ℝ) (φ := fun _ => ℝ) 0) ξ :=
    (ContinuousLinearMap.proj (R := ℝ) (φ := fun _ => ℝ) 0).hasStrictFDerivAt
  have p1 : HasStrictFDerivAt (fun ξ : Fin 2 → ℝ => ξ 1) (ContinuousLinearMap.proj (R := ℝ) (φ := fun _ => ℝ) 1) ξ :=
    (ContinuousLinearMap.proj (R := ℝ) (φ := fun _ => ℝ) 1).hasStrictFDerivAt
  have : j = 0 ∨ j = 1 ∨ j = 2 := by omega
  rcases this with rfl | rfl | rfl
  · refine ⟨_, ((hasStrictFDerivAt_const (1 : ℝ) ξ).sub p0).sub p1, fun i => ?_⟩
    fin_cases i <;> simp [exBfg]
  · refine ⟨_, p0, fun i => ?_⟩
    fin_cases i <;> simp [exBfg]
  · refine ⟨_, p1, fun i => ?_⟩
    fin_cases i <;> simp [exBfg]

theorem exMap_ok : ∃ m, exMap (K := ℝ) = .ok m := by
  refine (C60_warp (Or.inr (Or.inl rfl))).2 fun c hc q hq => ?_
  have : c = 0 ∨ c = 1 := by omega
  rcases this with rfl | rfl <;> rw [Matrix.det_fin_two] <;>
    simp [sum_range_succ, exBfg, exCoors, cellCoors]

/-- A field with the nodal values `x ↦ 3 x_0 - x_1` on the first triangle has the gradient `(3, -1)`. -/
example : ∃ m, exMap (K := ℝ) = .ok m ∧ ∀ ξ : Fin 2 → ℝ, ∃ U : (Fin 2 → ℝ) → ℝ,
    (∀ᶠ η in nhds ξ, U (physMap 3 exPhi (exCoors 0) η) = interp 3 exPhi (fun j => 3 * exCoors 0 j 0 - exCoors 0 j 1) η) ∧
    IsGradAt U (physMap 3 exPhi (exCoors 0) ξ) fun i =>
      ∑ k ∈ range 3, m.bfg 0 0 i k * (3 * exCoors 0 k 0 - exCoors 0 k 1) := by
  obtain ⟨m, hm⟩ := exMap_ok
  exact ⟨m, hm, fun ξ => C60_field_exists (c := 0) (q := 0) hm (by omega) (by omega)
    (fun j hj => exPhi_grad ξ j hj) (fun j hj => exPhi_grad ξ j hj) _⟩

/-- An edge and a face. -/
example : (face2 (1 / 1000) 2 ![3, 4]).1 = 10 := by
  have h : √(dot ![3, 4] ![3, 4] : ℝ) = 5 := by
    rw [dot_two]; simp; rw [show (3 * 3 + 4 * 4 : ℝ) = 5 ^ 2 by norm_num]
    exact Real.sqrt_sq (by norm_num)
  have := (C60_edge (1 / 1000) 2 (by norm_num) ![3, 4] (by rw [h]; norm_num)).1
  rw [this, h]; norm_num

example : dot (face3 (1 / 1000) 1 ![2, 0, 0] ![0, 3, 0]).2 ![0, 0, 1] * 6 = 6 := by
  have h : √(dot ![2, 0, 0] ![2, 0, 0] * dot ![0, 3, 0] ![0, 3, 0] - dot ![2, 0, 0] ![0, 3, 0] ^ 2 : ℝ) = 6 := by
    simp only [dot_three]; simp; norm_num
  have := (C60_face (1 / 1000) 1 (by norm_num) ![2, 0, 0] ![0, 3, 0] (by rw [h]; norm_num)).2.2.2.2 ![0, 0, 1]
  rw [h] at this
  rw [this, dot_three]; simp [cross]; norm_num

/-- A triangle in the plane `x_0 = 0` of the space meets the hypotheses of `C60_to_plane`. -/
example : let x : ℕ → Fin 3 → ℝ := fun k => if k = 0 then ![0, 0, 0] else if k = 1 then ![0, 1, 0] else ![0, 0, 1]
    let bv := cross (fun r => x 1 r - x 0 r) fun r => x (3 - 1) r - x 0 r
    (1e-16 < √(bv 0 ^ 2 + bv 1 ^ 2) ∨ (bv 0 = 0 ∧ bv 1 = 0 ∧ 0 < bv 2)) ∧
      ∀ k < 3, dot bv (fun r => x k r - x 0 r) = 0 := by
  refine ⟨Or.inl ?_, fun k hk => ?_⟩
  · simp [cross]; norm_num
  · have : k = 0 ∨ k = 1 ∨ k = 2 := by omega
    rcases this with rfl | rfl | rfl <;> simp [cross, dot_three]

/-- The averages. -/
example : ((integrate 2 (fun _ q => ([1, 3] : List ℚ).getD q 0) (fun _ => 4) 1 1
    fun _ q _ _ => ([8, 4] : List ℚ).getD q 0).map fun f => f 0 0 0) = some 5 := by decide +kernel

example : qpShape 4 12 = some (3, 4) ∧ qpShape 4 1 = some (0, 4) ∧ qpShape 4 13 = none := by decide

end Verif.Term
