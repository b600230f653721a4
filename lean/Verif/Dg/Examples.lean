import Verif.Dg.Limiter
import Verif.Dg.Index
import Verif.Dg.Basis
import Verif.Dg.Steps
import Verif.Dg.Flux
import Verif.Dg.Neighbours
import Mathlib.Tactic.NormNum
import Mathlib.Tactic.FinCases

/-! # Examples for C80 - C85: the hypotheses of the theorems are met, and what the findings mean -/

namespace Dg

/-! ### C80 -/

example : minmodSeq ([3, 2, 5] : List ℚ) = 2 := by decide +kernel

example : minmodSeq ([-3, -2, -5] : List ℚ) = -2 := by decide +kernel

example : minmodSeq ([3, -2, 5] : List ℚ) = 0 := by decide +kernel

/-- Four linear cells with the means 0, 1, 2, 4 and the slopes 5, 3, 3/2, 7: the second slope is replaced by 1, the
third by 1; the slopes at the ends stay. -/
def exU : List ℚ := [0, 5, 1, 3, 2, 3 / 2, 4, 7]

example : momentLimiter1D (1 / 1000) 2 4 exU = [0, 5, 1, 1, 2, 1, 4, 7] := by decide +kernel

example : limited1 (1 / 1000) 2 4 (unravel 2 exU) 1 1 := by
  refine ⟨by omega, by omega, by omega, fun l h1 h2 r hr => ?_⟩
  obtain rfl : l = 1 := by omega
  have := isMinmod_unique hr (C80_minmod _ _ _) (by simp)
  rw [this]
  decide +kernel

/-- The finding: the limiter assumes the cells numbered from the left to the right. The same smooth linear function
on the cells numbered 0, 2, 1, 3 from the left loses its slopes. -/
example : momentLimiter1D (1 / 1000) 2 4 ([0, 1, 2, 1, 1, 1, 3, 1] : List ℚ) = [0, 1, 2, 0, 1, 0, 3, 1] := by
  decide +kernel

/-- A 3 x 3 mesh of bilinear cells with the cells numbered by rows: the neighbours down, right, up, left. -/
def exNbr (c f : ℕ) : ℤ :=
  match f with
  | 0 => if c < 3 then -1 else (c : ℤ) - 3
  | 1 => if c % 3 = 2 then -1 else (c : ℤ) + 1
  | 2 => if 6 ≤ c then -1 else (c : ℤ) + 3
  | _ => if c % 3 = 0 then -1 else (c : ℤ) - 1

example : Ordered (iterOrder2 1 false) := C82_order_for_limiter 1 false

/-- The means 0, ..., 8 and the slopes 9, 9 in the cell 4: limited to 3 (up and down) and 1 (right and left). -/
example :
    momentLimiter2D (fun _ => (1 : ℚ)) exNbr (1 / 1000) (iterOrder2 1 false) 9
      ((List.range 9).flatMap fun c : ℕ => [(c : ℚ), 9, 9]) =
    (List.range 9).flatMap fun c : ℕ => if c = 4 then [4, 3, 1] else [(c : ℚ), 9, 9] := by
  decide +kernel

/-- The finding: with a numbering of the cells where the cell in the middle is the neighbour of the cell 0, it is not
limited. -/
def exSwap (c : ℕ) : ℕ := if c = 0 then 3 else if c = 3 then 0 else c

def exNbr' (c f : ℕ) : ℤ :=
  let v := exNbr (exSwap c) f
  if v < 0 then -1 else (exSwap v.toNat : ℤ)

example : inner2 exNbr 9 = [4] ∧ inner2 exNbr' 9 = [] := by decide +kernel

/-- Two fields with 2 and 1 DOFs. -/
example : composed [(2, List.reverse), (1, id)] ([1, 2, 3] : List ℚ) = [2, 1, 3] := by decide +kernel

/-- The finding: the second variable of the same field is lost. -/
example : composed [(2, id)] ([1, 2, 3, 4] : List ℚ) = [1, 2, 0, 0] := by decide +kernel

/-! ### C82 -/

example : iterOrder2 2 false = [(0, 0), (0, 1), (1, 0), (0, 2), (1, 1), (2, 0)] := by decide

example : iterOrder2 2 true =
    [(0, 0), (0, 1), (1, 0), (0, 2), (1, 1), (2, 0), (2, 1), (1, 2), (2, 2)] := by decide

example : iter3 1 = [(0, 0, 0), (0, 0, 1), (0, 1, 0), (1, 0, 0)] := by decide

example : nElNod 1 3 true = 8 ∧ (iter3 1).length = 4 := by decide

/-! ### C83 -/

open Polynomial in
/-- The hypothesis of the gradient theorems holds for the Jacobi polynomials. -/
example : (jacobi 0 0).natDegree = 0 := by
  simp [jacobi]

example : nthFun 1 (3 / 4) = 1 / 2 := by
  norm_num [nthFun, legendreSum, Finset.sum_range_succ]

/-! ### C81 -/

/-- p' = - p, by a term not reading the history. -/
noncomputable def exProb : Prob ℝ where
  M := LinearEquiv.refl ℝ ℝ
  V := fun _ => 0
  F := fun x => x
  lim := id

example : (run eulerStep exProb (1 / 2) 0 [1 / 2, 1] 1).map Prod.fst = some (1 / 4) := by
  rw [C81_euler_run]
  simp [eulerSpec, exProb, Prob.rhs]
  norm_num

example : (run tvdStep exProb 1 0 [1] 1).map Prod.fst = some (1 / 3) := by
  rw [C81_tvd_documented _ (fun _ => rfl)]
  have h := C81_tvd_third_order 1 (LinearMap.id : ℝ →ₗ[ℝ] ℝ) 1
  simp only [List.length_cons, List.length_nil, zero_add, Function.iterate_one]
  have e : tvdSpec 1 exProb.lim exProb.rhs (1 : ℝ) = tvdSpec 1 id (LinearMap.id : ℝ →ₗ[ℝ] ℝ) 1 := by
    simp [tvdSpec, exProb, Prob.rhs]
  rw [e, h]
  norm_num

/-- The same problem with the term reading the history. -/
noncomputable def exProbH : Prob ℝ where
  M := LinearEquiv.refl ℝ ℝ
  V := fun x => x
  F := fun _ => 0
  lim := id

example : tvdCoded exProbH (1 / 2) 1 = 7 / 12 := by
  rw [C81_tvd_history_first_order exProbH LinearMap.id (fun _ => rfl) (fun _ => rfl) rfl]
  norm_num

/-- p' = 0: the RK4 solver goes to 3/8 of the value for dt = 1/2. -/
noncomputable def exProbZ : Prob ℝ where
  M := LinearEquiv.refl ℝ ℝ
  V := fun _ => 0
  F := fun _ => 0
  lim := id

example (args : StepArgs ℝ) (w : World ℝ) : (rk4Step exProbZ (1 / 2) args w 1).map Prod.fst = some (3 / 8) := by
  rw [C81_rk4_rest_not_kept exProbZ (fun _ => rfl) (fun _ => rfl) rfl]
  norm_num

example : Convex ℝ {x : ℝ | 0 ≤ x} := convex_Ici 0

/-! ### C84: two cells of constant functions on a periodic interval -/

/-- The facet 0 is on the left, 1 on the right. -/
def exGeo : Geo (Fin 2) (Fin 2) (Fin 1) (Fin 1) 1 where
  n := fun _ f _ => if f = 0 then -1 else 1
  w := fun _ _ _ => 1
  B := fun _ _ _ => 1
  nbr := fun i f => some (1 - i, 1 - f)
  ebc := fun _ _ => none

theorem exGeo_conforming : Conforming exGeo := by
  constructor
  · intro i f j g h
    simp only [exGeo, Option.some.injEq, Prod.mk.injEq] at h ⊢
    obtain ⟨rfl, rfl⟩ := h
    fin_cases i <;> fin_cases f <;> simp
  · intro i f j g h k
    simp only [exGeo, Option.some.injEq, Prod.mk.injEq] at h ⊢
    obtain ⟨rfl, rfl⟩ := h
    fin_cases f <;> simp
  · intro i f j g h q
    rfl
  · intro i f h
    exact absurd rfl h

/-- The values 3 and 5, transported to the right. -/
def exState : Fin 2 → Fin 1 → ℝ := fun i _ => if i = 0 then 3 else 5

example : advRes exGeo (fun _ _ => 1) 0 exState 0 0 = -2 ∧ advRes exGeo (fun _ _ => 1) 0 exState 1 0 = 2 := by
  constructor <;>
  norm_num [advRes, advFlux, advC, inV, outV, exGeo, exState, Fin.sum_univ_two]

/-- The finding: with velocities different in the cells the fluxes do not cancel. -/
example : ∑ i, advRes exGeo (fun i _ => if i = 0 then 1 else 2) 0 exState i 0 ≠ 0 := by
  norm_num [advRes, advFlux, advC, inV, outV, exGeo, exState, Fin.sum_univ_two]

/-- Burgers' equation on the same mesh. -/
example : ∑ i, nlRes exGeo (fun u _ => u ^ 2 / 2) (fun u _ => u) 0 exState i 0 = 0 := by
  rw [C84_nonlinear_total exGeo exGeo_conforming _ _ 0 exState 0 (fun _ _ => rfl)]
  simp [exGeo]

/-- An interval with a value given on the left and a free end on the right. -/
def exGeoB : Geo (Fin 2) (Fin 2) (Fin 1) (Fin 1) 1 where
  n := fun _ f _ => if f = 0 then -1 else 1
  w := fun _ _ _ => 1
  B := fun _ _ _ => 1
  nbr := fun i f => if i = 0 ∧ f = 1 then some (1, 0) else if i = 1 ∧ f = 0 then some (0, 1) else none
  ebc := fun i f => if i = 0 ∧ f = 0 then some fun _ => 7 else none

example : Conforming exGeoB := by
  constructor
  · intro i f j g h
    fin_cases i <;> fin_cases f <;> simp [exGeoB] at h <;> obtain ⟨rfl, rfl⟩ := h <;> simp [exGeoB]
  · intro i f j g h k
    fin_cases i <;> fin_cases f <;> simp [exGeoB] at h <;> obtain ⟨rfl, rfl⟩ := h <;> simp [exGeoB]
  · intro i f j g h q
    rfl
  · intro i f h
    fin_cases i <;> fin_cases f <;> simp [exGeoB] at h ⊢

/-- The finding: a tensor with off-diagonal entries gives a wrong flux: n . D g is 1 here, not 0. -/
example :
    let D : Fin 2 → Fin 2 → ℝ := fun k l => if k = l then 2 else 1
    let n : Fin 2 → ℝ := fun k => if k = 0 then 1 else 0
    let g : Fin 2 → ℝ := fun k => if k = 0 then 0 else 1
    diffNormal D n g = 0 ∧ ∑ k, ∑ l, n k * D k l * g l = 1 := by
  simp [diffNormal, Fin.sum_univ_two]

/-- The finding: for g = n the flux is the row sum of the tensor, not its diagonal entry. -/
example :
    let D : Fin 2 → Fin 2 → ℝ := fun k l => if k = l then 2 else 1
    let n : Fin 2 → ℝ := fun k => if k = 0 then 1 else 0
    diffNormal D n n = 3 ∧ ∑ k, ∑ l, n k * D k l * n l = 2 := by
  norm_num [diffNormal, Fin.sum_univ_two]

/-! ### C85: four intervals in a row; the facets are the vertices -/

def exF : List (List ℕ) := [[0, 1], [1, 2], [2, 3], [3, 4]]

theorem exF_hasFacet (c f s : ℕ) (h : HasFacet exF c f s) :
    (c, f, s) ∈ [(0, 0, 0), (0, 1, 1), (1, 0, 1), (1, 1, 2), (2, 0, 2), (2, 1, 3), (3, 0, 3), (3, 1, 4)] := by
  obtain ⟨fs, h1, h2⟩ := h
  obtain ⟨hc, e⟩ := List.getElem?_eq_some_iff.mp h1
  have hc' : c < 4 := hc
  interval_cases c <;> simp only [exF, List.getElem_cons_zero, List.getElem_cons_succ] at e <;> subst e <;>
    obtain ⟨hf, e2⟩ := List.getElem?_eq_some_iff.mp h2 <;>
    (simp only [List.length_cons, List.length_nil] at hf
     interval_cases f <;> simp_all)

theorem exF_mesh : IsMesh exF := by
  constructor
  · intro c fs h
    obtain ⟨hc, e⟩ := List.getElem?_eq_some_iff.mp h
    have hc' : c < 4 := hc
    interval_cases c <;> rw [← e] <;> simp [exF]
  · intro s c₁ c₂ c₃ f₁ f₂ f₃ h1 h2 h3
    have := exF_hasFacet _ _ _ h1
    have := exF_hasFacet _ _ _ h2
    have := exF_hasFacet _ _ _ h3
    simp only [List.mem_cons, List.not_mem_nil, or_false, Prod.mk.injEq] at *
    omega

example : nbrOf exF 1 0 = some (0, 1) ∧ nbrOf exF 1 1 = some (2, 0) ∧ nbrOf exF 0 0 = none := by decide

example : setPeriodic (fun p => nbrOf exF p.1 p.2) [[((0, 0), (3, 1))]] (0, 0) = some (3, 1) ∧
    setPeriodic (fun p => nbrOf exF p.1 p.2) [[((0, 0), (3, 1))]] (3, 1) = some (0, 0) := by decide

example : (facetsOf [[((0, 0), (3, 1))]]).Nodup ∧
    ∀ p ∈ facetsOf [[((0, 0), (3, 1))]], nbrOf exF p.1 p.2 = none := by decide

/-- Three cells with a common facet: the neighbours are not mutual. -/
example : nbrOf [[0, 1], [0, 2], [0, 3]] 1 0 = some (0, 0) ∧ nbrOf [[0, 1], [0, 2], [0, 3]] 0 0 = some (2, 0) := by
  decide

end Dg
