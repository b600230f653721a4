import Verif.Lcbc.Reduced
import Verif.Lcbc.Nodal
import Verif.Lcbc.PropsAverage
import Mathlib.Data.Rat.Defs
import Mathlib.Tactic.NormNum

/-!
Concrete cases for C71 and C72, and the counterexamples.
-/

namespace Verif.Lcbc

open Matrix

/-! ## Two variables with 4 and 3 DOFs: a mean value and a shifted tie -/

/-- DOFs 1, 2 of variable 0 are made equal. -/
def exMean : Op ℚ :=
  { rvar := 0, cvar := none, ameq := [1, 2], nMdof := 2, nNew := 1
    mtx := meanTrips 2 1, rhs := none }

/-- DOFs 2, 0 of variable 1 are tied to DOFs 3, 0 of variable 0; DOF pairs fixed on one side
are skipped. -/
def exTie : Op ℚ := shiftedOp 1 0 [2, -1, 0] [3, 1, 0] (some [5, 7, 6])

def exOps : List (Op ℚ) := [exTie, exMean]

example : exTie.ameq = [2, 0] ∧ exTie.mtx = [(2, 3, 1), (0, 0, 1)] ∧ exTie.rhs = some [5, 6] := by
  decide +kernel

theorem exConsistent : Consistent [4, 3] exOps where
  rvar_lt := by decide +kernel
  ameq_lt := by decide +kernel
  once := by decide +kernel
  nodup := by decide +kernel
  count := by decide +kernel
  reduction := by decide +kernel
  tie := by
    intro op hop c hc
    simp only [exOps, List.mem_cons, List.not_mem_nil, or_false] at hop
    rcases hop with rfl | rfl
    · obtain rfl : c = 0 := by
        simp only [exTie, shiftedOp, Option.some.injEq] at hc
        exact hc.symm
      refine ⟨rfl, by decide, ?_⟩
      intro t ht
      have ht' : t ∈ ([(2, 3, 1), (0, 0, 1)] : Trips ℚ) := ht
      simp only [List.mem_cons, List.not_mem_nil, or_false] at ht'
      rcases ht' with rfl | rfl
      · refine ⟨by decide, by decide, ?_⟩
        rintro ⟨op, hop, h1, h2⟩
        simp only [exOps, List.mem_cons, List.not_mem_nil, or_false] at hop
        rcases hop with rfl | rfl
        · exact absurd h1 (by decide)
        · exact absurd h2 (by decide)
      · refine ⟨by decide, by decide, ?_⟩
        rintro ⟨op, hop, h1, h2⟩
        simp only [exOps, List.mem_cons, List.not_mem_nil, or_false] at hop
        rcases hop with rfl | rfl
        · exact absurd h1 (by decide)
        · exact absurd h2 (by decide)
    · simp [exMean] at hc

/-- Columns: DOFs 0, 3 of variable 0, the new DOF, DOF 1 of variable 1. -/
example : nActiveTotal [4, 3] exOps = 4 := by decide +kernel

/-- The active DOFs from the reduced ones `10, 20, 30, 40`. -/
example : (List.range 7).map (expand [4, 3] exOps fun c => 10 * (c + 1))
    = [10, 30, 30, 20, 16, 40, 25] := by decide +kernel

/-- The conditions hold for it by the theorem. -/
example : ∀ op ∈ exOps, Holds [4, 3] (expand [4, 3] exOps fun c => 10 * (c + 1)) op :=
  (C72_range_is_constraint_set exConsistent _).1 ⟨_, fun _ _ => rfl⟩

/-! ## Counterexample: a tie reading a constrained DOF -/

/-- `u0 = u1` and `u1 = u3` on one variable with 4 DOFs (regions that overlap are refused only
at the first step, and single regions only for the same variable). -/
def exChain : List (Op ℚ) :=
  [shiftedOp 0 0 [0] [1] none, shiftedOp 0 0 [1] [3] none]

/-- C72: the hypothesis that ties read unconstrained DOFs is needed: in a chain of ties the
column search silently takes the next free DOF, and the first condition is violated. -/
theorem C72_chain_tie_wrong :
    ∃ w : ℕ → ℚ, ¬ Holds [4] (expand [4] exChain w) (shiftedOp 0 0 [0] [1] none) := by
  refine ⟨fun c => c, fun h => ?_⟩
  have := h 0 0 (by decide)
  revert this
  decide +kernel

/-! ## Rigid operators -/

/-- Four corners of a tetrahedron. -/
def exTet : List (Fin 3 → ℚ) := [![0, 0, 0], ![1, 0, 0], ![0, 1, 0], ![0, 0, 2]]

example : (mulRows (rigidMtx spin3 exTet [2, 0]) ![0, 0, 1, 5, 6, 7]) = [7, 5, 7, 5, 7, 4, 7, 5] := by
  decide +kernel

example : (Matrix.of fun k : Fin 3 => exTet.getD (k.val + 1) 0 - exTet.getD 0 0).det ≠ 0 := by
  rw [Matrix.det_fin_three]
  decide +kernel

/-- Warping of four coplanar points keeps the distances but is not rigid: the hypothesis of
four non-coplanar nodes is needed. -/
example : ∀ a < 4, ∀ b < 4,
    (([![0, 0, 0], ![0, 0, 0], ![0, 0, 0], ![0, 0, 1]] : List (Fin 3 → ℚ)).getD a 0
      - ([![0, 0, 0], ![0, 0, 0], ![0, 0, 0], ![0, 0, 1]] : List (Fin 3 → ℚ)).getD b 0) ⬝ᵥ
    (([![0, 0, 0], ![1, 0, 0], ![0, 1, 0], ![1, 1, 0]] : List (Fin 3 → ℚ)).getD a 0
      - ([![0, 0, 0], ![1, 0, 0], ![0, 1, 0], ![1, 1, 0]] : List (Fin 3 → ℚ)).getD b 0) = 0 := by
  decide +kernel

/-- The example of the documentation of `rigid_twist` (anchor 0, axis `[1, 0, 0]`): the node at
the anchor should move along the axis only, but it moves along `(1, 1, 1)`. -/
example : mulRows (twistRows (1 / 2 : ℚ) (1 / 10) 0 ![1, 0, 0] [![0, 0, 0]])
    ![0, 0, 0, 0, 0, 0, 1] = [1 / 20, 1 / 20, 1 / 20] := by decide +kernel

/-! ## Node-wise operators -/

example : argmaxAbs (![1, -3, 2] : Fin 3 → ℚ) = 1 := by decide +kernel

example : noPenTrips ([![3, 4], ![1, 0]] : List (Fin 2 → ℚ))
    = [(2, 1, 0), (3, 1, 1), (1, 0, -3 / 4), (0, 0, 1)] := by decide +kernel

example : (List.range 4).map (app (noPenTrips ([![3, 4], ![1, 0]] : List (Fin 2 → ℚ)))
    fun c => 8 * (c + 1)) = [8, -6, 0, 16] := by decide +kernel

/-- Dofs given as `[1, 0]` and the normal `(1, 0)`: `u_1 = 0` is imposed instead of `u_0 = 0`. -/
example (u : ℕ → Fin 2 → ℚ) :
    (∃ q : ℕ → ℚ, ∀ c < 1, ∀ k : Fin 2, u c (![1, 0] k)
      = app (noPenTrips ([![1, 0]] : List (Fin 2 → ℚ))) q (2 * c + k.val)) ↔ u 0 1 = 0 := by
  have := C71_noPen_permuted_dofs ([![1, 0]] : List (Fin 2 → ℚ)) (by decide) ![1, 0] u
  simp only [List.length_cons, List.length_nil, Nat.zero_add, Nat.reduceAdd] at this
  rw [this]
  constructor
  · intro h
    have := h 0 _ rfl
    simpa [Fin.sum_univ_two] using this
  · intro h c n hc
    cases c with
    | zero =>
      obtain rfl : ![1, 0] = n := by simpa using hc
      simp [Fin.sum_univ_two, h]
    | succ c => simp at hc

example : app (multiTrips 1 2 2 (fun _ j => if j = 0 then 3 else 4) (fun _ j => j) [7, 8] [0, 1, 2, 3])
    (fun c => (c : ℚ)) 8 = 3 * 1 + 4 * 3 := by decide +kernel

/-! ## Nodal combinations -/

/-- `u0 = u1` in a node with three DOFs: SymPy gives `{u0: u1}`. -/
def exSol : List (SolItem ℚ) := [⟨0, [(1, 1)], 0⟩]

example : nodalTrips 3 0 0 exSol = some [(0, 0, 1), (1, 0, 1)] := by decide +kernel

/-- The third DOF is forced to zero. -/
example (q : ℕ → ℚ) : app [(0, 0, 1), (1, 0, 1)] q (3 * 0 + 2) + nodalRhs exSol 2 = 0 :=
  C71_nodal_unmentioned_zero 3 0 0 exSol _ (by decide) (by decide) 2 (by decide) (by decide)
    (by decide) q

/-- `u0 + 2 u1 = 5` in a node with two DOFs meets the hypotheses of `C71_nodal_aligned`. -/
def exSolOk : List (SolItem ℚ) := [⟨0, [(1, -2)], 5⟩]

example : (∀ e ∈ exSolOk, e.master < 2) ∧ (exSolOk.map (·.master)).Nodup ∧
    (∀ e ∈ exSolOk, e.lin ≠ [] → e.lin.map (·.1) = islaves 2 exSolOk) ∧
    (∀ e ∈ exSolOk, e.master ∉ islaves 2 exSolOk) := by decide +kernel

/-- C71: with two constraints on different DOFs, `u0 = 2 u2` and `u1 = 3 u3`, the coefficients
are taken from wrong positions: `u1 = 3 u2 + 0 u3` is imposed. -/
theorem C71_nodal_misaligned :
    ∃ T, nodalTrips 4 0 0 ([⟨0, [(2, 2)], 0⟩, ⟨1, [(3, 3)], 0⟩] : List (SolItem ℚ)) = some T ∧
      ∃ q : ℕ → ℚ, app T q 1 ≠ 3 * app T q 3 := by
  refine ⟨_, rfl, fun c => if c = 0 then 1 else 0, ?_⟩
  decide +kernel

/-- Periodic DOFs: the DOF 3 is removed, its row position stays in `ameq`. -/
example : ss [3, 5, 8] 3 = 0 := by decide +kernel

/-! ## Average force -/

/-- Two nodes at `±1` on the first axis in 2D, unit weights, `len2 = 1`: the rotation `1` of the
independent nodes becomes `1/2`. -/
theorem exAvgIX : avgIX (s := 1) (K := ℚ) spin2 2 (fun k => if k = 0 then ![1, 0] else ![-1, 0])
    (fun _ => avgW 1 fun _ => 1) = fromBlocks (diagonal ![2, 2]) 0 0 (diagonal ![4]) := by
  unfold avgIX
  rw [Finset.sum_range_succ, Finset.sum_range_succ, Finset.sum_range_zero, zero_add]
  ext a b
  rcases a with a | a <;> rcases b with b | b <;> fin_cases a <;> fin_cases b <;>
    simp [avgS, avgW, spin2, Matrix.mul_apply, Fintype.sum_sum_type, Fin.sum_univ_two,
      diagonal_apply, Matrix.one_apply] <;> norm_num

example : (avgIX (s := 1) (K := ℚ) spin2 2 (fun k => if k = 0 then ![1, 0] else ![-1, 0])
    (fun _ => avgW 1 fun _ => 1)).det ≠ 0 := by
  rw [exAvgIX, Matrix.det_fromBlocks_zero₂₁, det_diagonal, det_diagonal]
  simp [Fin.prod_univ_two]

end Verif.Lcbc
