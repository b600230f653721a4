import Verif.Iga.BoxesProofs
import Mathlib.Tactic.IntervalCases
import Mathlib.Tactic.NormNum

/-!
# Examples: isogeometric analysis

Quadratic knots with a simple and a double inner knot; three elements.
-/

namespace Iga

/-- Degree 2, the inner knots 1 (simple) and 2 (double). -/
def exKnots : List ℚ := [0, 0, 0, 1, 2, 2, 3, 3, 3]

theorem exClamped : Clamped exKnots 2 where
  sorted := by decide +kernel
  long := by decide
  first := by
    intro i hi
    interval_cases i <;> decide +kernel
  firstLt := by decide +kernel
  last := by
    intro i h1 h2
    simp only [exKnots, List.length_cons, List.length_nil] at h1 h2
    interval_cases i <;> decide +kernel
  lastLt := by decide +kernel

/-- The spans: the empty one `[2, 2)` is left out. -/
example : spans exKnots 2 = [2, 3, 5] := by decide +kernel

/-- Three operators; the first one is not the identity. -/
example : (computeBezierExtraction1d exKnots 2).length = 3 := by decide +kernel
example : (List.range 3).map (fun i => (List.range 3).map fun k =>
    (computeBezierExtraction1d exKnots 2).getD 0 eye i k)
    = [[1, 0, 0], [0, 1, 1 / 2], [0, 0, 1 / 2]] := by decide +kernel
example : (List.range 3).map (fun i => (List.range 3).map fun k =>
    (computeBezierExtraction1d exKnots 2).getD 1 eye i k)
    = [[1 / 2, 0, 0], [1 / 2, 1, 0], [0, 0, 1]] := by decide +kernel

example : conn1d exKnots 2 = [[0, 1, 2], [1, 2, 3], [3, 4, 5]] := by decide +kernel
example : numFuns (conn1d exKnots 2) = 6 := by decide +kernel
example : bconn1d 3 2 = [[0, 1, 2], [2, 3, 4], [4, 5, 6]] := by decide +kernel

/-- The extraction theorem applies. -/
example : List.Forall₂ (IsExtraction (knotFn exKnots) 2) [2, 3, 5] (computeBezierExtraction1d exKnots 2) := by
  have h := C76_bezier_extraction exKnots 2 exClamped
  rwa [show spans exKnots 2 = [2, 3, 5] by decide +kernel] at h

/-- The values of the first element at `x = 1/2`. -/
example : bspline (knotFn exKnots) 1 2 (1 / 2 : ℚ) = 5 / 8 := by decide +kernel
example : (evalBasis1d 2 ((computeBezierExtraction1d exKnots 2).getD 0 eye) (1 / 2 : ℚ)).N 1 = 5 / 8 := by
  decide +kernel

/-- A direction, and a point of the second element. -/
def exDir : Dir ℚ := ⟨exKnots, 2⟩
def exLoc : Loc ℚ := ⟨exDir, 1, 1 / 4⟩

theorem exLoc_ok : exLoc.Ok where
  clamped := exClamped
  elem := by decide +kernel
  lo := by decide +kernel
  hi := by decide +kernel

/-- A two-dimensional patch: all hypotheses of the end-to-end theorem hold. -/
example (weights : ℕ → ℚ) :
    (evalR ([exLoc, exLoc].map Loc.basis) (fun a => weights ((elemRow [exLoc, exLoc]).getD a 0))).getD
        (ravel [3, 3] [2, 1]) 0 = nurbs [exLoc, exLoc] weights [3, 2] :=
  C77_element_basis_is_global [exLoc, exLoc] (by simp [exLoc_ok]) weights [2, 1]
    (by simp [Valid, exLoc, exDir])

/-- The row of the element `(1, 1)` of the patch of `6 × 6` functions. -/
example : elemRow [exLoc, exLoc] = [7, 8, 9, 13, 14, 15, 19, 20, 21] := by decide +kernel

/-- The weight function is not zero: the partition of unity is not vacuous. -/
example : denom ([exLoc, exLoc].map Loc.basis) (fun a => (a : ℚ) + 1) ≠ 0 := by decide +kernel

/-- The patch is continuous: the double knot of a quadratic basis is allowed. -/
theorem exGood : GoodDir exDir where
  clamped := exClamped
  cont := by
    intro e he
    have : exDir.nEl = 3 := by decide +kernel
    have : e < 2 := by omega
    interval_cases e <;> decide +kernel
  deg := by decide

/-- The shared Bezier point of the elements 0 and 1. -/
example : elemBconn [exDir] [0] 2 = 2 ∧ elemBconn [exDir] [1] 0 = 2 := by decide +kernel
example : bezierWeights 3 (fun i => (i : ℚ) + 1) (patchCcs [exDir]) (patchConn [exDir]) (patchBconn [exDir]) 2
    = 5 / 2 := by decide +kernel

/-- Box regions of a `2 × 1 × 1` patch of the degrees 1, 2, 1. -/
example : boxes3 2 1 1 1 2 1 0 1 = [12, 13, 16, 17] := by decide
example : boxes2 2 1 2 3 1 0 = [0, 8, 16] := by decide
example : (faces3 2 2 2).getD 4 [] = [4, 5, 6, 7] := by decide
example : bezierTopology (createBconn [2, 1] [2, 1]) [2, 1] = [[0, 4, 5, 1], [4, 8, 9, 5]] := by decide

/-- A triple knot of a quadratic basis makes it discontinuous; the Bezier connectivity nevertheless
shares the point between the elements, and the later element overwrites the weight of the earlier one:
the hypothesis `Continuous` of `C77_bezier_control` cannot be left out. -/
def brokenKnots : List ℚ := [0, 0, 0, 1, 1, 1, 2, 2, 2]
def brokenDir : Dir ℚ := ⟨brokenKnots, 2⟩

example : ¬ brokenDir.Continuous := fun h => absurd (h 0 (by decide +kernel)) (by decide +kernel)
example : bezierWeights 3 (fun i => (i : ℚ) + 1) (patchCcs [brokenDir]) (patchConn [brokenDir])
      (patchBconn [brokenDir]) (elemBconn [brokenDir] [0] 2) = 4
    ∧ bezWeight 3 (elemOp [brokenDir] [0]) (fun i => (elemConn [brokenDir] [0] i : ℚ) + 1) 2 = 3 := by
  decide +kernel

end Iga
