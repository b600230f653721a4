import Verif.Hang.PropsCont
import Mathlib.Algebra.Order.Ring.Rat
import Mathlib.Algebra.Field.Rat
import Mathlib.Tactic.NormNum

/-!
# Hanging nodes: concrete cases (C127)
-/

namespace Verif.Hang

open Verif.Fem Finset

/-- An L-shaped interface: the cell 2 is the second fine cell of the coarse cell 0 and the first fine cell of
the coarse cell 1; order 2.  The vertex 100 is common to 0 (edge 1), 1 (edge 0) and 2; 101 and 102 are the
other ends. -/
def exE (c : ℕ) (n : Nd) : ℕ :=
  if (c, n) ∈ [(0, (2, 0)), (1, ((2 : ℕ), (0 : ℕ))), (2, (0, 0))] then 100
  else if (c, n) ∈ [(0, (2, 2)), (3, ((0 : ℕ), (0 : ℕ)))] then 101
  else if (c, n) ∈ [(1, (0, 0)), (4, ((0 : ℕ), (0 : ℕ)))] then 102
  else if (c, n) ∈ [(3, ((2 : ℕ), (0 : ℕ))), (2, (0, 2))] then 103
  else if (c, n) ∈ [(3, ((2 : ℕ), (1 : ℕ))), (2, (1, 2))] then 104
  else if (c, n) ∈ [(3, ((2 : ℕ), (2 : ℕ))), (2, (2, 2))] then 105
  else 10 * c + 3 * n.1 + n.2

def exSubs : List Sub := [⟨0, 1, 3, 0, 2, 3⟩, ⟨1, 0, 2, 0, 4, 3⟩]

theorem exOk : Ok 2 exE exSubs where
  order := by decide
  kind := by simp [exSubs]
  inj1 := by simp [exSubs]
  inj2 := by simp [exSubs]
  chain1 := by simp [exSubs]
  chain2 := by simp [exSubs]
  corner1 := by simp [exSubs, exE, edgeNode]
  corner2 := by simp [exSubs, exE, edgeNode]

example (u : ℕ → ℚ) (x : ℚ) :
    evalField 2 (substitute 2 exE exSubs) (transform 2 exSubs) u 2 0 x =
      evalField 2 (substitute 2 exE exSubs) (transform 2 exSubs) u 0 1 (x / 2) :=
  (C127_continuous exOk u (s := ⟨0, 1, 3, 0, 2, 3⟩) (by simp [exSubs]) x).2

example (u : ℕ → ℚ) (y : ℚ) :
    evalField 2 (substitute 2 exE exSubs) (transform 2 exSubs) u 3 1 y =
      evalField 2 (substitute 2 exE exSubs) (transform 2 exSubs) u 2 y 1 :=
  C127_fine_fine exOk u (s := ⟨0, 1, 3, 0, 2, 3⟩) (by simp [exSubs])
    (by intro b hb; interval_cases b <;> simp [exE]) y

/-- Two levels of hanging nodes: the cell 1 is the first fine cell of the coarse cell 0 and its edge 1,
which ends in the hanging vertex, is the coarse edge of the cells 3 and 4. -/
def badE (c : ℕ) (n : Nd) : ℕ :=
  if (c, n) ∈ [(0, (1, 0)), (2, ((0 : ℕ), (0 : ℕ)))] then 100
  else if (c, n) ∈ [(0, (1, 1)), (1, ((0 : ℕ), (0 : ℕ)))] then 101
  else if (c, n) ∈ [(1, (1, 1)), (3, ((0 : ℕ), (0 : ℕ)))] then 102
  else if (c, n) ∈ [(1, (1, 0)), (4, ((0 : ℕ), (0 : ℕ)))] then 103
  else 10 * c + 3 * n.1 + n.2

def badSubs : List Sub := [⟨0, 1, 1, 0, 2, 3⟩, ⟨1, 1, 3, 0, 4, 3⟩]

/-- C127: the restriction to one level is needed: all other conditions hold here, and the field jumps in the
hanging vertex, the end of the coarse edge of the second substitution. -/
theorem C127_two_levels_fail :
    (∀ s ∈ badSubs, badE s.f1 (0, 0) = badE s.c (edgeNode 1 s.fc 1) ∧
      badE s.f2 (0, 0) = badE s.c (edgeNode 1 s.fc 0)) ∧
    ∃ u : ℕ → ℚ, evalField 1 (substitute 1 badE badSubs) (transform 1 badSubs) u 4 0 0 ≠
      evalField 1 (substitute 1 badE badSubs) (transform 1 badSubs) u 1 1 0 := by
  refine ⟨by simp [badSubs, badE, edgeNode], fun n => if n = 101 then 1 else 0, ?_⟩
  decide +kernel

end Verif.Hang
