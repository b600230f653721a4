/-
Examples for the resolution of dependencies (C59).
-/
import Verif.Base.PropsResolve

namespace Verif.Base

open Relation

/-- The dependencies of `test_resolve_deps()` (sfepy/tests/test_base.py:92-107). -/
def exDeps : Deps ℕ := [(0, [0, 1]), (1, [0, 1]), (2, [1, 2, 3, 4]), (3, [2, 4]), (4, [3, 4]), (5, [4, 5, 6]), (6, [6])]

example : resolve exDeps = [[6], [0, 1], [2, 3, 4], [5]] := by decide +kernel

theorem uses_ex {a p : ℕ} (v : List ℕ) (h : (a, v) ∈ exDeps) (hp : p ∈ v) : Uses exDeps a p := ⟨v, h, hp⟩

/-- The dependencies of the test are correct. -/
theorem exGood : Good exDeps := by
  refine ⟨by decide, ?_, ?_, ?_⟩
  · intro a v h
    simp only [exDeps, List.mem_cons, Prod.mk.injEq, List.not_mem_nil, or_false] at h
    rcases h with h | h | h | h | h | h | h <;> (rw [h.2]; decide)
  · rintro a p ⟨v, h, hp⟩
    simp only [exDeps, List.mem_cons, Prod.mk.injEq, List.not_mem_nil, or_false] at h
    rcases h with h | h | h | h | h | h | h <;> (rw [h.2] at hp; simp at hp; simp [exDeps]; omega)
  · intro a ha
    simp only [exDeps, List.map_cons, List.map_nil, List.mem_cons, List.not_mem_nil, or_false] at ha
    rcases ha with rfl | rfl | rfl | rfl | rfl | rfl | rfl
    · exact .single (uses_ex [0, 1] (by decide) (by decide))
    · exact .single (uses_ex [0, 1] (by decide) (by decide))
    · exact .single (uses_ex [1, 2, 3, 4] (by decide) (by decide))
    · exact .tail (.single (uses_ex [2, 4] (by decide) (by decide) : Uses exDeps 3 4)) (uses_ex [3, 4] (by decide) (by decide))
    · exact .single (uses_ex [3, 4] (by decide) (by decide))
    · exact .single (uses_ex [4, 5, 6] (by decide) (by decide))
    · exact .single (uses_ex [6] (by decide) (by decide))

/-- The hypotheses of `C59_blocks` are met. -/
example : Mutual exDeps 3 2 :=
  ((C59_blocks exDeps exGood).2.1 [2, 3, 4] (by decide +kernel)).2.2 3 (by decide) 2 |>.1 (by decide)

/-- The hypotheses of `C59_block_solve` are met by the two equations `2 a = 6`, `a + b = 10`. -/
example : (blockSolve (V := ℤ) (fun block x => some (if block = [0] then fun _ => 3 else fun _ => 10 - x 0))
    (resolve [(1, [0, 1]), (0, [0])]) fun _ => 0).map (fun y => (y 0, y 1)) = some (3, 7) := by decide +kernel

/-- The other example of the test. -/
example : resolve [(0, [1]), (1, [2]), (2, [0])] = [[0, 1, 2]] := by decide +kernel

/-- **C59** (finding): the equation of a name that does not depend on itself is silently left out. -/
theorem C59_missing_self : resolve [(0, [0]), (1, [0])] = [[0]] := by decide +kernel

/-- **C59** (finding): with an undefined prerequisite the rest is silently incomplete and other names are repeated. -/
theorem C59_undefined_repeats : resolve [(0, [0]), (1, [1]), (2, [2, 7])] = [[0], [1], [0, 1]] := by decide +kernel

/-- **C59** (finding): a prerequisite given twice in a list counts twice, and the smallest block is not found. -/
theorem C59_duplicate_prerequisites : resolve [(0, [0, 0])] = ([] : List (List ℕ)) := by decide +kernel

end Verif.Base
