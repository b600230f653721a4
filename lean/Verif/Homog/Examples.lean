/-
Examples for the homogenization engine (C58).
-/
import Verif.Homog.PropsChunk

namespace Verif.Homog

/-- Two requirements: `a` (0) and `b` (1), which requires `a`. -/
def exReq : Info ℕ := fun a => if a = 0 then some [] else if a = 1 then some [(false, 0)] else none

/-- Two coefficients: `D` (2) requires `b` and `a`, `F` (3) requires `c.D`. -/
def exCoef : Info ℕ := fun a => if a = 2 then some [(false, 1), (false, 0)] else if a = 3 then some [(true, 2)] else none

/-- The names of the example fulfil the hypotheses of `C58_sorted`. -/
theorem exWell : WellNamed exReq exCoef := by
  refine ⟨fun a => ?_, fun a rs h r hr => ?_⟩
  · unfold exReq exCoef
    by_cases h0 : a = 0
    · subst h0; right; rfl
    · by_cases h1 : a = 1
      · subst h1; right; rfl
      · left; simp [h0, h1]
  · have hrs : rs = [] ∨ rs = [(false, 0)] ∨ rs = [(false, 1), (false, 0)] ∨ rs = [(true, 2)] := by
      unfold exReq exCoef at h
      rcases h with h | h <;> split_ifs at h <;> cases h <;> simp
    rcases hrs with rfl | rfl | rfl | rfl <;> simp at hr
    · subst hr; decide
    · rcases hr with rfl | rfl <;> decide
    · subst hr; decide

/-- The order of the computation: `a`, `b`, `c.D`, `c.F`. -/
theorem exSorted : sortedDeps 10 exReq exCoef [3, 2] = .ok [(false, 0), (false, 1), (true, 2), (true, 3)] := by
  decide +kernel

/-- The hypotheses of `C58_sorted` and its conclusion are met by the example. -/
example : Ordered (requires exReq exCoef) [(false, 0), (false, 1), (true, 2), (true, 3)] :=
  (C58_sorted 10 exReq exCoef [3, 2] _ exWell exSorted).1

/-- A circular requirement is found. -/
example : sortedDeps 10 (fun a => if a = 0 then some [(false, 1)] else if a = 1 then some [(false, 0)] else none)
    (fun a => if a = 2 then some [(false, 0)] else none) [2] = .error .circular := by decide +kernel

/-- An undefined requirement is found. -/
example : sortedDeps 10 exReq (fun a => if a = 2 then some [(false, 7)] else none) [2] = .error .undefined := by
  decide +kernel

/-- A requirement named as a coefficient, `b` of `c.a` instead of `a`, passes the sorting, but its computation fails:
the reason for the hypothesis `WellNamed`. -/
example : sortedDeps 10 exReq (fun a => if a = 2 then some [(true, 0)] else none) [2] =
      .ok [(true, 0), (true, 2)] ∧
    (serial (V := ℕ) (requires exReq (fun a => if a = 2 then some [(true, 0)] else none))
      (fun (s : Unit) n d => some (n.2 + (d.map Prod.snd).sum, s)) () [(true, 0), (true, 2)]).isNone := by
  decide +kernel

/-- The serial computation of the example: a = 1, b = 1 + a, D = 1 + b + a, F = 1 + D. -/
example : (serial (V := ℕ) (requires exReq exCoef) (fun (s : Unit) _ d => some (1 + (d.map Prod.snd).sum, s)) ()
      [(false, 0), (false, 1), (true, 2), (true, 3)]).map
    (fun r => [(false, 0), (false, 1), (true, 2), (true, 3)].map r.1) = some [some 1, some 2, some 4, some 5] := by
  decide +kernel

/-- An execution of the parallel computation: the first task is started, computed and taken. -/
example : ∃ s : MState ℕ ℕ, MExec (fun n => (requires exReq exCoef n).getD [])
    (fun _ d => some (1 + (d.map Prod.snd).sum)) [(false, 0), (false, 1), (true, 2), (true, 3)] 3 s ∧
    s.deps (false, 0) = some 1 ∧ s.remaining = 3 := by
  refine ⟨_, .step (.step (.step .init (.start _ rfl rfl (by decide +kernel)))
    (.work _ 0 (false, 0) rfl (Nat.zero_le _) (by decide +kernel) rfl))
    (.take _ (false, 0) 1 rfl (by decide +kernel) (by decide +kernel)), by decide +kernel, by decide +kernel⟩

/-- The chunks of five microstructures in twos. -/
example : microTab 5 2 = [(0, 2), (2, 4), (4, 5)] := by decide

/-- The stored microstructures 1, 2 and 4. -/
example : storeIdxs 5 2 [1, 2, 4] = [([1], 0), ([0], 2), ([0], 4)] := by decide

/-- The division into the chunks: the definitions with tags are sorted too, and the computation in the chunks. -/
example : (sortedDeps 10 (chunkInfo (α := ℕ) 2 fun a => if a = (0, none) then some [] else none)
    (chunkInfo 2 fun a => if a = (2, none) then some [(false, 0, none)] else none) [(2, some 0), (2, some 1)]) =
    .ok [(false, 0, some 0), (true, 2, some 0), (false, 0, some 1), (true, 2, some 1)] := by decide +kernel

example : (calcMicro (α := ℕ) (some (microTab 5 2)) (fun _ c d => some (c + (d.map Prod.snd).sum)) (fun _ => none)
    [10, 20, 30, 40, 50] (true, 2, some 1) [((false, 0, some 1), [1, 2])]).map Prod.fst = some [31, 42] := by decide +kernel

/-- **C58** (finding): `update_coors` changes the coordinates of the first microstructure only: the results of the
following ones are not applied. -/
theorem C58_update_coors_first_only : microLoop (C := ℕ) (W := ℕ) (β := ℕ) (fun _ _ => some 5) (fun w => some (· + w)) []
    [0, 0, 0] = some ([5, 5, 5], [5, 0, 0]) := by decide +kernel

/-- **C58** (finding): when a name is both a requirement and a coefficient, the coefficient is sorted using the
requirements of the requirement. -/
theorem C58_same_name : sortedDeps 10 (fun a => if a = 0 then some [] else none)
    (fun a => if a = 0 then some [(false, 1)] else if a = 2 then some [(true, 0)] else none) [2] =
    .ok [(true, 0), (true, 2)] := by decide +kernel

end Verif.Homog
