/-
Concrete cases of the fading memory terms.
-/
import Verif.Th.Props

namespace Verif.Th

open Verif.History

/-- A variable of one DOF with the history of the length 3, in an array of two items, at the step 0. -/
def exVar : Var := { history := some 3, nDof := 1, data := [some 0, none, none, none], lo := 0, hi := 1, step := 0,
                     locked := false }

def exHeap : Heap ℤ := [[5, 7]]

theorem exTracks : Tracks (exHeap, exVar) 3 0 1 [] := by
  refine ⟨rfl, rfl, rfl, by decide, rfl, rfl, ⟨0, rfl, by decide, by decide⟩, fun _ => ⟨rfl, ?_⟩, fun h => absurd rfl h, ?_⟩
  · intro j hj
    rcases j with _ | _ | _ | _ | j <;> first | omega | rfl
  · intro i j r hij h1
    rcases j with _ | _ | _ | _ | j <;> first | omega | (simp [exVar])

/-- Two steps: 5, then 3 (changed in place), now 2. -/
def exOps : List (HOp ℤ) := [.advance 0, .write 0 [3, 7], .advance 1, .write 0 [2, 7]]

theorem exAllowed : allAllowed exOps (exHeap, exVar) := by
  refine ⟨trivial, ⟨?_, by decide⟩, trivial, ⟨?_, by decide⟩, trivial⟩
  · intro j hj
    rcases j with _ | _ | _ | _ | j
    · omega
    all_goals first | decide | (simp [HOp.run, Var.advance, exVar, exHeap, fillLoop, shiftLoop])
  · intro j hj
    rcases j with _ | _ | _ | _ | j
    · omega
    all_goals first | decide | (simp [HOp.run, Var.advance, exVar, exHeap, fillLoop, shiftLoop, Heap.put])

theorem exRecord : record exOps (exHeap, exVar) [] = [[3], [5]] := by decide

/-- The state in the quadrature point. -/
def exEv (u : List ℤ) : ℤ := u.getD 0 0

/-- Three items of the kernel: `1 * 2 + 10 * 3 + 100 * 5`. -/
example : thResidual (exOps.foldl (fun s o => o.run s) (exHeap, exVar)).1
    (exOps.foldl (fun s o => o.run s) (exHeap, exVar)).2 exEv 1 [1, 10, 100] = .ok 532 := by decide +kernel

/-- The fourth item is applied to the first state again. -/
example : thResidual (exOps.foldl (fun s o => o.run s) (exHeap, exVar)).1
    (exOps.foldl (fun s o => o.run s) (exHeap, exVar)).2 exEv 1 [1, 10, 100, 1000] = .ok 5532 := by decide +kernel

/-- The exponential term with the decay 10, with more evaluations in the steps: no contribution before the first step. -/
example : ethResidual (1 : ℤ) 1 ([[(10, 4), (10, 5)], [(20, 3)]].foldl (ethStep (some 3)) none) 30 2 = 532 := by decide

/-- The hypotheses of `C114_exponential_is_full` are met. -/
example : ∃ out, thResidual (exOps.foldl (fun s o => o.run s) (exHeap, exVar)).1
    (exOps.foldl (fun s o => o.run s) (exHeap, exVar)).2 exEv 1 ((List.range 4).map fun i => 1 * (10 : ℤ) ^ i) = .ok out ∧
    ethResidual (1 : ℤ) 1 ([[(10, 4), (10, 5)], [(20, 3)]].foldl (ethStep (some 3)) none) 30 2 + 1000 * 5 = out := by
  obtain ⟨out, h1, h2⟩ := C114_exponential_is_full (exHeap, exVar) 2 0 1 exTracks exOps exAllowed exEv 1 1 30 4 (by norm_num)
    (by norm_num) [[(10, 4), (10, 5)], [(20, 3)]] (by simp) (by simp) (by rw [exRecord]; decide)
  refine ⟨out, h1, ?_⟩
  have hc : current (exOps.foldl (fun s o => o.run s) (exHeap, exVar)) = [2] := by decide
  rw [exRecord, hc] at h2
  simpa [firstDecay, exEv] using h2

/-- Without a history there is no memory. -/
example : ethArg (getEthData ([[(10, 4), (10, 5)], [(20, 3)]].foldl (ethStep none) none) 30 (2 : ℤ)) = 2 :=
  C114_no_history none (Or.inl rfl) _ _ _

/-- In the step 0 a kernel of three items cannot be evaluated. -/
example : thResidual exHeap exVar exEv 1 [1, 10, 100] = .error .value :=
  C114_full_kernel_step0 (exHeap, exVar) 3 0 1 exTracks exEv 1 1 10 100 [] (by norm_num)

end Verif.Th
