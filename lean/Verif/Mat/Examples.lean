/-
C65: concrete materials satisfying the hypotheses of the theorems, and what happens outside of them.
-/
import Verif.Mat.PropsConst

namespace Verif.Mat

/-- Worlds are times; extra arguments, points, matrices and objects are numbers. -/
abbrev M := Material Nat Nat Nat Nat Nat

/-- A function of time and coordinates with one parameter 'a' and one special value 's'. -/
def exFn : Fn Nat Nat Nat Nat Nat where
  qp w x t := .ok (some [("a", ⟨3, 1, t.coors.map fun c => 100 * w + 10 * x + c⟩)])
  special w _ := .ok (some [("s", w)])
  const _ := .ok (some [("k", 7)])

/-- Two cells with two points each. -/
def exT : Term Nat := ⟨"Omega", 2, ["m"], 2, 2, [4, 5], [1, 2, 3, 4]⟩

/-- Another term with the same points. -/
def exT2 : Term Nat := ⟨"Omega", 2, ["m", "q"], 2, 2, [4, 5], [1, 2, 3, 4]⟩

def exT3 : Term Nat := ⟨"Gamma", 1, ["m"], 1, 1, [4], [9]⟩

def exM : M := ofFunction "m" .timeDependent true 0 exFn

/-- The data after two steps. -/
def exM2 : M := (runNormal [(1, [exT, exT3]), (2, [exT, exT2])] exM).1

/-- The hypotheses of `C65_current` hold in the second step of a run, where old data are present; the
data are those of time 2, the data of the surface term are gone. -/
example : Renews (timeUpdate exM 1 [exT, exT3] .normal).1 .normal ∧
    (timeUpdate exM 1 [exT, exT3] .normal).1.datas ≠ [] ∧
    timeUpdate (timeUpdate exM 1 [exT, exT3] .normal).1 2 [exT, exT2] .normal = (exM2, none) ∧
    getData1 exM2 exT2.key (some "a") = .ok (some (.grid [[201, 202], [203, 204]])) ∧
    getData1 exM2 exT3.key (some "a") = .error .key ∧
    getData1 exM2 (.other "None") (some "s") = .ok (some (.obj 2)) ∧
    getConst exM2 "k" = .ok (.obj 7) :=
  ⟨Or.inr (Or.inr ⟨rfl, rfl, rfl, rfl⟩), by decide +kernel, rfl, rfl, rfl, rfl, rfl⟩

/-- The same with a stationary material: the data of time 1 stay. -/
def exS : M := ofFunction "m" .stationary true 0 exFn

example : (runNormal [(1, [exT, exT3])] exS).1.datas ≠ [] ∧
    getData1 (runNormal [(1, [exT, exT3]), (2, [exT]), (3, [exT])] exS).1 exT.key (some "a") =
      .ok (some (.grid [[101, 102], [103, 104]])) :=
  ⟨by decide +kernel, rfl⟩

/-- Constant values with a history. -/
def exC : M := ofValues "m" .timeDependent false 0 [("a", ⟨5, 1, 0⟩), (".s", ⟨0, 1, 3⟩)]

example : (runOps [.update .normal 1 [exT], .extra 4, .reset 0, .update .update 2 [exT3],
      .update .normal 3 [exT, exT3]] exC).2 = none ∧
    getData1 (runOps [.update .normal 1 [exT], .extra 4, .reset 0, .update .update 2 [exT3],
      .update .normal 3 [exT, exT3]] exC).1 exT.key (some "a") = .ok (some (.grid [[5, 5]])) ∧
    getData1 (runOps [.update .normal 1 [exT]] exC).1 exT.key (some "s") = .ok (some (.obj 3)) := by
  refine ⟨?_, ?_, ?_⟩ <;> rfl

/-- Values by overlapping regions: the later region wins, a cell outside has zero. -/
def exR : M := ofRegions "m" .timeDependent false 0 [("a", ⟨1, 0, [([4, 5], 8), ([5, 6], 9)]⟩)]

def exT4 : Term Nat := ⟨"Omega", 2, ["m"], 3, 2, [4, 5, 7], [1, 2, 3, 4, 5, 6]⟩

example : (runOps [.update .normal 1 [exT4]] exR).2 = none ∧
    getData1 (runOps [.update .normal 1 [exT4]] exR).1 exT4.key (some "a") =
      .ok (some (.grid [[8, 8], [9, 9], [0, 0]])) ∧
    valueInCell 0 [([4, 5], 8), ([5, 6], 9)] 5 = 9 := by
  refine ⟨?_, ?_, ?_⟩ <;> rfl

/-! ### Outside of the hypotheses -/

/-- A function that fails at time 1. -/
def failFn : Fn Nat Nat Nat Nat Nat where
  qp w x t := if w = 1 then .error .user else exFn.qp w x t
  special := exFn.special
  const := exFn.const

/-- **A failed update leaves an empty record**, that the following updates of a stationary material take
for valid data: the update succeeds without calling the function, and reading the parameter gives
`None` without an error.  (With `mode='force'` the data are right, `C65_current`.) -/
theorem C65_failed_update_silent :
    let m1 : M := (timeUpdate (ofFunction "m" .stationary false 0 failFn) 1 [exT] .normal).1
    (timeUpdate (ofFunction "m" .stationary false 0 failFn) 1 [exT] .normal).2 = some .user ∧
    timeUpdate m1 2 [exT] .normal = (m1, none) ∧
    getData1 m1 exT.key (some "a") = .ok none ∧
    getData1 (timeUpdate m1 2 [exT] .force).1 exT.key (some "a") =
      .ok (some (.grid [[201, 202], [203, 204]])) := by
  refine ⟨?_, ?_, ?_, ?_⟩ <;> rfl

/-- **`set_function()` on a material with constant values**: the material still counts as constant, so
the data of the new, time-dependent function are not renewed. -/
theorem C65_set_function_stale :
    let m1 : M := (timeUpdate (setFunction 0 exFn exC) 1 [exT] .normal).1
    getData1 (timeUpdate m1 2 [exT] .normal).1 exT.key (some "a") =
      .ok (some (.grid [[101, 102], [103, 104]])) ∧
    getData1 (timeUpdate m1 2 [exT] .force).1 exT.key (some "a") =
      .ok (some (.grid [[201, 202], [203, 204]])) := by
  refine ⟨?_, ?_⟩ <;> rfl

/-- **A stationary material is not updated for new terms** in the normal mode: a term with a new region
gets an error when it reads its data. -/
theorem C65_stationary_new_term :
    let m1 : M := (runNormal [(1, [exT]), (2, [exT, exT3])] exS).1
    (runNormal [(1, [exT]), (2, [exT, exT3])] exS).2 = none ∧
    getData1 m1 exT3.key (some "a") = .error .key := by
  refine ⟨?_, ?_⟩ <;> rfl

/-- **`get_data()` with a dictionary** looks in the record named by the attribute, not by the key that
was passed: it fails for every ordinary parameter of a material with data of quadrature points and
special records only. -/
theorem C65_get_data_dict {W X P A V : Type} (m : Material W X P A V) (key : Key) (attr n : String)
    (rest : List (String × Option String)) (hd : m.datas ≠ []) (hsp : n ∉ m.specialNames)
    (hk : ∀ p ∈ m.datas, ∀ s, p.1 ≠ .other s) :
    getDataDict m key ((attr, some n) :: rest) = .error .key := by
  have hg : dget m.datas (.other attr) = none := by
    unfold dget
    rw [Option.map_eq_none_iff, List.find?_eq_none]
    intro p hp
    simpa using hk p hp attr
  have he : m.datas.isEmpty = false := by
    cases h : m.datas with
    | nil => exact absurd h hd
    | cons => rfl
  simp [getDataDict, getDataLoop, getData1, he, hsp, hg]

example : getDataDict exM2 exT.key [("x", some "a")] = .error .key ∧
    getDataDict exM2 exT.key [("x", some "s")] = .ok [("x", some (.obj 2))] := ⟨rfl, rfl⟩

/-- **A wrong number of rows is not reported** when it is a multiple of the number of points: here the
function returns two rows instead of four. -/
theorem C65_wrong_rows_accepted :
    shapeOne (A := Nat) 2 ⟨3, 1, [1, 2]⟩ = .ok [[1, 2]] ∧ exT.nEl = 2 ∧ exT.nQp = 2 ∧
    shapeOne (A := Nat) 2 ⟨3, 1, [1, 2, 3]⟩ = .error .value := by
  refine ⟨?_, ?_, ?_, ?_⟩ <;> rfl

end Verif.Mat
