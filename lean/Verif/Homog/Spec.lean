/-
What is said about the homogenization engine.
-/
import Verif.Homog.Model
import Mathlib.Logic.Relation

namespace Verif.Homog

variable {α V : Type}

/-- `m` is a direct requirement of `n`. -/
def Needs (info : Info α) (n m : Name α) : Prop := ∃ rs, info n.2 = some rs ∧ m ∈ rs

/-- `m` is among `reqs` or a direct or indirect requirement of one of them. -/
def Reach (info : Info α) (reqs : List (Name α)) (m : Name α) : Prop :=
  ∃ q ∈ reqs, Relation.ReflTransGen (Needs info) q m

/-- A list in which every name is preceded by all its requirements, without repetitions. -/
def Ordered (reqs : Name α → Option (List (Name α))) (L : List (Name α)) : Prop :=
  L.Nodup ∧ ∀ l1 n l2, L = l1 ++ n :: l2 → ∃ rs, reqs n = some rs ∧ ∀ r ∈ rs, r ∈ l1

/-- The values of all the names in the list are computed by the mini applications from the values of the direct
requirements; the other names have no values. -/
def Solution (reqs : Name α → Option (List (Name α))) (app : Name α → List (Name α × V) → Option V) (L : List (Name α))
    (deps : Name α → Option V) : Prop :=
  (∀ n ∈ L, ∃ rs vs v, reqs n = some rs ∧ List.Forall₂ (fun r v => deps r = some v) rs vs ∧
    app n (rs.zip vs) = some v ∧ deps n = some v) ∧
  ∀ n, n ∉ L → deps n = none

end Verif.Homog
