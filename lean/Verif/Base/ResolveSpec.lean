/-
What is said about the resolution of dependencies.
-/
import Verif.Base.Resolve
import Mathlib.Logic.Relation

namespace Verif.Base

open Relation

variable {α : Type}

/-- The name `p` is a prerequisite of the name `a`. -/
def Uses (deps : Deps α) (a p : α) : Prop := ∃ v, (a, v) ∈ deps ∧ p ∈ v

/-- Correct dependencies: a dictionary with sets of names, only defined names are used, and every name depends on
itself, directly or through other names. -/
structure Good (deps : Deps α) : Prop where
  keys : (deps.map Prod.fst).Nodup
  vals : ∀ a v, (a, v) ∈ deps → v.Nodup
  closed : ∀ a p, Uses deps a p → p ∈ deps.map Prod.fst
  cyclic : ∀ a ∈ deps.map Prod.fst, TransGen (Uses deps) a a

/-- Two names depend on each other, directly or indirectly. -/
def Mutual (deps : Deps α) (a b : α) : Prop := ReflTransGen (Uses deps) a b ∧ ReflTransGen (Uses deps) b a

end Verif.Base
