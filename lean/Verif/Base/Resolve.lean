/-
Model of the resolution of dependencies among equations: `sfepy/base/resolve_deps.py`, and of the block solution of
`Problem.block_solve()`.
-/
import Mathlib.Data.List.Sort
import Mathlib.Data.List.Basic

namespace Verif.Base

section
variable {α : Type} [LinearOrder α]

/-- The dictionary of dependencies, in the order of insertion: the prerequisite names of each name. -/
abbrev Deps (α : Type) := List (α × List α)

/-- `get_nums()` (sfepy/base/resolve_deps.py:7-15). -/
def getNums (deps : Deps α) : List ℕ := deps.map fun p => p.2.length

/-- `deps[name]`; the names are always keys. -/
def lookup (deps : Deps α) (name : α) : List α := ((deps.find? fun p => p.1 = name).map Prod.snd).getD []

/-- `solvable()` (sfepy/base/resolve_deps.py:17-28): the comparison of the sets. -/
def solvable (deps : Deps α) (names : List α) : Bool :=
  if names = [] then false
  else
    let depNames := names.flatMap fun name => lookup deps name
    decide ((∀ x ∈ depNames, x ∈ names) ∧ ∀ x ∈ names, x ∈ depNames)

/-- `remove_known()` of one name (sfepy/base/resolve_deps.py:34-40). -/
def removeOne (deps : Deps α) (known : α) : Deps α :=
  (deps.filter fun p => p.1 ≠ known).map fun p => (p.1, p.2.filter fun ii => ii ≠ known)

/-- `remove_known()` (sfepy/base/resolve_deps.py:30-47). -/
def removeKnown (deps : Deps α) (known : List α) : Deps α := known.foldl removeOne deps

/-- `itertools.combinations(keys, num)`, in the lexicographic order of the positions. -/
def combinations : ℕ → List α → List (List α)
  | 0, _ => [[]]
  | _ + 1, [] => []
  | n + 1, a :: l => (combinations n l).map (a :: ·) ++ combinations (n + 1) l

/-- `try_block()` (sfepy/base/resolve_deps.py:49-56). -/
def tryBlock (deps : Deps α) (num : ℕ) : List (List α) :=
  ((combinations num (deps.map Prod.fst)).filter fun ic => solvable deps ic).map fun ic => ic.insertionSort (· ≤ ·)

/-- The loop over the sizes of blocks in `resolve()` (sfepy/base/resolve_deps.py:81-88); `rec` is the recursive call. -/
def resolveLoop (rec : Deps α → List (List α)) (deps : Deps α) : List ℕ → List (List α) → List (List α)
  | [], order => order
  | ib :: rest, order =>
    let order := match tryBlock deps ib with
      | [] => order
      | block :: _ => order ++ ([block] ++ rec (removeKnown deps block))
    if order.flatten.length = deps.length then order else resolveLoop rec deps rest order

/-- `resolve()` (sfepy/base/resolve_deps.py:58-90).  The recursive calls have fewer names, so that the number of names
bounds their depth (`f`). -/
def resolveAux : ℕ → Deps α → List (List α)
  | 0, _ => []
  | f + 1, deps =>
    match (getNums deps).min? with
    | none => []
    | some ib0 => resolveLoop (resolveAux f) deps (List.range' ib0 (deps.length + 1 - ib0)) []

/-- `resolve()` (sfepy/base/resolve_deps.py:58-90). -/
def resolve (deps : Deps α) : List (List α) := resolveAux deps.length deps

/-- The loop over the blocks in `Problem.block_solve()` (sfepy/discrete/problem.py:1634-1670): `solveBlock block x` is
the solution of the sub-problem of the block with the other variables given; the values of the variables of the block
are then stored.  Nothing is a failure of the solver. -/
def blockSolve {V : Type} (solveBlock : List α → (α → V) → Option (α → V)) (order : List (List α)) (x : α → V) :
    Option (α → V) :=
  order.foldlM (fun x block => (solveBlock block x).map fun y => fun n => if n ∈ block then y n else x n) x

end

end Verif.Base
