/-
Model of `get_dependency_graph` and `sort_by_dependency`
(`sfepy/discrete/common/region.py:18-74`).
-/
namespace Verif.Region

/-- Outcome of the sorting: the order or the raised `ValueError`. -/
inductive SortResult where
  | ok (out : List String)
  | missing (dep node : String)
  | circular
deriving DecidableEq, Repr

/-- The mutable data: `deps name` is `graph[name][1:]`, `done name` is `graph[name][0]`. -/
structure SortState where
  deps : String → List String
  done : String → Bool
  out : List String
  removed : Nat

/-- The inner loop over `deps[1:]` (a copy) (region.py:60-68):
checks existence, pops the first occurrence of a finished dependency. -/
def scanDeps (names : List String) (node : String) :
    List String → SortState → Except String SortState
  | [], s => .ok s
  | dep :: rest, s =>
    if dep ∈ names then
      if s.done dep then
        scanDeps names node rest
          { s with deps := fun x => if x = node then (s.deps node).erase dep else s.deps x
                   removed := s.removed + 1 }
      else scanDeps names node rest s
    else .error dep

/-- Body of the `for` loop over the graph items (region.py:53-68). -/
def visitNode (names : List String) (s : SortState) (node : String) :
    Except (String × String) SortState :=
  if (s.deps node).isEmpty && !s.done node then
    .ok { s with out := s.out ++ [node], done := fun x => if x = node then true else s.done x }
  else if !s.done node then
    match scanDeps names node (s.deps node) s with
    | .ok s' => .ok s'
    | .error d => .error (d, node)
  else .ok s

/-- One pass of the `while` loop (region.py:51-68). -/
def sortPass (names : List String) (s : SortState) : Except (String × String) SortState :=
  names.foldlM (visitNode names) { s with removed := 0 }

/-- The `while` loop (region.py:50-72); `idone` is `len(out)`; `idone0` is an integer.
`none`: the given number of passes did not suffice. -/
def sortLoop (names : List String) : Nat → Int → SortState → Option SortResult
  | 0, _, s => if s.out.length < names.length then none else some (.ok s.out)
  | fuel + 1, idone0, s =>
    if s.out.length < names.length then
      match sortPass names s with
      | .error (d, n) => some (.missing d n)
      | .ok s' =>
        if (s'.out.length : Int) ≤ idone0 ∧ s'.removed = 0 then some .circular
        else sortLoop names fuel s'.out.length s'
    else some (.ok s.out)

/-- `sort_by_dependency(graph)` (region.py:43-74) for the dictionary with the keys `names`
(in insertion order) and the dependency lists `deps`, with at most `fuel` passes. -/
def sortByDependency (fuel : Nat) (names : List String) (deps : String → List String) :
    Option SortResult :=
  sortLoop names fuel (-1) { deps := deps, done := fun _ => false, out := [], removed := 0 }

/-- A region definition: name, names of regions in the selector, optional parent. -/
structure RegionDef where
  name : String
  parents : List String
  parent : Option String

/-- `get_dependency_graph(region_defs)` (region.py:18-41): keys in order and dependencies;
`none` for a name defined twice (ValueError). The regular-expression search for `r.<name>` in the
selector is the input `parents`. -/
def dependencyGraph (defs : List RegionDef) : Option (List String × (String → List String)) :=
  if (defs.map (·.name)).Nodup then
    some (defs.map (·.name), fun n =>
      match defs.find? fun d => d.name == n with
      | some d => d.parents ++ d.parent.toList
      | none => [])
  else none

end Verif.Region
