import Mathlib.Data.List.Basic
import Mathlib.Data.Char

/-!
# Boundary and initial conditions: configuration, dispatch, grouping, ordering

Models `/repo/sfepy/base/conf.py:37-149` (`tuple_to_conf()`, `transform_conditions()`,
`transform_epbcs()`; `transform_lcbcs()` only by its prefix) and `/repo/sfepy/discrete/conditions.py:49-210`.

Simplifications.  A Python string is a list of characters.  Values (regions, dof specifications, times)
are an arbitrary type.  A Python dictionary is an association list in insertion order.  Exceptions are
`none`.
-/

namespace Verif.Cond

abbrev Str := List Char

/-! ## Python string and dictionary operations -/

/-- `s.split(c)` for a one-character separator. -/
def splitOn (c : Char) : Str → List Str
  | [] => [[]]
  | a :: t =>
    if a = c then [] :: splitOn c t
    else match splitOn c t with
      | [] => [[a]]
      | h :: r => (a :: h) :: r

/-- `sub in s`. -/
def contains (sub : Str) : Str → Bool
  | [] => sub.isEmpty
  | a :: t => sub.isPrefixOf (a :: t) || contains sub t

/-- `s.strip()` (blanks, tabs, newlines). -/
def strip (s : Str) : Str :=
  ((s.dropWhile Char.isWhitespace).reverse.dropWhile Char.isWhitespace).reverse

/-- `".".join(parts)`. -/
def joinDot : List Str → Str
  | [] => []
  | [a] => a
  | a :: t => a ++ '.' :: joinDot t

/-- Comparison `a <= b` of Python strings: lexicographic by code points. -/
def strLe : Str → Str → Bool
  | [], _ => true
  | _ :: _, [] => false
  | a :: s, b :: t => if a.toNat < b.toNat then true else if b.toNat < a.toNat then false else strLe s t

/-- `d[key] = val`. -/
def dictSet {α : Type*} (d : List (Str × α)) (key : Str) (val : α) : List (Str × α) :=
  if d.any (fun p => p.1 == key) then d.map (fun p => if p.1 == key then (key, val) else p)
  else d ++ [(key, val)]

/-- `d.get(key)`. -/
def dictGet {α : Type*} (d : List (Str × α)) (key : Str) : Option α :=
  (d.find? fun p => p.1 == key).map Prod.snd

/-! ## Problem configuration -/

/-- A configuration item: a short-syntax tuple, or a long-syntax dictionary with its `name` -
`/repo/sfepy/base/conf.py:74-90`. -/
inductive Entry (V : Type*)
  | tuple (vals : List V)
  | full (name : Str) (fields : List (Str × V))

/-- The resulting `Struct`: its name and attributes. -/
structure Conf (V : Type*) where
  name : Str
  attrs : List (Str × V)

/-- `tuple_to_conf()` - `/repo/sfepy/base/conf.py:37-47`. -/
def tupleToConf {V : Type*} (name : Str) (vals : List V) (order : List Str) : Conf V :=
  ⟨name, (order.take vals.length).zip vals⟩

/-- `'%s_%s__%d' % (prefix, name, ii)` - `/repo/sfepy/base/conf.py:84`. -/
def shortKey (pre name : Str) (ii : ℕ) : Str :=
  pre ++ '_' :: (name ++ '_' :: '_' :: Nat.toDigits 10 ii)

/-- `'%s_%s' % (prefix, name)` - `/repo/sfepy/base/conf.py:88`. -/
def longKey (pre name : Str) : Str := pre ++ '_' :: name

/-- One pass of the loop of `transform_conditions()`: the key and the value -
`/repo/sfepy/base/conf.py:74-90`. -/
def condItem {V : Type*} (pre key : Str) (ii : ℕ) : Entry V → Str × Conf V
  | .tuple vals =>
    if vals.length = 2 then
      (shortKey pre key ii, tupleToConf key vals ["region".toList, "dofs".toList])
    else
      (shortKey pre key ii, tupleToConf key vals ["region".toList, "times".toList, "dofs".toList])
  | .full name fields => (longKey pre name, ⟨name, fields⟩)

/-- One pass of the loop of `transform_epbcs()` - `/repo/sfepy/base/conf.py:131-146`. -/
def epbcItem {V : Type*} (pre key : Str) (ii : ℕ) : Entry V → Str × Conf V
  | .tuple vals =>
    if vals.length = 3 then
      (shortKey pre key ii, tupleToConf key vals ["region".toList, "dofs".toList, "match".toList])
    else
      (shortKey pre key ii,
        tupleToConf key vals ["region".toList, "times".toList, "dofs".toList, "match".toList])
  | .full name fields => (longKey pre name, ⟨name, fields⟩)

/-- The loop over `enumerate(adict.items())` storing `d2[key] = c2` -
`/repo/sfepy/base/conf.py:74-90,131-146`. -/
def transform {V : Type*} (item : Str → ℕ → Entry V → Str × Conf V) (adict : List (Str × Entry V)) :
    List (Str × Conf V) :=
  adict.zipIdx.foldl (fun d p => dictSet d (item p.1.1 p.2 p.1.2).1 (item p.1.1 p.2 p.1.2).2) []

/-! ## `Conditions.from_conf()` -/

/-- The condition classes. -/
inductive Kind
  | ebc | epbc | lcbc | dgebc | dgepbc | ic
  deriving DecidableEq, Repr

/-- The dispatch on the key - `/repo/sfepy/discrete/conditions.py:61-100`. -/
def kindOf (key : Str) : Option Kind :=
  if "ebc".toList.isPrefixOf key then some .ebc
  else if "epbc".toList.isPrefixOf key then some .epbc
  else if "lcbc".toList.isPrefixOf key then some .lcbc
  else if "dgebc".toList.isPrefixOf key then some .dgebc
  else if "dgepbc".toList.isPrefixOf key then some .dgepbc
  else if contains "ic".toList key then some .ic
  else none

/-! ## Single conditions, grouping, canonical names, sorting -/

/-- A condition: its sorting key and `dofs` dictionary - `/repo/sfepy/discrete/conditions.py:177-183`. -/
structure Cnd (V : Type*) where
  key : Str
  dofs : List (Str × V)

/-- A single condition - `/repo/sfepy/discrete/conditions.py:185-200`. -/
structure Single (V : Type*) where
  key : Str
  dofs : Str
  val : V
  diff : Bool
  deriving DecidableEq

/-- `iter_single()` - `/repo/sfepy/discrete/conditions.py:185-200`. -/
def iterSingle {V : Type*} (c : Cnd V) : List (Single V) :=
  c.dofs.map fun p =>
    if contains "grad".toList p.1 then ⟨c.key, joinDot (splitOn '.' p.1).tail, p.2, true⟩
    else ⟨c.key, p.1, p.2, false⟩

/-- `single_cond.dofs[0].split('.')[0]` - `/repo/sfepy/discrete/conditions.py:131`. -/
def varName {V : Type*} (s : Single V) : Str := (splitOn '.' s.dofs).headD []

/-- `out.setdefault(vname, Conditions()).append(single_cond)` -
`/repo/sfepy/discrete/conditions.py:132`. -/
def addTo {V : Type*} (out : List (Str × List (Single V))) (s : Single V) :
    List (Str × List (Single V)) :=
  dictSet out (varName s) ((dictGet out (varName s)).getD [] ++ [s])

/-- `group_by_variables()` - `/repo/sfepy/discrete/conditions.py:107-134`. -/
def groupByVariables {V : Type*} (conds : List (Cnd V)) (groups : List (Str × List (Single V))) :
    List (Str × List (Single V)) :=
  conds.foldl (fun out c => (iterSingle c).foldl addTo out) groups

/-- `_canonize()` - `/repo/sfepy/discrete/conditions.py:159-176`; `none` when the string does not have
exactly one dot, or nothing after it. -/
def canonize (dofs : Str) (allDofs : List Str) : Option (List Str) :=
  match splitOn '.' dofs with
  | [vname, dd] =>
    if dd = "all".toList then some allDofs
    else match dd with
      | [] => none
      | d :: r =>
        if d = '[' then some ((splitOn ',' r.dropLast).map fun s => vname ++ '.' :: strip s)
        else some [dofs]
  | _ => none

/-- `sort()`: stable, by key - `/repo/sfepy/discrete/conditions.py:144-149`. -/
def sortConds {V : Type*} (l : List (Single V)) : List (Single V) :=
  l.mergeSort fun a b => strLe a.key b.key

end Verif.Cond
