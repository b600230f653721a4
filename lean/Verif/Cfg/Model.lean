import Mathlib.Data.List.Basic
import Mathlib.Data.List.Find

/-!
# Containers, structures and solver configurations

Models `Container`, `OneTypeList` and `Struct` of `/repo/sfepy/base/base.py` and the processing of solver
configurations of `/repo/sfepy/solvers/solvers.py`, `/repo/sfepy/solvers/auto_fallback.py`.
Python exceptions are `none`; a failed operation leaves the state as it was.
-/

namespace Verif.Cfg

/-! ## Python lists -/

/-- The position of the index `i` in a list of `n` items (negative indices count from the end), if any. -/
def pyIdx (n : ℕ) (i : ℤ) : Option ℕ :=
  if 0 ≤ i then (if i.toNat < n then some i.toNat else none)
  else if -i ≤ n then some (n - (-i).toNat) else none

/-- `l[i] = x`. -/
def pySet {β : Type} (l : List β) (i : ℤ) (x : β) : Option (List β) := (pyIdx l.length i).map fun k => l.set k x

/-- `l[i]`. -/
def pyGet {β : Type} (l : List β) (i : ℤ) : Option β := (pyIdx l.length i).bind fun k => l[k]?

/-- `l.insert(i, x)`: the index is clipped to the list. -/
def pyInsert {β : Type} (l : List β) (i : ℤ) (x : β) : List β :=
  let k := if 0 ≤ i then min i.toNat l.length else l.length - (-i).toNat
  l.insertIdx k x

/-- `l.index(x)`. -/
def pyIndex {β : Type} [BEq β] (l : List β) (x : β) : Option ℕ := l.findIdx? (· == x)

/-! ## Containers -/

/-- An index of a container: a name or an integer. -/
inductive Key
  | str (s : String)
  | int (i : ℤ)

/-- A container: the objects and their names, kept in two lists - `Container`,
`/repo/sfepy/base/base.py:531-541`. -/
structure Cont (α : Type) where
  objs : List α
  names : List String

variable {α : Type} (nm : α → String)

/-- `Container.update()` - `/repo/sfepy/base/base.py:543-547`; also the constructor with objects. -/
def Cont.update (objs : List α) : Cont α := ⟨objs, objs.map nm⟩

/-- `Container.__setitem__()` - `/repo/sfepy/base/base.py:549-569`. -/
def Cont.setItem (c : Cont α) (key : Key) (obj : α) : Option (Cont α) :=
  let ii : ℤ := match key with
    | .str s => match pyIndex c.names s with
      | some k => k
      | none => c.names.length
    | .int i => i
  if ii ≥ c.names.length then some ⟨c.objs ++ [obj], c.names ++ [nm obj]⟩
  else (pySet c.objs ii obj).bind fun objs => (pySet c.names ii (nm obj)).map fun names => ⟨objs, names⟩

/-- `Container.__getitem__()` - `/repo/sfepy/base/base.py:571-581`. -/
def Cont.getItem (c : Cont α) : Key → Option α
  | .str s => (pyIndex c.names s).bind fun k => pyGet c.objs k
  | .int i => pyGet c.objs i

/-- `Container.insert()` - `/repo/sfepy/base/base.py:610-612`. -/
def Cont.insert (c : Cont α) (i : ℤ) (obj : α) : Cont α :=
  ⟨pyInsert c.objs i obj, pyInsert c.names i (nm obj)⟩

/-- `Container.append()` - `/repo/sfepy/base/base.py:614-615`. -/
def Cont.append (c : Cont α) (obj : α) : Cont α :=
  (c.setItem nm (.int c.names.length) obj).getD c

/-- `Container.extend()` - `/repo/sfepy/base/base.py:617-622`. -/
def Cont.extend (c : Cont α) (objs : List α) : Cont α := objs.foldl (Cont.append nm) c

/-- `Container.__iadd__()` - `/repo/sfepy/base/base.py:596-603`. -/
def Cont.iadd (c : Cont α) (other : List α) : Cont α := Cont.update nm (c.extend nm other).objs

/-- `Container.remove_name()` - `/repo/sfepy/base/base.py:655-658`. -/
def Cont.removeName (c : Cont α) (s : String) : Option (Cont α) :=
  (pyIndex c.names s).map fun k => ⟨c.objs.eraseIdx k, c.names.eraseIdx k⟩

/-- `Container.has_key()` - `/repo/sfepy/base/base.py:674-688`. -/
def Cont.hasKey (c : Cont α) : Key → Bool
  | .int i => decide (i < c.objs.length ∧ i ≥ -(c.objs.length : ℤ))
  | .str s => (pyIndex c.names s).isSome

/-- The operations that change a container. -/
inductive Op (α : Type)
  | set (key : Key) (obj : α)
  | insert (i : ℤ) (obj : α)
  | append (obj : α)
  | extend (objs : List α)
  | iadd (objs : List α)
  | remove (s : String)
  | update (objs : List α)

/-- One operation; after an exception the container is as before. -/
def Cont.step (c : Cont α) : Op α → Cont α
  | .set k o => (c.setItem nm k o).getD c
  | .insert i o => c.insert nm i o
  | .append o => c.append nm o
  | .extend os => c.extend nm os
  | .iadd os => c.iadd nm os
  | .remove s => (c.removeName s).getD c
  | .update os => Cont.update nm os

/-! ## `Struct` -/

/-- The value of an attribute: a plain value, or a structure nested in at most `n` levels.  An attribute
that is missing is `none`.  Simplification: `hasattr()` also sees class attributes and methods; attributes of
these names are not considered. -/
def Val (L : Type) : ℕ → Type
  | 0 => L
  | n + 1 => L ⊕ (String → Option (Val L n))

/-- `Struct.__add__()` on structures - `/repo/sfepy/base/base.py:388-405` (`__iadd__()`, 407-419, gives the
same in place): the attributes of `self` are kept, except when both are structures, which are merged. -/
def merge {L : Type} : (n : ℕ) → Val L n → Val L n → Val L n
  | 0, a, _ => a
  | n + 1, a, b => match a, b with
    | .inr f, .inr g => .inr fun key => match g key with
      | none => f key
      | some val => match f key with
        | none => some val
        | some sval => some (merge n sval val)
    | .inr f, .inl _ => .inr f
    | .inl v, _ => .inl v

/-! ## Solver configurations -/

/-- Values of options; `none` is the Python `None`. -/
abbrev Opt (L : Type) := Option L

/-- A set of attributes (or keyword arguments). -/
abbrev Attrs (L : Type) := String → Option (Opt L)

/-- A declared option: the name, the default value and whether it is required. -/
structure Param (L : Type) where
  name : String
  default : Opt L
  required : Bool

variable {L : Type}

/-- `Struct.get()` - `/repo/sfepy/base/base.py:447-456`; the outer `none` is the exception. -/
def structGet (conf : Attrs L) (name : String) (default : Opt L) (required : Bool) : Option (Opt L) :=
  let out := (conf name).getD default
  if out.isNone && required then none else some out

/-- `make_get_conf()` - `/repo/sfepy/solvers/solvers.py:7-12`: the second argument of `kwargs.get()` is
evaluated first. -/
def getConf (conf kwargs : Attrs L) (name : String) (default : Opt L) (required : Bool) :
    Option (Opt L) :=
  (structGet conf name default required).map fun v => (kwargs name).getD v

/-- The list of options of a class - `Solver.process_conf()`, `/repo/sfepy/solvers/solvers.py:179-186`. -/
def allParams (base cls : List (Param L)) : List (Param L) :=
  match cls with
  | p :: _ => if p.name ≠ "name" then base ++ cls else base
  | [] => base

/-- The loop over the declared options - `/repo/sfepy/solvers/solvers.py:189-196`. -/
def processLoop (conf kwargs : Attrs L) : List (Param L) → Attrs L → Bool → Option (Attrs L × Bool)
  | [], opts, extra => some (opts, extra)
  | p :: ps, opts, extra =>
    if p.name = "*" then processLoop conf kwargs ps opts true
    else match getConf conf kwargs p.name p.default p.required with
      | none => none
      | some v => processLoop conf kwargs ps (fun k => if k = p.name then some v else opts k) extra

/-- `Solver.process_conf()` - `/repo/sfepy/solvers/solvers.py:176-205`. -/
def processConf (base cls : List (Param L)) (conf kwargs : Attrs L) : Option (Attrs L) :=
  (processLoop conf kwargs (allParams base cls) (fun _ => none) false).bind fun (opts, extra) =>
    if extra then some fun name => match opts name with
      | some v => some v
      | none => if (conf name).isSome then getConf conf kwargs name none false else none
    else some opts

/-- The outcome of a construction of a solver. -/
inductive Outcome (S : Type)
  | ok (s : S)
  | failed
  | interrupted

/-- The result of `use_first_available()`. -/
inductive Selected (S : Type)
  | solver (s : S)
  | noSolver
  | interrupted

/-- `use_first_available()` - `/repo/sfepy/solvers/solvers.py:63-109`. -/
def useFirst {S C : Type} (construct : C → Outcome S) : List C → Selected S
  | [] => .noSolver
  | c :: cs => match construct c with
    | .ok s => .solver s
    | .interrupted => .interrupted
    | .failed => useFirst construct cs

/-- One level of `Struct.__add__()` - `/repo/sfepy/base/base.py:388-405`, for plain values. -/
def addAttrs (a b : Attrs L) : Attrs L := fun k => match a k with
  | some v => some v
  | none => b k

/-- The configuration tried for the solver kind `ls` with the preset `pre` -
`/repo/sfepy/solvers/auto_fallback.py:29-31`. -/
def autoConf (pre : Attrs L) (ls : L) (user : Attrs L) : Attrs L :=
  addAttrs (addAttrs pre fun k => if k = "kind" then some (some ls) else none)
    fun k => if k = "kind" then none else user k

end Verif.Cfg
