/-
Model of the evaluation of a selector and of `Domain.create_region`
(`sfepy/discrete/common/domain.py:11-165, 245-301`) on a heap of region objects: which objects
are created, which are shared and which are modified.
-/
import Verif.Region.Model
namespace Verif.Region

/-- A region object. -/
structure Obj where
  name : String
  reg : Reg

/-- The domain: all region objects (address = position) and the list `domain.regions`. -/
structure Dom where
  heap : List Obj
  regions : List Nat

/-- Selector expression (as given by the parse stack, see Parse.lean); `leaf r`: a leaf that builds
the new region `r`; `ref n`: `r.n`. -/
inductive Sel where
  | leaf (r : Reg)
  | ref (n : String)
  | op (x : Letter) (o : SetOp) (s1 s2 : Sel)

inductive DomErr where
  | region (e : Err)
  | noRegion        -- ValueError: region ... does not exist
deriving DecidableEq

/-- `regions.find(name)` (base.py, Container.find): the first region with this name. -/
def Dom.find (d : Dom) (n : String) : Option Nat :=
  d.regions.find? fun a => match d.heap[a]? with
    | some o => o.name == n
    | none => false

def Dom.alloc (d : Dom) (name : String) (r : Reg) : Nat × Dom :=
  (d.heap.length, { d with heap := d.heap ++ [{ name := name, reg := r }] })

def Dom.setReg (d : Dom) (a : Nat) (r : Reg) : Dom :=
  { d with heap := d.heap.modify a fun o => { o with reg := r } }

/-- Reading a property of the object `a`, with its lazy side effects. -/
def Dom.readAt (m : CMesh) (fuel : Nat) (d : Dom) (a : Nat) (x : Letter) :
    Except DomErr (List Nat × Dom) :=
  match d.heap[a]? with
  | none => .error .noRegion
  | some o =>
    match o.reg.read m fuel x with
    | .error e => .error (.region e)
    | .ok (l, r') => .ok (l, d.setReg a r')

/-- `_region_leaf` and `region_op` called by `visit_stack` (common/domain.py:11-38, 146-165,
region.py:510-556, parse_regions.py:56-79; the second operand is evaluated first).  `copy`: the
text of the selector begins with `copy` (common/domain.py:32-35). -/
def Dom.evalSel (m : CMesh) (fuel : Nat) (copy : Bool) : Sel → Dom → Except DomErr (Nat × Dom)
  | .leaf r, d => .ok (d.alloc "leaf" r)
  | .ref n, d =>
    match d.find n with
    | none => .error .noRegion
    | some a =>
      if copy then
        match d.heap[a]? with
        | none => .error .noRegion
        | some o =>
          match o.reg.access m fuel (kindTdim o.reg.tdim o.reg.kind) with
          | .error e => .error (.region e)
          | .ok r' =>
            .ok ((d.setReg a r').alloc "copy"
              ((Reg.new o.reg.tdim o.reg.kind).setEnt (kindTdim o.reg.tdim o.reg.kind)
                ((r'.ent (kindTdim o.reg.tdim o.reg.kind)).getD [])))
      else .ok (a, d)
  | .op x o s1 s2, d =>
    match Dom.evalSel m fuel copy s2 d with
    | .error e => .error e
    | .ok (a2, d2) =>
      match Dom.evalSel m fuel copy s1 d2 with
      | .error e => .error e
      | .ok (a1, d1) =>
        match d1.readAt m fuel a1 x with
        | .error e => .error e
        | .ok (l1, d3) =>
          match d3.readAt m fuel a2 x with
          | .error e => .error e
          | .ok (l2, d4) =>
            match d4.heap[a1]? with
            | none => .error .noRegion
            | some o1 =>
              match x.dim o1.reg.tdim with
              | none => .error (.region .attribute)
              | some dd =>
                if can o1.reg.tdim o1.reg.kind dd then
                  .ok (d4.alloc "op" ((Reg.new o1.reg.tdim o1.reg.kind).setEnt dd (o.fn l1 l2)))
                else .error (.region .cannotHave)

/-- `create_region(name, select, kind, allow_empty=...)` (common/domain.py:245-301): evaluate, rename, set
the kind, finalize, append to the list of regions. -/
def Dom.create (m : CMesh) (fuel : Nat) (d : Dom) (name : String) (copy : Bool) (s : Sel)
    (k : Kind) (allowEmpty : Bool) : Except DomErr (Nat × Dom) :=
  match Dom.evalSel m fuel copy s d with
  | .error e => .error e
  | .ok (a, d1) =>
    match d1.heap[a]? with
    | none => .error .noRegion
    | some o =>
      match o.reg.create m fuel k allowEmpty with
      | .error e => .error (.region e)
      | .ok r => .ok (a, { heap := d1.heap.modify a fun _ => { name := name, reg := r }
                           regions := d1.regions ++ [a] })

end Verif.Region
