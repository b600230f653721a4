/-
Model of `Region` (`sfepy/discrete/common/region.py`): kinds, entity properties with their
lazy completion, set-like operators, finalization; and the two mesh queries they use
(`CMesh.get_complete`, `CMesh.get_incident`).

Simplified: uint32 is `Nat`; only the attributes that influence entities are kept.
-/
namespace Verif.Region

/-- Connectivity of a mesh: `tdim` the topological dimension, `num d` the number of entities
of dimension `d`, `inc d1 d2 i` the entities of dimension `d2` incident to the entity `i` of
dimension `d1` (mesh.h `MeshConnectivity`; available after `setup_connectivity(d1, d2)`). -/
structure CMesh where
  tdim : Nat
  num : Nat → Nat
  inc : Nat → Nat → Nat → List Nat

/-- `get_incident(dim, entities, dent)` (cmesh.pyx:510-555, mesh.c:765-792): concatenation of the
lists of entities of dimension `dim` incident to the given ones. -/
def CMesh.getIncident (m : CMesh) (dim : Nat) (ents : List Nat) (dent : Nat) : List Nat :=
  ents.flatMap fun e => m.inc dent dim e

/-- Number of incident entities set in the mask (mesh.c:868-871, `inum`). -/
def countMarked (mask : List Nat) : List Nat → Nat
  | [] => 0
  | e :: r => (if e ∈ mask then 1 else 0) + countMarked mask r

/-- `get_complete(dim, entities, dent)` (cmesh.pyx:593-627, mesh.c:842-884): the entities of
dimension `dim` all of whose incident entities of dimension `dent` are given; an empty input
gives an empty output. -/
def CMesh.getComplete (m : CMesh) (dim : Nat) (ents : List Nat) (dent : Nat) : List Nat :=
  if ents.isEmpty then []
  else (List.range (m.num dim)).filter fun i =>
    countMarked ents (m.inc dim dent i) == (m.inc dim dent i).length

/-- Insert into a sorted list, dropping duplicates. -/
def insertU (x : Nat) : List Nat → List Nat
  | [] => [x]
  | y :: r => if x < y then x :: y :: r else if x = y then y :: r else y :: insertU x r

/-- `numpy.unique`: sorted, without duplicates. -/
def unique (l : List Nat) : List Nat := l.foldr insertU []

/-- `__op_to_fun` (region.py:126-130): `+` is `union1d`, `-` is `setdiff1d`, `*` is
`intersect1d`; numpy: all of them return sorted unique values. -/
inductive SetOp where
  | add | sub | mul
deriving DecidableEq, Repr

def SetOp.fn : SetOp → List Nat → List Nat → List Nat
  | .add, a, b => unique (a ++ b)
  | .sub, a, b => (unique a).filter fun x => !(b.contains x)
  | .mul, a, b => (unique a).filter fun x => b.contains x

/-- Region kinds (region.py:100-124). -/
inductive Kind where
  | cell | facet | face | edge | vertex
  | cellOnly | facetOnly | faceOnly | edgeOnly | vertexOnly
deriving DecidableEq, Repr

/-- `__facet_kinds` and `true_kind` (region.py:120-124, 251-265). -/
def trueKind (tdim : Nat) : Kind → Kind
  | .facet => if tdim = 1 then .vertex else if tdim = 2 then .edge else .face
  | .facetOnly => if tdim = 1 then .vertexOnly else if tdim = 2 then .edgeOnly else .faceOnly
  | k => k

/-- `__can` (region.py:109-118), columns: vertices, edges, faces, cells. -/
def canRow : Kind → Nat → Bool
  | .cell, c => c ≤ 3
  | .face, c => c ≤ 2
  | .edge, c => c ≤ 1
  | .vertex, c => c = 0
  | .cellOnly, c => c = 3
  | .faceOnly, c => c = 2
  | .edgeOnly, c => c = 1
  | .vertexOnly, c => c = 0
  | _, _ => false

/-- `self.can[d]` (region.py:251-288). -/
def can (tdim : Nat) (k : Kind) (d : Nat) : Bool :=
  if d = tdim then canRow (trueKind tdim k) 3
  else if d < tdim then canRow (trueKind tdim k) d
  else false

/-- `set_kind_tdim` (region.py:290-301). -/
def kindTdim (tdim : Nat) (k : Kind) : Nat :=
  match trueKind tdim k with
  | .vertex | .vertexOnly => 0
  | .edge | .edgeOnly => 1
  | .face | .faceOnly => 2
  | _ => tdim

/-- The attributes of a region: `ent d` is `entities[d]` (`none` = `None`). -/
structure Reg where
  tdim : Nat
  kind : Kind
  ent : Nat → Option (List Nat)
  isEmpty : Bool

/-- What may be raised. -/
inductive Err where
  | noEntities   -- ValueError: region has no entities
  | cannotHave   -- ValueError: region cannot have ...
  | attribute    -- AttributeError: 1D region has no edges, ...
  | recursion    -- RecursionError
deriving DecidableEq, Repr

/-- `region.entities[d] = vals`. -/
def Reg.setEnt (r : Reg) (d : Nat) (v : List Nat) : Reg :=
  { r with ent := fun x => if x = d then some v else r.ent x }

/-- The normalization of the kind name (region.py:251-256): the name of the facet kind is
replaced by `facet`. -/
def normKind (tdim : Nat) (k : Kind) : Kind :=
  if trueKind tdim .facet = k then .facet else k

/-- `set_kind` (region.py:251-288): returns at once for the same kind; entities the new kind cannot
have become empty. -/
def Reg.setKind (r : Reg) (k : Kind) : Reg :=
  if k = r.kind then r
  else
    { r with kind := normKind r.tdim k
             ent := fun d => if d ≤ r.tdim ∧ can r.tdim (normKind r.tdim k) d = false then some []
                             else r.ent d }

/-- `Region.__init__` (region.py:214-249): all entities `None`, then `set_kind` (with
`self.kind` equal to `None`, hence never returning at once). -/
def Reg.new (tdim : Nat) (k : Kind) : Reg :=
  { tdim := tdim, kind := normKind tdim k, isEmpty := false
    ent := fun d => if d ≤ tdim ∧ can tdim (normKind tdim k) d = false then some [] else none }

/-- The dimension `idim` found by the loop in `setup_from_highest` (region.py:430-436): the
highest one having non-empty entities; the range is `tdim, ..., 0`. -/
def Reg.highest (r : Reg) : Nat → Option Nat
  | 0 => match r.ent 0 with
    | some (_ :: _) => some 0
    | _ => none
  | d + 1 => match r.ent (d + 1) with
    | some (_ :: _) => some (d + 1)
    | _ => r.highest d

/-- The final branch of `setup_from_highest` (region.py:459-470): the entities below the kind
dimension become empty. -/
def Reg.clearBelow (r : Reg) (kd : Nat) : Reg :=
  { r with ent := fun d => if d < kd then some [] else r.ent d, isEmpty := true }

/-- `setup_from_highest` (region.py:425-470). -/
def Reg.setupFromHighest (m : CMesh) (r : Reg) (dim : Nat) (allowLower allowEmpty : Bool) :
    Except Err Reg :=
  if can r.tdim r.kind dim = false then .ok r
  else
    match r.highest r.tdim with
    | none =>
      if !(allowEmpty || r.isEmpty) then .error .noEntities
      else
        .ok { r with ent := fun d => if d = dim ∧ r.ent d = none then some [] else r.ent d
                     isEmpty := true }
    | some idim =>
      if idim ≤ dim then
        if !(allowLower || allowEmpty) then .error .noEntities
        else if allowLower then
          .ok (r.setEnt dim (m.getComplete dim ((r.ent idim).getD []) idim))
        else .ok (r.clearBelow (kindTdim r.tdim r.kind))
      else .ok (r.setEnt dim (unique (m.getIncident dim ((r.ent idim).getD []) idim)))

/-- The properties `vertices`, `edges`, `faces`, `cells` with `_access` and
`setup_from_vertices` (region.py:303-423, 472-482): make `entities[d]` available.  `d = tdim`
are the cells; `_access(d)` for `d ≤ tdim` is the same as reading the property of dimension
`d`.  `fuel` is the depth Python allows for the recursion. -/
def Reg.access (m : CMesh) : Nat → Nat → Reg → Except Err Reg
  | 0, _, _ => .error .recursion
  | fuel + 1, d, r =>
    match r.ent d with
    | some _ => .ok r
    | none =>
      if d = r.tdim ∨ (0 < d ∧ kindTdim r.tdim r.kind = d) then
        -- setup_from_vertices(d)
        if can r.tdim r.kind d = false then .ok r
        else
          match Reg.access m fuel 0 r with
          | .error e => .error e
          | .ok r' => .ok (r'.setEnt d (m.getComplete d ((r'.ent 0).getD []) 0))
      else
        -- _access(d + 1); setup_from_highest(d)
        match Reg.access m fuel (d + 1) r with
        | .error e => .error e
        | .ok r' => r'.setupFromHighest m d true false

/-- The entity letters of the operators: `v`, `e`, `f`, `s`, `c`. -/
inductive Letter where
  | v | e | f | s | c
deriving DecidableEq, Repr

/-- The dimension a letter refers to (region.py:303-423); `none`: AttributeError of the
property (`edges` in 1D, `faces` in 1D, 2D). -/
def Letter.dim (tdim : Nat) : Letter → Option Nat
  | .v => some 0
  | .e => if tdim ≤ 1 then none else some 1
  | .f => if tdim ≤ 2 then none else some 2
  | .s => some (tdim - 1)
  | .c => some tdim

/-- Reading a property: the entities and the region afterwards. -/
def Reg.read (m : CMesh) (fuel : Nat) (r : Reg) (x : Letter) : Except Err (List Nat × Reg) :=
  match x.dim r.tdim with
  | none => .error .attribute
  | some d =>
    match Reg.access m fuel d r with
    | .error e => .error e
    | .ok r' => .ok ((r'.ent d).getD [], r')

/-- `_eval_op_<entities>` (region.py:510-543): a new region of the kind of the first operand
(`light_copy`) with the given entities set by the property setter. -/
def Reg.evalOp (m : CMesh) (fuel : Nat) (x : Letter) (op : SetOp) (r1 r2 : Reg) :
    Except Err Reg :=
  match r1.read m fuel x with
  | .error e => .error e
  | .ok (a, _) =>
    match r2.read m fuel x with
    | .error e => .error e
    | .ok (b, _) =>
      match x.dim r1.tdim with
      | none => .error .attribute
      | some d =>
        if can r1.tdim r1.kind d then .ok ((Reg.new r1.tdim r1.kind).setEnt d (op.fn a b))
        else .error .cannotHave

/-- Loop of `finalize` (region.py:497-502) over `idim = n - 1, ..., 0`. -/
def Reg.finalizeLoop (m : CMesh) (allowEmpty : Bool) : Nat → Reg → Except Err Reg
  | 0, r => .ok r
  | n + 1, r =>
    if can r.tdim r.kind n ∧ (r.ent n).isSome then
      match r.setupFromHighest m n false allowEmpty with
      | .error e => .error e
      | .ok r' => r'.finalizeLoop m allowEmpty n
    else r.finalizeLoop m allowEmpty n

/-- `finalize` (region.py:484-508). -/
def Reg.finalize (m : CMesh) (fuel : Nat) (r : Reg) (allowEmpty : Bool) : Except Err Reg :=
  match r.access m fuel (kindTdim r.tdim r.kind) with
  | .error e => .error e
  | .ok r' =>
    let empty := ((r'.ent (kindTdim r.tdim r.kind)).getD []).isEmpty
    if allowEmpty then
      ({ r' with isEmpty := empty }).finalizeLoop m true (kindTdim r.tdim r.kind)
    else if empty then .error .noEntities
    else r'.finalizeLoop m false (kindTdim r.tdim r.kind)

/-- The part of `Domain.create_region` (common/domain.py:289-299) after the evaluation of the selector:
`set_kind(kind)` and `finalize(allow_empty)`. -/
def Reg.create (m : CMesh) (fuel : Nat) (r : Reg) (k : Kind) (allowEmpty : Bool) :
    Except Err Reg :=
  (r.setKind k).finalize m fuel allowEmpty

/-- `copy` (region.py:549-556). -/
def Reg.copy (m : CMesh) (fuel : Nat) (r : Reg) : Except Err Reg :=
  match r.access m fuel (kindTdim r.tdim r.kind) with
  | .error e => .error e
  | .ok r' =>
    .ok ((Reg.new r.tdim r.kind).setEnt (kindTdim r.tdim r.kind)
      ((r'.ent (kindTdim r.tdim r.kind)).getD []))

end Verif.Region
