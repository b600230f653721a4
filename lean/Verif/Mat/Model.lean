/-
Model of the material parameters (`sfepy/discrete/materials.py`), of the functions giving constant
values (`sfepy/discrete/functions.py:93-176`) and of the shapes of data in quadrature points
(`sfepy/discrete/common/mappings.py:46-75`).

A material keeps a dictionary `datas` with the values in the quadrature points of the terms that use
it.  Methods that change the material return the new material together with the exception raised, if
any: a Python object keeps the changes done before the exception.
-/
import Mathlib.Data.List.Basic

namespace Verif.Mat

/-- Exceptions. -/
inductive MErr where
  | value
  | key
  | attribute
  | assertion
  /-- any exception raised in a function given by the user -/
  | user
deriving DecidableEq, Repr

/-- A term, as far as materials see it (terms.py:1069-1088): the region name and the integral order
(together `get_qp_key()`), the names of the materials it uses (`names.material`, materials.py:186)
and the physical quadrature points `get_physical_qps()`: `shape[0]`, `shape[1]` and the cells in the
order of the rows (`term.region.get_cells()`); the coordinates are `coors`.  A term with point
integration has zero `nEl`, `nQp` and no coordinates. -/
structure Term (P : Type) where
  region : String
  order : Nat
  mats : List String
  nEl : Nat
  nQp : Nat
  cells : List Nat
  coors : List P

/-- Keys of `datas`. -/
inductive Key where
  /-- `(region_name, integral_order)` -/
  | qp (region : String) (order : Nat)
  | special
  | specialConstant
  /-- any other key that a user can give, including `None` -/
  | other (name : String)
deriving DecidableEq, Repr

/-- `get_qp_key()` (terms.py:1069-1073). -/
def Term.key {P : Type} (t : Term P) : Key := .qp t.region t.order

/-- A NumPy array returned by a material function: the number of dimensions and, when it is three,
the items `val[i]` (matrices of `cell` numbers). -/
structure Arr (A : Type) where
  ndim : Nat
  cell : Nat
  rows : List A

/-- Stored values: an array of shape `(n_el, n_qp, ...)` as a list of lists, or any object. -/
inductive Val (A V : Type) where
  | grid (g : List (List A))
  | obj (v : V)

/-- An item of `datas`: a dictionary, or a `Struct` with attributes. -/
structure Entry (A V : Type) where
  isStruct : Bool
  items : List (String × Val A V)

/-- What the function of a material returns in the modes 'qp', 'special' and 'special_constant', in
the world `w` (time, problem, equations), with the extra arguments `x`.  `none` is `None`.
(The calls in materials.py:248-250, 270-272, 292-293.) -/
structure Fn (W X P A V : Type) where
  qp : W → X → Term P → Except MErr (Option (List (String × Arr A)))
  special : W → X → Except MErr (Option (List (String × V)))
  const : W → Except MErr (Option (List (String × V)))

/-- `kind` (materials.py:78, 326): anything but 'stationary' acts as 'time-dependent'. -/
inductive Kind where
  | stationary
  | timeDependent
deriving DecidableEq, Repr

/-- The argument `mode` of `time_update` (materials.py:297). -/
inductive UMode where
  | normal
  | update
  | force
deriving DecidableEq, Repr

/-- `Material` (materials.py:56): `user` says that `self.mode == 'user'`; `constFlag` is
`flags.get('special_constant')`. -/
structure Material (W X P A V : Type) where
  name : String
  kind : Kind
  isConstant : Bool
  constFlag : Bool
  fn : Fn W X P A V
  user : Bool
  datas : List (Key × Entry A V)
  specialNames : List String
  constantNames : List String
  extra : X

section Dict

variable {K B : Type} [DecidableEq K]

/-- `d.get(k)`. -/
def dget (d : List (K × B)) (k : K) : Option B := (d.find? (fun p => p.1 = k)).map (·.2)

/-- `k in d`. -/
def dhas (d : List (K × B)) (k : K) : Bool := d.any (fun p => p.1 = k)

/-- `d[k] = v`: an existing key keeps its place. -/
def dset (d : List (K × B)) (k : K) (v : B) : List (K × B) :=
  if dhas d k then d.map (fun p => if p.1 = k then (k, v) else p) else d ++ [(k, v)]

/-- `d.setdefault(k, v)`. -/
def dsetdefault (d : List (K × B)) (k : K) (v : B) : List (K × B) :=
  if dhas d k then d else d ++ [(k, v)]

end Dict

variable {W X P A V : Type}

/-- Rows `i * n, ..., i * n + n - 1` for `i < m`: `val.reshape((m, n, ...))`. -/
def chunks (rows : List A) (n m : Nat) : List (List A) :=
  (List.range m).map fun i => (rows.drop (i * n)).take n

/-- `set_data()` for one parameter, with `PhysicalQPs.get_shape()` inlined (materials.py:214-223,
mappings.py:55-75).  When the number of quadrature points is zero, `val.reshape((n, 0, 0, 0))` works
only for an array with no numbers. -/
def shapeOne (nQp : Nat) (v : Arr A) : Except MErr (List (List A)) :=
  if v.ndim ≠ 3 then .error .value
  else if 0 < nQp then
    if v.rows.length = 1 then
      -- qps_shape[0] == 0: nm.tile(val, (1, n_qp, 1, 1))
      .ok [(List.replicate nQp v.rows).flatten]
    else if v.rows.length / nQp * nQp ≠ v.rows.length then .error .value
    else .ok (chunks v.rows nQp (v.rows.length / nQp))
  else if v.rows.length * v.cell ≠ 0 then .error .value
  else .ok (List.replicate v.rows.length [])

/-- The loop of `set_data()` (materials.py:212-223). -/
def shapeAll (nQp : Nat) : List (String × Arr A) → Except MErr (List (String × Val A V))
  | [] => .ok []
  | (k, v) :: rest =>
    match shapeOne nQp v with
    | .error e => .error e
    | .ok g =>
      match shapeAll nQp rest with
      | .error e => .error e
      | .ok l => .ok ((k, .grid g) :: l)

/-- The value of the parameters at a term: the call of the function and the shaping
(materials.py:246-252, 212-223). -/
def evalQp (f : Fn W X P A V) (w : W) (x : X) (t : Term P) : Except MErr (Entry A V) :=
  match f.qp w x t with
  | .error e => .error e
  | .ok none => .ok ⟨false, []⟩
  | .ok (some data) =>
    match shapeAll t.nQp data with
    | .error e => .error e
    | .ok l => .ok ⟨false, l⟩

/-- `update_data()` (materials.py:227-252): the record is first created empty. -/
def updateData (m : Material W X P A V) (w : W) (t : Term P) :
    Material W X P A V × Option MErr :=
  let m1 := { m with datas := dsetdefault m.datas t.key ⟨false, []⟩ }
  match evalQp m1.fn w m1.extra t with
  | .error e => (m1, some e)
  | .ok en => ({ m1 with datas := dset m1.datas t.key en }, none)

/-- The loop over `iter_terms(equations)` in `time_update()` (materials.py:178-194, 332-333): `ts` are
the terms of all equations, in order.  The generator skips a term whose key is already present when
the loop arrives there. -/
def updateTerms (w : W) : List (Term P) → Material W X P A V → Material W X P A V × Option MErr
  | [], m => (m, none)
  | t :: ts, m =>
    if m.name ∉ t.mats then updateTerms w ts m
    else if dhas m.datas t.key then updateTerms w ts m
    else
      match updateData { m with datas := dsetdefault m.datas t.key ⟨false, []⟩ } w t with
      | (m1, some e) => (m1, some e)
      | (m1, none) => updateTerms w ts m1

/-- Set union for `set.update(list(keys))`. -/
def addNames (s : List String) (l : List String) : List String :=
  l.foldl (fun acc n => if n ∈ acc then acc else acc ++ [n]) s

/-- `update_special_data()` (materials.py:254-275). -/
def updateSpecial (m : Material W X P A V) (w : W) : Material W X P A V × Option MErr :=
  if dhas m.datas .special then (m, none)
  else
    match m.fn.special w m.extra with
    | .error e => (m, some e)
    | .ok none => (m, none)
    | .ok (some l) =>
      ({ m with
          datas := dset m.datas .special ⟨false, l.map fun p => (p.1, .obj p.2)⟩
          specialNames := addNames m.specialNames (l.map (·.1)) }, none)

/-- `update_special_constant_data()` (materials.py:277-295): a function returning `None` leads to
`None.keys()`, after the item was set to `None` (shown here as an empty record). -/
def updateConst (m : Material W X P A V) (w : W) : Material W X P A V × Option MErr :=
  if dhas m.datas .specialConstant then (m, none)
  else if !m.constFlag then (m, none)
  else
    match m.fn.const w with
    | .error e => (m, some e)
    | .ok none => ({ m with datas := dset m.datas .specialConstant ⟨false, []⟩ }, some .attribute)
    | .ok (some l) =>
      ({ m with
          datas := dset m.datas .specialConstant ⟨false, l.map fun p => (p.1, .obj p.2)⟩
          constantNames := addNames m.constantNames (l.map (·.1)) }, none)

/-- The three updates at the end of `time_update()` (materials.py:332-336). -/
def updateAll (m : Material W X P A V) (w : W) (ts : List (Term P)) :
    Material W X P A V × Option MErr :=
  match updateTerms w ts m with
  | (m1, some e) => (m1, some e)
  | (m1, none) =>
    match updateSpecial m1 w with
    | (m2, some e) => (m2, some e)
    | (m2, none) => updateConst m2 w

/-- `time_update()` (materials.py:297-336). -/
def timeUpdate (m : Material W X P A V) (w : W) (ts : List (Term P)) (mode : UMode) :
    Material W X P A V × Option MErr :=
  if mode = .force then updateAll { m with datas := [] } w ts
  else if !m.datas.isEmpty then
    if mode = .normal then
      if m.user || m.kind = .stationary then (m, none)
      else if !m.isConstant then updateAll { m with datas := [] } w ts
      else updateAll m w ts
    else updateAll m w ts
  else updateAll m w ts

/-- `reset()` (materials.py:370-379); `x0` is the empty dictionary of extra arguments. -/
def reset (x0 : X) (m : Material W X P A V) : Material W X P A V :=
  { m with user := false, datas := [], specialNames := [], constantNames := [], extra := x0 }

/-- `set_all_data()` (materials.py:359-364). -/
def setAllData (datas : List (Key × Entry A V)) (m : Material W X P A V) : Material W X P A V :=
  { m with user := true, datas := datas }

/-- `set_function()` (materials.py:366-368). -/
def setFunction (x0 : X) (f : Fn W X P A V) (m : Material W X P A V) : Material W X P A V :=
  reset x0 { m with fn := f }

/-- `set_extra_args()` (materials.py:381-383). -/
def setExtra (x : X) (m : Material W X P A V) : Material W X P A V := { m with extra := x }

/-- `_get_data()` (materials.py:397-417); the result `none` is `None`. -/
def getData1 (m : Material W X P A V) (key : Key) (name : Option String) :
    Except MErr (Option (Val A V)) :=
  match name with
  | none => .error .value
  | some n =>
    if m.datas.isEmpty then .error .value
    else if n ∈ m.specialNames then
      match dget m.datas .special with
      | none => .error .key
      | some en =>
        match dget en.items n with
        | none => .error .key
        | some v => .ok (some v)
    else
      match dget m.datas key with
      | none => .error .key
      | some en =>
        if en.isStruct then
          match dget en.items n with
          | none => .error .attribute
          | some v => .ok (some v)
        else if en.items.isEmpty then .ok none
        else
          match dget en.items n with
          | none => .error .key
          | some v => .ok (some v)

/-- The loop of `get_data()` with a dictionary (materials.py:392-395): the loop variable is named
`key`, it hides the argument `key`. -/
def getDataLoop (m : Material W X P A V) :
    List (String × Option String) → Except MErr (List (String × Option (Val A V)))
  | [] => .ok []
  | (key, item) :: rest =>
    match getData1 m (.other key) item with
    | .error e => .error e
    | .ok v =>
      match getDataLoop m rest with
      | .error e => .error e
      | .ok l => .ok ((key, v) :: l)

/-- `get_data()` with a dictionary as `name` (materials.py:385-395). -/
def getDataDict (m : Material W X P A V) (_key : Key) (name : List (String × Option String)) :
    Except MErr (List (String × Option (Val A V))) :=
  getDataLoop m name

/-- `get_constant_data()` (materials.py:419-426). -/
def getConst (m : Material W X P A V) (n : String) : Except MErr (Val A V) :=
  if n ∈ m.constantNames then
    match dget m.datas .specialConstant with
    | none => .error .key
    | some en =>
      match dget en.items n with
      | none => .error .key
      | some v => .ok v
  else .error .value

/-- `get_keys()` (materials.py:338-357). -/
def getKeys (m : Material W X P A V) (region : Option String) : Option (List Key) :=
  if m.datas.isEmpty then none
  else
    match region with
    | none => some (m.datas.map (·.1))
    | some r =>
      some ((m.datas.map (·.1)).filter fun k =>
        match k with
        | .qp r' _ => r' = r
        | _ => false)

/-! ### Constant functions -/

/-- A constant value: the array `nm.array(val, ndmin=3)` of shape `(1, ., .)` (functions.py:115-116) is
one matrix; any object in the other modes. -/
structure CVal (A V : Type) where
  arr : A
  cell : Nat
  obj : V

/-- Is a key of `values` special (functions.py:106, 112, 123)? -/
def isSpecialName (k : String) : Bool := k.toList.any (· = '.')

/-- `key.split('.')[1]` (functions.py:107). -/
def specialName (k : String) : String :=
  String.ofList (((k.toList.dropWhile (· ≠ '.')).drop 1).takeWhile (· ≠ '.'))

/-- `ConstantFunction(values, no_tile=True)` (functions.py:93-129). -/
def constantFunction (values : List (String × CVal A V)) : Fn W X P A V where
  qp _ _ _ :=
    .ok (some ((values.filter fun p => !isSpecialName p.1).map fun p =>
      (p.1, ⟨3, p.2.cell, [p.2.arr]⟩)))
  special _ _ :=
    .ok (some (((values.filter fun p => isSpecialName p.1).map fun p =>
      (specialName p.1, p.2.obj))))
  const _ :=
    .ok (some ((values.filter fun p => !isSpecialName p.1).map fun p => (p.1, p.2.obj)))

/-- A value given by regions: the regions in the order of the dictionary with the cells that
`get_cells(true_cells_only=False)` returns and the constant matrix. -/
structure RVal (A : Type) where
  cell : Nat
  zero : A
  byRegion : List (List Nat × A)

/-- The loop over the regions (functions.py:161-168): `matdata[ii] = rval` for the cells of the term
that are in the region. -/
def regionLoop (tcells : List Nat) (nQp : Nat) :
    List (List Nat × A) → List (List A) → List (List A)
  | [], md => md
  | (cells, rval) :: rest, md =>
    regionLoop tcells nQp rest
      ((md.zip tcells).map fun p => if p.2 ∈ cells then List.replicate nQp rval else p.1)

/-- `ConstantFunctionByRegion(values)` (functions.py:131-176); it asserts that the number of
coordinates is the number of quadrature points.  Modelled: all regions have matrices of the same
shape, the cells of the term are those of its quadrature points. -/
def regionFunction (values : List (String × RVal A)) : Fn W X P A V where
  qp _ _ t :=
    if t.nEl * t.nQp ≠ t.coors.length then .error .assertion
    else
      .ok (some ((values.filter fun p => !isSpecialName p.1).map fun p =>
        (p.1, ⟨3, p.2.cell, (regionLoop t.cells t.nQp p.2.byRegion
          (List.replicate t.nEl (List.replicate t.nQp p.2.zero))).flatten⟩)))
  special _ _ := .ok (some [])
  const _ := .ok (some [])

/-- `Material.__init__()` with a function (materials.py:148-153). -/
def ofFunction (name : String) (kind : Kind) (flag : Bool) (x0 : X) (f : Fn W X P A V) :
    Material W X P A V :=
  ⟨name, kind, false, flag, f, false, [], [], [], x0⟩

/-- `Material.__init__()` with constant values (materials.py:155-168, 176). -/
def ofValues (name : String) (kind : Kind) (flag : Bool) (x0 : X)
    (values : List (String × CVal A V)) : Material W X P A V :=
  ⟨name, kind, true, flag, constantFunction values, false, [], [], [], x0⟩

/-- `Material.__init__()` with constant values given by regions (materials.py:162-164). -/
def ofRegions (name : String) (kind : Kind) (flag : Bool) (x0 : X)
    (values : List (String × RVal A)) : Material W X P A V :=
  ⟨name, kind, true, flag, regionFunction values, false, [], [], [], x0⟩

end Verif.Mat
