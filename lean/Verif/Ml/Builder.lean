import Verif.Ml.Einsum
import Mathlib.Data.List.Sort

/-!
# The expression builder of terms/terms_multilinear.py
-/

namespace Ml

/-- The kind of an argument (sfepy/terms/terms_multilinear.py:191-205). -/
inductive Kind
  | virtual | state | ndarray
  deriving DecidableEq, Repr

/-- The modifiers `s(...)` (symmetric gradient, vector storage) and `v(...)` (nonsymmetric gradient, vector storage) of
an argument (sfepy/terms/terms_multilinear.py:64-70). -/
inductive Mod
  | s | v
  deriving DecidableEq, Repr

/-- An argument of a term with its part of the term expression: `ein` is the pattern after `collect_modifiers()` has
replaced the first letter by the letter after the arrow (sfepy/terms/terms_multilinear.py:47-62, 182-210). The parser
of the expression is not modelled. -/
structure Arg where
  name : ℕ
  kind : Kind
  nc : ℕ
  ein : List Char
  mod : Option Mod
  deriving DecidableEq, Repr

/-- Operand names (sfepy/terms/terms_multilinear.py:112-157): the argument name and the value name. `bf` carries
`cell_dependent`, in the source given by the length of the subscripts. -/
inductive Opn
  | det (a : ℕ)
  | ivol (a : ℕ)
  | bf (a : ℕ) (cellDep : Bool)
  | bfg (a : ℕ)
  | eye (a : ℕ)
  | psg (a : ℕ)
  | pvg (a : ℕ)
  | dofs (a : ℕ)
  | mat (a : ℕ)
  deriving DecidableEq, Repr

/-- `ExpressionBuilder.letters` (sfepy/terms/terms_multilinear.py:269). -/
def nodeLetters : List Char := ['d', 'e', 'f', 'g', 'h']

/-- `ExpressionBuilder._aux_letters` (sfepy/terms/terms_multilinear.py:270). -/
def auxLetters : List Char := ['r', 's', 't', 'u', 'v', 'w', 'x', 'y', 'z']

/-- The state of the builder (sfepy/terms/terms_multilinear.py:272-280). The lists over the `n_add` expressions are
functions of the expression number. -/
structure B where
  subs : ℕ → List (List Char)
  names : ℕ → List Opn
  comps : ℕ → List (List (Option ℕ))
  out : ℕ → List Char
  ia : ℕ
  aux : List Char

/-- `ExpressionBuilder.__init__()` (sfepy/terms/terms_multilinear.py:272-280). -/
def B.init : B where
  subs := fun _ => []
  names := fun _ => []
  comps := fun _ => []
  out := fun _ => ['c']
  ia := 0
  aux := auxLetters

/-- `append_all()` (sfepy/terms/terms_multilinear.py:79-85). -/
def appendAll {α : Type*} (seqs : ℕ → List α) (item : α) (ii : Option ℕ) : ℕ → List α :=
  match ii with
  | none => fun k => seqs k ++ [item]
  | some i => fun k => if k = i then seqs k ++ [item] else seqs k

/-- The common part of the `add_*()` functions (sfepy/terms/terms_multilinear.py:328-380): the components are appended
to all expressions, whatever `ii` is. -/
def B.add (b : B) (name : Opn) (sub : List Char) (ii : Option ℕ) : B :=
  { b with
    subs := appendAll b.subs sub ii
    names := appendAll b.names name ii
    comps := appendAll b.comps [] none }

/-- `('.' in ein) or (':' in ein)` (sfepy/terms/terms_multilinear.py:384, 416). -/
def isDer (ein : List Char) : Bool := ein.contains '.' || ein.contains ':'

/-- `ein[0]`. -/
def e0 (ein : List Char) : Char := ein.getD 0 ' '

/-- `ein[2]`. -/
def e2 (ein : List Char) : Char := ein.getD 2 ' '

/-- The basis operand: `add_bfg()` or `add_bf()` (sfepy/terms/terms_multilinear.py:338-351, 384-389, 416-421). -/
def B.addBasis (b : B) (fe : Bool) (iin : Char) (a : Arg) : B :=
  if isDer a.ein then b.add (.bfg a.name) ['c', 'q', e2 a.ein, iin] none
  else if fe then b.add (.bf a.name true) ['c', 'q', iin] none
  else b.add (.bf a.name false) ['q', iin] none

/-- `add_eye()` (sfepy/terms/terms_multilinear.py:353-356). -/
def B.addEye (b : B) (iic : Char) (a : Arg) (ii : Option ℕ) : B :=
  b.add (.eye a.name) [e0 a.ein, iic] ii

/-- `add_psg()` (sfepy/terms/terms_multilinear.py:358-362). -/
def B.addPsg (b : B) (iic : Char) (a : Arg) (ii : Option ℕ) : B :=
  b.add (.psg a.name) [iic, e2 a.ein, e0 a.ein] ii

/-- `add_pvg()` (sfepy/terms/terms_multilinear.py:364-368). -/
def B.addPvg (b : B) (iic : Char) (a : Arg) (ii : Option ℕ) : B :=
  b.add (.pvg a.name) [iic, e2 a.ein, e0 a.ein] ii

/-- `add_arg_dofs()` with `first = ein[0]` (sfepy/terms/terms_multilinear.py:370-380). -/
def B.addDofs (b : B) (iin : Char) (first : Char) (a : Arg) (ii : Option ℕ) : B :=
  if a.nc > 1 then b.add (.dofs a.name) ['c', first, iin] ii
  else b.add (.dofs a.name) ['c', iin] ii

/-- The operand of a modifier, or the identity (sfepy/terms/terms_multilinear.py:396-407, 453-462); `none` is the
error for an unknown modifier. -/
def B.addUnit (b : B) (iic : Char) (a : Arg) (ii : Option ℕ) : Option B :=
  match a.mod with
  | none => some (b.addEye iic a ii)
  | some .s => if a.ein.contains ':' then some (b.addPsg iic a ii) else none
  | some .v => some (b.addPvg iic a ii)

/-- `add_virtual_arg()` (sfepy/terms/terms_multilinear.py:382-412); `fe`: the integration is `facet_extra`. -/
def addVirtual (fe : Bool) (b : B) (pos : ℕ) (a : Arg) : Option B :=
  match nodeLetters[pos]? with
  | none => none
  | some iin =>
    let b := b.addBasis fe iin a
    if a.nc > 1 then
      match b.aux with
      | [] => none
      | iic :: aux =>
        match B.addUnit { b with aux := aux } iic a none with
        | none => none
        | some b => some { b with out := fun k => b.out k ++ [iic, iin] }
    else some { b with out := fun k => b.out k ++ [iin] }

/-- The loop over the expressions for the differentiated variable: the DOFs in the other expressions, the identity or
the operand of the modifier in the expression `self.ia` (sfepy/terms/terms_multilinear.py:448-462). -/
def diffLoop (iin : Char) (iic : Option Char) (a : Arg) : List ℕ → B → Option B
  | [], b => some b
  | k :: ks, b =>
    if k ≠ b.ia then diffLoop iin iic a ks (b.addDofs iin (e0 a.ein) a (some k))
    else
      match iic with
      | none => diffLoop iin iic a ks b
      | some iic' =>
        match b.addUnit iic' a (some k) with
        | none => none
        | some b => diffLoop iin iic a ks b

/-- `add_state_arg()` (sfepy/terms/terms_multilinear.py:414-465). -/
def addState (fe : Bool) (nAdd : ℕ) (diff : Option ℕ) (b : B) (pos : ℕ) (a : Arg) : Option B :=
  match nodeLetters[pos]? with
  | none => none
  | some iin =>
    let b := b.addBasis fe iin a
    if diff ≠ some a.name then
      match a.mod with
      | none => some (b.addDofs iin (e0 a.ein) a none)
      | some _ =>
        match b.aux with
        | [] => none
        | iic :: aux =>
          match B.addUnit { b with aux := aux } iic a none with
          | none => none
          | some b => some (b.addDofs iin iic a none)
    else if a.nc > 1 then
      match b.aux with
      | [] => none
      | iic :: aux =>
        match diffLoop iin (some iic) a (List.range nAdd) { b with aux := aux } with
        | none => none
        | some b => some { b with out := fun k => if k = b.ia then b.out k ++ [iic, iin] else b.out k, ia := b.ia + 1 }
    else
      match diffLoop iin none a (List.range nAdd) b with
      | none => none
      | some b => some { b with out := fun k => if k = b.ia then b.out k ++ [iin] else b.out k, ia := b.ia + 1 }

/-- `str.isnumeric(ie)`; only the ASCII digits. -/
def isNum (c : Char) : Bool := c.isDigit

/-- The components of a material: the fixed indices, `None` for the letters (sfepy/terms/terms_multilinear.py:468-477). -/
def matComps (ein : List Char) : List (Option ℕ) :=
  ein.map fun c => if isNum c then some (c.toNat - 48) else none

/-- The letters of a material (sfepy/terms/terms_multilinear.py:470-479). -/
def matLetters (ein : List Char) : List Char := ein.filter fun c => !isNum c

/-- `add_material_arg()` (sfepy/terms/terms_multilinear.py:467-482). -/
def addMaterial (b : B) (a : Arg) : B :=
  { b with
    subs := appendAll b.subs ('c' :: 'q' :: matLetters a.ein) none
    names := appendAll b.names (.mat a.name) none
    comps := appendAll b.comps (matComps a.ein) none }

/-- The evaluation modes; `weak` stands for all modes other than `qp` and `el_avg`. -/
inductive Mode
  | weak | qp | elAvg
  deriving DecidableEq, Repr

/-- The loop over the arguments (sfepy/terms/terms_multilinear.py:507-519), without the virtual variable at `iv`. -/
def addArgs (fe : Bool) (nAdd : ℕ) (diff : Option ℕ) : List (ℕ × Arg) → B → Option B
  | [], b => some b
  | (pos, a) :: rest, b =>
    match a.kind with
    | .ndarray => addArgs fe nAdd diff rest (addMaterial b a)
    | .state =>
      match addState fe nAdd diff b pos a with
      | none => none
      | some b => addArgs fe nAdd diff rest b
    | .virtual => none

/-- The arguments with their positions. -/
def numbered (args : List Arg) : List (ℕ × Arg) := (List.range args.length).zip args

/-- `find_free_indices()` without the output letters, sorted (sfepy/terms/terms_multilinear.py:99-102, 521-527). -/
def freeLetters (subs : List (List Char)) (out : List Char) : List Char :=
  ((subs.flatten.dedup.filter fun l => decide (subs.flatten.count l = 1)).filter fun l => decide (l ∉ out)).insertionSort
    (fun a b => a.toNat ≤ b.toNat)

/-- The final modification of the output subscripts (sfepy/terms/terms_multilinear.py:521-531). -/
def finishOut (mode : Mode) (subs : List (List Char)) (out : List Char) : List Char :=
  let out' := out ++ freeLetters subs out
  if mode = .qp then out'.flatMap fun l => if l = 'c' then ['c', 'q'] else [l] else out'

/-- `det` and `ivol` for the first variable (sfepy/terms/terms_multilinear.py:489-505). -/
def addScalars (mode : Mode) (withVol : Bool) (a : Arg) (b : B) : B :=
  let b := if mode ≠ .qp then b.add (.det a.name) ['c', 'q'] none else b
  if withVol && mode = .elAvg then b.add (.ivol a.name) ['c'] none else b

/-- The first argument of a kind, with its position. -/
def firstOf (k : Kind) (args : List Arg) : Option (ℕ × Arg) :=
  (numbered args).find? fun x : ℕ × Arg => decide (x.2.kind = k)

/-- The part of `build()` before the output subscripts are finished (sfepy/terms/terms_multilinear.py:484-519). -/
def buildRaw (fe : Bool) (nAdd : ℕ) (diff : Option ℕ) (mode : Mode) (args : List Arg) : Option B :=
  match firstOf .virtual args with
  | some x =>
    match addVirtual fe (addScalars mode false x.2 B.init) x.1 x.2 with
    | none => none
    | some b => addArgs fe nAdd diff ((numbered args).filter fun y => decide (y.1 ≠ x.1)) b
  | none =>
    match firstOf .state args with
    | none => none
    | some x => addArgs fe nAdd diff (numbered args) (addScalars mode true x.2 B.init)

/-- `ExpressionBuilder.build()` (sfepy/terms/terms_multilinear.py:484-531). -/
def build (fe : Bool) (nAdd : ℕ) (diff : Option ℕ) (mode : Mode) (args : List Arg) : Option B :=
  match buildRaw fe nAdd diff mode args with
  | none => none
  | some b => some { b with out := fun k => finishOut mode (b.subs k) (b.out k) }

/-- `n_add` (sfepy/terms/terms_multilinear.py:809-819). -/
def nAddOf (diff : Option ℕ) (args : List Arg) : ℕ :=
  match diff with
  | none => 1
  | some d => (args.filter fun a => decide (a.kind = .state ∧ a.name = d)).length

/-! ## The operands -/

/-- The data of the evaluation: the mappings of the variables (`det`, `volume`, `bf`, `bfg`), the DOFs in the cells
(`get_dofs()`: cell, component, node; sfepy/terms/terms_multilinear.py:212-237), the materials, the dimension, the
numbers of nodes and components. -/
structure Env (K : Type*) where
  dim : ℕ
  nCell : ℕ
  nQp : ℕ
  nn : ℕ → ℕ
  nc : ℕ → ℕ
  det : ℕ → ℕ → ℕ → K
  vol : ℕ → ℕ → K
  bf : ℕ → ℕ → ℕ → ℕ → K
  bfg : ℕ → ℕ → ℕ → ℕ → ℕ → K
  dofs : ℕ → ℕ → ℕ → ℕ → K
  mat : ℕ → ℕ → ℕ → List ℕ → K

/-- `make_psg()` (sfepy/terms/terms_multilinear.py:291-308). -/
def psg {K : Type*} [Zero K] [One K] (dim i j s : ℕ) : K :=
  let tab : List (List ℕ) := if dim = 3 then [[0, 3, 4], [3, 1, 5], [4, 5, 2]]
    else if dim = 2 then [[0, 2], [2, 1]] else []
  if (tab.getD i []).getD j 1000 = s then 1 else 0

/-- `make_pvg()` (sfepy/terms/terms_multilinear.py:310-326). -/
def pvg {K : Type*} [Zero K] [One K] (dim i j s : ℕ) : K :=
  let tab : List (List ℕ) := if dim = 3 then [[0, 1, 2], [3, 4, 5], [6, 7, 8]]
    else if dim = 2 then [[0, 1], [2, 3]] else []
  if (tab.getD i []).getD j 1000 = s then 1 else 0

/-- The material index: the fixed components and the letters (sfepy/terms/terms_multilinear.py:153-157). -/
def fillComps : List (Option ℕ) → List ℕ → List ℕ
  | [], idx => idx
  | some k :: cs, idx => k :: fillComps cs idx
  | none :: cs, idx => idx.headD 0 :: fillComps cs idx.tail

variable {K : Type*} [Field K]

/-- The operand values of `get_einsum_ops()` (sfepy/terms/terms_multilinear.py:108-161). For scalar variables the DOFs
have no component axis. -/
def opVal (env : Env K) : Opn → List (Option ℕ) → List ℕ → K
  | .det a, _, idx => env.det a (idx.getD 0 0) (idx.getD 1 0)
  | .ivol a, _, idx => 1 / env.vol a (idx.getD 0 0)
  | .bf a true, _, idx => env.bf a (idx.getD 0 0) (idx.getD 1 0) (idx.getD 2 0)
  | .bf a false, _, idx => env.bf a 0 (idx.getD 0 0) (idx.getD 1 0)
  | .bfg a, _, idx => env.bfg a (idx.getD 0 0) (idx.getD 1 0) (idx.getD 2 0) (idx.getD 3 0)
  | .eye _, _, idx => if idx.getD 0 0 = idx.getD 1 0 then 1 else 0
  | .psg _, _, idx => psg env.dim (idx.getD 0 0) (idx.getD 1 0) (idx.getD 2 0)
  | .pvg _, _, idx => pvg env.dim (idx.getD 0 0) (idx.getD 1 0) (idx.getD 2 0)
  | .dofs a, _, idx =>
    if idx.length = 3 then env.dofs a (idx.getD 0 0) (idx.getD 1 0) (idx.getD 2 0)
    else env.dofs a (idx.getD 0 0) 0 (idx.getD 1 0)
  | .mat a, cs, idx => env.mat a (idx.getD 0 0) (idx.getD 1 0) (fillComps cs (idx.drop 2))

/-- The shapes of the operands except of the materials (sfepy/terms/terms_multilinear.py:108-161). -/
def opShape (env : Env K) : Opn → Option (List ℕ)
  | .det _ => some [env.nCell, env.nQp]
  | .ivol _ => some [env.nCell]
  | .bf a true => some [env.nCell, env.nQp, env.nn a]
  | .bf a false => some [env.nQp, env.nn a]
  | .bfg a => some [env.nCell, env.nQp, env.dim, env.nn a]
  | .eye a => some [env.nc a, env.nc a]
  | .dofs a => some (if env.nc a > 1 then [env.nCell, env.nc a, env.nn a] else [env.nCell, env.nn a])
  | .psg _ => some [env.dim, env.dim, (env.dim + 1) * env.dim / 2]
  | .pvg _ => some [env.dim, env.dim, env.dim * env.dim]
  | _ => none

/-- The sizes of the axes agree with the shapes of the operands: `numpy.einsum()` fails otherwise
(`get_sizes()`, sfepy/terms/terms_multilinear.py:87-94). -/
def SizesAgree (size : Char → ℕ) (env : Env K) (nAdd : ℕ) (b : B) : Prop :=
  ∀ k < nAdd, ∀ io < (b.names k).length, ∀ sh, opShape env ((b.names k).getD io (.det 0)) = some sh →
    ((b.subs k).getD io []).map size = sh

/-- The operands of the expression `k` (sfepy/terms/terms_multilinear.py:108-161): the components are found by the
position of the operand. -/
def operands (env : Env K) (b : B) (k : ℕ) : List (Operand K) :=
  (List.range (b.names k).length).map fun (io : ℕ) =>
    { sub := (b.subs k).getD io []
      val := opVal env ((b.names k).getD io (.det 0)) ((b.comps k).getD io []) }

/-- The evaluated term (sfepy/terms/terms_multilinear.py:892-899): the sum of the einsums of the expressions. The output
array has the shape of the first expression; the indices are the same for all of them. -/
def evalTerm (size : Char → ℕ) (env : Env K) (nAdd : ℕ) (b : B) (o : List ℕ) : K :=
  ((List.range nAdd).map fun k => einsum size (operands env b k) (b.out k) o).sum

end Ml
