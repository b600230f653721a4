import Verif.Np.Vec
/-
Model of `sfepy/discrete/common/dof_info.py` and of the DOF-vector functions of
`sfepy/discrete/variables.py`.
-/
namespace Verif.Dof
open Verif.Np

/-! ## DofInfo -/

/-- A Python `slice(start, stop)` with non-negative limits. -/
structure Slice where
  start : Nat
  stop : Nat
deriving DecidableEq, Repr

/-- Errors raised by the modelled functions. -/
inductive Err where
  | valueError
  | keyError
deriving DecidableEq, Repr

/-- `DofInfo` (dof_info.py:97-112).  The dictionaries `n_dof`, `indx`, `shared_dofs`
are functions to `Option`; `details` (field-specific, never read here) is omitted. -/
structure DofInfo where
  nVar : Nat
  varNames : List String
  nDof : String → Option Nat
  nDofTotal : Nat
  indx : String → Option Slice
  sharedDofs : String → Option String

/-- dict item assignment -/
def dset {β : Type} (d : String → Option β) (k : String) (v : β) : String → Option β :=
  fun k' => if k' = k then some v else d k'

/-- `DofInfo.__init__` (dof_info.py:103-112). -/
def DofInfo.empty : DofInfo :=
  { nVar := 0, varNames := [], nDof := fun _ => none, nDofTotal := 0,
    indx := fun _ => none, sharedDofs := fun _ => none }

/-- `DofInfo._update_after_append` (dof_info.py:114-125), called with
`n_dof[name]` already set to `nd`.  With an unknown `shared` name the lookup
`self.indx[shared]` raises `KeyError` before anything is changed. -/
def DofInfo.updateAfterAppend (s : DofInfo) (name : String) (nd : Nat)
    (shared : Option String) : DofInfo × Option Err :=
  match shared with
  | none =>
    ({ s with
        nDofTotal := s.nDofTotal + nd
        indx := dset s.indx name ⟨s.nDofTotal, s.nDofTotal + nd⟩
        nVar := s.nVar + 1 }, none)
  | some sh =>
    match s.indx sh with
    | none => (s, some .keyError)
    | some sl =>
      match s.nDof sh with
      | none => ({ s with indx := dset s.indx name sl }, some .keyError)
      | some n' =>
        ({ s with
            indx := dset s.indx name sl
            nDof := dset s.nDof name n'
            sharedDofs := dset s.sharedDofs name sh
            nVar := s.nVar + 1 }, none)

/-- `DofInfo.append_variable` (dof_info.py:127-145); the variable is given by its
name and the DOF count `var.get_dof_info(active)[0]`.  `append_raw`
(dof_info.py:147-164) is the case `shared = none`.  The second component is the
raised exception, the first the (possibly partially updated) object. -/
def DofInfo.append (s : DofInfo) (name : String) (nd : Nat) (shared : Option String) :
    DofInfo × Option Err :=
  if name ∈ s.varNames then (s, some .valueError)
  else
    DofInfo.updateAfterAppend
      { s with varNames := s.varNames ++ [name], nDof := dset s.nDof name nd }
      name nd shared

/-- One append call: name, DOF count, optional `shared` name. -/
structure AppendOp where
  name : String
  nd : Nat
  shared : Option String

/-- A history of append calls (a caller may catch the exceptions and go on). -/
def DofInfo.run (s : DofInfo) : List AppendOp → DofInfo
  | [] => s
  | op :: ops => DofInfo.run (s.append op.name op.nd op.shared).1 ops

/-- `DofInfo.get_subset_info` (dof_info.py:182-199): the loop body; an exception of
`append_raw` propagates. -/
def DofInfo.subsetLoop (s : DofInfo) (di : DofInfo) : List String → Except Err DofInfo
  | [] => .ok di
  | nm :: rest =>
    if nm ∈ s.varNames then
      match s.nDof nm with
      | none => .error .keyError
      | some k =>
        match di.append nm k none with
        | (di', none) => DofInfo.subsetLoop s di' rest
        | (_, some e) => .error e
    else DofInfo.subsetLoop s di rest

/-- `DofInfo.get_subset_info` (dof_info.py:182-199). -/
def DofInfo.subsetInfo (s : DofInfo) (names : List String) : Except Err DofInfo :=
  DofInfo.subsetLoop s DofInfo.empty names

/-! ## Node to DOF expansion -/

/-- The strided assignment `eq[ii::nc] = dpn * nods + idof`
(dof_info.py:46-48): item `k` of the right-hand side goes to `ii + nc * k`. -/
def strideAssign (eq : Nat → Nat) (ii nc : Nat) (vals : List Nat) : Nat → Nat :=
  scatter eq (vals.zipIdx.map fun p => (ii + nc * p.2, p.1))

/-- The loop of `expand_nodes_to_equations` over `enumerate(dof_names)`
(dof_info.py:45-48); `all_dof_names.index(dof)` raises ValueError for an unknown name. -/
def expandLoop (nods : List Nat) (all : List String) (nc : Nat) :
    List (String × Nat) → (Nat → Nat) → Except Err (Nat → Nat)
  | [], eq => .ok eq
  | (dof, ii) :: rest, eq =>
    match all.idxOf? dof with
    | none => .error .valueError
    | some idof =>
      expandLoop nods all nc rest
        (strideAssign eq ii nc (nods.map fun nod => all.length * nod + idof))

/-- `expand_nodes_to_equations` (dof_info.py:30-49).  `garbage` is the content of
the uninitialised `nm.empty` array.  Returns the length and the entries. -/
def expandNodesToEquations (garbage : Nat → Nat) (nods : List Nat)
    (dofNames all : List String) : Except Err (Nat × (Nat → Nat)) :=
  let nc := dofNames.length
  match expandLoop nods all nc dofNames.zipIdx garbage with
  | .ok eq => .ok (nods.length * nc, eq)
  | .error e => .error e

/-! ## Periodic chains -/

/-- The inner `while` of `group_chains` (dof_info.py:68-83).  `pre` are the items
before position `ii` of `chain_list`, the last argument the items from `ii` on.
A chain (a Python `set`) is a duplicate-free list. -/
def absorb (chain : List Nat) (pre : List (Nat × Nat)) :
    List (Nat × Nat) → List Nat × List (Nat × Nat)
  | [] => (chain, pre)
  | c :: rest =>
    if c.1 ∈ chain ∧ c.2 ∈ chain then absorb chain pre rest
    else if c.1 ∈ chain ∨ c.2 ∈ chain then
      absorb ((chain.insert c.1).insert c.2) [] (pre ++ rest)
    else absorb chain (pre ++ [c]) rest
termination_by rest => (pre.length + rest.length, rest.length)
decreasing_by
  · apply Prod.Lex.left; simp
  · apply Prod.Lex.left; simp
  · have h : (pre ++ [c]).length + rest.length = pre.length + (c :: rest).length := by
      simp; omega
    rw [h]; apply Prod.Lex.right; simp

theorem absorb_length (chain : List Nat) (pre rest : List (Nat × Nat)) :
    (absorb chain pre rest).2.length ≤ pre.length + rest.length := by
  fun_induction absorb chain pre rest <;> simp_all <;> omega

/-- `group_chains` (dof_info.py:60-95) before the conversion of each set to a list. -/
def groupSets : List (Nat × Nat) → List (List Nat)
  | [] => []
  | c :: rest =>
    let r := absorb (([] : List Nat).insert c.1 |>.insert c.2) [] rest
    r.1 :: groupSets r.2
termination_by l => l.length
decreasing_by
  simp_wf
  have := absorb_length (([] : List Nat).insert c.1 |>.insert c.2) [] rest
  simp at this
  omega

/-- `group_chains` (dof_info.py:60-95).  `ord` is the iteration order of a CPython
set (`list(chain)`, dof_info.py:87): an unknown function returning some permutation. -/
def groupChains (ord : List Nat → List Nat) (l : List (Nat × Nat)) : List (List Nat) :=
  (groupSets l).map ord

/-- One iteration of `resolve_chains` (dof_info.py:55-58):
`master_slave[chain[:-1]] = slave + 1; master_slave[slave] = -chain[0] - 1`. -/
def resolveChain (ms : Nat → Int) (chain : List Nat) : Nat → Int :=
  match chain.getLast?, chain.head? with
  | some slave, some c0 =>
    upd (scatterConst ms chain.dropLast ((slave : Int) + 1)) slave (-(c0 : Int) - 1)
  | _, _ => ms

/-- `resolve_chains` (dof_info.py:51-58). -/
def resolveChains (ms : Nat → Int) (chains : List (List Nat)) : Nat → Int :=
  chains.foldl resolveChain ms

/-! ## EquationMap.map_equations -/

/-- A boundary condition as seen by the loop of `map_equations`
(dof_info.py:334-476) after the field and user functions were evaluated:
`ebc eqs` - an `EssentialBC` active now, with its DOFs (output of
`expand_nodes_to_equations`) and the values `nm.ravel(vv)`;
`epbc prs` - a `PeriodicBC` with the pairs `zip(meq, seq)`;
`skip` - a condition that is inactive or has an empty region.
DG conditions (they do not touch the mapping arrays) are not modelled. -/
inductive BC (α : Type) where
  | ebc (items : List (Nat × α))
  | epbc (prs : List (Nat × Nat))
  | skip

/-- Local variables of the loop of `map_equations` (dof_info.py:329-332). -/
structure MapState (α : Type) where
  eqEbc : Nat → Bool
  valEbc : Nat → α
  ms : Nat → Int
  chains : List (Nat × Nat)

/-- `nm.zeros(...)` initialisation (dof_info.py:329-332). -/
def MapState.init (α : Type) [Zero α] : MapState α :=
  { eqEbc := fun _ => false, valEbc := fun _ => 0, ms := fun _ => 0, chains := [] }

/-- `(aux - sgn) * sgn` with `sgn = nm.sign(aux)` (dof_info.py:455-457). -/
def partner (aux : Int) : Nat := ((aux - aux.sign) * aux.sign).toNat

/-- The direct assignment of `master_slave` for the pairs `prs`
(dof_info.py:471-472 and 475-476): first all masters, then all slaves. -/
def assignPairs (ms : Nat → Int) (prs : List (Nat × Nat)) : Nat → Int :=
  let ms1 := scatter ms (prs.map fun p => (p.1, (p.2 : Int) + 1))
  scatter ms1 (prs.map fun p => (p.2, -(p.1 : Int) - 1))

/-- The EPBC branch (dof_info.py:451-476). -/
def stepEpbc {α : Type} (s : MapState α) (prs : List (Nat × Nat)) : MapState α :=
  let mAssigned := prs.filter fun p => s.ms p.1 ≠ 0
  let sAssigned := prs.filter fun p => s.ms p.2 ≠ 0
  if mAssigned ≠ [] ∨ sAssigned ≠ [] then
    let omChain := mAssigned.map fun p => (p.1, partner (s.ms p.1))
    let osChain := sAssigned.map fun p => (p.2, partner (s.ms p.2))
    let mChain := mAssigned
    -- `msd = setdiff1d(s_assigned, m_assigned)`
    let sChain := prs.filter fun p => s.ms p.2 ≠ 0 ∧ ¬ s.ms p.1 ≠ 0
    -- `ii = setdiff1d(arange, union1d(m_assigned, s_assigned))`
    let rest := prs.filter fun p => ¬ (s.ms p.1 ≠ 0 ∨ s.ms p.2 ≠ 0)
    { s with
      chains := s.chains ++ omChain ++ osChain ++ mChain ++ sChain
      ms := assignPairs s.ms rest }
  else
    { s with ms := assignPairs s.ms prs }

/-- One iteration of the loop over the conditions (dof_info.py:335-476). -/
def stepBC {α : Type} (s : MapState α) : BC α → MapState α
  | .ebc items =>
    { s with
      eqEbc := scatterConst s.eqEbc (items.map (·.1)) true
      valEbc := scatter s.valEbc items }
  | .epbc prs => stepEpbc s prs
  | .skip => s

/-- The result arrays of an `EquationMap` (dof_info.py:499-519). -/
structure EqMap (α : Type) where
  n : Nat
  eq : Nat → Int
  eqi : List Nat
  nEq : Nat
  eqEbc : List Nat
  valEbc : List α
  master : List Nat
  slave : List Nat

/-- The tail of `map_equations` (dof_info.py:478-519), given the final
`master_slave` array. `unused` are the expanded `field.unused_dofs`
(`_mark_unused`, dof_info.py:288-293; `[]` when there are none). -/
def finishMap {α : Type} (n : Nat) (eqEbc0 : Nat → Bool) (valEbc0 : Nat → α)
    (ms : Nat → Int) (unused : List Nat) : EqMap α :=
  let master := nonzero n fun i => decide (ms i > 0)
  let slave := master.map fun i => (ms i - 1).toNat
  -- Propagate EBCs via PBCs.
  let pm := (master.zip slave).filter fun p => eqEbc0 p.1
  let psl := (master.zip slave).filter fun p => eqEbc0 p.2
  let val1 := scatter valEbc0 (pm.map fun p => (p.2, valEbc0 p.1))
  let ebc1 := scatter eqEbc0 (pm.map fun p => (p.2, eqEbc0 p.1))
  let val2 := scatter val1 (psl.map fun p => (p.1, val1 p.2))
  let ebc2 := scatter ebc1 (psl.map fun p => (p.1, ebc1 p.2))
  let eqEbc := nonzero n ebc2
  let valEbc := eqEbc.map val2
  let eq0 : Nat → Int := fun i => (i : Int)
  let eq1 := scatterConst eq0 eqEbc (-2)
  let eq2 := scatterConst eq1 master (-1)
  let eq3 := scatterConst eq2 unused (-3)
  let eqi := (((List.range n).map eq3).filter fun e => decide (0 ≤ e)).map Int.toNat
  let eq4 := scatter eq3 (eqi.zipIdx.map fun p => (p.1, (p.2 : Int)))
  let eq5 := scatter eq4 ((master.zip slave).map fun p => (p.1, eq4 p.2))
  { n := n, eq := eq5, eqi := eqi, nEq := eqi.length, eqEbc := eqEbc, valEbc := valEbc,
    master := master, slave := slave }

/-- The state of the loop variables after all conditions. -/
def loopBCs {α : Type} [Zero α] (bcs : List (BC α)) : MapState α :=
  bcs.foldl stepBC (MapState.init α)

/-- `EquationMap.map_equations` (dof_info.py:295-521) for `bcs` not None. -/
def mapEquations {α : Type} [Zero α] (ord : List Nat → List Nat) (n : Nat)
    (bcs : List (BC α)) (unused : List Nat) : EqMap α :=
  let s := loopBCs bcs
  finishMap n s.eqEbc s.valEbc (resolveChains s.ms (groupChains ord s.chains)) unused

/-- `EquationMap._init_empty` (dof_info.py:268-286), used when `bcs` is None. -/
def initEmpty {α : Type} (n : Nat) (unused : List Nat) : EqMap α :=
  if unused = [] then
    { n := n, eq := fun i => (i : Int), eqi := List.range n, nEq := n, eqEbc := [],
      valEbc := [], master := [], slave := [] }
  else
    let eq3 := scatterConst (fun i => (i : Int)) unused (-3)
    let eqi := (((List.range n).map eq3).filter fun e => decide (0 ≤ e)).map Int.toNat
    { n := n, eq := scatter eq3 (eqi.zipIdx.map fun p => (p.1, (p.2 : Int))), eqi := eqi,
      nEq := eqi.length, eqEbc := [], valEbc := [], master := [], slave := [] }

/-- `EquationMap.get_operator` (dof_info.py:523-550): the list of COO triplets
`(row, col)` (all values are 1). -/
def EqMap.operator {α : Type} (m : EqMap α) : List (Nat × Nat) :=
  m.eqi.zip (List.range m.nEq)
    ++ ((m.master.zip m.slave).filter fun p => decide (0 ≤ m.eq p.2)).map
        fun p => (p.1, (m.eq p.2).toNat)

/-! ## Full and reduced vectors (variables.py) -/

/-- The right-hand side of the essential assignments: `eq_map.val_ebc`, or the scalar
`force_value` broadcast to all essential DOFs (variables.py:1814-1818, 1846-1852, 1904-1907). -/
def EqMap.ebcValues {α : Type} (m : EqMap α) (force : Option α) : List α :=
  match force with
  | none => m.valEbc
  | some f => m.eqEbc.map fun _ => f

/-- `FieldVariable.get_full` (variables.py:1886-1921): writes the full vector of one
variable into the buffer `vec` at `offset`, reading the reduced vector at `rOffset`.
`force` is the optional `force_value`.  The `restore_substituted` call for fields
with unused DOFs (refined meshes with hanging nodes) is not modelled. -/
def getFull {α : Type} (m : EqMap α) (rVec : Nat → α) (rOffset : Nat) (force : Option α)
    (vec : Nat → α) (offset : Nat) : Nat → α :=
  let v1 := scatter vec ((m.eqEbc.zip (m.ebcValues force)).map fun p => (offset + p.1, p.2))
  let v2 := scatter v1 (m.eqi.zipIdx.map fun p => (offset + p.1, rVec (rOffset + p.2)))
  scatter v2 ((m.master.zip m.slave).map fun p => (offset + p.1, v2 (offset + p.2)))

/-- `assemble1d(ar_out, indx, ar_in)` (linalg/utils.py:241-250): duplicates are summed. -/
def assemble1d {α : Type} [Add α] (out : Nat → α) : List (Nat × α) → (Nat → α)
  | [] => out
  | (i, x) :: rest => assemble1d (upd out i (out i + x)) rest

/-- `FieldVariable.get_reduced` (variables.py:1861-1884). The result has length `n_eq`;
entries beyond it are the (meaningless) continuation `vec (offset + 0)`. -/
def getReduced {α : Type} [Add α] (m : EqMap α) (vec : Nat → α) (offset : Nat)
    (followEpbc : Bool) : Nat → α :=
  let r : Nat → α := fun j => vec (offset + m.eqi.getD j 0)
  if followEpbc then
    assemble1d r (((m.master.zip m.slave).filter fun p => decide (0 ≤ m.eq p.2)).map
      fun p => ((m.eq p.2).toNat, vec (offset + p.1)))
  else r

/-- `FieldVariable.apply_ebc` (variables.py:1803-1823). -/
def applyEbc {α : Type} (m : EqMap α) (vec : Nat → α) (offset : Nat) (force : Option α) :
    Nat → α :=
  let v1 := scatter vec ((m.eqEbc.zip (m.ebcValues force)).map fun p => (offset + p.1, p.2))
  scatter v1 ((m.master.zip m.slave).map fun p => (offset + p.1, v1 (offset + p.2)))

/-- `FieldVariable.has_ebc` (variables.py:1842-1859) with exact equality in place of
`nm.allclose`; the variable part of the vector starts at 0. -/
def hasEbc {α : Type} [DecidableEq α] (m : EqMap α) (vec : Nat → α) (force : Option α) : Bool :=
  ((m.eqEbc.zip (m.ebcValues force)).all fun p => decide (vec p.1 = p.2))
    && ((m.master.zip m.slave).all fun p => decide (vec p.1 = vec p.2))

/-! ## Whole state vectors (class Variables) -/

/-- One state variable in the global layout: its equation map, the start of its slice
in the full (`di`) and in the reduced (`adi`) vector. -/
structure VarPart (α : Type) where
  m : EqMap α
  start : Nat
  rStart : Nat

/-- `Variables.make_full_vec` (variables.py:603-638) without LCBCs, writing into the
buffer `vec`. -/
def makeFullVec {α : Type} (vars : List (VarPart α)) (svec : Nat → α) (force : Option α)
    (vec : Nat → α) : Nat → α :=
  vars.foldl (fun v p => getFull p.m svec p.rStart force v p.start) vec

/-- `Variables.reduce_vec` (variables.py:584-601), writing into the buffer `svec`. -/
def reduceVec {α : Type} [Add α] (vars : List (VarPart α)) (vec : Nat → α)
    (followEpbc : Bool) (svec : Nat → α) : Nat → α :=
  vars.foldl (fun sv p =>
    scatter sv ((List.range p.m.nEq).map fun j =>
      (p.rStart + j, getReduced p.m vec p.start followEpbc j))) svec

/-- `Variables.apply_ebc` (variables.py:678-688). -/
def applyEbcVec {α : Type} (vars : List (VarPart α)) (force : Option α) (vec : Nat → α) :
    Nat → α :=
  vars.foldl (fun v p => applyEbc p.m v p.start force) vec

end Verif.Dof
