import Verif.Asm.Model
import Mathlib.Data.List.Dedup
/-
Model of the matrix graph (sparsity pattern) construction: `create_dof_graph`,
`create_matrix_graph` (module functions of `sfepy/discrete/equations.py`) and
`chunk_arrays` (`sfepy/linalg/utils.py`).

A connectivity is the list of its rows.  A sparse COO pattern is the list of its (row,
column) positions; duplicates are irrelevant (scipy sums them, the values are booleans).
-/
namespace Verif.Asm

/-- A sparse pattern with its shape. -/
structure Block where
  shape : Nat × Nat
  entries : List (Int × Int)

/-- `create_dof_graph(rdc, cdc, shape, active_only)` (equations.py:49-66); `none` is the
`ValueError` of `scipy.sparse.coo_array` for an index out of the given shape. -/
def createDofGraph (rdc cdc : List (List Int)) (shape : Nat × Nat) (activeOnly : Bool) :
    Option Block :=
  let all : List (Int × Int) :=
    (rdc.zip cdc).flatMap fun p => p.1.flatMap fun r => p.2.map fun c => (r, c)
  let kept := if activeOnly then all.filter (fun e => decide (0 ≤ e.1) && decide (0 ≤ e.2)) else all
  if (kept.all fun e => decide (0 ≤ e.1) && decide (e.1 < (shape.1 : Int)) &&
      (decide (0 ≤ e.2) && decide (e.2 < (shape.2 : Int)))) = true then
    some { shape := shape, entries := kept }
  else none

/-- `chunk_arrays(arrs, chunk_size)` (linalg/utils.py:348-357) of the paired rows of two
arrays of the same length.  With `cs = 0` and a non-empty array the Python generator never
ends; the model returns nothing (this happens for `chunk_size=1`, see `C41_chunk_size_one`). -/
def chunks {β : Type} (cs : Nat) (l : List β) : List (List β) :=
  if _h : l = [] ∨ cs = 0 then [] else l.take cs :: chunks cs (l.drop cs)
termination_by l.length
decreasing_by
  have : l.length ≠ 0 := fun e => _h (.inl (List.length_eq_zero_iff.1 e))
  simp only [List.length_drop]; omega

/-- `cs = int(n_cell / (n_cell // chunk_size + 0.5))` (equations.py:117), in exact
arithmetic. -/
def chunkLen (nCell chunkSize : Nat) : Nat := 2 * nCell / (2 * (nCell / chunkSize) + 1)

/-- One row/column connectivity pair with its block indices. -/
structure DConn where
  rdc : List (List Int)
  cdc : List (List Int)
  ir : Nat
  ic : Nat

/-- `a += b` of two sparse arrays: `none` for different shapes (ValueError). -/
def addBlock (a b : Block) : Option Block :=
  if a.shape = b.shape then some { shape := a.shape, entries := a.entries ++ b.entries } else none

/-- The chunk loop (equations.py:118-123): `block` is the Python variable, possibly unbound
(outer `none`) or left from the previous connectivity when there is no chunk at all. -/
def chunkLoop (shape : Nat × Nat) (activeOnly : Bool) (block : Option Block)
    (cks : List (List (List Int × List Int))) : Option (Option Block) :=
  match cks with
  | [] => some block
  | ck :: rest => do
    let b0 ← createDofGraph (ck.map (·.1)) (ck.map (·.2)) shape activeOnly
    let b ← rest.foldlM (fun b ck => do
      let b1 ← createDofGraph (ck.map (·.1)) (ck.map (·.2)) shape activeOnly
      addBlock b b1) b0
    some (some b)

/-- State of the main loop: the table of blocks (`none` = the integer 0) and the variable
`block`. -/
structure GState where
  blocks : Nat → Nat → Option Block
  block : Option Block

/-- Body of the main loop over the connectivity pairs (equations.py:102-129).
`roffs`, `nrs`, `coffs`, `ncs` are the lists made from the `DofInfo` slices
(equations.py:95-98); `none` stands for any exception (IndexError, UnboundLocalError,
ValueError). -/
def graphStep (roffs nrs coffs ncs : List Nat) (activeOnly : Bool) (chunkSize : Nat)
    (s : GState) (d : DConn) : Option GState := do
  let ro ← roffs[d.ir]?
  let co ← coffs[d.ic]?
  let nr ← nrs[d.ir]?
  let nc ← ncs[d.ic]?
  let srdc := d.rdc.map fun row => row.map fun x => x - (ro : Int)
  let scdc := d.cdc.map fun row => row.map fun x => x - (co : Int)
  let blk ← chunkLoop (nr, nc) activeOnly s.block
    (chunks (chunkLen srdc.length chunkSize) (srdc.zip scdc))
  let b ← blk
  let new ← match s.blocks d.ir d.ic with
    | none => some b
    | some old => addBlock old b
  some { blocks := fun i j => if i = d.ir ∧ j = d.ic then some new else s.blocks i j
         block := blk }

/-- Length of block row `i` in `scipy.sparse.block_array`: that of a present block (0 if
there is none). -/
def rowLen (blocks : Nat → Nat → Option Block) (nbc : Nat) (i : Nat) : Nat :=
  (((List.range nbc).filterMap fun j => blocks i j).map (·.shape.1)).headD 0

/-- Length of block column `j`. -/
def colLen (blocks : Nat → Nat → Option Block) (nbr : Nat) (j : Nat) : Nat :=
  (((List.range nbr).filterMap fun i => blocks i j).map (·.shape.2)).headD 0

/-- `sp.block_array(blocks, format='csr')` (equations.py:131-135): `none` for blocks with
incompatible shapes (ValueError). -/
def blockArray (blocks : Nat → Nat → Option Block) (nbr nbc : Nat) : Option Block :=
  let present := (List.range nbr).flatMap fun i => (List.range nbc).filterMap fun j =>
    (blocks i j).map fun b => ((i, j), b)
  if present.all fun p => decide (p.2.shape.1 = rowLen blocks nbc p.1.1) &&
      decide (p.2.shape.2 = colLen blocks nbr p.1.2) then
    some
      { shape := (((List.range nbr).map (rowLen blocks nbc)).sum,
                  ((List.range nbc).map (colLen blocks nbr)).sum)
        entries := present.flatMap fun p => p.2.entries.map fun e =>
          (e.1 + (((List.range p.1.1).map (rowLen blocks nbc)).sum : Nat),
           e.2 + (((List.range p.1.2).map (colLen blocks nbr)).sum : Nat)) }
  else none

/-- `max(l) + 1`. -/
def maxSucc (l : List Nat) : Nat := l.foldl (fun m x => max m (x + 1)) 0

/-- `create_matrix_graph(rdcs, cdcs, irs, ics, rdi, cdi, active_only, chunk_size)`
(equations.py:68-137).  `rIndx`, `cIndx` list the (start, stop) of the `DofInfo` slices.
`max` of an empty list raises. -/
def createMatrixGraph (dcs : List DConn) (rIndx cIndx : List (Nat × Nat)) (activeOnly : Bool)
    (chunkSize : Nat) : Option Block :=
  if dcs = [] then none else do
    let s ← dcs.foldlM (graphStep (rIndx.map (·.1)) (rIndx.map fun p => p.2 - p.1)
      (cIndx.map (·.1)) (cIndx.map fun p => p.2 - p.1) activeOnly chunkSize)
      { blocks := fun _ _ => none, block := none }
    blockArray s.blocks (maxSucc (dcs.map (·.ir))) (maxSucc (dcs.map (·.ic)))

/-- One connectivity pair as collected by `Equations.get_graph_conns`: the connectivities
and the positions of the row and column variables in the `DofInfo` order. -/
structure ConnPair where
  rdc : List (List Int)
  cdc : List (List Int)
  rvar : Nat
  cvar : Nat

/-- `_, irs = nm.unique(irs, return_inverse=True)` (equations.py:560-561): position of a
value in the increasing array of distinct values, i.e. the number of distinct smaller
values. -/
def rankIn (l : List Nat) (x : Nat) : Nat := (l.dedup.filter fun y => decide (y < x)).length

/-- The restoration of the DOF numbers when `active_only` is False
(equations.py:541-548): negative items `x` are replaced by `-1 - x`. -/
def restoreAll (dc : List (List Int)) : List (List Int) :=
  dc.map fun row => row.map fun x => if x < 0 then -1 - x else x

/-- The numbering used by `create_adof_conns` with `active_only=False`
(variables.py:66-69): `eq = arange(n_dof); eq[eq_ebc] = -1 - (eq_ebc + offset);
eq[master] = eq[slave]` (the right-hand side is evaluated before the assignment). -/
def allDofsEq (eqEbc : List Nat) (pairs : List (Nat × Nat)) (offset : Nat) : Nat → Int :=
  let eq0 : Nat → Int := fun i => (i : Int)
  let eq1 := Np.scatter eq0 (eqEbc.map fun i => (i, -1 - ((i : Int) + (offset : Int))))
  Np.scatter eq1 (pairs.map fun p => (p.1, eq1 p.2))

/-- `Equations.get_graph_conns` + `Equations.create_matrix_graph` (equations.py:460-637):
block indices are obtained from the starts of the variables' slices. The selection of
the connectivities (`conn_info`, `shared`) is the input list `cps`. -/
def matrixGraph (cps : List ConnPair) (rIndx cIndx : List (Nat × Nat)) (activeOnly : Bool)
    (chunkSize : Nat) : Option Block :=
  let rstarts := cps.map fun c => ((rIndx.map (·.1)).getD c.rvar 0)
  let cstarts := cps.map fun c => ((cIndx.map (·.1)).getD c.cvar 0)
  let dcs := cps.map fun c =>
    { rdc := if activeOnly then c.rdc else restoreAll c.rdc
      cdc := if activeOnly then c.cdc else restoreAll c.cdc
      ir := rankIn rstarts ((rIndx.map (·.1)).getD c.rvar 0)
      ic := rankIn cstarts ((cIndx.map (·.1)).getD c.cvar 0) : DConn }
  createMatrixGraph dcs rIndx cIndx activeOnly chunkSize

end Verif.Asm
