import Verif.Par.Partition
import Verif.Np.Vec

/-!
# Distribution of the DOFs of a field among the tasks

/repo/sfepy/parallel/parallel.py:118-296, 599-618
-/

namespace Par

/-- `dof_maps[ir]`: the inner DOFs (`None` until they are known), the lists of the owned interface
DOFs, the lists of the overlap cells, the number of the owned DOFs and the offset.
/repo/sfepy/parallel/parallel.py:124-130, 186 -/
structure DMap where
  inner : Option (List ℕ)
  own : List (List ℕ)
  ovl : List (List ℕ)
  n : ℕ
  off : ℕ

/-- `[None, [], [], 0, 0]`. -/
def DMap.empty : DMap := ⟨none, [], [], 0, 0⟩

/-- All DOFs owned by a task: the inner ones followed by the interface ones. -/
def DMap.owned (v : DMap) : List ℕ := v.inner.getD [] ++ v.own.flatten

/-- `expand_dofs(dofs, n_components)` for a 1D array.
/repo/sfepy/parallel/parallel.py:599-618 -/
def expandDofs (nc : ℕ) (dofs : List ℕ) : List ℕ :=
  dofs.flatMap fun d => (List.range nc).map fun k : ℕ => nc * d + k

/-- The loop variables. `mark` is `id_map` during the first loop (zero: not yet owned). -/
structure St where
  mark : ℕ → ℕ
  maps : Dict DMap
  parts : List (List ℕ)

/-- The cells around the vertices of the given facets.
/repo/sfepy/parallel/parallel.py:222-225 -/
def incidentCells (m : FEMesh) (fs : List ℕ) : List ℕ := (fs.flatMap m.fverts).flatMap m.vcells

/-- The not yet owned DOFs of the facets `fs` are given to the task `t`, and the cells around the
facets are added to the overlap cells of `t`. (The counters `count` and `inter_count`, which are
never read, are left out.) `nc` is `n_components` with `use_expand_dofs`, otherwise one.
/repo/sfepy/parallel/parallel.py:211-225 (`t` is `ir`), 227-241 (`t` is `ic`) -/
def claim (ov : Bool) (m : FEMesh) (nc : ℕ) (s : St) (t : ℕ) (fs : List ℕ) : St :=
  let dr := expandDofs nc (unique (fs.flatMap m.fdofs))
  let new := dr.filter fun d => decide (s.mark d = 0)
  if new.length = 0 then s
  else
    { s with
      mark := Verif.Np.scatterConst s.mark new 1
      maps := dupd s.maps t DMap.empty fun v =>
        { v with
          own := v.own ++ [new]
          n := v.n + new.length
          ovl := if ov then v.ovl ++ [incidentCells m fs] else v.ovl } }

/-- `dof_maps.setdefault(t, [None, [], [], 0, 0])`. -/
def ensure (s : St) (t : ℕ) : St := { s with maps := dupd s.maps t DMap.empty id }

/-- The body of the loop over the neighbouring tasks: the first half of the facets is for the task
`ir` and the second half for its neighbour.
/repo/sfepy/parallel/parallel.py:188-241 -/
def pairStep (ov : Bool) (m : FEMesh) (nc ir : ℕ) (s : St) (p : ℕ × List ℕ) : St :=
  let s := ensure s p.1
  let ii2 := max (p.2.length / 2) 1
  let s := claim ov m nc s ir (p.2.take ii2)
  claim ov m nc s p.1 (p.2.drop ii2)

/-- The cells of a task, `nm.where(cell_tasks == ir)[0]`.
/repo/sfepy/parallel/parallel.py:179 -/
def taskCells (m : FEMesh) (ct : ℕ → ℕ) (ir : ℕ) : List ℕ :=
  (List.range m.nCell).filter fun c => decide (ct c = ir)

/-- `_get_dofs_region(field, cregion)`: the DOFs of the nodes of the cells of a task. The set of the
DOFs of a region is modelled by the union of the nodes of its cells (of its facets); only the set
matters, as it is an argument of `setdiff1d()`.
/repo/sfepy/parallel/parallel.py:154-158, 182-184 -/
def taskDofs (m : FEMesh) (ct : ℕ → ℕ) (nc ir : ℕ) : List ℕ :=
  expandDofs nc ((taskCells m ct ir).flatMap m.econn)

/-- `nm.concatenate(inter_dofs)`: the DOFs of all the interfaces of a task.
/repo/sfepy/parallel/parallel.py:203, 245 -/
def interDofs (m : FEMesh) (nc : ℕ) (ntasks : Dict (List ℕ)) : List ℕ :=
  (ditems ntasks).flatMap fun p => expandDofs nc (p.2.flatMap m.fdofs)

/-- The body of the loop over the tasks; `none` when the assertion on the inner DOFs fails.
/repo/sfepy/parallel/parallel.py:178-252 -/
def taskStep (ov : Bool) (m : FEMesh) (ct : ℕ → ℕ) (nc : ℕ) (s : St)
    (p : ℕ × Dict (List ℕ)) : Option St :=
  let s := { s with parts := s.parts ++ [taskCells m ct p.1] }
  let s := ensure s p.1
  let s := (ditems p.2).foldl (pairStep ov m nc p.1) s
  let inner := setdiff1d (taskDofs m ct nc p.1) (interDofs m nc p.2)
  if inner.all (fun d => decide (s.mark d = 0)) then
    some { s with
      mark := Verif.Np.scatterConst s.mark inner 1
      maps := dupd s.maps p.1 DMap.empty fun v =>
        { v with inner := some inner, n := v.n + inner.length } }
  else none

/-- The first loop.
/repo/sfepy/parallel/parallel.py:172-252 -/
def tasksLoop (ov : Bool) (m : FEMesh) (ct : ℕ → ℕ) (nc : ℕ) :
    List (ℕ × Dict (List ℕ)) → St → Option St
  | [], s => some s
  | p :: r, s => (taskStep ov m ct nc s p).bind (tasksLoop ov m ct nc r)

/-- `id_map[aux] = nm.arange(i, i + len(aux))`. -/
def assignRange (idm : ℕ → ℕ) (aux : List ℕ) (i : ℕ) : ℕ → ℕ :=
  Verif.Np.scatter idm (aux.zip (List.range' i aux.length))

/-- The numbering of one task: the inner DOFs, then the lists of the interface DOFs.
Returns the new `id_map` and `i0`.
/repo/sfepy/parallel/parallel.py:259-265 -/
def numberTask (idm : ℕ → ℕ) (inner : List ℕ) (own : List (List ℕ)) (offset : ℕ) :
    (ℕ → ℕ) × ℕ :=
  own.foldl (fun (q : (ℕ → ℕ) × ℕ) aux => (assignRange q.1 aux (offset + q.2), q.2 + aux.length))
    (assignRange idm inner offset, inner.length)

/-- The second loop: the numbering, the overlap cells and the offsets; `none` when the inner DOFs
are still `None` or when the assertion on the number of the owned DOFs fails.
/repo/sfepy/parallel/parallel.py:254-281 -/
def numberLoop : List (ℕ × DMap) → (ℕ → ℕ) → ℕ → Option (Dict DMap × (ℕ → ℕ) × List (List ℕ))
  | [], idm, _ => some ([], idm, [])
  | (k, v) :: r, idm, offset =>
    match v.inner with
    | none => none
    | some inner =>
      let q := numberTask idm inner v.own offset
      if q.2 = v.n then
        (numberLoop r q.1 (offset + v.n)).map fun res =>
          ((k, { v with off := offset }) :: res.1, res.2.1, unique v.ovl.flatten :: res.2.2)
      else none

/-- The returned values. -/
structure Dist where
  maps : Dict DMap
  idMap : ℕ → ℕ
  parts : List (List ℕ)
  overlap : List (List ℕ)

/-- `create_task_dof_maps(field, cell_tasks, inter_facets, is_overlap, use_expand_dofs)`. The
dictionary `dof_maps` is returned in the order of its keys. `id_map` starts as zeros. In the
single-task case the DOFs of the field region are taken as all DOFs in their order, and `id_map[:]`
is set to the identity.
/repo/sfepy/parallel/parallel.py:118-296 -/
def createMaps (ov : Bool) (m : FEMesh) (ct : ℕ → ℕ) (nc : ℕ) (inter : Dict (Dict (List ℕ))) :
    Option Dist :=
  (tasksLoop ov m ct nc (ditems inter) ⟨fun _ => 0, [], []⟩).bind fun s =>
    (numberLoop (ditems s.maps) s.mark 0).map fun res =>
      let all := expandDofs nc (List.range m.nNod)
      { maps := if res.1.length = 0 then [(0, ⟨some all, [], [], all.length, 0⟩)] else res.1
        idMap := if res.1.length = 0 then assignRange res.2.1 (List.range all.length) 0 else res.2.1
        parts := if s.parts.length = 0 then [List.range m.nCell] else s.parts
        overlap := if res.2.2.length = 0 then [[]] else res.2.2 }

end Par
