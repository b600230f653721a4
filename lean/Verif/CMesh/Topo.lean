/-
Model of the on-demand computation of connectivities (`CMesh.setup_connectivity()`,
`CMesh.free_connectivity()`).
-/
import Verif.CMesh.Model

namespace Verif.CMesh

/-- `MeshTopology` (sfepy/discrete/common/extmods/mesh.h:70-78): the numbers of entities and the
connectivities `conn d1 d2` of a mesh of cells of the topological dimension `D`.  (The orientations
are in `BState`.) -/
structure Topo where
  D : ℕ
  num : ℕ → ℕ
  conn : ℕ → ℕ → Conn

/-- The empty connectivity, as after `conn_free()` (sfepy/discrete/common/extmods/mesh.c:264-272). -/
def emptyConn : Conn := { num := 0, nInc := 0, indices := fun _ => 0, offsets := fun _ => 0 }

def Topo.setConn (t : Topo) (d1 d2 : ℕ) (c : Conn) : Topo :=
  { t with conn := fun a b => if a = d1 ∧ b = d2 then c else t.conn a b }

def Topo.setNum (t : Topo) (d n : ℕ) : Topo := { t with num := fun a => if a = d then n else t.num a }

/-- The reference elements: the local facets of the dimension `d` by cell types, and the types of the
cells (`mesh->entities`, `mesh->topology->cell_types`). -/
structure Ref where
  locs : ℕ → ℕ → Conn
  cellTypes : ℕ → ℕ

/-- `mesh_build(mesh, dim)` on the topology (sfepy/discrete/common/extmods/mesh.c:400-566), see
`meshBuild`; `setup` computes `D -> D` if it is missing. -/
def buildDim (r : Ref) (setup : Topo → ℕ → ℕ → Option Topo) (t : Topo) (dim : ℕ) : Option Topo := do
  let t ← if (t.conn t.D t.D).num = 0 then setup t t.D t.D else pure t
  let s ← meshBuild (t.num t.D) (if dim = 1 then 2 else 4) (r.locs dim) r.cellTypes
    (t.conn t.D t.D) (t.conn t.D 0)
  return ((t.setConn t.D dim s.cDd).setConn dim 0 s.cd0).setNum dim s.id

/-- `mesh_setup_connectivity(mesh, d1, d2)` (sfepy/discrete/common/extmods/mesh.c:341-384); the first
argument bounds the depth of the recursion. -/
def setupConn (r : Ref) : ℕ → Topo → ℕ → ℕ → Option Topo
  | 0, _, _, _ => none
  | n + 1, t, d1, d2 => do
    let t ← if t.num d1 = 0 then buildDim r (setupConn r n) t d1 else pure t
    let t ← if t.num d2 = 0 then buildDim r (setupConn r n) t d2 else pure t
    if (t.conn d1 d2).num ≠ 0 then return t
    if d1 < d2 then do
      let t ← setupConn r n t d2 d1
      let c ← transpose (t.num d1) (t.num d2) (t.conn d2 d1)
      return t.setConn d1 d2 c
    else do
      let d3 := if d1 = 0 ∧ d2 = 0 then t.D else 0
      if 0 < d1 ∧ d2 = 0 then none
      else do
        let t ← setupConn r n t d1 d3
        let t ← setupConn r n t d3 d2
        let c ← intersect (t.num d1) (t.conn d1 d3) (t.conn d3 d2)
          (if d1 = d2 then none else some (t.conn d1 0, t.conn d2 0))
        return t.setConn d1 d2 c

/-- `mesh_free_connectivity()` and `CMesh._update_num()`
(sfepy/discrete/common/extmods/mesh.c:387-398, sfepy/discrete/common/extmods/cmesh.pyx:430-443). -/
def freeOne (t : Topo) (d1 d2 : ℕ) : Topo :=
  let t := t.setConn d1 d2 emptyConn
  { t with num := fun d => if 0 < d ∧ d < t.D then (t.conn d 0).num else t.num d }

/-- `CMesh.free_connectivity()` (sfepy/discrete/common/extmods/cmesh.pyx:445-461): freeing `d -> 0`
frees also `D -> d` and vice versa (the recursion stops at an empty connectivity). -/
def freeConn (t : Topo) (d1 d2 : ℕ) : Topo :=
  if (t.conn d1 d2).num = 0 then t
  else
    let t := freeOne t d1 d2
    if 0 < d1 ∧ d1 < t.D ∧ d2 = 0 then
      if (t.conn t.D d1).num = 0 then t else freeOne t t.D d1
    else if d1 = t.D ∧ 0 < d2 ∧ d2 < t.D then
      if (t.conn d2 0).num = 0 then t else freeOne t d2 0
    else t

/-- The requests of a user. -/
inductive TopoOp where
  | setup (d1 d2 : ℕ)
  | free (d1 d2 : ℕ)

/-- One request. -/
def TopoOp.run (r : Ref) (n : ℕ) (t : Topo) : TopoOp → Option Topo
  | .setup d1 d2 => setupConn r n t d1 d2
  | .free d1 d2 => some (freeConn t d1 d2)

/-- The mesh with only `D -> 0` set (`mesh_set_coors()`, `CMesh.from_mesh()`). -/
def initTopo (D nV nD : ℕ) (cD0 : Conn) : Topo :=
  { D := D, num := fun d => if d = 0 then nV else if d = D then nD else 0
    conn := fun d1 d2 => if d1 = D ∧ d2 = 0 then cD0 else emptyConn }

end Verif.CMesh
