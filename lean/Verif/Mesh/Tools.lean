/-
Model of mesh tools (`sfepy/mesh/mesh_tools.py:437-880`): removing of unused vertices, extraction of
groups, merging of double nodes, mirroring, extruding.

A mesh is given by its coordinates, vertex groups and a block of cells for each cell kind; `mesh.get_conn(desc,
ret_cells=True)` returns the connectivity of a block and the global numbers of its cells, so that
`mesh.cmesh.cell_groups[cidxs]` are the groups of the block.
-/
import Mathlib.Algebra.BigOperators.Fin
import Mathlib.Analysis.SpecialFunctions.Pow.Real
import Mathlib.Data.Fin.VecNotation
import Mathlib.Data.List.Basic
import Verif.Mesh.SpecMerge

namespace Verif.Mesh

/-- The cells of one kind, the description is `'%d_%d' % (dim, nv)`. -/
structure Block where
  dim : ℕ
  nv : ℕ
  conn : List (List ℕ)
  mats : List ℕ
deriving DecidableEq

/-- A mesh. -/
structure KMesh (V : Type) where
  coors : List V
  vgroups : List ℕ
  blocks : List Block
deriving DecidableEq

section

variable {V : Type} [Zero V]

/-! ### Selections -/

/-- All the vertices of cells. -/
def usedVertices (bs : List Block) : List ℕ := bs.flatMap fun b => b.conn.flatten

/-- `nm.unique()` of natural numbers. -/
def uniqueNat (l : List ℕ) : List ℕ := (List.range (l.foldr max 0 + 1)).filter fun v => v ∈ l

/-- `get_cell_vertices_only()` (mesh_tools.py:437-461).  `nm.unique([nm.unique(c) for c in conns])` of
line 452 is modelled by the unique values of all the connectivities, that is what it is for one
connectivity; for several ones NumPy fails, unless they use the same number of vertices.  `remap` is
defined by `prepare_translate()`. -/
def cellVerticesOnly (m : KMesh V) : KMesh V :=
  let vertices := uniqueNat (usedVertices m.blocks)
  { coors := vertices.map fun v => m.coors.getD v 0
    vgroups := vertices.map fun v => m.vgroups.getD v 0
    blocks := m.blocks.map fun b => { b with conn := b.conn.map fun row => row.map fun v => vertices.idxOf v } }

/-- Values selected by the argument `value` (mesh_tools.py:487-492, 528-533): one value, a list, a range
given by a tuple. -/
inductive GroupValue
  | one (v : ℕ)
  | many (vs : List ℕ)
  | range (a b : ℕ)

/-- `ncidxs`, `vidxs` for one item. -/
def GroupValue.sel : GroupValue → ℕ → Bool
  | .one v, g => g == v
  | .many vs, g => vs.any fun v => g == v
  | .range a b, g => decide (a ≤ g) && decide (g ≤ b)

/-- Boolean indexing `a[mask]`. -/
def byMask {A : Type} (a : List A) (mask : List Bool) : List A := ((a.zip mask).filter fun p => p.2).map Prod.fst

/-- `get_mesh_by_cgroup()` (mesh_tools.py:464-507) with `cell_vertices_only = False`. -/
def meshByCgroup (value : GroupValue) (m : KMesh V) : KMesh V :=
  { m with
    blocks := m.blocks.filterMap fun b =>
      let mask := b.mats.map value.sel
      if (mask.filter id).length > 0 then some { b with conn := byMask b.conn mask, mats := byMask b.mats mask }
      else none }

/-- `remap` of `get_mesh_by_ngroup()` (mesh_tools.py:538-539): -1, or the position in the selection. -/
def selRemap (vidxs : List Bool) (v : ℕ) : ℤ :=
  if vidxs.getD v false then ((vidxs.take v).filter id).length else -1

/-- `get_mesh_by_ngroup()` (mesh_tools.py:510-558) with `cell_vertices_only = False`. -/
def meshByNgroup (value : GroupValue) (m : KMesh V) : KMesh V :=
  let vidxs := m.vgroups.map value.sel
  { coors := byMask m.coors vidxs
    vgroups := byMask m.vgroups vidxs
    blocks := m.blocks.filterMap fun b =>
      let mask := b.conn.map fun row => (row.filter fun v => decide (0 ≤ selRemap vidxs v)).length == b.nv
      if (mask.filter id).length > 0 then
        some { b with
          conn := (byMask b.conn mask).map fun row => row.map fun v => (selRemap vidxs v).toNat
          mats := byMask b.mats mask }
      else none }

/-! ### Merging of nodes -/

/-- `merge_nodes()` (mesh_tools.py:741-768) for the result `remap` of `get_unique_coor_map()`:
`nidxs` are the first indices of the labels. -/
def mergeNodes (remap : Option (List ℕ)) (m : KMesh V) : KMesh V :=
  match remap with
  | none => m
  | some remap =>
    let nidxs := (uniqueNat remap).map fun c => remap.idxOf c
    { coors := nidxs.map fun v => m.coors.getD v 0
      vgroups := nidxs.map fun v => m.vgroups.getD v 0
      blocks := m.blocks.map fun b => { b with conn := b.conn.map fun row => row.map fun v => remap.getD v 0 } }

/-- `get_unique_coor_map()` (mesh_tools.py:726-735): `Q` is the result of `query_pairs()`, `labels` the
result of `connected_components()`. -/
def uniqueCoorMap (Q : List (ℕ × ℕ)) (labels : List ℕ) : Option (List ℕ) :=
  if Q.length > 0 then some labels else none

end

/-! ### Mirroring -/

/-- `mirror_map` (mesh_tools.py:844-849); `none` is a KeyError. -/
def mirrorMap : ℕ → ℕ → Option (List ℕ)
  | 2, 3 => some [1, 0, 2]
  | 2, 4 => some [1, 0, 3, 2]
  | 3, 4 => some [1, 0, 2, 3]
  | 3, 8 => some [1, 0, 3, 2, 5, 4, 7, 6]
  | _, _ => none

/-- The added zero coordinate (mesh_tools.py:851-852, 623-624). -/
def embed3 (x : Fin 2 → ℝ) : Fin 3 → ℝ := ![x 0, x 1, x 0 * 0]

/-- The mirrored point (mesh_tools.py:857-864). -/
noncomputable def mirrorPt (p v x : Fin 3 → ℝ) : Fin 3 → ℝ :=
  let w : Fin 3 → ℝ := fun i => v i / Real.sqrt (∑ j, v j ^ 2)
  let dist := ∑ i, (x i - p i) * w i
  fun i => x i - 2 * dist * w i

/-- One block of the mirrored mesh (mesh_tools.py:870-874). -/
def mirrorBlock (i1 : ℕ) (b : Block) : Option Block :=
  (mirrorMap b.dim b.nv).map fun perm =>
    { b with
      conn := b.conn ++ b.conn.map fun row => (perm.map fun k => row.getD k 0).map fun v => v + i1
      mats := b.mats ++ b.mats }

/-- `mirror()` (mesh_tools.py:825-880) up to the final `merge_nodes()`. -/
noncomputable def mirrorRaw (p v : Fin 3 → ℝ) (m : KMesh (Fin 3 → ℝ)) : Option (KMesh (Fin 3 → ℝ)) :=
  (m.blocks.mapM (mirrorBlock m.coors.length)).map fun bs =>
    { coors := m.coors ++ m.coors.map (mirrorPt p v)
      vgroups := m.vgroups ++ m.vgroups
      blocks := bs }

/-! ### Extruding -/

/-- The coordinates of `extrude()` (mesh_tools.py:652, 658-668): `T k` is the rotation, twist and scaling
of the layer `k + 1`. -/
def extrudeCoors {V : Type} [AddCommGroup V] (coors0 cline : List V) (T : ℕ → V → V) : List V :=
  coors0.map (fun x => x + cline.getD 0 0) ++
    (List.range (cline.length - 1)).flatMap fun k => coors0.map fun x => T k x + cline.getD (k + 1) 0

/-- `econns` of one cell (mesh_tools.py:674). -/
def extrudeRow (nnd k : ℕ) (row : List ℕ) : List ℕ := row.map (· + nnd * k) ++ row.map (· + nnd * (k + 1))

/-- The split of wedges (mesh_tools.py:678-682). -/
def wedgeTets : List (List ℕ) := [[0, 1, 2, 5], [0, 1, 5, 4], [0, 4, 5, 3]]

/-- The cells of the layer `k` over one block (mesh_tools.py:672-688); `matIds` are the groups of all the
cells of the mesh (line 655). -/
def extrudeBlock (tetra : Bool) (nnd : ℕ) (matIds : List ℕ) (k : ℕ) (b : Block) : Block :=
  let econns := b.conn.map (extrudeRow nnd k)
  if 2 * b.nv = 6 ∧ tetra = true then
    { dim := 3, nv := 4
      conn := econns.flatMap fun row => wedgeTets.map fun t => t.map fun l => row.getD l 0
      mats := matIds.flatMap fun g => List.replicate 3 g }
  else { dim := 3, nv := 2 * b.nv, conn := econns, mats := b.mats }

/-- `new_conns`, `new_mat_ids`, `new_descs` of `extrude()` for `nlay` layers. -/
def extrudeBlocks {V : Type} (tetra : Bool) (nlay : ℕ) (m : KMesh V) : List Block :=
  (List.range nlay).flatMap fun k =>
    m.blocks.map (extrudeBlock tetra m.coors.length (m.blocks.flatMap fun b => b.mats) k)

/-- `stack_descs()` (mesh_tools.py:561-573); `order` is the order of the iteration over the set of
descriptions. -/
def stackDescs (order : List (ℕ × ℕ)) (bs : List Block) : List Block :=
  order.map fun d =>
    let sel := bs.filter fun b => (b.dim, b.nv) == d
    { dim := d.1, nv := d.2, conn := sel.flatMap fun b => b.conn, mats := sel.flatMap fun b => b.mats }

/-- The rotation of the layers for `cline = (dz, nz)`: `get_rotation((0, 0, 1), (0, 0, dz / |dz|))`
(mesh_tools.py:603-618, 659): the identity for a positive `dz`, the rotation by pi around the axis
`cross((0, 0, 1), (0, 1, 0)) = (-1, 0, 0)` for a negative one. -/
noncomputable def straightRot (dz : ℝ) (x : Fin 3 → ℝ) : Fin 3 → ℝ :=
  if 0 < dz then x else ![x 0, - x 1, - x 2]

/-- `nm.mean(coors0, axis=0)` (mesh_tools.py:626). -/
noncomputable def meanCoor (coors : List (Fin 3 → ℝ)) : Fin 3 → ℝ := fun i => (coors.map fun x => x i).sum / coors.length

/-- `cline` for `(dz, nz)` (mesh_tools.py:632-635). -/
noncomputable def straightLine (c : Fin 3 → ℝ) (dz : ℝ) (nz : ℕ) : List (Fin 3 → ℝ) :=
  (List.range (nz + 1)).map fun k : ℕ => ![c 0, c 1, (k : ℝ) * dz]

/-- `expand2d()` (mesh_tools.py:704-723): `extrude(mesh2d, (dist, rep))`. -/
noncomputable def expand2d (dz : ℝ) (nz : ℕ) (order : List (ℕ × ℕ)) (m : KMesh (Fin 2 → ℝ)) : KMesh (Fin 3 → ℝ) :=
  let coors := m.coors.map embed3
  let c := meanCoor coors
  { coors := extrudeCoors (coors.map fun x => x - c) (straightLine c dz nz) (fun _ => straightRot dz)
    vgroups := (List.replicate (nz + 1) m.vgroups).flatten
    blocks := stackDescs order (extrudeBlocks true nz m) }

end Verif.Mesh
