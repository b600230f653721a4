/-
Model of the nodes of the Lagrange elements (`sfepy/discrete/fem/poly_spaces.py`) and of the field
connectivity (`sfepy/discrete/fem/fields_nodal.py`, `sfepy/discrete/fem/fields_base.py`).

A node is its type `nts[i]` and its row of `nodes` as a function of the column.  `int(round(delta * x))` with
`delta = 1.0 / float(order)` etc. is the division of naturals: all the divisions are exact (the rows of
the vertex nodes are multiples of the order).
-/
import Verif.Fem.Facets
import Mathlib.Data.Int.Notation
import Mathlib.Algebra.BigOperators.Group.Finset.Basic

namespace Verif.Fem

/-- A row of `nts` and `nodes`. -/
structure Nod where
  nt : ℕ × ℕ
  row : ℕ → ℕ

/-- The data of a reference element used here (sfepy/discrete/fem/geometry_element.py:98-224). -/
structure Gel where
  dim : ℕ
  nV : ℕ
  edges : List (List ℕ)
  faces : List (List ℕ)

/-- `'1_2'` (sfepy/discrete/fem/geometry_element.py:108-116). -/
def gel12 : Gel := ⟨1, 2, [], []⟩

/-- `'2_3'` (sfepy/discrete/fem/geometry_element.py:118-129). -/
def gel23 : Gel := ⟨2, 3, [[0, 1], [1, 2], [2, 0]], []⟩

/-- `'2_4'` (sfepy/discrete/fem/geometry_element.py:131-145). -/
def gel24 : Gel := ⟨2, 4, [[0, 1], [1, 2], [2, 3], [3, 0]], []⟩

/-- `'3_4'` (sfepy/discrete/fem/geometry_element.py:147-165). -/
def gel34 : Gel := ⟨3, 4, [[0, 1], [1, 2], [2, 0], [0, 3], [1, 3], [2, 3]],
  [[0, 2, 1], [0, 3, 2], [0, 1, 3], [1, 2, 3]]⟩

/-- `'3_8'` (sfepy/discrete/fem/geometry_element.py:193-224). -/
def gel38 : Gel := ⟨3, 8, [[0, 1], [1, 2], [2, 3], [3, 0], [4, 5], [5, 6], [6, 7], [7, 4], [0, 4], [1, 5],
  [2, 6], [3, 7]],
  [[0, 3, 2, 1], [0, 4, 7, 3], [0, 1, 5, 4], [4, 5, 6, 7], [1, 2, 6, 5], [3, 7, 6, 2]]⟩

/-- `nodes[i,:]`. -/
def rowAt (nodes : List Nod) (i : ℕ) : ℕ → ℕ := (nodes[i]?.map Nod.row).getD fun _ => 0

/-- `LagrangeNodes.append_edges()` and the same `append_tp_edges()`
(sfepy/discrete/fem/poly_spaces.py:31-45, 89-102). -/
def appendEdges (nodes : List Nod) (nt : ℕ) (edges : List (List ℕ)) (order : ℕ) : List Nod :=
  nodes ++ edges.zipIdx.flatMap fun e =>
    let n1 := rowAt nodes (e.1.getD 0 0)
    let n2 := rowAt nodes (e.1.getD 1 0)
    (List.range (order - 1)).map fun ie =>
      let c2 := ie + 1
      let c1 := order - c2
      { nt := (nt, e.2), row := fun k => (c1 * n1 k + c2 * n2 k) / order }

/-- `LagrangeNodes.append_faces()` (sfepy/discrete/fem/poly_spaces.py:47-66). -/
def appendFaces (nodes : List Nod) (nt : ℕ) (faces : List (List ℕ)) (order : ℕ) : List Nod :=
  nodes ++ faces.zipIdx.flatMap fun f =>
    let n1 := rowAt nodes (f.1.getD 0 0)
    let n2 := rowAt nodes (f.1.getD 1 0)
    let n3 := rowAt nodes (f.1.getD 2 0)
    (List.range (order - 2)).flatMap fun i1 => (List.range (order - 2 - i1)).map fun i2 =>
      let c3 := i1 + 1
      let c2 := i2 + 1
      let c1 := order - c3 - c2
      { nt := (nt, f.2), row := fun k => (c1 * n1 k + c2 * n2 k + c3 * n3 k) / order }

/-- `LagrangeNodes.append_bubbles()` (sfepy/discrete/fem/poly_spaces.py:68-87). -/
def appendBubbles (nodes : List Nod) (nt order : ℕ) : List Nod :=
  let n := rowAt nodes
  nodes ++ (List.range (order - 3)).flatMap fun i1 => (List.range (order - 3)).flatMap fun i2 =>
    (List.range (order - 3 - i1 - i2)).map fun i3 =>
      let c4 := i1 + 1
      let c3 := i2 + 1
      let c2 := i3 + 1
      let c1 := order - c4 - c3 - c2
      { nt := (nt, 0), row := fun k => (c1 * n 0 k + c2 * n 1 k + c3 * n 2 k + c4 * n 3 k) / order }

/-- `LagrangeNodes.append_tp_faces()` (sfepy/discrete/fem/poly_spaces.py:104-125). -/
def appendTpFaces (nodes : List Nod) (nt : ℕ) (faces : List (List ℕ)) (ao : ℕ) : List Nod :=
  nodes ++ faces.zipIdx.flatMap fun f =>
    let n1 := rowAt nodes (f.1.getD 0 0)
    let n2 := rowAt nodes (f.1.getD 1 0)
    let n3 := rowAt nodes (f.1.getD 2 0)
    let n4 := rowAt nodes (f.1.getD 3 0)
    (List.range (ao - 1)).flatMap fun i1 => (List.range (ao - 1)).map fun i2 =>
      let c4 := i1 + 1
      let c3 := i2 + 1
      let c2 := ao - c4
      let c1 := ao - c3
      { nt := (nt, f.2)
        row := fun k => (c1 * c2 * n1 k + c2 * c3 * n2 k + c3 * c4 * n3 k + c4 * c1 * n4 k) / ao ^ 2 }

/-- `LagrangeNodes.append_tp_bubbles()` (sfepy/discrete/fem/poly_spaces.py:127-154). -/
def appendTpBubbles (nodes : List Nod) (nt ao : ℕ) : List Nod :=
  let n := rowAt nodes
  nodes ++ (List.range (ao - 1)).flatMap fun i1 => (List.range (ao - 1)).flatMap fun i2 =>
    (List.range (ao - 1)).map fun i3 =>
      let c6 := i1 + 1
      let c5 := i2 + 1
      let c4 := i3 + 1
      let c3 := ao - c6
      let c2 := ao - c5
      let c1 := ao - c4
      { nt := (nt, 0)
        row := fun k => (c1 * c2 * c3 * n 0 k + c4 * c2 * c3 * n 1 k + c5 * c4 * c3 * n 2 k
          + c1 * c3 * c5 * n 3 k + c1 * c2 * c6 * n 4 k + c4 * c2 * c6 * n 5 k + c5 * c4 * c6 * n 6 k
          + c1 * c6 * c5 * n 7 k) / ao ^ 3 }

/-- `LagrangeSimplexPolySpace._define_nodes()` for a positive order
(sfepy/discrete/fem/poly_spaces.py:314-378). -/
def simplexNodes (g : Gel) (order : ℕ) : List Nod :=
  let nodes := (List.range g.nV).map fun i => { nt := (0, i), row := fun k => if k = i then order else 0 }
  if g.dim = 1 then appendEdges nodes 3 [[0, 1]] order
  else if g.dim = 2 then
    appendFaces (appendEdges nodes 1 g.edges order) 3 [[0, 1, 2]] order
  else
    appendBubbles (appendFaces (appendEdges nodes 1 g.edges order) 2 g.faces order) 3 order

/-- `vertex_maps` (sfepy/discrete/fem/poly_spaces.py:11-26): the coordinate `d` of the vertex `i`. -/
def vertexMap (dim i d : ℕ) : ℕ :=
  ((if dim = 3 then
    [[0, 0, 0], [1, 0, 0], [1, 1, 0], [0, 1, 0], [0, 0, 1], [1, 0, 1], [1, 1, 1], [0, 1, 1]]
  else if dim = 2 then [[0, 0], [1, 0], [1, 1], [0, 1]]
  else [[0], [1]]).getD i []).getD d 0

/-- `LagrangeTensorProductPolySpace._define_nodes()` for a positive order
(sfepy/discrete/fem/poly_spaces.py:517-593): the columns `2 d`, `2 d + 1` of the vertex nodes are
`order - i`, `i` for the item `i = order * vertex_maps[dim][ii][d]`. -/
def tensorNodes (g : Gel) (order : ℕ) : List Nod :=
  let nodes := (List.range g.nV).map fun ii =>
    { nt := (0, ii)
      row := fun k =>
        let i := order * vertexMap g.dim ii (k / 2)
        if k % 2 = 0 then order - i else i }
  if g.dim = 1 then appendEdges nodes 3 [[0, 1]] order
  else if g.dim = 2 then
    appendTpFaces (appendEdges nodes 1 g.edges order) 3 [[0, 1, 2, 3]] order
  else
    appendTpBubbles (appendTpFaces (appendEdges nodes 1 g.edges order) 2 g.faces order) 3 order

/-! ### `NodeDescription` -/

/-- `nm.where(node_types[:,0] == t)[0]` (sfepy/discrete/fem/poly_spaces.py:203-218). -/
def whereType (nts : List (ℕ × ℕ)) (t : ℕ) : List ℕ :=
  (List.range nts.length).filter fun i => (nts.getD i (0, 0)).1 == t

/-- `NodeDescription._describe_facets()` (sfepy/discrete/fem/poly_spaces.py:161-176). -/
def describeFacets (nts : List (ℕ × ℕ)) (ii : List ℕ) : Option (List (List ℕ)) :=
  let t := ii.map fun i => (nts.getD i (0, 0)).2
  let ik := (List.range (t.length - 1)).filter fun k => t.getD (k + 1) 0 > t.getD k 0
  if ik = [] then none
  else
    let ik := 0 :: ik.map (· + 1) ++ [t.length]
    some ((List.range (ik.length - 1)).map fun ir =>
      (ii.drop (ik.getD ir 0)).take (ik.getD (ir + 1) 0 - ik.getD ir 0))

/-! ### The field connectivity -/

/-- The mesh and region data used by a field. -/
structure FieldData where
  /-- the vertices of a cell: cell, local vertex -/
  conn : ℕ → ℕ → ℕ
  /-- `cmesh.get_conn(D, 1)`: cell, local edge -/
  edgeId : ℕ → ℕ → ℕ
  /-- `cmesh.get_conn(D, 2)`: cell, local face -/
  faceId : ℕ → ℕ → ℕ
  /-- `cmesh.get_orientations(1)`: cell, local edge -/
  edgeOri : ℕ → ℕ → ℕ
  /-- `cmesh.get_orientations(2)`: cell, local face -/
  faceOri : ℕ → ℕ → ℕ
  /-- the region entities -/
  verts : List ℕ
  edges : List ℕ
  faces : List ℕ
  cells : List ℕ

/-- `prepare_remap()` (sfepy/discrete/fem/utils.py:7-16). -/
def prepareRemap (indices : List ℕ) : ℕ → ℤ :=
  indices.zipIdx.foldl (fun r p => Function.update r p.1 (p.2 : ℤ)) fun _ => -1

/-- The item `facet_perms[ori][j]` used as an index of `nd` items: the rows of invalid keys are `-1`,
i.e. the last item. -/
def permItem (nFp order nd key j : ℕ) : ℕ :=
  match facetDofPermutation nFp order key with
  | none => nd - 1
  | some perm => perm.getD j 0

/-- `_setup_facet_dofs()` (sfepy/discrete/fem/fields_nodal.py:63-115): the updated `econn` (local cell,
column) and the number of the DOFs. -/
def setupFacetDofs (desc : List (List ℕ)) (nFp order : ℕ) (offset : ℤ) (cells facets : List ℕ)
    (ids oris : ℕ → ℕ → ℕ) (nF : ℕ) (econn : ℕ × ℕ → ℤ) : (ℕ × ℕ → ℤ) × ℤ :=
  let nd := (desc.headD []).length
  let remap := prepareRemap facets
  (((List.range cells.length).flatMap fun el => (List.range nF).flatMap fun f =>
      (List.range nd).map fun j => (el, f, j)).foldl (fun econn q =>
        let c := cells.getD q.1 0
        Function.update econn (q.1, (desc.getD q.2.1 []).getD q.2.2 0)
          (offset + (nd * remap (ids c q.2.1) + permItem nFp order nd (oris c q.2.1) q.2.2))) econn,
    nd * facets.length)

/-- `_setup_vertex_dofs()` of a cell region after `_init_econn()`
(sfepy/discrete/fem/fields_base.py:386-415): `econn` and the number of the DOFs. -/
def setupVertexDofs (g : Gel) (d : FieldData) : (ℕ × ℕ → ℤ) × ℤ :=
  let remapV := prepareRemap d.verts
  (fun p => if p.2 < g.nV then remapV (d.conn (d.cells.getD p.1 0) p.2) else 0, d.verts.length)

/-- `_setup_edge_dofs()` (sfepy/discrete/fem/fields_nodal.py:40-49). -/
def setupEdgeDofs (g : Gel) (nts : List (ℕ × ℕ)) (order : ℕ) (d : FieldData) (offset : ℤ)
    (econn : ℕ × ℕ → ℤ) : (ℕ × ℕ → ℤ) × ℤ :=
  match describeFacets nts (whereType nts 1) with
  | none => (econn, 0)
  | some desc => setupFacetDofs desc (g.edges.headD []).length order offset d.cells d.edges d.edgeId
      d.edgeOri g.edges.length econn

/-- `_setup_face_dofs()` (sfepy/discrete/fem/fields_nodal.py:51-61). -/
def setupFaceDofs (g : Gel) (nts : List (ℕ × ℕ)) (order : ℕ) (d : FieldData) (offset : ℤ)
    (econn : ℕ × ℕ → ℤ) : (ℕ × ℕ → ℤ) × ℤ :=
  match describeFacets nts (whereType nts 2) with
  | none => (econn, 0)
  | some desc => setupFacetDofs desc (g.faces.headD []).length order offset d.cells d.faces d.faceId
      d.faceOri g.faces.length econn

/-- `_setup_bubble_dofs()` (sfepy/discrete/fem/fields_nodal.py:117-138). -/
def setupBubbleDofs (nts : List (ℕ × ℕ)) (d : FieldData) (offset : ℤ) (econn : ℕ × ℕ → ℤ) :
    (ℕ × ℕ → ℤ) × ℤ :=
  match whereType nts 3 with
  | [] => (econn, 0)
  | iep :: bubble =>
    let nb := bubble.length + 1
    (fun p => if iep ≤ p.2 then offset + (p.1 * nb + (p.2 - iep) : ℕ) else econn p,
      (nb * d.cells.length : ℕ))

/-- `_setup_global_basis()` of a nodal field on a cell region: the connectivity and the number of the DOFs
(sfepy/discrete/fem/fields_base.py:361-384). -/
def setupGlobalBasis (g : Gel) (nodes : List Nod) (order : ℕ) (d : FieldData) : (ℕ × ℕ → ℤ) × ℤ :=
  let nts := nodes.map Nod.nt
  let v := setupVertexDofs g d
  let e := setupEdgeDofs g nts order d v.2 v.1
  let f := setupFaceDofs g nts order d (v.2 + e.2) e.1
  let b := setupBubbleDofs nts d (v.2 + e.2 + f.2) f.1
  (b.1, v.2 + e.2 + f.2 + b.2)

end Verif.Fem
