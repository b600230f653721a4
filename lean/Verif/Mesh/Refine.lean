/-
Model of the uniform refinement of meshes (`sfepy/discrete/fem/refine.py:9-213`).

Coordinates are in a vector space `V` over a field `K`.  The incidence relations of the mesh
(`cmesh.get_conn(...)`) are given by the lists of rows; they are computed by the functions of
`CMesh` (C34-C36).
-/
import Mathlib.Algebra.Module.Defs
import Mathlib.Algebra.BigOperators.Group.List.Basic
import Mathlib.Algebra.Field.Basic
import Mathlib.Data.List.Basic

namespace Verif.Mesh

/-- A mesh with the data that are used by the refinement: `mesh.coors`, `mesh.get_conn(desc)`,
`cmesh.cell_groups`, the rows of `cmesh.get_conn(1, 0)`, `cmesh.get_conn(2, 0)` (vertices of edges and
of faces) and `cmesh.get_conn(D, 1)`, `cmesh.get_conn(D, 2)` (edges and faces of cells). -/
structure RMesh (V : Type) where
  coors : List V
  conn : List (List ℕ)
  groups : List ℕ
  edges : List (List ℕ)
  faces : List (List ℕ)
  cellEdges : List (List ℕ)
  cellFaces : List (List ℕ)

/-- The arguments of `Mesh.from_data()` for the refined mesh: coordinates, connectivity, groups. -/
structure Refined (V : Type) where
  coors : List V
  conn : List (List ℕ)
  groups : List ℕ

/-- An item in the tables of the new cells: `c[v]`, `e[j]`, `f[j]`, `b` in refine.py. -/
inductive Pt where
  | c (v : ℕ)
  | e (j : ℕ)
  | f (j : ℕ)
  | b
  deriving DecidableEq

/-- `a.reshape((rows, cols))`. -/
def reshape (rows cols : ℕ) (a : List ℕ) : List (List ℕ) :=
  (List.range rows).map fun r => (List.range cols).map fun c => a.getD (r * cols + c) 0

section

variable {V : Type}

/-- The node number of an item for the cell `i`, with the offsets of edges, faces and cells, e.g.
refine.py:187-196: `e_nodes = ecc.indices.reshape((n_el, 12)) + o1`, `f_nodes = ... + o2`,
`nodes = arange(n_el) + o3`. -/
def RMesh.node (m : RMesh V) (oe of ob i : ℕ) : Pt → ℕ
  | .c v => (m.conn.getD i []).getD v 0
  | .e j => (m.cellEdges.getD i []).getD j 0 + oe
  | .f j => (m.cellFaces.getD i []).getD j 0 + of
  | .b => i + ob

/-- `nm.vstack([...]).T.reshape((nch * n_el, k))` (refine.py:56-60, 98-102, ...). -/
def stackT (n nch k : ℕ) (nd : ℕ → Pt → ℕ) (tab : List Pt) : List (List ℕ) :=
  reshape (nch * n) k ((List.range n).flatMap fun i => tab.map (nd i))

/-- `cmesh.cell_groups.repeat(n)` (refine.py:62, 104, 163, 209). -/
def groupsRepeat (g : List ℕ) (n : ℕ) : List ℕ := g.flatMap fun x => List.replicate n x

/-- The table of refine.py:56-59. -/
def tab23 : List Pt :=
  [.c 0, .e 0, .e 2,
   .e 0, .e 1, .e 2,
   .c 1, .e 1, .e 0,
   .c 2, .e 2, .e 1]

/-- The table of refine.py:98-101. -/
def tab24 : List Pt :=
  [.c 0, .e 0, .b, .e 3,
   .c 1, .e 1, .b, .e 0,
   .c 2, .e 2, .b, .e 1,
   .c 3, .e 3, .b, .e 2]

/-- The table of refine.py:151-158. -/
def tab34 : List Pt :=
  [.c 0, .e 0, .e 2, .e 3,
   .e 0, .c 1, .e 1, .e 4,
   .e 2, .e 1, .c 2, .e 5,
   .e 3, .e 4, .e 5, .c 3,
   .e 0, .e 2, .e 3, .e 4,
   .e 0, .e 2, .e 4, .e 1,
   .e 2, .e 3, .e 4, .e 5,
   .e 2, .e 1, .e 5, .e 4]

/-- The table of refine.py:198-205. -/
def tab38 : List Pt :=
  [.c 0, .e 0, .f 0, .e 3, .e 8, .f 2, .b, .f 1,
   .c 1, .e 1, .f 0, .e 0, .e 9, .f 4, .b, .f 2,
   .c 2, .e 2, .f 0, .e 1, .e 10, .f 5, .b, .f 4,
   .c 3, .e 3, .f 0, .e 2, .e 11, .f 1, .b, .f 5,
   .c 4, .e 7, .f 3, .e 4, .e 8, .f 1, .b, .f 2,
   .c 5, .e 4, .f 3, .e 5, .e 9, .f 2, .b, .f 4,
   .c 6, .e 5, .f 3, .e 6, .e 10, .f 4, .b, .f 5,
   .c 7, .e 6, .f 3, .e 7, .e 11, .f 5, .b, .f 1]

section

variable (K : Type) [Field K] [AddCommGroup V] [Module K V]

/-- The centroid of an entity with the vertices `row`: `mesh_get_centroids()`
(discrete/common/extmods/mesh.c:887-911). -/
def centroid (coors : List V) (row : List ℕ) : V :=
  ((row.length : K))⁻¹ • (row.map fun v => coors.getD v 0).sum

/-- `refine_2_3()` (refine.py:34-67). -/
def refine23 (m : RMesh V) : Refined V :=
  let eC := m.edges.map (centroid K m.coors)
  let o1 := m.coors.length
  { coors := m.coors ++ eC
    conn := stackT m.conn.length 4 3 (m.node o1 0 0) tab23
    groups := groupsRepeat m.groups 4 }

/-- `refine_2_4()` (refine.py:69-109). -/
def refine24 (m : RMesh V) : Refined V :=
  let eC := m.edges.map (centroid K m.coors)
  let cC := m.conn.map (centroid K m.coors)
  let o1 := m.coors.length
  let o2 := o1 + eC.length
  { coors := m.coors ++ eC ++ cC
    conn := stackT m.conn.length 4 4 (m.node o1 0 o2) tab24
    groups := groupsRepeat m.groups 4 }

/-- `refine_3_4()` (refine.py:111-168). -/
def refine34 (m : RMesh V) : Refined V :=
  let eC := m.edges.map (centroid K m.coors)
  let o1 := m.coors.length
  { coors := m.coors ++ eC
    conn := stackT m.conn.length 8 4 (m.node o1 0 0) tab34
    groups := groupsRepeat m.groups 8 }

/-- `refine_3_8()` (refine.py:170-213). -/
def refine38 (m : RMesh V) : Refined V :=
  let eC := m.edges.map (centroid K m.coors)
  let fC := m.faces.map (centroid K m.coors)
  let cC := m.conn.map (centroid K m.coors)
  let o1 := m.coors.length
  let o2 := o1 + eC.length
  let o3 := o2 + fC.length
  { coors := m.coors ++ eC ++ fC ++ cC
    conn := stackT m.conn.length 8 8 (m.node o1 o2 o3) tab38
    groups := groupsRepeat m.groups 8 }

end

end

section

variable {K : Type} [Field K] [LinearOrder K]

/-- `refine_1_2()` (refine.py:9-32): `none` for the ValueError of line 15 and for the shape error in
the assignment of the centroids (line 21, the number of cells differs from the number of nodes minus
one).  `arange(n_nod).repeat(2)[1:-1].reshape((-1, 2))` is modelled item by item. -/
def refine12 (m : RMesh K) : Option (Refined K) :=
  let n := m.coors.length
  if (List.range (n - 1)).all fun i => m.coors.getD i 0 ≤ m.coors.getD (i + 1) 0 then
    let cC := m.conn.map (centroid K m.coors)
    if cC.length + 1 = n then
      let nNod := 2 * n - 1
      let rep := ((List.range nNod).flatMap fun i => List.replicate 2 i).tail.dropLast
      some
        { coors := (List.range nNod).map fun i =>
            if i % 2 = 0 then m.coors.getD (i / 2) 0 else cC.getD (i / 2) 0
          conn := reshape (nNod - 1) 2 rep
          groups := groupsRepeat m.groups 2 }
    else none
  else none

end

end Verif.Mesh
