/-
Model of the generation of block meshes (`sfepy/mesh/mesh_generators.py:11-123`) and of the conversion
of quadrilaterals and hexahedrons to triangles and tetrahedrons (`sfepy/mesh/mesh_tools.py:13-74`).

Coordinates are in a field.  NumPy arrays are lists in the C order of the items.
-/
import Mathlib.Algebra.Field.Basic
import Mathlib.Data.List.Basic

namespace Verif.Mesh

/-- `grid[a:a+m0].flat` for `grid = arange(n0)` of the shape `(n0,)`. -/
def slice1 (m0 a : ℕ) : List ℕ := (List.range m0).map fun i => i + a

/-- `grid[a:a+m0, b:b+m1].flat` for `grid = arange(n0 * n1)` of the shape `(n0, n1)`. -/
def slice2 (n1 m0 m1 a b : ℕ) : List ℕ :=
  (List.range m0).flatMap fun i => (List.range m1).map fun j => (i + a) * n1 + (j + b)

/-- `grid[a:a+m0, b:b+m1, c:c+m2].flat` for `grid = arange(n0 * n1 * n2)` of the shape
`(n0, n1, n2)`. -/
def slice3 (n1 n2 m0 m1 m2 a b c : ℕ) : List ℕ :=
  (List.range m0).flatMap fun i => (List.range m1).flatMap fun j => (List.range m2).map fun k =>
    ((i + a) * n1 + (j + b)) * n2 + (k + c)

/-- An array of `n` rows given by its columns: `conn[:, 0] = ..., conn[:, 1] = ...`. -/
def ofColumns (n : ℕ) (cols : List (List ℕ)) : List (List ℕ) :=
  (List.range n).map fun e => cols.map fun c => c.getD e 0

/-- `get_tensor_product_conn()` in 1D (mesh_generators.py:35-39); `grid[:-1]` starts at 0, `grid[1:]`
at 1. -/
def tensorConn1 (n0 : ℕ) : List (List ℕ) :=
  ofColumns (n0 - 1) [slice1 (n0 - 1) 0, slice1 (n0 - 1) 1]

/-- `get_tensor_product_conn()` in 2D (mesh_generators.py:41-47). -/
def tensorConn2 (n0 n1 : ℕ) : List (List ℕ) :=
  let g := slice2 n1 (n0 - 1) (n1 - 1)
  ofColumns ((n0 - 1) * (n1 - 1)) [g 0 0, g 1 0, g 1 1, g 0 1]

/-- `get_tensor_product_conn()` in 3D (mesh_generators.py:49-59). -/
def tensorConn3 (n0 n1 n2 : ℕ) : List (List ℕ) :=
  let g := slice3 n1 n2 (n0 - 1) (n1 - 1) (n2 - 1)
  ofColumns ((n0 - 1) * (n1 - 1) * (n2 - 1))
    [g 0 0 0, g 1 0 0, g 1 1 0, g 0 1 0, g 0 0 1, g 1 0 1, g 1 1 1, g 0 1 1]

section

variable {K : Type} [Field K]

/-- One coordinate of a vertex with the grid index `i` (mesh_generators.py:101-108):
`x0 = centre - 0.5 * dims`, `dd = dims / (shape - 1)`, `coors = x0 + ngrid.T * dd`. -/
def axisCoor (dim centre : K) (n i : ℕ) : K :=
  (centre - 1 / 2 * dim) + (i : K) * (dim / ((n : K) - 1))

/-- The coordinates in 1D: `ngrid` is `mgrid` reshaped to `(dim, n_nod)`
(mesh_generators.py:104-108). -/
def blockCoors1 (d c : K) (n0 : ℕ) : List K := (List.range n0).map fun i => axisCoor d c n0 i

/-- The coordinates in 2D. -/
def blockCoors2 (d c : K × K) (n0 n1 : ℕ) : List (K × K) :=
  (List.range n0).flatMap fun i => (List.range n1).map fun j =>
    (axisCoor d.1 c.1 n0 i, axisCoor d.2 c.2 n1 j)

/-- The coordinates in 3D. -/
def blockCoors3 (d c : K × K × K) (n0 n1 n2 : ℕ) : List (K × K × K) :=
  (List.range n0).flatMap fun i => (List.range n1).flatMap fun j => (List.range n2).map fun k =>
    (axisCoor d.1 c.1 n0 i, axisCoor d.2.1 c.2.1 n1 j, axisCoor d.2.2 c.2.2 n2 k)

end

/-- The table of tetrahedrons (mesh_tools.py:17-22). -/
def q2tHex : List (List ℕ) :=
  [[0, 2, 3, 6], [0, 3, 7, 6], [0, 7, 4, 6], [0, 5, 6, 4], [1, 5, 6, 0], [1, 6, 2, 0]]

/-- The table of triangles (mesh_tools.py:25-26). -/
def q2tQuad : List (List ℕ) := [[0, 1, 2], [0, 2, 3]]

/-- `elems_q2t()` (mesh_tools.py:13-38): the row `ii + e * ns` of the result is
`el[e, q2t[ii]]`, for all `ii` and `e`. -/
def elemsQ2T (nnd : ℕ) (el : List (List ℕ)) : List (List ℕ) :=
  let q2t := if nnd > 4 then q2tHex else q2tQuad
  let ns := q2t.length
  (List.range (el.length * ns)).map fun r =>
    (q2t.getD (r % ns) []).map fun v => (el.getD (r / ns) []).getD v 0

/-- The cell groups in `triangulate()` (mesh_tools.py:66): `nm.repeat(cell_groups, nn)` with
`nn = new_conns.shape[0] // nelo`. -/
def repeatGroups (groups : List ℕ) (nn : ℕ) : List ℕ := groups.flatMap fun g => List.replicate nn g

end Verif.Mesh
