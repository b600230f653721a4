import Verif.Iga.Conn

/-!
# Topology, box regions, facets of the Bezier mesh (discrete/iga/iga.py)
-/

namespace Iga

/-- `nm.arange(0, stop, step)` for a positive step (sfepy/discrete/iga/iga.py:460-464, 480-482). -/
def arange (stop step : ℕ) : List ℕ := (List.range ((stop + step - 1) / step)).map fun g => step * g

/-- `(a[None, :] + b[:, None]).ravel()` (sfepy/discrete/iga/iga.py:466-468). -/
def outerAdd (a b : List ℕ) : List ℕ := b.flatMap fun y => a.map fun x => x + y

/-- `get_patch_box_regions` in 3D (sfepy/discrete/iga/iga.py:459-477): `xi00, xi01, xi10, xi11, xi20, xi21`,
`boxes3 … D s` is the region `xiDs`. -/
def boxes3 (e0 e1 e2 p0 p1 p2 : ℕ) : ℕ → ℕ → List ℕ := fun D s =>
  let s0 := e0 * p0 + 1
  let s1 := e1 * p1 + 1
  let s2 := e2 * p2 + 1
  let aux0 := arange s2 p2
  let aux1 := arange (s2 * s1) (s2 * p1)
  let aux2 := arange (s2 * s1 * s0) (s2 * s1 * p0)
  let aux01 := outerAdd aux0 aux1
  let aux02 := outerAdd aux0 aux2
  let aux12 := outerAdd aux1 aux2
  match D, s with
  | 0, 0 => aux01
  | 0, _ => aux01.map (· + s2 * s1 * (s0 - 1))
  | 1, 0 => aux02
  | 1, _ => aux02.map (· + s2 * (s1 - 1))
  | _, 0 => aux12
  | _, _ => aux12.map (· + s2 - 1)

/-- `get_patch_box_regions` in 2D (sfepy/discrete/iga/iga.py:479-489). -/
def boxes2 (e0 e1 p0 p1 : ℕ) : ℕ → ℕ → List ℕ := fun D s =>
  let s0 := e0 * p0 + 1
  let s1 := e1 * p1 + 1
  let aux0 := arange s1 p1
  let aux1 := arange (s1 * s0) (s1 * p0)
  match D, s with
  | 0, 0 => aux0
  | 0, _ => aux0.map (· + s1 * (s0 - 1))
  | _, 0 => aux1
  | _, _ => aux1.map (· + s1 - 1)

/-- `get_patch_box_regions` in 1D (sfepy/discrete/iga/iga.py:491-495). -/
def boxes1 (e0 p0 : ℕ) : ℕ → List ℕ := fun s =>
  match s with
  | 0 => [0]
  | _ => [e0 * p0 + 1 - 1]

/-- `corners` of `get_bezier_topology` (sfepy/discrete/iga/iga.py:414-427) as multi-indices into the array
`ii`; `-1` is the degree. -/
def corners : List ℕ → List (List ℕ)
  | [p0, p1, p2] => [[0, 0, 0], [p0, 0, 0], [p0, p1, 0], [0, p1, 0],
      [0, 0, p2], [p0, 0, p2], [p0, p1, p2], [0, p1, p2]]
  | [p0, p1] => [[0, 0], [p0, 0], [p0, p1], [0, p1]]
  | [p0] => [[0], [p0]]
  | _ => []

/-- `get_bezier_topology`: `tconn = bconn[:, corners]` (sfepy/discrete/iga/iga.py:395-431). -/
def bezierTopology (bconn : List (List ℕ)) (degrees : List ℕ) : List (List ℕ) :=
  bconn.map fun row => (corners degrees).map fun c => row.getD (ravel (degrees.map (· + 1)) c) 0

/-- `get_facet_axes`: the axes of the facets, the last one is the perpendicular one
(sfepy/discrete/iga/iga.py:517-530). -/
def facetAxes : ℕ → List (List ℕ)
  | 3 => [[1, 0, 2], [2, 1, 0], [0, 2, 1], [0, 1, 2], [1, 2, 0], [2, 0, 1]]
  | 2 => [[0, 1], [1, 0], [0, 1], [1, 0]]
  | _ => [[0]]

/-- `get_facet_axes`: the side of the facets; `true` is the coordinate 1
(sfepy/discrete/iga/iga.py:520, 524). -/
def facetSides : ℕ → List Bool
  | 3 => [false, false, false, true, true, true]
  | 2 => [false, true, true, false]
  | _ => []

/-- The body of `create_boundary_qp` for one facet and one point: the values written to the axes
(sfepy/discrete/iga/iga.py:594-598); `init` is the content of `nm.empty`. -/
def boundaryQp {K : Type*} [Zero K] [One K] (axes : List ℕ) (side : Bool) (coors : List K)
    (init : ℕ → K) : ℕ → K :=
  let w := (List.range coors.length).foldl
    (fun (b : ℕ → K) ic x => if x = axes.getD ic 0 then coors.getD ic 0 else b x) init
  fun x => if x = axes.getLastD 0 then (if side then 1 else 0) else w x

/-- `faces` of `get_bezier_element_entities` in 3D (sfepy/discrete/iga/iga.py:633-641), `aux` raveled. -/
def faces3 (n0 n1 n2 : ℕ) : List (List ℕ) :=
  let aux := fun i j k => ravel [n0, n1, n2] [i, j, k]
  let r := List.range
  [(r n0).flatMap fun i => (r n1).map fun j => aux i j 0,
   (r n1).flatMap fun j => (r n2).map fun k => aux 0 j k,
   (r n0).flatMap fun i => (r n2).map fun k => aux i 0 k,
   (r n0).flatMap fun i => (r n1).map fun j => aux i j (n2 - 1),
   (r n1).flatMap fun j => (r n2).map fun k => aux (n0 - 1) j k,
   (r n0).flatMap fun i => (r n2).map fun k => aux i (n1 - 1) k]

/-- `edges` of `get_bezier_element_entities` in 2D (sfepy/discrete/iga/iga.py:664-669). -/
def edges2 (n0 n1 : ℕ) : List (List ℕ) :=
  let aux := fun i j => ravel [n0, n1] [i, j]
  let r := List.range
  [(r n0).map fun i => aux i 0,
   (r n1).map fun j => aux (n0 - 1) j,
   (r n0).map fun i => aux i (n1 - 1),
   (r n1).map fun j => aux 0 j]

end Iga
