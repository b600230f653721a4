/-
The hierarchical elements with Lobatto functions: the functions (sfepy/discrete/fem/extmods/lobatto1d.c, lobatto.c), the
element `LobattoTensorProductPolySpace` (sfepy/discrete/fem/poly_spaces.py:897-1090) and the fields
`H1HierarchicVolumeField` (sfepy/discrete/fem/fields_hierarchic.py).  Floating point numbers are reals, `sqrt()` is the
real square root.
-/
import Verif.Poly.LobTables
import Verif.Fem.Nodes
import Mathlib.Analysis.SpecialFunctions.Pow.Real
import Mathlib.Analysis.Real.Sqrt

namespace Verif.Poly.Lob

open Verif.Fem
open Finset

/-- The variables of an expression: the point and the square root. -/
def env (x r : ℝ) (i : Fin 4) : ℝ := if i = 0 then x else if i = 3 then r else 0

/-- `lobatto[k](x)` (sfepy/discrete/fem/extmods/lobatto1d.c:12-65). -/
noncomputable def lob (k : ℕ) (x : ℝ) : ℝ := (lobattoTab.getD k (.c 0)).eval (env x √(lobattoRad.getD k 1))

/-- `d_lobatto[k](x)` (sfepy/discrete/fem/extmods/lobatto1d.c:69-122). -/
noncomputable def dLob (k : ℕ) (x : ℝ) : ℝ := (dLobattoTab.getD k (.c 0)).eval (env x √(dLobattoRad.getD k 1))

/-- `kernel[k - 2](x)` (sfepy/discrete/fem/extmods/lobatto1d.c:126-169). -/
noncomputable def ker (k : ℕ) (x : ℝ) : ℝ := (kernelTab.getD (k - 2) (.c 0)).eval (env x √(kernelRad.getD (k - 2) 1))

/-- `d_kernel[k - 2](x)` (sfepy/discrete/fem/extmods/lobatto1d.c:173-216). -/
noncomputable def dKer (k : ℕ) (x : ℝ) : ℝ := (dKernelTab.getD (k - 2) (.c 0)).eval (env x √(dKernelRad.getD (k - 2) 1))

/-- `legendre[k](x)` (sfepy/discrete/fem/extmods/lobatto1d.c:220-273). -/
noncomputable def leg (k : ℕ) (x : ℝ) : ℝ := (legendreTab.getD k (.c 0)).eval (env x 0)

/-- `d_legendre[k](x)` (sfepy/discrete/fem/extmods/lobatto1d.c:277-330). -/
noncomputable def dLeg (k : ℕ) (x : ℝ) : ℝ := (dLegendreTab.getD k (.c 0)).eval (env x 0)

/-- `xis = 2.0 * (coors - cmin) / dx - 1.0` (sfepy/discrete/fem/extmods/lobatto.c:55-58). -/
noncomputable def xi (cmin cmax x : ℝ) : ℝ := 2 * (x - cmin) / (cmax - cmin) - 1

/-- `eval_lobatto_tensor_product()` with `diff = 0` (sfepy/discrete/fem/extmods/lobatto.c:31-71): the function with the
indices `node` in a point. -/
noncomputable def evalTP (dim : ℕ) (node : ℕ → ℕ) (cmin cmax : ℝ) (x : ℕ → ℝ) : ℝ :=
  ∏ ii ∈ range dim, lob (node ii) (xi cmin cmax (x ii))

/-- `eval_lobatto_tensor_product()` with `diff = 1` (sfepy/discrete/fem/extmods/lobatto.c:72-90): the derivative in the
direction `ir`. -/
noncomputable def evalTPGrad (dim : ℕ) (node : ℕ → ℕ) (cmin cmax : ℝ) (x : ℕ → ℝ) (ir : ℕ) : ℝ :=
  (∏ ii ∈ range dim, if ir = ii then dLob (node ii) (xi cmin cmax (x ii)) else lob (node ii) (xi cmin cmax (x ii))) * 2

/-! ### The nodes -/

/-- `nm.arange(2, order + 1)` (sfepy/discrete/fem/poly_spaces.py:953, 975, 1009). -/
def ik (order : ℕ) : List ℕ := List.range' 2 (order - 1)

/-- The first axis with the given property: `nm.where(...)[0][0]`. -/
def firstAxis (dim : ℕ) (p : ℕ → Bool) : ℕ := ((List.range dim).filter p).headD 0

/-- The nodes of one edge (sfepy/discrete/fem/poly_spaces.py:956-965). -/
def edgeNodes (dim order ie : ℕ) (edge : List ℕ) : List Nod :=
  let n1 := vertexMap dim (edge.getD 0 0)
  let n2 := vertexMap dim (edge.getD 1 0)
  let irun := firstAxis dim fun d => n1 d ≠ n2 d
  (ik order).map fun k =>
    { nt := (1, ie), row := fun d => if n1 d = n2 d then n1 d else if d = irun then k else 0 }

/-- `asum` of a face (sfepy/discrete/fem/poly_spaces.py:980-983). -/
def asum (dim : ℕ) (face : List ℕ) (d : ℕ) : ℕ :=
  ∑ i ∈ range 3, ((vertexMap dim (face.getD (i + 1) 0) d : ℤ) - vertexMap dim (face.getD i 0) d).natAbs

/-- `ifix` (sfepy/discrete/fem/poly_spaces.py:984). -/
def ifix (dim : ℕ) (face : List ℕ) : ℕ := firstAxis dim fun d => asum dim face d = 0

/-- `irun1` (sfepy/discrete/fem/poly_spaces.py:986). -/
def irun1 (dim : ℕ) (face : List ℕ) : ℕ := firstAxis dim fun d => asum dim face d = 2

/-- `irun2` (sfepy/discrete/fem/poly_spaces.py:987). -/
def irun2 (dim : ℕ) (face : List ℕ) : ℕ := firstAxis dim fun d => asum dim face d = 1

/-- A node of a face with the given indices along the axes `irun1`, `irun2`
(sfepy/discrete/fem/poly_spaces.py:991-993, 997-999). -/
def faceRow (dim : ℕ) (face : List ℕ) (a b d : ℕ) : ℕ :=
  if d = irun2 dim face then b
  else if d = irun1 dim face then a
  else if d = ifix dim face then vertexMap dim (face.getD 0 0) (ifix dim face)
  else 0

/-- `iy, ix = nm.meshgrid(ik, ik)` raveled (sfepy/discrete/fem/poly_spaces.py:989): the pairs `ix`, `iy`. -/
def mesh2 (order : ℕ) : List (ℕ × ℕ) := (ik order).flatMap fun ix => (ik order).map fun iy => (ix, iy)

/-- The nodes of one face (sfepy/discrete/fem/poly_spaces.py:979-994). -/
def faceNodes (dim order ifa : ℕ) (face : List ℕ) : List Nod :=
  (mesh2 order).map fun p => { nt := (2, ifa), row := faceRow dim face p.1 p.2 }

/-- The nodes of one face with the axes swapped, `sfnodes` (sfepy/discrete/fem/poly_spaces.py:996-999). -/
def sfaceNodes (dim order ifa : ℕ) (face : List ℕ) : List Nod :=
  (mesh2 order).map fun p => { nt := (2, ifa), row := faceRow dim face p.2 p.1 }

/-- The bubble nodes: `product(*([ik] * dim))` (sfepy/discrete/fem/poly_spaces.py:1007-1012). -/
def bubbleNodes (dim order : ℕ) : List Nod :=
  if dim = 2 then
    (mesh2 order).map fun p => { nt := (3, 0), row := fun d => if d = 0 then p.1 else if d = 1 then p.2 else 0 }
  else
    (ik order).flatMap fun a => (mesh2 order).map fun p =>
      { nt := (3, 0), row := fun d => if d = 0 then a else if d = 1 then p.1 else if d = 2 then p.2 else 0 }

/-- The vertex nodes (sfepy/discrete/fem/poly_spaces.py:945-949). -/
def vertexNodes (g : Gel) : List Nod := (List.range g.nV).map fun ii => { nt := (0, ii), row := vertexMap g.dim ii }

/-- `_define_nodes()` (sfepy/discrete/fem/poly_spaces.py:934-1035) of a quadrilateral or a hexahedron: `nodes` and `nts`;
the faces of the quadrilateral, which has no list of faces, are not visited. -/
def nodes (g : Gel) (order : ℕ) : List Nod :=
  vertexNodes g ++ (List.range g.edges.length).flatMap (fun e => edgeNodes g.dim order e (g.edges.getD e []))
    ++ (List.range g.faces.length).flatMap (fun f => faceNodes g.dim order f (g.faces.getD f []))
    ++ bubbleNodes g.dim order

/-- `sfnodes` (sfepy/discrete/fem/poly_spaces.py:968-1003). -/
def sfnodes (g : Gel) (order : ℕ) : List Nod :=
  (List.range g.faces.length).flatMap fun f => sfaceNodes g.dim order f (g.faces.getD f [])

/-- `_get_counts()` (sfepy/discrete/fem/poly_spaces.py:923-932): `n_nod`. -/
def nNod (dim order : ℕ) : ℕ := (order + 1) ^ dim

/-- `node_orders` (sfepy/discrete/fem/poly_spaces.py:916-917). -/
def nodeOrder (dim : ℕ) (row : ℕ → ℕ) : ℕ := ∏ d ∈ range dim, if row d > 0 then row d else 1

/-- `face_indx[0]` (sfepy/discrete/fem/poly_spaces.py:918-919). -/
def faceIndx0 (g : Gel) (order : ℕ) : ℕ := (whereType ((nodes g order).map Nod.nt) 2).headD 0

/-- `face_axes_nodes` (sfepy/discrete/fem/poly_spaces.py:1037-1044): the columns `face_axes[0]` of the nodes of the first
face, repeated for the six faces. -/
def faceAxesNodes (g : Gel) (order m : ℕ) : ℕ × ℕ :=
  let row := rowAt (nodes g order) (faceIndx0 g order + m % (order - 1) ^ 2)
  (row (irun1 g.dim (g.faces.getD 0 [])), row (irun2 g.dim (g.faces.getD 0 [])))

/-! ### The oriented basis -/

/-- `_eval_basis()` of one cell with `ori` (sfepy/discrete/fem/poly_spaces.py:1046-1090): the function `k` with the item `o`
of `ori` in a point, the element is `[0, 1]^dim` (`bbox`). -/
noncomputable def orientedVal (g : Gel) (order : ℕ) (o k : ℕ) (x : ℕ → ℝ) : ℝ :=
  let b := evalTP g.dim (rowAt (nodes g order) k) 0 1 x
  let nt := (((nodes g order).map Nod.nt).getD k (0, 0)).1
  if nt = 1 then if o = 1 then -b else b
  else if nt = 2 then
    let b := if o = 1 ∨ o = 2 then -b else b
    let b := if 4 ≤ o then evalTP g.dim (rowAt (sfnodes g order) (k - faceIndx0 g order)) 0 1 x else b
    if o = 5 ∨ o = 6 then -b else b
  else b

/-! ### The field -/

/-- `self.econn[iel[:, None], iep] = ...` (sfepy/discrete/fem/fields_hierarchic.py:70-92): the assignment to the columns of
the facets of all cells. -/
def scatter {β : Type} (desc : List (List ℕ)) (nEl nF : ℕ) (val : ℕ → ℕ → ℕ → β) (arr : ℕ × ℕ → β) : ℕ × ℕ → β :=
  ((List.range nEl).flatMap fun el => (List.range nF).flatMap fun f =>
    (List.range (desc.headD []).length).map fun j => (el, f, j)).foldl (fun arr q =>
      Function.update arr (q.1, (desc.getD q.2.1 []).getD q.2.2 0) (val q.1 q.2.1 q.2.2)) arr

/-- The DOFs of the facets (sfepy/discrete/fem/fields_hierarchic.py:47-92): no permutations. -/
def facetDofs (desc : List (List ℕ)) (offset : ℤ) (cells facets : List ℕ) (ids : ℕ → ℕ → ℕ) (nF : ℕ)
    (econn : ℕ × ℕ → ℤ) : (ℕ × ℕ → ℤ) × ℤ :=
  let nd := (desc.headD []).length
  (scatter desc cells.length nF (fun el f j => offset + (nd * prepareRemap facets (ids (cells.getD el 0) f) + j)) econn,
    nd * facets.length)

/-- `tp_edge_ori`: the edge has the direction of an axis (sfepy/discrete/fem/fields_hierarchic.py:97-101); the coordinates
of the reference element are `vertex_maps`. -/
def tpEdgeOri (dim : ℕ) (edge : List ℕ) : Bool :=
  0 < ∑ d ∈ range dim, ((vertexMap dim (edge.getD 1 0) d : ℤ) - vertexMap dim (edge.getD 0 0) d)

/-- The orientation items of the edges (sfepy/discrete/fem/fields_hierarchic.py:94-111). -/
def edgeOris (g : Gel) (order : ℕ) (desc : List (List ℕ)) (cells : List ℕ) (oris : ℕ → ℕ → ℕ) (ori : ℕ × ℕ → ℕ) :
    ℕ × ℕ → ℕ :=
  scatter desc cells.length g.edges.length (fun el e j =>
    let o := oris (cells.getD el 0) e
    let o := if tpEdgeOri g.dim (g.edges.getD e []) then o else 1 - o
    o * (nodeOrder g.dim (rowAt (nodes g order) ((desc.getD e []).getD j 0)) % 2)) ori

/-- The list given to `prepare_translate()` (sfepy/discrete/fem/fields_hierarchic.py:133-140). -/
def translateKeys : List ℕ :=
  [31, 59, 63, 0, 1, 4, 22, 30, 62, 32, 33, 41, 11, 15, 43, 3, 6, 7, 20, 52, 60, 48, 56, 57]

/-- `translate[ori]` with `new = nm.repeat(nm.arange(8), 3)` (sfepy/discrete/fem/fields_hierarchic.py:132-141,
sfepy/discrete/fem/utils.py:31-45); the items that are not in the list are 0 here. -/
def translate (key : ℕ) : ℕ := if key ∈ translateKeys then translateKeys.idxOf key / 3 else 0

/-- The masks of the odd orders (sfepy/discrete/fem/fields_hierarchic.py:149-156). -/
def maskOri (o eoo0 eoo1 : ℕ) : ℕ :=
  if o < 4 then (o &&& (2 * eoo0 + 5)) &&& (eoo1 + 6) else (o &&& (eoo0 + 6)) &&& (2 * eoo1 + 5)

/-- The orientation items of the faces (sfepy/discrete/fem/fields_hierarchic.py:116-158). -/
def faceOris (g : Gel) (order : ℕ) (desc : List (List ℕ)) (cells : List ℕ) (oris : ℕ → ℕ → ℕ) (ori : ℕ × ℕ → ℕ) :
    ℕ × ℕ → ℕ :=
  scatter desc cells.length g.faces.length (fun el f j =>
    let o := translate (oris (cells.getD el 0) f)
    let orders := faceAxesNodes g order ((desc.getD f []).getD j 0 - faceIndx0 g order)
    maskOri o (orders.1 % 2) (orders.2 % 2)) ori

/-- `_setup_edge_dofs()` (sfepy/discrete/fem/fields_hierarchic.py:25-34): the connectivity, the number of the DOFs, the
orientations. -/
def edgePhase (g : Gel) (order : ℕ) (d : FieldData) (offset : ℤ) (econn : ℕ × ℕ → ℤ) (ori : ℕ × ℕ → ℕ) :
    ((ℕ × ℕ → ℤ) × ℤ) × (ℕ × ℕ → ℕ) :=
  let nts := (nodes g order).map Nod.nt
  match describeFacets nts (whereType nts 1) with
  | none => ((econn, 0), ori)
  | some desc => (facetDofs desc offset d.cells d.edges d.edgeId g.edges.length econn,
      edgeOris g order desc d.cells d.edgeOri ori)

/-- `_setup_face_dofs()` (sfepy/discrete/fem/fields_hierarchic.py:36-45). -/
def facePhase (g : Gel) (order : ℕ) (d : FieldData) (offset : ℤ) (econn : ℕ × ℕ → ℤ) (ori : ℕ × ℕ → ℕ) :
    ((ℕ × ℕ → ℤ) × ℤ) × (ℕ × ℕ → ℕ) :=
  let nts := (nodes g order).map Nod.nt
  match describeFacets nts (whereType nts 2) with
  | none => ((econn, 0), ori)
  | some desc => (facetDofs desc offset d.cells d.faces d.faceId g.faces.length econn,
      faceOris g order desc d.cells d.faceOri ori)

/-- `_setup_global_basis()` of a hierarchic field (sfepy/discrete/fem/fields_base.py:361-385,
sfepy/discrete/fem/fields_hierarchic.py:14-23, 164-186): the connectivity, the orientations and the number of the DOFs. -/
def setupGlobalBasis (g : Gel) (order : ℕ) (d : FieldData) : (ℕ × ℕ → ℤ) × (ℕ × ℕ → ℕ) × ℤ :=
  let v := setupVertexDofs g d
  let e := edgePhase g order d v.2 v.1 fun _ => 0
  let f := facePhase g order d (v.2 + e.1.2) e.1.1 e.2
  let b := setupBubbleDofs ((nodes g order).map Nod.nt) d (v.2 + e.1.2 + f.1.2) f.1.1
  (b.1, f.2, v.2 + e.1.2 + f.1.2 + b.2)

end Verif.Poly.Lob
