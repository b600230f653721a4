/-
Model of the evaluation of the Lagrange bases: `sfepy/discrete/fem/extmods/lagrange.c` and the second
derivatives in `sfepy/discrete/fem/poly_spaces.py`.

The floating point numbers are the elements of a field; one point and one node are evaluated at a time (the C
loops over the points and the nodes are independent).  Rows of arrays are functions of the column.
-/
import Verif.Fem.Nodes
import Mathlib.Algebra.Field.Defs

namespace Verif.Fem

variable {K : Type} [Field K]

/-- The value before snapping in `get_barycentric_coors()` (sfepy/discrete/fem/extmods/lagrange.c:105-109):
`mtx_i` has `nV` columns. -/
def baryVal (nV : ℕ) (mtxI : ℕ → ℕ → K) (coor : ℕ → K) (ic : ℕ) : K :=
  (List.range (nV - 1)).foldl (fun val (ii : ℕ) => val + mtxI ic ii * coor ii) 0 + mtxI ic (nV - 1)

/-- The snapping of a value and the error flag (sfepy/discrete/fem/extmods/lagrange.c:110-124). -/
def snap [LinearOrder K] (eps val : K) : K × Bool :=
  let r := if val < 0 then (if -eps < val then (0, false) else (val, true)) else (val, false)
  if 1 < r.1 then (if r.1 < 1 + eps then (1, r.2) else (r.1, true)) else r

/-- `get_barycentric_coors()` for one point (sfepy/discrete/fem/extmods/lagrange.c:87-137); nothing is the
error. -/
def baryCoors [LinearOrder K] (nV : ℕ) (mtxI : ℕ → ℕ → K) (eps : K) (checkErrors : Bool) (coor : ℕ → K) :
    Option (ℕ → K) :=
  if checkErrors && (List.range nV).any fun ic => (snap eps (baryVal nV mtxI coor ic)).2 then none
  else some fun ic => (snap eps (baryVal nV mtxI coor ic)).1

/-- `eval_lagrange_simplex()` without `diff` for one node (sfepy/discrete/fem/extmods/lagrange.c:475-490). -/
def lagVal (nV order : ℕ) (bc : ℕ → K) (node : ℕ → ℕ) : K :=
  (List.range nV).foldl (fun p (i1 : ℕ) =>
    (List.range (node i1)).foldl (fun p (i2 : ℕ) => p * ((order * bc i1 - i2) / (i2 + 1))) p) 1

/-- `vv` in `eval_lagrange_simplex()` (sfepy/discrete/fem/extmods/lagrange.c:499-511). -/
def lagVV (nV order : ℕ) (bc : ℕ → K) (node : ℕ → ℕ) (ii : ℕ) : K :=
  (List.range nV).foldl (fun p (i1 : ℕ) =>
    if i1 = ii then p
    else (List.range (node i1)).foldl (fun p (i2 : ℕ) => p * ((order * bc i1 - i2) / (i2 + 1))) p) 1

/-- `dval` in `eval_lagrange_simplex()` (sfepy/discrete/fem/extmods/lagrange.c:514-525). -/
def lagDval (order : ℕ) (bcii : K) (nii : ℕ) : K :=
  (List.range nii).foldl (fun dval (i1 : ℕ) =>
    dval + ((List.range nii).foldl (fun dd (i2 : ℕ) => if i1 = i2 then dd else dd * ((order * bcii - i2) / (i2 + 1))) 1)
      * order / (i1 + 1)) 0

/-- `eval_lagrange_simplex()` with `diff` for one node: the row `ir` of the gradient
(sfepy/discrete/fem/extmods/lagrange.c:491-534). -/
def lagGrad (nV order : ℕ) (mtxI : ℕ → ℕ → K) (bc : ℕ → K) (node : ℕ → ℕ) (ir : ℕ) : K :=
  (List.range nV).foldl (fun p (ii : ℕ) => p + lagVV nV order bc node ii * lagDval order (bc ii) (node ii) * mtxI ii ir) 0

/-- The bubble of `eval_basis_lagrange()` (sfepy/discrete/fem/extmods/lagrange.c:347-349, 369-387): its order is
the sum of the items of the last node. -/
def bubbleVal (nV : ℕ) (bc : ℕ → K) (bnode : ℕ → ℕ) : K :=
  lagVal nV ((List.range nV).foldl (fun o (i : ℕ) => o + bnode i) 0) bc bnode

/-- The gradient of the bubble (sfepy/discrete/fem/extmods/lagrange.c:369-387). -/
def bubbleGrad (nV : ℕ) (mtxI : ℕ → ℕ → K) (bc : ℕ → K) (bnode : ℕ → ℕ) (ir : ℕ) : K :=
  lagGrad nV ((List.range nV).foldl (fun o (i : ℕ) => o + bnode i) 0) mtxI bc bnode ir

/-- The value of the function `k` of the simplex space of `nNod` functions with a forced bubble
(sfepy/discrete/fem/extmods/lagrange.c:366-397): the bubble is the last one, `bubble / (n_nod - 1)` is
subtracted from the others. -/
def bValue (nV order nNod : ℕ) (nodes : ℕ → ℕ → ℕ) (bc : ℕ → K) (k : ℕ) : K :=
  if k = nNod - 1 then bubbleVal nV bc (nodes (nNod - 1))
  else lagVal nV order bc (nodes k) - 1 / ((nNod - 1 : ℕ) : K) * bubbleVal nV bc (nodes (nNod - 1))

/-- The gradient of the function `k` of the simplex space with a forced bubble
(sfepy/discrete/fem/extmods/lagrange.c:366-397). -/
def bGrad (nV order nNod : ℕ) (nodes : ℕ → ℕ → ℕ) (mtxI : ℕ → ℕ → K) (bc : ℕ → K) (k ir : ℕ) : K :=
  if k = nNod - 1 then bubbleGrad nV mtxI bc (nodes (nNod - 1)) ir
  else lagGrad nV order mtxI bc (nodes k) ir
    - 1 / ((nNod - 1 : ℕ) : K) * bubbleGrad nV mtxI bc (nodes (nNod - 1)) ir

/-- The nodes of `LagrangeSimplexBPolySpace` (sfepy/discrete/fem/poly_spaces.py:451-478): a node of ones is
added. -/
def simplexBNodes (g : Gel) (order : ℕ) : List Nod :=
  simplexNodes g order ++ [⟨(3, 0), fun i => if i < g.nV then 1 else 0⟩]

/-- The basis in one point of a simplex with a forced bubble, `eval_basis_lagrange()` with `is_bubble`
(sfepy/discrete/fem/extmods/lagrange.c:358-399). -/
def evalSimplexB [LinearOrder K] (nV order : ℕ) (mtxI : ℕ → ℕ → K) (eps : K) (checkErrors : Bool) (nodes : List Nod)
    (coor : ℕ → K) : Option (List K) :=
  (baryCoors nV mtxI eps checkErrors coor).map fun bc =>
    (List.range nodes.length).map fun k => bValue nV order nodes.length (rowAt nodes) bc k

/-- `eval_lagrange_tensor_product()` without `diff` for one node
(sfepy/discrete/fem/extmods/lagrange.c:558-573): `bc ii` are the two coordinates in the direction `ii`. -/
def tenVal (dim order : ℕ) (bc : ℕ → ℕ → K) (node : ℕ → ℕ) : K :=
  (List.range dim).foldl (fun out (ii : ℕ) => out * lagVal 2 order (bc ii) fun i => node (2 * ii + i)) 1

/-- `eval_lagrange_tensor_product()` with `diff` for one node: the row `idim` of the gradient
(sfepy/discrete/fem/extmods/lagrange.c:575-597). -/
def tenGrad (dim order : ℕ) (mtxI : ℕ → ℕ → K) (bc : ℕ → ℕ → K) (node : ℕ → ℕ) (idim : ℕ) : K :=
  (List.range dim).foldl (fun out (ii : ℕ) => out *
    if ii = idim then lagGrad 2 order mtxI (bc ii) (fun i => node (2 * ii + i)) 0
    else lagVal 2 order (bc ii) fun i => node (2 * ii + i)) 1

/-- The basis in one point of a simplex, `eval_basis_lagrange()`
(sfepy/discrete/fem/extmods/lagrange.c:322-445): the values for all the nodes. -/
def evalSimplex [LinearOrder K] (nV order : ℕ) (mtxI : ℕ → ℕ → K) (eps : K) (checkErrors : Bool) (nodes : List Nod)
    (coor : ℕ → K) : Option (List K) :=
  (baryCoors nV mtxI eps checkErrors coor).map fun bc => nodes.map fun n => lagVal nV order bc n.row

/-- The gradients in one point of a simplex (sfepy/discrete/fem/extmods/lagrange.c:322-445). -/
def evalSimplexGrad [LinearOrder K] (nV order : ℕ) (mtxI : ℕ → ℕ → K) (eps : K) (checkErrors : Bool)
    (nodes : List Nod) (coor : ℕ → K) : Option (List (ℕ → K)) :=
  (baryCoors nV mtxI eps checkErrors coor).map fun bc => nodes.map fun n => lagGrad nV order mtxI bc n.row

/-- The barycentric coordinates in each direction (sfepy/discrete/fem/extmods/lagrange.c:408-413); the slice
`coor->val + ii` starts at the item `ii`. -/
def tenCoors [LinearOrder K] (dim : ℕ) (mtxI : ℕ → ℕ → K) (eps : K) (checkErrors : Bool) (coor : ℕ → K) :
    Option (ℕ → ℕ → K) :=
  if (List.range dim).any fun ii => (baryCoors 2 mtxI eps checkErrors fun j => coor (ii + j)).isNone then none
  else some fun ii => (baryCoors 2 mtxI eps checkErrors fun j => coor (ii + j)).getD fun _ => 0

/-- The basis in one point of a tensor product element (sfepy/discrete/fem/extmods/lagrange.c:400-416). -/
def evalTensor [LinearOrder K] (dim order : ℕ) (mtxI : ℕ → ℕ → K) (eps : K) (checkErrors : Bool) (nodes : List Nod)
    (coor : ℕ → K) : Option (List K) :=
  (tenCoors dim mtxI eps checkErrors coor).map fun bc => nodes.map fun n => tenVal dim order bc n.row

/-- The gradients in one point of a tensor product element (sfepy/discrete/fem/extmods/lagrange.c:400-416). -/
def evalTensorGrad [LinearOrder K] (dim order : ℕ) (mtxI : ℕ → ℕ → K) (eps : K) (checkErrors : Bool)
    (nodes : List Nod) (coor : ℕ → K) : Option (List (ℕ → K)) :=
  (tenCoors dim mtxI eps checkErrors coor).map fun bc => nodes.map fun n => tenGrad dim order mtxI bc n.row

/-! ### Second derivatives -/

/-- `get_val()` in `LagrangeSimplexPolySpace._eval_hessian()` (sfepy/discrete/fem/poly_spaces.py:390-398). -/
def hessVal (nV order : ℕ) (bc : ℕ → K) (node : ℕ → ℕ) (om : List ℕ) : K :=
  (List.range nV).foldl (fun val (i1 : ℕ) =>
    if i1 ∈ om then val
    else (List.range (node i1)).foldl (fun val (i2 : ℕ) => val * ((order * bc i1 - i2) / (i2 + 1))) val) 1

/-- `get_der()` in `LagrangeSimplexPolySpace._eval_hessian()` (sfepy/discrete/fem/poly_spaces.py:400-413). -/
def hessDer (order : ℕ) (bc1 : K) (node1 : ℕ) (om : List ℕ) : K :=
  (List.range node1).foldl (fun val (i1 : ℕ) =>
    if i1 ∈ om then val
    else val + ((List.range node1).foldl (fun aux (i2 : ℕ) =>
      if i1 = i2 ∨ i2 ∈ om then aux else aux * ((order * bc1 - i2) / (i2 + 1))) 1) * order / (i1 + 1)) 0

/-- The `val` of `LagrangeSimplexPolySpace._eval_hessian()` (sfepy/discrete/fem/poly_spaces.py:425-441): the
second derivative with respect to the barycentric coordinates `ig1`, `ig2`. -/
def hessItem (nV order : ℕ) (bc : ℕ → K) (node : ℕ → ℕ) (ig1 ig2 : ℕ) : K :=
  if ig1 = ig2 then
    hessVal nV order bc node [ig1] *
      (List.range (node ig1)).foldl (fun vv (i1 : ℕ) => vv + hessDer order (bc ig2) (node ig2) [i1] * order / (i1 + 1)) 0
  else
    hessVal nV order bc node [ig1, ig2] * hessDer order (bc ig1) (node ig1) [] * hessDer order (bc ig2) (node ig2) []

/-- `LagrangeSimplexPolySpace._eval_hessian()` for one point and one node
(sfepy/discrete/fem/poly_spaces.py:380-444): the item `ir, ic`; `get_bc()` is the unsnapped value. -/
def lagHess (nV order : ℕ) (mtxI : ℕ → ℕ → K) (bc : ℕ → K) (node : ℕ → ℕ) (ir ic : ℕ) : K :=
  (List.range nV).foldl (fun out (ig1 : ℕ) => (List.range nV).foldl (fun out (ig2 : ℕ) =>
    out + hessItem nV order bc node ig1 ig2 * mtxI ig1 ic * mtxI ig2 ir) out) 0

/-- `LagrangeTensorProductPolySpace._eval_hessian()` for one point and one node
(sfepy/discrete/fem/poly_spaces.py:636-676): the item `ir, ic`. -/
def tenHess (dim order : ℕ) (mtxI : ℕ → ℕ → K) (bc : ℕ → ℕ → K) (node : ℕ → ℕ) (ir ic : ℕ) : K :=
  let v0 := fun ii => lagVal 2 order (bc ii) fun i => node (2 * ii + i)
  let v1 := fun ii => lagGrad 2 order mtxI (bc ii) (fun i => node (2 * ii + i)) 0
  let v2 := fun ii => lagHess 2 order mtxI (bc ii) (fun i => node (2 * ii + i)) 0 0
  if ic = ir then
    (List.range dim).foldl (fun vv (ik : ℕ) => if ik = ir then vv else vv * v0 ik) (v2 ir)
  else
    0 + (List.range dim).foldl (fun val (ik : ℕ) => if ik = ir ∨ ik = ic then val else val * v0 ik) (v1 ir * v1 ic)

end Verif.Fem
