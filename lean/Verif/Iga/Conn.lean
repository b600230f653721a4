import Verif.Iga.Extract

/-!
# Connectivities, operators in more dimensions, Bezier control points (discrete/iga/iga.py)

The branches of the code for the dimensions 1, 2 and 3 are written here as one recursion over the list
of the parametric directions.
-/

namespace Iga

variable {K : Type*} [Field K]

/-- The loops over all multi-indices, the last index is the fastest
(`for i0 …: for i1 …: for i2 …`, sfepy/discrete/iga/iga.py:184-188, 303-312, 805-807). -/
def tp : List ℕ → List (List ℕ)
  | [] => [[]]
  | n :: ns => (List.range n).flatMap fun i => (tp ns).map (i :: ·)

/-- `get_raveled_index` = `nm.ravel_multi_index`, C order (sfepy/discrete/iga/iga.py:27-32; in C
sfepy/discrete/iga/extmods/nurbs.c:3-22). -/
def ravel : List ℕ → List ℕ → ℕ
  | _ :: ns, i :: is => i * ns.prod + ravel ns is
  | _, _ => 0

/-- `get_unraveled_indices` = `nm.unravel_index` (sfepy/discrete/iga/iga.py:34-39; in C
sfepy/discrete/iga/extmods/nurbs.c:24-34). -/
def unravel : List ℕ → ℕ → List ℕ
  | [], _ => []
  | _ :: ns, k => (k / ns.prod) :: unravel ns (k % ns.prod)

/-- The loop over the inner knots: the multiplicities (sfepy/discrete/iga/iga.py:228-236). -/
def mulLoop [DecidableEq K] (t : ℕ → K) (n p : ℕ) : ℕ → ℕ → List ℕ
  | 0, _ => []
  | fuel + 1, i0 =>
    if i0 < n - p - 1 then
      let ii := scanKnot t (n - p - 1) (n - p - 1) i0
      (ii - i0 + 1) :: mulLoop t n p fuel (ii + 1)
    else []

/-- `nm.cumsum` (sfepy/discrete/iga/iga.py:241). -/
def cumsum : ℕ → List ℕ → List ℕ
  | _, [] => []
  | s, x :: xs => (s + x) :: cumsum (s + x) xs

/-- `create_connectivity_1d`: the connectivity of the B-splines (sfepy/discrete/iga/iga.py:227-241, 247). -/
def conn1d [DecidableEq K] (knots : List K) (p : ℕ) : List (List ℕ) :=
  (cumsum 0 (0 :: mulLoop (knotFn knots) knots.length p knots.length (p + 1))).map fun c =>
    (List.range (p + 1)).map fun l => l + c

/-- `create_connectivity_1d`: the connectivity of the Bezier basis (sfepy/discrete/iga/iga.py:243-247). -/
def bconn1d (nEl p : ℕ) : List (List ℕ) :=
  (List.range nEl).map fun e => (List.range (p + 1)).map fun l => l + p * e

/-- `conn1d.max() + 1` (sfepy/discrete/iga/iga.py:285-286). -/
def numFuns (conn : List (List ℕ)) : ℕ := conn.flatten.foldl max 0 + 1

/-- One row of `make_conn_2d`, `make_conn_3d`: the rows `cs = [c0, c1, …]` of the element in the
directions; the entry `iloc` is the `iloc`-th in the loop over the local indices
(sfepy/discrete/iga/iga.py:293-342). -/
def rowNd (nG : List ℕ) (nEfuns : List ℕ) (cs : List (List ℕ)) : List ℕ :=
  (tp nEfuns).map fun il => ravel nG (List.zipWith (fun c i => c.getD i 0) cs il)

/-- `make_conn_2d`, `make_conn_3d` (sfepy/discrete/iga/iga.py:293-342); the element `ie` is the `ie`-th in the
loop over the elements. -/
def makeConn (conns : List (List (List ℕ))) (nG nEls nEfuns : List ℕ) : List (List ℕ) :=
  (tp nEls).map fun ie => rowNd nG nEfuns (List.zipWith (fun conn e => conn.getD e []) conns ie)

/-- `create_connectivity`: the global basis (sfepy/discrete/iga/iga.py:249-348). -/
def createConn [DecidableEq K] (nEls : List ℕ) (knots : List (List K)) (degrees : List ℕ) :
    List (List ℕ) :=
  let conns := List.zipWith conn1d knots degrees
  makeConn conns (conns.map numFuns) nEls (degrees.map (· + 1))

/-- `create_connectivity`: the Bezier basis (sfepy/discrete/iga/iga.py:249-348). -/
def createBconn (nEls : List ℕ) (degrees : List ℕ) : List (List ℕ) :=
  let bconns := List.zipWith bconn1d nEls degrees
  makeConn bconns (bconns.map numFuns) nEls (degrees.map (· + 1))

/-- `tensor_product(a, b)` for a square `b` with `n` rows (sfepy/discrete/iga/iga.py:41-61): the block
`ir, ic` of `n` rows and columns is `a[ir, ic] * b`.
The code swaps `b.shape[0]` and `b.shape[1]`; for a square `b`, the only use, it does not matter. -/
def tensorProduct (n : ℕ) (a b : Op K) : Op K := fun i j => a (i / n) (j / n) * b (i % n) (j % n)

/-- The operator of one element in more dimensions,
`tensor_product(c0[i0], tensor_product(c1[i1], c2[i2]))` (sfepy/discrete/iga/iga.py:187, 198, 203), with the
sizes of the operators. -/
def combineOne : List (ℕ × Op K) → Op K
  | [] => fun _ _ => 1
  | [c] => c.2
  | c :: cs => tensorProduct (cs.map Prod.fst).prod c.2 (combineOne cs)

/-- `combine_bezier_extraction` (sfepy/discrete/iga/iga.py:161-205); `sizes` are the numbers of rows of the
operators. -/
def combineExtraction (sizes : List ℕ) (cs : List (List (Op K))) : List (Op K) :=
  (tp (cs.map List.length)).map fun ie =>
    combineOne (sizes.zip (List.zipWith (fun c e => c.getD e eye) cs ie))

/-- The Bezier weights of one element, `bew = nm.dot(cc.T, ew)` (sfepy/discrete/iga/iga.py:384-387). -/
def bezWeight (n : ℕ) (cc : Op K) (ew : ℕ → K) (k : ℕ) : K :=
  ∑ i ∈ Finset.range n, cc i k * ew i

/-- A coordinate of the Bezier control points of one element,
`becp = (1.0 / bew[:, None]) * nm.dot(cc.T, ew[:, None] * ecp)` (sfepy/discrete/iga/iga.py:389). -/
def bezPoint (n : ℕ) (cc : Op K) (ew ecp : ℕ → K) (k : ℕ) : K :=
  1 / bezWeight n cc ew k * ∑ i ∈ Finset.range n, cc i k * (ew i * ecp i)

/-- The loop over the elements with `arr[bec] = vals` (sfepy/discrete/iga/iga.py:380-391). -/
def scatterElems (rows : List (List ℕ × (ℕ → K))) (init : ℕ → K) : ℕ → K :=
  rows.foldl (fun arr r => (List.range r.1.length).foldl
    (fun arr l v => if v = r.1.getD l 0 then r.2 l else arr v) arr) init

/-- `compute_bezier_control`: the weights (sfepy/discrete/iga/iga.py:350-393). -/
def bezierWeights (n : ℕ) (weights : ℕ → K) (ccs : List (Op K)) (conn bconn : List (List ℕ)) : ℕ → K :=
  scatterElems ((conn.zip (ccs.zip bconn)).map fun r =>
    (r.2.2, bezWeight n r.2.1 fun i => weights (r.1.getD i 0))) fun _ => 0

/-- `compute_bezier_control`: a coordinate of the control points (sfepy/discrete/iga/iga.py:350-393). -/
def bezierPoints (n : ℕ) (points weights : ℕ → K) (ccs : List (Op K)) (conn bconn : List (List ℕ)) :
    ℕ → K :=
  scatterElems ((conn.zip (ccs.zip bconn)).map fun r =>
    (r.2.2, bezPoint n r.2.1 (fun i => weights (r.1.getD i 0)) fun i => points (r.1.getD i 0)))
    fun _ => 0

/-! ### Evaluation -/

/-- A 1D B-spline basis in a point: `N = C B`, `dN_dxi = C dB_dxi` (sfepy/discrete/iga/iga.py:779-795; in C
sfepy/discrete/iga/extmods/nurbs.c:367-387). -/
structure Basis1d (K : Type*) where
  p : ℕ
  N : ℕ → K
  dN : ℕ → K

/-- (sfepy/discrete/iga/iga.py:779-795). -/
def evalBasis1d (p : ℕ) (C : Op K) (x : K) : Basis1d K :=
  { p := p
    N := fun i => ∑ k ∈ Finset.range (p + 1), C i k * (evalBernstein x p).1 k
    dN := fun i => ∑ k ∈ Finset.range (p + 1), C i k * (evalBernstein x p).2 k }

/-- `N[0, i0] * N[1, i1] * N[2, i2]` (sfepy/discrete/iga/iga.py:808, 825, 838). -/
def prodAt : List (ℕ → K) → List ℕ → K
  | f :: fs, i :: is => f i * prodAt fs is
  | _, _ => 1

/-- The factors with the `j`-th one differentiated (sfepy/discrete/iga/iga.py:811-818, 828-832, 841). -/
def diffFactors (bs : List (Basis1d K)) (j : ℕ) : List (ℕ → K) :=
  bs.mapIdx fun d b => if d = j then b.dN else b.N

/-- The numerators, in the order of the loops, times the weights `W[a]`
(sfepy/discrete/iga/iga.py:797-844). -/
def numerators (factors : List (ℕ → K)) (idx : List (List ℕ)) (W : ℕ → K) : List K :=
  idx.mapIdx fun a is => prodAt factors is * W a

/-- `R /= w` (sfepy/discrete/iga/iga.py:846-847). -/
def evalR (bs : List (Basis1d K)) (W : ℕ → K) : List K :=
  let num := numerators (bs.map Basis1d.N) (tp (bs.map fun b => b.p + 1)) W
  num.map fun r => r / num.sum

/-- `dR_dxi = (dR_dxi - R[:, None] * dw_dxi) / w`, the column `j` (sfepy/discrete/iga/iga.py:849-850). -/
def evalDR (bs : List (Basis1d K)) (W : ℕ → K) (j : ℕ) : List K :=
  let idx := tp (bs.map fun b => b.p + 1)
  let num := numerators (bs.map Basis1d.N) idx W
  let dnum := numerators (diffFactors bs j) idx W
  List.zipWith (fun d r => (d - r * dnum.sum) / num.sum) dnum (evalR bs W)

/-- `dx_dxi = nm.dot(P.T, dR_dxi)` (sfepy/discrete/iga/iga.py:852-854). `P a i` is the coordinate `i` of the
control point of the local basis function `a`. -/
def dxDxi (bs : List (Basis1d K)) (W : ℕ → K) (P : ℕ → ℕ → K) (i j : ℕ) : K :=
  ∑ a ∈ Finset.range (bs.map fun b => b.p + 1).prod, P a i * (evalDR bs W j).getD a 0

/-- `dR_dx = nm.dot(dR_dxi, dxi_dx)` (sfepy/discrete/iga/iga.py:857-860); `dxiDx` is the inverse that
`nm.linalg.inv` gives. -/
def dRdx (bs : List (Basis1d K)) (W : ℕ → K) (dxiDx : ℕ → ℕ → K) (a i : ℕ) : K :=
  ∑ j ∈ Finset.range bs.length, (evalDR bs W j).getD a 0 * dxiDx j i

end Iga
