/-
A model of the reference mappings of finite elements: `sfepy/discrete/fem/mappings.py`,
`sfepy/discrete/common/mappings.py`.

Arrays are functions of the indices. Floating point numbers are elements of a field (of the real numbers
where a square root is taken), so rounding is not modelled.
-/
import Verif.Linalg.Utils
import Mathlib.Data.Matrix.Mul
import Mathlib.Algebra.Order.Field.Basic
import Mathlib.Analysis.Real.Sqrt
import Mathlib.LinearAlgebra.Matrix.Determinant.Basic

namespace Verif.Term

open Finset Verif.Linalg

/-- The errors of `eval_mapping_data_in_qp()`: `ValueError('warp violation!')`
(sfepy/discrete/fem/mappings.py:158-159), `NotImplementedError` of `invs_fast()`
(sfepy/linalg/utils.py:143). -/
inductive MapErr where
  | warp
  | notImplemented
  deriving DecidableEq

/-- The results of `eval_mapping_data_in_qp()` (sfepy/discrete/fem/mappings.py:188) for volumes: `det[c, q]`,
`volume[c]`, `bfg[c, q, i, k]`. -/
structure MapData (K : Type) (dim : ℕ) where
  det : ℕ → ℕ → K
  volume : ℕ → K
  bfg : ℕ → ℕ → Fin dim → ℕ → K

section field

variable {K : Type} [Field K]

/-- `ecoors = coors[conn, :]` (sfepy/discrete/fem/mappings.py:113-114). -/
def cellCoors {dim : ℕ} (coors : ℕ → Fin dim → K) (conn : ℕ → ℕ → ℕ) (c j : ℕ) (k : Fin dim) : K :=
  coors (conn c j) k

/-- `mtxRM = nm.einsum('cqij,cjk->cqik', bf_g, ecoors)` (sfepy/discrete/fem/mappings.py:116-119) of one
quadrature point of one cell with `nEP` nodes: `bfg[i, j]` is the derivative of the `j`-th basis function in
the `i`-th direction, `ecoors[j, k]` the `k`-th coordinate of the `j`-th node. -/
def mtxRM {td dim : ℕ} (nEP : ℕ) (bfg : Fin td → ℕ → K) (ecoors : ℕ → Fin dim → K) :
    Matrix (Fin td) (Fin dim) K :=
  fun i k => ∑ j ∈ range nEP, bfg i j * ecoors j k

/-- `invs_fast(mtxRM, det0)` (sfepy/linalg/utils.py:98-145). -/
def invsFast : (dim : ℕ) → Matrix (Fin dim) (Fin dim) K → K → Option (Matrix (Fin dim) (Fin dim) K)
  | 1, a, det => some (inv1 a det)
  | 2, a, det => some (inv2 a det)
  | 3, a, det => some (inv3 a det)
  | _, _, _ => none

/-- `bfg = nm.einsum('cqij,xqjk->cqik', mtxRMI, ebf_g)` (sfepy/discrete/fem/mappings.py:172-175) of one
quadrature point. -/
def mulInv {dim : ℕ} (mtxRMI : Matrix (Fin dim) (Fin dim) K) (ebfg : Fin dim → ℕ → K) (i : Fin dim) (k : ℕ) : K :=
  ∑ j, mtxRMI i j * ebfg j k

/-- `eval_mapping_data_in_qp()` (sfepy/discrete/fem/mappings.py:67-188) with `is_face=False`: `nEl` cells,
`nQp` quadrature points, `nEP` nodes of the mapping in a cell. `bfg c q` is `bf_g[q]` or, if it has four
dimensions, `bf_g[c, q]`; `ebfg` is `ebf_g`, an array with `nE` items in its first axis: a first axis of the
length one is shared by all the cells. `nm.linalg.det` (sfepy/linalg/utils.py:72) is the determinant. -/
def evalMapping [LinearOrder K] (dim nEl nQp nEP : ℕ) (ecoors : ℕ → ℕ → Fin dim → K)
    (bfg : ℕ → ℕ → Fin dim → ℕ → K) (weights : ℕ → K) (nE : ℕ) (ebfg : ℕ → ℕ → Fin dim → ℕ → K) :
    Except MapErr (MapData K dim) :=
  let rm := fun c q => mtxRM nEP (bfg c q) (ecoors c)
  let det0 := fun c q => (rm c q).det
  if (List.range nEl).any fun c => (List.range nQp).any fun q => decide (det0 c q ≤ 0) then
    .error .warp
  else
    let det := fun c q => det0 c q * weights q
    let inv := fun c q => invsFast dim (rm c q) (det0 c q)
    if dim = 1 ∨ dim = 2 ∨ dim = 3 then
      .ok {
        det := det
        volume := fun c => ∑ q ∈ range nQp, det c q
        bfg := fun c q => mulInv ((inv c q).getD 0) (ebfg (if nE = 1 then 0 else c) q) }
    else .error .notImplemented

/-- `FEMapping.get_physical_qps()` (sfepy/discrete/fem/mappings.py:257-290) of cells of one kind: `bf[q, 0, j]`
are the values of the basis functions of the mapping; `qps[c, q, k]`. -/
def physQps {dim : ℕ} (nEP : ℕ) (bf : ℕ → ℕ → K) (ecoors : ℕ → ℕ → Fin dim → K) (c q : ℕ) (k : Fin dim) : K :=
  ∑ j ∈ range nEP, bf q j * ecoors c j k

/-- `phys_qps.values`: the array reshaped to `(n_el * n_qp, dim)`
(sfepy/discrete/common/mappings.py:157-164). -/
def physQpsFlat {dim : ℕ} (nQp nEP : ℕ) (bf : ℕ → ℕ → K) (ecoors : ℕ → ℕ → Fin dim → K) (row : ℕ) (k : Fin dim) : K :=
  physQps nEP bf ecoors (row / nQp) (row % nQp) k

/-- `PyCMapping.integrate(out, field, mode)` (sfepy/discrete/common/mappings.py:33-42): `out[c, 0, r, s]` for
`field[c, q, r, s]` with `dim` rows. In the last case `self.tdim` does not exist: nothing is returned. -/
def integrate (nQp : ℕ) (det : ℕ → ℕ → K) (volume : ℕ → K) (dim mode : ℕ) (field : ℕ → ℕ → ℕ → ℕ → K) :
    Option (ℕ → ℕ → ℕ → K) :=
  if mode < 3 ∨ dim = 1 then
    let out := fun c r s => ∑ q ∈ range nQp, field c q r s * det c q
    some (if mode = 1 then fun c r s => out c r s / volume c else out)
  else none

/-- `PhysicalQPs.get_shape(rshape)` (sfepy/discrete/common/mappings.py:57-76): the first two numbers of the
shape, `none` is the `ValueError`; `nQp` is `self.shape[1]`, `n` is `rshape[0]`. -/
def qpShape (nQp n : ℕ) : Option (ℕ × ℕ) :=
  if nQp > 0 then
    if n = 1 then some (0, nQp)
    else if n / nQp * nQp ≠ n then none
    else some (n / nQp, nQp)
  else some (n, 0)

end field

/-! ### Faces -/

/-- `det0` and `det` and `normal` of a face in two dimensions (sfepy/discrete/fem/mappings.py:131-138) in one
quadrature point with the weight `w`: `rm` is the only row of `mtxRM`. -/
noncomputable def face2 (eps w : ℝ) (rm : Fin 2 → ℝ) : ℝ × (Fin 2 → ℝ) :=
  let c1 := rm 0
  let c2 := rm 1
  let det0 := √(c1 ^ 2 + c2 ^ 2)
  let det := det0 * w
  let det0' := if |det0| < eps then 1 else det0
  (det, ![c2 / det0', -c1 / det0'])

/-- The same in three dimensions (sfepy/discrete/fem/mappings.py:139-151); `r0`, `r1` are the two rows of
`mtxRM`. -/
noncomputable def face3 (eps w : ℝ) (r0 r1 : Fin 3 → ℝ) : ℝ × (Fin 3 → ℝ) :=
  let c1 := r0 1 * r1 2 - r1 1 * r0 2
  let c2 := r0 0 * r1 2 - r1 0 * r0 2
  let c3 := r0 0 * r1 1 - r1 0 * r0 1
  let det0 := √(c1 ^ 2 + c2 ^ 2 + c3 ^ 2)
  let det := det0 * w
  let det0' := if |det0| < eps then 1 else det0
  (det, ![c1 / det0', -c2 / det0', c3 / det0'])

/-- The same in one dimension (sfepy/discrete/fem/mappings.py:127-130): the face is the vertex `conn[c, 0]`. -/
def face1 (w : ℝ) (vertex : ℕ) : ℝ × ℝ := (w, if vertex = 0 then -1 else 1)

/-! ### Cells in a space of a higher dimension -/

/-- `nm.cross` (sfepy/discrete/fem/mappings.py:22-23). -/
def cross (a b : Fin 3 → ℝ) : Fin 3 → ℝ :=
  ![a 1 * b 2 - a 2 * b 1, a 2 * b 0 - a 0 * b 2, a 0 * b 1 - a 1 * b 0]

/-- `mtxR` of `transform_coors_to_lower_dim()` in three dimensions (sfepy/discrete/fem/mappings.py:25-46) for
one cell with the vector `bv`. -/
noncomputable def rot32 (bv : Fin 3 → ℝ) : Matrix (Fin 3) (Fin 3) ℝ :=
  let b := √(bv 0 ^ 2 + bv 1 ^ 2 + bv 2 ^ 2)
  let ab := √(bv 0 ^ 2 + bv 1 ^ 2)
  let cphi := bv 2 / b
  let sphi := ab / b
  let eye : Matrix (Fin 3) (Fin 3) ℝ := fun i j => if i = j then cphi else 0
  if |ab| > 1e-16 then
    let u1 := bv 1 / ab
    let u2 := -bv 0 / ab
    let cphi1 := 1 - cphi
    fun i j => eye i j + !![u1 ^ 2 * cphi1, u1 * u2 * cphi1, u2 * sphi;
      u1 * u2 * cphi1, u2 ^ 2 * cphi1, -u1 * sphi;
      -u2 * sphi, u1 * sphi, 0] i j
  else eye

/-- `mtxR` of `transform_coors_to_lower_dim()` in two dimensions (sfepy/discrete/fem/mappings.py:48-60). -/
noncomputable def rot21 (bv : Fin 2 → ℝ) : Matrix (Fin 2) (Fin 2) ℝ :=
  let b := √(bv 0 ^ 2 + bv 1 ^ 2)
  if |b| > 1e-16 then
    let cphi := bv 0 / b
    let sphi := bv 1 / b
    !![cphi, sphi; -sphi, cphi]
  else fun i j => if i = j then 1 else 0

/-- `transform_coors_to_lower_dim(coors, 2)` (sfepy/discrete/fem/mappings.py:15-64) of one cell with `n`
nodes in three dimensions: `out[k, i]`. -/
noncomputable def toPlane (n : ℕ) (x : ℕ → Fin 3 → ℝ) (k : ℕ) (i : Fin 2) : ℝ :=
  let bv := cross (fun r => x 1 r - x 0 r) (fun r => x (n - 1) r - x 0 r)
  ∑ j, rot32 bv (Fin.castLE (by omega) i) j * x k j

/-- `transform_coors_to_lower_dim(coors, 1)` (sfepy/discrete/fem/mappings.py:15-64) of one cell with `n`
nodes in two dimensions. -/
noncomputable def toAxis (n : ℕ) (x : ℕ → Fin 2 → ℝ) (k : ℕ) : ℝ :=
  ∑ j, rot21 (fun r => x (n - 1) r - x 0 r) 0 j * x k j

end Verif.Term
