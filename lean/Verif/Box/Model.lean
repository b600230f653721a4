import Verif.Spl.Model

/-!
# Spline boxes: geometry parametrization by B-spline control points

Models `SplineBox` of `/repo/sfepy/mesh/splinebox.py` for any dimension `d` (the source allows 2 and 3),
with exact arithmetic, except that the floating-point value of `endval - nm_f64_eps` in
`BSpline.set_param()` is a parameter `tEnd` of each direction.  Arrays indexed by directions are functions
of `ℕ` of which the values below `d` are used.
-/

namespace Verif.Box

open Iga Spl

variable {K : Type} [Field K] [LinearOrder K]

/-- The parameters of a box - `create_spb()`, `/repo/sfepy/mesh/splinebox.py:34-75`: dimension, bounding
box, degree, numbers of segments. -/
structure SBox (K : Type) where
  d : ℕ
  lo : ℕ → K
  hi : ℕ → K
  dg : ℕ
  nsg : ℕ → ℕ
  eps : K
  tEnd : ℕ → K

/-- `ncp0 = degree + nsg[idim]` - `/repo/sfepy/mesh/splinebox.py:49`. -/
def SBox.ncp (b : SBox K) (i : ℕ) : ℕ := b.dg + b.nsg i

/-- The knots in the direction `i` - `/repo/sfepy/mesh/splinebox.py:50-52`. -/
def SBox.knots (b : SBox K) (i : ℕ) : List K := clampedKnots b.dg (b.ncp i) (b.lo i) (b.hi i)

/-- `cp0[j] = nm.sum(knots[(j + 1):(j + degree + 1)]) / degree` -
`/repo/sfepy/mesh/splinebox.py:53-55`. -/
def SBox.cp0 (b : SBox K) (i j : ℕ) : K :=
  (((b.knots i).drop (j + 1)).take b.dg).sum / (b.dg : K)

/-- `mul_idx` - `/repo/sfepy/mesh/splinebox.py:23-25`. -/
def mulIdx (ncp : ℕ → ℕ) : ℕ → ℕ
  | 0 => 1
  | i + 1 => mulIdx ncp i * ncp i

/-- `cp_idxs[ii][k]`, the `ii`-th grid index of the control point `k` -
`/repo/sfepy/mesh/splinebox.py:16-30`: `mgrid` reshaped with `order='F'`, so the first index is the
fastest one. -/
def cpIdx (ncp : ℕ → ℕ) (k i : ℕ) : ℕ := k / mulIdx ncp i % ncp i

/-- `ncp_tot` - `/repo/sfepy/mesh/splinebox.py:44, 61`. -/
def SBox.ncpTot (b : SBox K) : ℕ := ∏ i ∈ Finset.range b.d, b.ncp i

/-- `cp_coors` - `/repo/sfepy/mesh/splinebox.py:63-66`, component `c` of the control point `k`. -/
def SBox.cpCoors (b : SBox K) (k c : ℕ) : K := b.cp0 c (cpIdx b.ncp k c)

/-- `idxs_inside` - `/repo/sfepy/mesh/splinebox.py:36-42`. -/
def SBox.inside (b : SBox K) (x : ℕ → K) : Prop := ∀ i < b.d, b.lo i ≤ x i ∧ x i ≤ b.hi i

/-- `BSpline.set_param()` - `/repo/sfepy/mesh/bspline.py:84-98`: the end value
`knots[-(degree + 1)]` is moved to the left. -/
def SBox.param (b : SBox K) (i : ℕ) (t : K) : K :=
  if t = (b.knots i).getD ((b.knots i).length - (b.dg + 1)) 0 then b.tEnd i else t

/-- `base[ii][uidx[ii], j]` - `/repo/sfepy/mesh/splinebox.py:46-47, 57-58`.  `nm.unique()` with
`return_inverse=True` and indexing by the inverse give back the coordinate of the point itself. -/
def SBox.base (b : SBox K) (x : ℕ → K) (i j : ℕ) : K :=
  basisDg b.eps (b.param i (x i)) (knotFn (b.knots i)) b.dg j

/-- `get_box_matrix()` - `/repo/sfepy/mesh/splinebox.py:175-187`: the row of the point `x`. -/
def SBox.mtx (b : SBox K) (x : ℕ → K) (k : ℕ) : K :=
  ∏ i ∈ Finset.range b.d, b.base x i (cpIdx b.ncp k i)

/-- `evaluate()` with `outside=True` - `/repo/sfepy/mesh/splinebox.py:189-215`: the value of the component
`c` in the point `x`, whose original value is `field`. -/
noncomputable def SBox.evaluate (b : SBox K) (cp : ℕ → ℕ → K) (x : ℕ → K) (field : ℕ → K) (c : ℕ) : K :=
  open Classical in
  if b.inside x then ∑ k ∈ Finset.range b.ncpTot, b.mtx x k * cp k c else field c

/-- `move_control_point()` with the flat index - `/repo/sfepy/mesh/splinebox.py:158-173`. -/
def moveCp (cp : ℕ → ℕ → K) (idx : ℕ) (val : ℕ → K) : ℕ → ℕ → K := fun k c =>
  if k = idx then cp k c + val c else cp k c

/-- `nm.dot(cpoint, self.mul_cp_idx)` - `/repo/sfepy/mesh/splinebox.py:170`. -/
def gridIdx (ncp : ℕ → ℕ) (d : ℕ) (cpoint : ℕ → ℕ) : ℕ :=
  ∑ i ∈ Finset.range d, cpoint i * mulIdx ncp i

/-- The loop in `evaluate_derivative()` - `/repo/sfepy/mesh/splinebox.py:237-241`: from the last direction
to the first one. -/
def decode (ncp : ℕ → ℕ) : ℕ → ℕ → List ℕ
  | 0, _ => []
  | d + 1, aux => aux / mulIdx ncp d :: decode ncp d (aux % mulIdx ncp d)

/-- `evaluate_derivative()` with grid indices - `/repo/sfepy/mesh/splinebox.py:244-250`. -/
def SBox.derivGrid (b : SBox K) (x : ℕ → K) (idxs : ℕ → ℕ) (dirvec : ℕ → K) (c : ℕ) : K :=
  (∏ i ∈ Finset.range b.d, b.base x i (idxs i)) * dirvec c

/-- `evaluate_derivative()` with the flat index - `/repo/sfepy/mesh/splinebox.py:217-250`. -/
def SBox.derivFlat (b : SBox K) (x : ℕ → K) (idx : ℕ) (dirvec : ℕ → K) (c : ℕ) : K :=
  let idxs := (decode b.ncp b.d idx).reverse
  b.derivGrid x (fun i => idxs.getD i 0) dirvec c

end Verif.Box
