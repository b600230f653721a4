import Verif.Lcbc.SpecGlobal
import Mathlib.LinearAlgebra.CrossProduct
import Mathlib.Data.List.FinRange
import Mathlib.Data.Fin.Tuple.Basic

/-!
# Rigid LCBC operators

Model of `_create_spin_matrix`, `RigidOperator`, `Rigid2Operator` and
`RigidTwistOperator` (sfepy/discrete/fem/lcbc_operators.py:106-150, 152-225, 338-452).
The matrices are lists of rows; node coordinates are in the order of the nodes of the
region.
-/

namespace Verif.Lcbc

variable {K : Type*} [CommRing K]

/-- `_create_spin_matrix`, 2D branch, one node (lcbc_operators.py:109-112). -/
def spin2 (x : Fin 2 → K) : Matrix (Fin 2) (Fin 1) K :=
  fun i _ => if i = 0 then -x 1 else x 0

/-- `_create_spin_matrix`, 3D branch, one node (lcbc_operators.py:114-121). -/
def spin3 (x : Fin 3 → K) : Matrix (Fin 3) (Fin 3) K :=
  !![0, x 2, -x 1;
     -x 2, 0, x 0;
     x 1, -x 0, 0]

/-- `nm.hstack((mtx_r, mtx_e))` (lcbc_operators.py:143-145), all the `n_nod * dim` rows. -/
def rigidFull {dim s : ℕ} (spin : (Fin dim → K) → Matrix (Fin dim) (Fin s) K)
    (xs : List (Fin dim → K)) : List (Fin (s + dim) → K) :=
  xs.flatMap fun x => (List.finRange dim).map fun i => Fin.append (spin x i) (Pi.single i 1)

/-- The row selection `indx` (lcbc_operators.py:148-150): the list over the DOF names of
`dim * arange(n_nod) + all_dof_names.index(dof)`, transposed and flattened. -/
def rigidIndx {dim : ℕ} (nNod : ℕ) (didx : List (Fin dim)) : List ℕ :=
  (List.range nNod).flatMap fun n => didx.map fun d => dim * n + d.val

/-- `RigidOperator.mtx` (lcbc_operators.py:138-154); `didx` are the indices of
`self.dof_names` in `all_dof_names`. -/
def rigidMtx {dim s : ℕ} (spin : (Fin dim → K) → Matrix (Fin dim) (Fin s) K)
    (xs : List (Fin dim → K)) (didx : List (Fin dim)) : List (Fin (s + dim) → K) :=
  (rigidIndx xs.length didx).map fun r => (rigidFull spin xs).getD r 0

/-- The triples of a dense matrix, as made by `meshgrid` in `make_global_operator`
(lcbc_operators.py:1106-1110), up to their order. -/
def denseTrips {m : ℕ} (rows : List (Fin m → K)) : Trips K :=
  (List.range rows.length).flatMap fun r =>
    (List.finRange m).map fun c => (r, c.val, (rows.getD r 0) c)

/-- The rows of `Rigid2Operator` with the rotation DOFs (lcbc_operators.py:199-215):
`hstack((mtx_e, mtx_r))` with the coordinates relative to the independent node `xbar`. -/
def rigid2Rows {dim s : ℕ} (spin : (Fin dim → K) → Matrix (Fin dim) (Fin s) K)
    (xs : List (Fin dim → K)) (xbar : Fin dim → K) : List (Fin (dim + s) → K) :=
  xs.flatMap fun x => (List.finRange dim).map fun i =>
    Fin.append (Pi.single i 1) (spin (x - xbar) i)

/-- The simplified version without the rotation DOFs (lcbc_operators.py:204-206). -/
def rigid2RowsTrans {dim : ℕ} (xs : List (Fin dim → K)) : List (Fin dim → K) :=
  xs.flatMap fun _ => (List.finRange dim).map fun i => Pi.single i 1

/-- The COO triples of `Rigid2Operator` (lcbc_operators.py:208-213):
`rows = repeat(meq, len(seq))`, `cols = tile(seq, len(meq))`, data `mtx.ravel()`. -/
def tieTrips {m : ℕ} (rows : List (Fin m → K)) (meq : List ℕ) (seq : List ℕ) : Trips K :=
  (List.range meq.length).flatMap fun r =>
    (List.finRange m).map fun c => (meq.getD r 0, seq.getD c.val 0, (rows.getD r 0) c)

/-- Column `mtx_mw`/`mtx_sw` of `RigidTwistOperator` for one node
(lcbc_operators.py:419-420): `0.5 * (R + thread) @ axis`; numpy adds the scalar `thread`
to all the entries of the spin matrix.  `half` is `0.5` (slave) or `-0.5` (master). -/
def twistCol (half thread : K) (axis r : Fin 3 → K) (i : Fin 3) : K :=
  half * ∑ j, (spin3 r i j + thread) * axis j

/-- One node of `RigidTwistOperator.mtx` (lcbc_operators.py:422-425): the columns are the
displacement of the anchor, the rotation around it and the screw angle. -/
def twistRows (half thread : K) (anchor axis : Fin 3 → K) (xs : List (Fin 3 → K)) :
    List (Fin (3 + 3 + 1) → K) :=
  xs.flatMap fun x => (List.finRange 3).map fun i =>
    Fin.append (Fin.append (Pi.single i 1) (spin3 (x - anchor) i))
      (fun _ => twistCol half thread axis (x - anchor) i)

/-- `RigidTwistOperator.mtx`: master rows, then slave rows (lcbc_operators.py:422-425). -/
def twistMtx (half thread : K) (anchor axis : Fin 3 → K) (ms ss : List (Fin 3 → K)) :
    List (Fin (3 + 3 + 1) → K) :=
  twistRows (-half) thread anchor axis ms ++ twistRows half thread anchor axis ss

/-- `mtx @ q` for a dense matrix given by rows. -/
def mulRows {m : ℕ} (rows : List (Fin m → K)) (q : Fin m → K) : List K :=
  rows.map fun row => ∑ c, row c * q c

end Verif.Lcbc
