import Verif.Lcbc.SpecGlobal
import Mathlib.Algebra.Order.Field.Basic
import Mathlib.Data.List.FinRange

/-!
# Node-wise and tying LCBC operators

Model of `NoPenetrationOperator`, `NormalDirectionOperator` (and
`EdgeDirectionOperator`), `IntegralMeanValueOperator`, `ShiftedPeriodicOperator` /
`MatchDOFsOperator`, `MultiNodeLCOperator` and `MRLCBCOperator.treat_pbcs`
(sfepy/discrete/fem/lcbc_operators.py:83-104, 465-618, 747-910).
-/

namespace Verif.Lcbc

variable {K : Type*}

/-- `nm.abs(normals).argmax(1)` for one node (lcbc_operators.py:489): the first position of
the largest absolute value. -/
def argmaxAbs [Field K] [LinearOrder K] {d : ℕ} (n : Fin (d + 1) → K) : Fin (d + 1) :=
  (List.finRange (d + 1)).foldl (fun best i => if |n best| < |n i| then i else best) 0

/-- `list(irs.difference([idim]))` (lcbc_operators.py:500): the other components; CPython
iterates over a set of small integers in the increasing order. -/
def others (d : ℕ) (p : Fin (d + 1)) : List (Fin (d + 1)) :=
  (List.finRange (d + 1)).filter (· ≠ p)

/-- `NoPenetrationOperator.mtx` (lcbc_operators.py:489-527) from the nodal normals. -/
def noPenTrips [Field K] [LinearOrder K] {d : ℕ} (normals : List (Fin (d + 1) → K)) : Trips K :=
  (List.finRange (d + 1)).flatMap fun idim =>
    let nrm := fun (c : ℕ) => normals.getD c 0
    let ic := (List.range normals.length).filter fun c => argmaxAbs (nrm c) = idim
    let ir := others d idim
    (ir.zipIdx.flatMap fun p => ic.map fun c =>
      ((d + 1) * c + idim.val, d * c + p.2, - nrm c p.1 / nrm c idim)) ++
    (ir.zipIdx.flatMap fun p => ic.map fun c => ((d + 1) * c + p.1.val, d * c + p.2, 1))

/-- `NormalDirectionOperator.mtx` (lcbc_operators.py:560-564): `data = vectors.ravel()`,
`rows = arange`, `cols = repeat(arange(n_nod), dim)`. -/
def directionTrips [Zero K] {dim : ℕ} (vectors : List (Fin dim → K)) : Trips K :=
  (List.range vectors.length).flatMap fun c =>
    (List.finRange dim).map fun i => (dim * c + i.val, c, (vectors.getD c 0) i)

/-- `IntegralMeanValueOperator.mtx` (lcbc_operators.py:612-616). -/
def meanTrips [One K] (nNod dpn : ℕ) : Trips K :=
  (List.range (nNod * dpn)).map fun r => (r, 0, 1)

/-- The positions active in both lists, `nm.intersect1d(mia, sia)`
(lcbc_operators.py:794-798). -/
def bothActive (meq seq : List ℤ) : List ℕ :=
  (List.range meq.length).filter fun k => 0 ≤ meq.getD k (-1) ∧ 0 ≤ seq.getD k (-1)

/-- `ShiftedPeriodicOperator` (lcbc_operators.py:791-822): `meq`, `seq` are the equations of
the matched DOF pairs (negative for the DOFs fixed by E(P)BCs), `shift` the flattened values
of the shift function, `none` for `MatchDOFsOperator`. -/
def shiftedOp [Semiring K] (rvar cvar : ℕ) (meq seq : List ℤ) (shift : Option (List K)) : Op K :=
  let ia := bothActive meq seq
  let m := ia.map fun k => (meq.getD k (-1)).toNat
  let s := ia.map fun k => (seq.getD k (-1)).toNat
  { rvar := rvar
    cvar := some cvar
    ameq := m
    nMdof := m.dedup.length
    nNew := 0
    mtx := (m.zip s).map fun p => (p.1, p.2, 1)
    rhs := shift.map fun b => ia.map fun k => b.getD k 0 }

/-- The triples of `MultiNodeLCOperator` (lcbc_operators.py:884-896):
`vals = repeat(constraints, dpn, axis=0).T.ravel()`, `rows = tile(meq, ncons)`,
`cols = seq[hstack([(snds[:, None] * dpn + arange(dpn)).ravel() for snds in smap.T])]`;
`cons m j` are the constraint weights, `smap m j` the positions of the independent nodes. -/
def multiTrips (nm dpn ncons : ℕ) (cons : ℕ → ℕ → K) (smap : ℕ → ℕ → ℕ)
    (meq seq : List ℕ) : Trips K :=
  (List.range ncons).flatMap fun j => (List.range nm).flatMap fun m =>
    (List.range dpn).map fun d =>
      (meq.getD (m * dpn + d) 0, seq.getD (smap m j * dpn + d) 0, cons m j)

/-- Row removal of `treat_pbcs` (lcbc_operators.py:87-94): `remove = searchsorted(sort(dofs),
intersect1d(dofs, master))`, `keep = setdiff1d(arange(len(dofs)), remove)`.  `master` is
already intersected and sorted. -/
def treatKeep (dofs master : List ℕ) : List ℕ :=
  let remove := master.map fun x => ss (dofs.mergeSort (· ≤ ·)) x
  (List.range dofs.length).filter fun k => k ∉ remove

end Verif.Lcbc
