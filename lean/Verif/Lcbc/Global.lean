import Mathlib.Algebra.BigOperators.Group.List.Basic
import Mathlib.Algebra.BigOperators.Intervals
import Mathlib.Algebra.Ring.Basic
import Mathlib.Data.List.Basic

/-!
# The global operator of the linear combination boundary conditions

Model of `LCBCOperators.finalize` and `LCBCOperators.make_global_operator`
(sfepy/discrete/fem/lcbc_operators.py:980-1153) for a problem without shared DOFs
(`adi.shared_dofs` empty).  Variables are numbered in the order of `adi.var_names`;
a sparse matrix is the list of its `(row, column, value)` triples, with the COO
convention that repeated positions are summed.
-/

namespace Verif.Lcbc

variable {K : Type*}

/-- A sparse matrix in the COO format. -/
abbrev Trips (K : Type*) := List (ℕ × ℕ × K)

/-- `mtx @ v` for a matrix in the COO format. -/
def app [Semiring K] (T : Trips K) (v : ℕ → K) (r : ℕ) : K :=
  (T.map fun t => if t.1 = r then t.2.2 * v t.2.1 else 0).sum

/-- One LCBC operator after its `setup()`: the attributes read by
`LCBCOperators` (lcbc_operators.py:48-80, 218-225, 814-822).  `cvar` is `var_names[1]`,
`None` for the model-reduction operators, whose `mtx` is `n_mdof × n_new_dof`; for the
tying operators `mtx` has the shape of the active DOFs of the two variables. -/
structure Op (K : Type*) where
  rvar : ℕ
  cvar : Option ℕ
  ameq : List ℕ
  nMdof : ℕ
  nNew : ℕ
  mtx : Trips K
  rhs : Option (List K)

/-- Starts of the slices of a `DofInfo` built by `append_raw` (dof_info.py:130-149). -/
def off (f : ℕ → ℕ) (n : ℕ) : ℕ := ((List.range n).map f).sum

/-- `adi.n_dof[var]`. -/
def nDofOf (nDof : List ℕ) (v : ℕ) : ℕ := nDof.getD v 0

/-- `adi.indx[var].start`. -/
def aoff (nDof : List ℕ) (v : ℕ) : ℕ := off (nDofOf nDof) v

/-- `self.n_master[var]` (lcbc_operators.py:988-992). -/
def nMaster (ops : List (Op K)) (v : ℕ) : ℕ :=
  ((ops.filter fun op => op.rvar = v).map fun op => op.nMdof).sum

/-- `self.n_new[var]` (lcbc_operators.py:997). -/
def nNewOf (ops : List (Op K)) (v : ℕ) : ℕ :=
  ((ops.filter fun op => op.rvar = v).map fun op => op.nNew).sum

/-- `self.n_free[var]` (lcbc_operators.py:1009). -/
def nFree (nDof : List ℕ) (ops : List (Op K)) (v : ℕ) : ℕ :=
  nDofOf nDof v - nMaster ops v

/-- `self.n_active[var]` (lcbc_operators.py:1010). -/
def nActive (nDof : List ℕ) (ops : List (Op K)) (v : ℕ) : ℕ :=
  nFree nDof ops v + nNewOf ops v

/-- `lcdi.indx[var].start` (lcbc_operators.py:1012-1020). -/
def lcoff (nDof : List ℕ) (ops : List (Op K)) (v : ℕ) : ℕ := off (nActive nDof ops) v

/-- `n_dof_active`, the number of columns (lcbc_operators.py:1052). -/
def nActiveTotal (nDof : List ℕ) (ops : List (Op K)) : ℕ := lcoff nDof ops nDof.length

/-- The list `ics[var]` of `(ii, op.n_new_dof)` (lcbc_operators.py:998). -/
def icsOf (ops : List (Op K)) (v : ℕ) : List (ℕ × ℕ) :=
  (List.range ops.length).flatMap fun ii =>
    match ops[ii]? with
    | some op => if op.rvar = v then [(ii, op.nNew)] else []
    | none => []

/-- `searchsorted(a, x)` for a sorted array: the number of smaller items. -/
def ss (a : List ℕ) (x : ℕ) : ℕ := a.countP (· < x)

/-- `icols[ici]` with `ici = searchsorted(iis, ii)` and `icols = cumsum(r_[0, ics])`
(lcbc_operators.py:1002-1003, 1097-1098). -/
def icol (ops : List (Op K)) (v ii : ℕ) : ℕ :=
  (((icsOf ops v).map (·.2)).take (ss ((icsOf ops v).map (·.1)) ii)).sum

/-- `not lcbc_mask[g]` (lcbc_operators.py:1065-1072). -/
def constrained (nDof : List ℕ) (ops : List (Op K)) (g : ℕ) : Bool :=
  ops.any fun op => (op.ameq.map (aoff nDof op.rvar + ·)).contains g

/-- `nm.where(lcbc_mask[adi.indx[var]])[0]` (lcbc_operators.py:1116). -/
def freeLoc (nDof : List ℕ) (ops : List (Op K)) (v : ℕ) : List ℕ :=
  (List.range (nDofOf nDof v)).filter fun i => !constrained nDof ops (aoff nDof v + i)

/-- First column of the new DOFs of operator `ii` (lcbc_operators.py:1095-1099):
`coff + icols[ici]`. -/
def newCol (nDof : List ℕ) (ops : List (Op K)) (v ii : ℕ) : ℕ :=
  lcoff nDof ops v + nFree nDof ops v + icol ops v ii

/-- The triples of operator `ii` (lcbc_operators.py:1082-1121).  The dense branch
(meshgrid) produces the same triples as the sparse one, so one branch is modelled. -/
def opTrip (nDof : List ℕ) (ops : List (Op K)) (ii : ℕ) (op : Op K) : Trips K :=
  match op.cvar with
  | none => op.mtx.map fun t =>
      (aoff nDof op.rvar + op.ameq.getD t.1 0, newCol nDof ops op.rvar ii + t.2.1, t.2.2)
  | some c => op.mtx.map fun t =>
      (aoff nDof op.rvar + t.1, lcoff nDof ops c + ss (freeLoc nDof ops c) t.2.1, t.2.2)

/-- `ir = nm.where(lcbc_mask)[0]` (lcbc_operators.py:1138). -/
def irOf (nDof : List ℕ) (ops : List (Op K)) : List ℕ :=
  (List.range (aoff nDof nDof.length)).filter fun g => !constrained nDof ops g

/-- `ic` (lcbc_operators.py:1139-1143). -/
def icOf (nDof : List ℕ) (ops : List (Op K)) : List ℕ :=
  (List.range nDof.length).flatMap fun v =>
    (List.range (nFree nDof ops v)).map (lcoff nDof ops v + ·)

/-- The copying part `mtx_lc2` (lcbc_operators.py:1145-1147). -/
def freeTrip [One K] (nDof : List ℕ) (ops : List (Op K)) : Trips K :=
  ((irOf nDof ops).zip (icOf nDof ops)).map fun p => (p.1, p.2, 1)

/-- The matrix `mtx_lc` (lcbc_operators.py:1081-1151) for `new_only=False`. -/
def globalTrip [One K] (nDof : List ℕ) (ops : List (Op K)) : Trips K :=
  ((List.range ops.length).flatMap fun ii =>
    match ops[ii]? with
    | some op => opTrip nDof ops ii op
    | none => []) ++ freeTrip nDof ops

/-- The contribution `vec_lc[irs] += op.get('rhs', 0)` (lcbc_operators.py:1123-1124);
`irs` is assumed without repetitions, so that numpy adds every item. -/
def opVec [Semiring K] (nDof : List ℕ) (op : Op K) (r : ℕ) : K :=
  match op.rhs with
  | none => 0
  | some b => (((List.range op.ameq.length).map fun k =>
      if aoff nDof op.rvar + op.ameq.getD k 0 = r then b.getD k 0 else 0)).sum

/-- The vector `vec_lc`, zero when all the operators are homogeneous
(lcbc_operators.py:1074-1079, 1123-1124). -/
def globalVec [Semiring K] (nDof : List ℕ) (ops : List (Op K)) (r : ℕ) : K :=
  (ops.map fun op => opVec nDof op r).sum

/-- `mtx_lcbc @ svec + vec_lcbc` (variables.py:624-629): the active DOFs from the
reduced ones. -/
def expand [Semiring K] (nDof : List ℕ) (ops : List (Op K)) (v : ℕ → K) (r : ℕ) : K :=
  app (globalTrip nDof ops) v r + globalVec nDof ops r

end Verif.Lcbc
