import Mathlib.Algebra.Order.Field.Basic
import Mathlib.Data.List.Sort

/-! # The reuse of factorizations in the linear solvers

Model of the matrix digests and of `presolve()` of the direct solvers, of the set-up of the algebraic multigrid solver
(sfepy/solvers/ls.py), and of the symmetry test of the MUMPS solver. -/

namespace Verif.Ls

/-- A square matrix in the compressed row format. -/
structure Csr (K : Type) where
  indptr : List ℕ
  indices : List ℕ
  data : List K

/-- A matrix object given to a solver, at the time of the call: the identity of the object (`id(mtx)`, never zero), whether it is
an instance of `csr_array`, and the content.  A modification in place is another content with the same identity; so is
a new object at the address of a deleted one. -/
structure MtxObj (M : Type) where
  id : ℕ
  csr : Bool
  content : M

/-- The bytes given to SHA1 by `_get_cs_matrix_hash()` (sfepy/solvers/ls.py:29-45): chunking does not change their
sequence; `ei`, `ed` are the bytes of an index and of a value. -/
def hashBytes {K B : Type} (ei : ℕ → List B) (ed : K → List B) (m : Csr K) : List B :=
  m.indptr.flatMap ei ++ m.indices.flatMap ei ++ m.data.flatMap ed

/-- The errors: unpacking `None`, any other. -/
inductive LErr
  | type
  | value
  deriving DecidableEq, Repr

/-- The state of a solver: the factorization (the matrix it was made of), `self.solve`, and `self.mtx_digest`. -/
structure LState (M D : Type) where
  fact : Option M
  digest : Option (ℕ × D)

/-- The state of a new solver: `self.mtx_digest = (0, '')` (sfepy/solvers/solvers.py:261-264), `clear()`
(sfepy/solvers/ls.py:183). -/
def LState.new {M D : Type} (empty : D) : LState M D := { fact := none, digest := some (0, empty) }

section
variable {M D R X : Type} [DecidableEq D]

/-- `_is_new_matrix()` (sfepy/solvers/ls.py:47-60). -/
def isNewMatrix (hash : M → D) (m : MtxObj M) (digest : Option (ℕ × D)) (forceReuse : Bool) :
    Except LErr (Bool × Option (ℕ × D)) :=
  if !m.csr then .ok (true, digest)
  else if forceReuse then .ok (false, digest)
  else
    match digest with
    | none => .error .type
    | some (id0, digest0) =>
      if m.id = id0 ∧ hash m.content = digest0 then .ok (false, some (m.id, hash m.content))
      else .ok (true, some (m.id, hash m.content))

/-- `clear()` (sfepy/solvers/ls.py:200-204): the digest is kept. -/
def LState.clear (s : LState M D) : LState M D := { s with fact := none }

/-- `presolve()` (sfepy/solvers/ls.py:206-215, 995-1004). -/
def LState.presolve (hash : M → D) (useDigest : Bool) (m : MtxObj M) (s : LState M D) : Except LErr (LState M D) :=
  let aux := if useDigest then isNewMatrix hash m s.digest false else .ok (false, none)
  match aux with
  | .error e => .error e
  | .ok (isNew, dig) =>
    if isNew || s.fact.isNone then .ok { fact := some m.content, digest := dig } else .ok s

/-- An operation of the user on a solver. -/
inductive LOp (M R : Type)
  | clear
  | presolve (useDigest : Bool) (m : MtxObj M)
  | call (usePresolve useDigest : Bool) (m : MtxObj M) (rhs : R)

/-- What a call returned. -/
abbrev Out (X : Type) := Except LErr X

/-- One operation of `ScipyDirect` (sfepy/solvers/ls.py:185-215): the new state and the result of a call;
`sol A b` is the solution of the system with the matrix `A`, computed by both `spsolve()` and a factorization of `A`.
After an error the state is that before `presolve()`. -/
def stepDirect (hash : M → D) (sol : M → R → X) (s : LState M D) : LOp M R → LState M D × Option (Out X)
  | .clear => (s.clear, none)
  | .presolve ud m =>
    match s.presolve hash ud m with
    | .ok s' => (s', none)
    | .error _ => (s, none)
  | .call up ud m rhs =>
    if up then
      match s.presolve hash ud m with
      | .ok s' => (s', s'.fact.map fun a => .ok (sol a rhs))
      | .error e => (s, some (.error e))
    else (s.clear, some (.ok (sol m.content rhs)))

/-- One operation of `CholeskySolver` (sfepy/solvers/ls.py:985-1004), the same as that of `MUMPSSolver`
(sfepy/solvers/ls.py:902-951) without the symmetry flag: the matrix is factorized in all cases. -/
def stepChol (hash : M → D) (sol : M → R → X) (s : LState M D) : LOp M R → LState M D × Option (Out X)
  | .clear => (s.clear, none)
  | .presolve ud m =>
    match s.presolve hash ud m with
    | .ok s' => (s', none)
    | .error _ => (s, none)
  | .call up ud m rhs =>
    let s0 := if up then s else s.clear
    match s0.presolve hash ud m with
    | .ok s' => (s', s'.fact.map fun a => .ok (sol a rhs))
    | .error e => (s0, some (.error e))

/-- A call of `PyAMGSolver` (sfepy/solvers/ls.py:491-505): `self.mg` is the set-up made of a matrix. -/
def stepAmg (hash : M → D) (sol : M → R → X) (s : LState M D) (forceReuse : Bool) (m : MtxObj M) (rhs : R) :
    LState M D × Option (Out X) :=
  match isNewMatrix hash m s.digest forceReuse with
  | .error e => (s, some (.error e))
  | .ok (isNew, dig) =>
    let s' : LState M D := if isNew || s.fact.isNone then { fact := some m.content, digest := dig } else s
    (s', s'.fact.map fun a => .ok (sol a rhs))

/-- The results of the calls in a history of operations. -/
def runOps {O : Type} (step : LState M D → O → LState M D × Option (Out X)) : LState M D → List O → List (Option (Out X))
  | _, [] => []
  | s, o :: os => (step s o).2 :: runOps step (step s o).1 os

end

/-! ### The symmetry test -/

section
variable {K : Type} [Field K] [LinearOrder K]

/-- An entry of a matrix in the coordinate format: row, column, value. -/
abbrev Entry (K : Type) := ℕ × ℕ × K

/-- The order of `nm.lexsort((minor, major))`. -/
def keyLe (a b : (ℕ × ℕ) × K) : Bool := decide (a.1.1 < b.1.1 ∨ (a.1.1 = b.1.1 ∧ a.1.2 ≤ b.1.2))

/-- The values sorted by (column, row), `data[idxs_u[iu]]` (sfepy/solvers/ls.py:880-887): `nm.lexsort()` is stable. -/
def upperSorted (l : List (Entry K)) : List ((ℕ × ℕ) × K) :=
  ((l.filter fun e => decide (e.1 < e.2.1)).map fun e => ((e.2.1, e.1), e.2.2)).mergeSort keyLe

/-- The values sorted by (row, column), `data[idxs_l[il]]` (sfepy/solvers/ls.py:881, 886-887). -/
def lowerSorted (l : List (Entry K)) : List ((ℕ × ℕ) × K) :=
  ((l.filter fun e => decide (e.2.1 < e.1)).map fun e => ((e.1, e.2.1), e.2.2)).mergeSort keyLe

/-- `e / |m| >= tol` in floating point arithmetic: for a zero `m` infinity or not a number. -/
def tooBig (tol e m : K) : Bool := if m = 0 then decide (e ≠ 0) else decide (tol ≤ e / |m|)

/-- `MUMPSSolver.coo_is_symmetric()` (sfepy/solvers/ls.py:872-893) for a real matrix: the maximum of an empty array is an error. -/
def cooIsSymmetric (tol : K) (l : List (Entry K)) : Except LErr Bool :=
  let u := upperSorted l
  let lo := lowerSorted l
  if lo.length ≠ u.length then .ok false
  else
    match u.map Prod.snd with
    | [] => .error .value
    | d :: ds =>
      let m := ds.foldl max d
      .ok (!((List.zipWith (fun a b => tooBig tol |a.2 - b.2| m) u lo).any id))

/-- The state of `MUMPSSolver` with `mumpspy`: the symmetry flag given to the constructor and the matrix set last
(sfepy/solvers/ls.py:918-951). -/
def mumpsSet (isSym : List (Entry K) → Bool) (ls : Option (Bool × List (Entry K))) (m : List (Entry K)) :
    Option (Bool × List (Entry K)) :=
  match ls with
  | none => some (isSym m, m)
  | some (flag, _) => some (flag, m)

end
end Verif.Ls
