import Verif.Lcbc.Global

/-!
# Specification of the global LCBC operator

What the individual conditions ask of the vector of active DOFs, without any column
numbering.
-/

namespace Verif.Lcbc

variable {K : Type*}

/-- Entry `k` of the right-hand side of an operator. -/
def Op.rhsAt [Zero K] (op : Op K) (k : ℕ) : K :=
  match op.rhs with
  | none => 0
  | some b => b.getD k 0

/-- The value of DOF `i` of variable `v` in a vector of all active DOFs: the blocks of
the variables follow one another. -/
def dofVal (nDof : List ℕ) (u : ℕ → K) (v i : ℕ) : K :=
  u ((nDof.take v).sum + i)

/-- DOF `i` of variable `v` is constrained by some operator. -/
def IsConstrained (ops : List (Op K)) (v i : ℕ) : Prop :=
  ∃ op ∈ ops, op.rvar = v ∧ i ∈ op.ameq

/-- The condition holds for the vector `u` of active DOFs: a model-reduction operator
asks the constrained DOFs to be `M q + b` for some new DOFs `q`, a tying operator asks
them to be `M s + b` with the present values `s` of the other variable. -/
def Holds [Semiring K] (nDof : List ℕ) (u : ℕ → K) (op : Op K) : Prop :=
  match op.cvar with
  | none => ∃ q : ℕ → K, ∀ (k i : ℕ), op.ameq[k]? = some i →
      dofVal nDof u op.rvar i = app op.mtx q k + op.rhsAt k
  | some c => ∀ (k i : ℕ), op.ameq[k]? = some i →
      dofVal nDof u op.rvar i = app op.mtx (fun j => dofVal nDof u c j) i + op.rhsAt k

/-- Consistent operators: indices in range, no active DOF constrained twice (the
disjointness of regions checked in variables.py:346-367), DOF counts as computed by the
constructors, and tying operators read unconstrained DOFs only. -/
structure Consistent (nDof : List ℕ) (ops : List (Op K)) : Prop where
  rvar_lt : ∀ op ∈ ops, op.rvar < nDof.length
  ameq_lt : ∀ op ∈ ops, ∀ i ∈ op.ameq, i < nDof.getD op.rvar 0
  once : ops.Pairwise fun a b => a.rvar = b.rvar → ∀ i ∈ a.ameq, i ∉ b.ameq
  nodup : ∀ op ∈ ops, op.ameq.Nodup
  count : ∀ op ∈ ops, op.nMdof = op.ameq.length
  reduction : ∀ op ∈ ops, op.cvar = none →
    ∀ t ∈ op.mtx, t.1 < op.ameq.length ∧ t.2.1 < op.nNew
  tie : ∀ op ∈ ops, ∀ c, op.cvar = some c → op.nNew = 0 ∧ c < nDof.length ∧
    ∀ t ∈ op.mtx, t.1 ∈ op.ameq ∧ t.2.1 < nDof.getD c 0 ∧ ¬ IsConstrained ops c t.2.1

end Verif.Lcbc
