import Mathlib.Analysis.Calculus.Deriv.Add
import Mathlib.Analysis.Calculus.Deriv.Mul
import Mathlib.Algebra.BigOperators.Group.List.Basic
import Mathlib.Tactic.Ring
import Mathlib.Tactic.FieldSimp

/-!
# Evaluation of equations (discrete/equations.py, terms/terms.py)

Simplifications: a term is given by the vector and the matrices assembled from its cell values (for the
assembling itself see C12-C15); the rows of the global vector are pairs (test variable, DOF), the columns
pairs (unknown variable, DOF); the variables and the terms have the same time step and time step size; a
history step `[-k]` is given by the natural number `k`.
-/

namespace Eqn

set_option linter.unusedSectionVars false

variable {K : Type*} [Field K] {α : Type*}

/-- An argument of a term that is a state or parameter variable: its name, the history step (`back = k`
for `[-k]`), `d./dt` (sfepy/terms/terms.py:479-511). `state`: it stands for a state (not a parameter) in
the signature of the term (sfepy/terms/terms.py:640-650). -/
structure Arg where
  var : ℕ
  back : ℕ
  dt : Bool
  state : Bool

/-- The dictionaries `arg_steps`, `arg_derivatives` have the names as keys: the last argument of a name
wins (sfepy/terms/terms.py:507-511). -/
def lookup (args : List Arg) (v : ℕ) : Option Arg := args.reverse.find? fun a => a.var == v

/-- The time stepper as seen by terms and variables (sfepy/terms/terms.py:999-1006). -/
structure Clock (K : Type*) where
  step : ℕ
  dt : K
  quasistatic : Bool

/-- The data of variables: `data v k` is `self.data[k]` of variable `v`. -/
abbrev Data (K : Type*) := ℕ → ℕ → ℕ → K

/-- `Variable.__call__(step=-k)` (sfepy/discrete/variables.py:1339-1349). -/
def callStep (ck : Clock K) (data : Data K) (v k : ℕ) : ℕ → K :=
  if ck.step = 0 ∧ k = 1 then data v 0 else data v k

/-- `Variable.__call__(step=-k, derivative)` (sfepy/discrete/variables.py:1339-1358). -/
def callVar (ck : Clock K) (data : Data K) (v k : ℕ) (dt : Bool) : ℕ → K :=
  if dt then fun c => (callStep ck data v k c - callStep ck data v (k + 1) c) / ck.dt
  else callStep ck data v k

/-- A term in an equation. `kernel` gives the assembled vector from the DOF vectors of the arguments,
`deriv v` the assembled matrix for `diff_var = v`; `dynamic` means a term with a dynamic connectivity: its
matrix is returned in an extra matrix (sfepy/terms/terms.py:1490-1559, 1687-1703). -/
structure WTerm (K : Type*) where
  name : ℕ
  sign : K
  virt : ℕ
  args : List Arg
  kernel : List (ℕ → K) → ℕ → K
  deriv : ℕ → List (ℕ → K) → ℕ → ℕ → K
  dynamic : Bool

/-- The DOF vectors of the arguments: `Term.get_vector()` (sfepy/terms/terms.py:1013-1020). -/
def WTerm.values (ck : Clock K) (data : Data K) (t : WTerm K) : List (ℕ → K) :=
  t.args.map fun a => match lookup t.args a.var with
    | some b => callVar ck data a.var b.back b.dt
    | none => fun _ => 0

/-- The vectors of rows (test variable, DOF). -/
abbrev RVec (K : Type*) := ℕ → ℕ → K

/-- The matrices: rows (test variable, DOF), columns (unknown variable, DOF). -/
abbrev RMat (K : Type*) := ℕ → ℕ → ℕ → ℕ → K

/-- `term.evaluate()` and `assemble_to()` in the vector mode (sfepy/terms/terms.py:1551-1559, 1602-1629).
-/
def WTerm.addVector (ck : Clock K) (data : Data K) (t : WTerm K) (r : RVec K) : RVec K :=
  fun w i => if w = t.virt then r w i + t.kernel (t.values ck data) i * t.sign else r w i

/-- `get_state_variables(unknown_only=True)` (sfepy/terms/terms.py:1044-1052). -/
def WTerm.svars (unknown : ℕ → Bool) (t : WTerm K) : List ℕ :=
  ((t.args.filter (·.state)).map (·.var)).filter fun v =>
    unknown v && (match lookup t.args v with | some b => b.back == 0 | none => false)

/-- `sign` in the matrix mode of `assemble_to()` (sfepy/terms/terms.py:1639-1645). -/
def WTerm.factor (ck : Clock K) (t : WTerm K) (v : ℕ) : K :=
  match lookup t.args v with
  | some b => if b.dt then (if !ck.quasistatic || decide (0 < ck.step) then 1 / ck.dt else 0) else 1
  | none => 1

/-- The matrix assembled for one unknown variable (sfepy/terms/terms.py:1551-1559, 1631-1703). -/
def WTerm.addMatrix (ck : Clock K) (data : Data K) (t : WTerm K) (v : ℕ) (m : RMat K) : RMat K :=
  fun w i v' c => if w = t.virt ∧ v' = v then
    m w i v' c + t.factor ck v * (t.deriv v (t.values ck data) i c * t.sign) else m w i v' c

/-- `Equation.evaluate(mode='weak', dw_mode='vector')` (sfepy/discrete/equations.py:1096-1126). -/
def evalVector (ck : Clock K) (data : Data K) (select : WTerm K → Bool) (eq : List (WTerm K)) (r : RVec K) : RVec K :=
  (eq.filter select).foldl (fun r t => t.addVector ck data r) r

/-- `Equation.evaluate(mode='weak', dw_mode='matrix')`: the matrix with the extra matrices; the first
component is `asm_obj`, the second one the list of extras (sfepy/discrete/equations.py:1096-1098,
1128-1144). -/
def evalMatrix (ck : Clock K) (data : Data K) (unknown : ℕ → Bool) (select : WTerm K → Bool) (eq : List (WTerm K))
    (m : RMat K) : RMat K × List (RMat K) :=
  (eq.filter select).foldl (fun acc t => (t.svars unknown).foldl (fun acc v =>
    if t.dynamic then (acc.1, acc.2 ++ [t.addMatrix ck data v fun _ _ _ _ => 0])
    else (t.addMatrix ck data v acc.1, acc.2)) acc) (m, [])

/-- `Equations.eval_residuals()` (sfepy/discrete/equations.py:767-779, 877-883). -/
def residual (ck : Clock K) (data : Data K) (select : WTerm K → Bool) (eqs : List (List (WTerm K))) : RVec K :=
  eqs.foldl (fun r eq => evalVector ck data select eq r) fun _ _ => 0

/-- `Equations.evaluate()` in the matrix mode, called by `eval_tangent_matrices()`
(sfepy/discrete/equations.py:767-779, 977-985). -/
def tangent (ck : Clock K) (data : Data K) (unknown : ℕ → Bool) (select : WTerm K → Bool)
    (eqs : List (List (WTerm K))) : RMat K :=
  let out := eqs.foldl (fun acc eq =>
    let o := evalMatrix ck data unknown select eq acc.1
    (o.1, acc.2 ++ o.2)) ((fun _ _ _ _ => 0 : RMat K), ([] : List (RMat K)))
  out.2.foldl (fun m x => fun w i v c => m w i v c + x w i v c) out.1

/-- `eval_residuals(by_terms=True)`: the item for the term `t` of the equation `eq`
(sfepy/discrete/equations.py:855-875). -/
def residualOfTerm (ck : Clock K) (data : Data K) (select : WTerm K → Bool) (eq : List (WTerm K)) (t : WTerm K) :
    ℕ → K :=
  evalVector ck data (fun x => select x && x.name == t.name) eq (fun _ _ => 0) t.virt

/-- `eval_tangent_matrices(by_terms=True)`; the value of `eq.evaluate()` is not used
(sfepy/discrete/equations.py:951-975). -/
def tangentOfTerm (ck : Clock K) (data : Data K) (unknown : ℕ → Bool) (select : WTerm K → Bool)
    (eq : List (WTerm K)) (t : WTerm K) : ℕ → ℕ → ℕ → K :=
  (evalMatrix ck data unknown (fun x => select x && x.name == t.name) eq fun _ _ _ _ => 0).1 t.virt

/-- `eval_residuals(by_blocks=True)`: the block of the test variable `w`
(sfepy/discrete/equations.py:836-853). -/
def residualBlock (ck : Clock K) (data : Data K) (select : WTerm K → Bool) (eq : List (WTerm K)) (w : ℕ) : ℕ → K :=
  evalVector ck data select eq (fun _ _ => 0) w

/-- `eval_tangent_matrices(by_blocks=True)`: the block of the test variable `w` and the unknown variable
`v`; with extra matrices, `aux` is a tuple and cannot be indexed by the slices (an exception: `none`)
(sfepy/discrete/equations.py:929-949). -/
def tangentBlock (ck : Clock K) (data : Data K) (unknown : ℕ → Bool) (select : WTerm K → Bool)
    (eq : List (WTerm K)) (w v : ℕ) : Option (ℕ → ℕ → K) :=
  let out := evalMatrix ck data unknown select eq fun _ _ _ _ => 0
  if out.2.isEmpty then some fun i c => out.1 w i v c else none

/-- `Term.evaluate(mode='eval')` gives `val *= self.sign`, `Equation.evaluate(mode='eval')` sums the terms
(sfepy/terms/terms.py:1487; sfepy/discrete/equations.py:1104-1113). -/
def evalEquation (select : α → Bool) (sign : α → K) (value : α → K) (eq : List α) : K :=
  (eq.filter select).foldl (fun acc t => acc + value t * sign t) 0

/-! ### Specification -/

/-- The vector that an argument stands for in its text. -/
def Arg.written (ck : Clock K) (data : Data K) (a : Arg) : ℕ → K := callVar ck data a.var a.back a.dt

/-- The arguments of a term are distinct variables. -/
def WTerm.Distinct (t : WTerm K) : Prop := (t.args.map (·.var)).Nodup

/-- The contribution of a term to the residual. -/
def WTerm.contrib (ck : Clock K) (data : Data K) (t : WTerm K) (w i : ℕ) : K :=
  if w = t.virt then t.sign * t.kernel (t.args.map (Arg.written ck data)) i else 0

/-- The data after the change of the current values of the unknown variables by `s * δ`. -/
def moved (unknown : ℕ → Bool) (data : Data K) (δ : ℕ → ℕ → K) (s : K) : Data K :=
  fun v k c => if k = 0 ∧ unknown v = true then data v k c + s * δ v c else data v k c

/-- `deriv` contains the partial derivatives of `kernel` with respect to the arguments in state
positions (`n v` is the number of DOFs of variable `v`): the derivative in any direction `ds` is the sum of
the products; the arguments in the other positions are not moved. -/
def WTerm.Differentiable (n : ℕ → ℕ) (t : WTerm ℝ) : Prop :=
  ∀ (xs ds : List (ℕ → ℝ)), xs.length = t.args.length → ds.length = t.args.length →
    (∀ (k : ℕ) (a : Arg), t.args[k]? = some a → a.state = false → ds[k]? = some fun _ => 0) →
    ∀ i, HasDerivAt (fun s : ℝ => t.kernel (List.zipWith (fun x d => fun c => x c + s * d c) xs ds) i)
      ((List.zipWith (fun a d => ∑ c ∈ Finset.range (n a.var), t.deriv a.var xs i c * d c) t.args ds).sum) 0

/-! ### Proofs -/

theorem lookup_distinct (args : List Arg) (h : (args.map (·.var)).Nodup) (a : Arg) (ha : a ∈ args) :
    lookup args a.var = some a := by
  unfold lookup
  have h' : (args.reverse.map (·.var)).Nodup := by
    rw [List.map_reverse, List.nodup_reverse]; exact h
  have ha' : a ∈ args.reverse := List.mem_reverse.2 ha
  generalize args.reverse = l at *
  induction l with
  | nil => cases ha'
  | cons b l ih =>
    rw [List.find?_cons]
    rw [List.map_cons, List.nodup_cons] at h'
    rcases List.mem_cons.1 ha' with rfl | hm
    · simp
    · have hne : (b.var == a.var) = false := by
        rw [beq_eq_false_iff_ne]
        intro he
        exact h'.1 (he ▸ List.mem_map.2 ⟨a, hm, rfl⟩)
      rw [hne]
      exact ih h'.2 hm

theorem values_distinct (ck : Clock K) (data : Data K) (t : WTerm K) (h : t.Distinct) :
    t.values ck data = t.args.map (Arg.written ck data) := by
  unfold WTerm.values
  apply List.map_congr_left
  intro a ha
  rw [lookup_distinct _ h a ha]
  rfl

/-- **C79.** Every variable of a term with distinct variables is taken in the written history step and with
the written time derivative. -/
theorem C79_arguments (ck : Clock K) (data : Data K) (t : WTerm K) (h : t.Distinct) (k : ℕ) (a : Arg)
    (ha : t.args[k]? = some a) : (t.values ck data)[k]? = some (a.written ck data) := by
  rw [values_distinct ck data t h, List.getElem?_map, ha]; rfl

/-- **C79**, a finding: `term(v, u, u[-1])` is evaluated as `term(v, u[-1], u[-1])`, for any data. -/
theorem C79_repeated_variable (ck : Clock K) (data : Data K) (t : WTerm K) (v : ℕ)
    (h : t.args = [⟨v, 0, false, true⟩, ⟨v, 1, false, false⟩]) :
    t.values ck data = [callVar ck data v 1 false, callVar ck data v 1 false] := by
  simp [WTerm.values, h, lookup]

theorem foldl_vector (ck : Clock K) (data : Data K) (l : List (WTerm K)) (hd : ∀ t ∈ l, t.Distinct) (r : RVec K)
    (w i : ℕ) : l.foldl (fun r t => t.addVector ck data r) r w i = r w i + (l.map fun t => t.contrib ck data w i).sum := by
  induction l generalizing r with
  | nil => simp
  | cons t l ih =>
    rw [List.foldl_cons, ih (fun t ht => hd t (List.mem_cons_of_mem _ ht)), List.map_cons, List.sum_cons,
      WTerm.addVector, WTerm.contrib, values_distinct ck data t (hd t (List.mem_cons_self ..))]
    split <;> ring

theorem filter_distinct (select : WTerm K → Bool) (eq : List (WTerm K)) (hd : ∀ t ∈ eq, t.Distinct) :
    ∀ t ∈ eq.filter select, t.Distinct := fun t ht => hd t (List.mem_filter.1 ht).1

theorem evalVector_eq (ck : Clock K) (data : Data K) (select : WTerm K → Bool) (eq : List (WTerm K))
    (hd : ∀ t ∈ eq, t.Distinct) (r : RVec K) (w i : ℕ) :
    evalVector ck data select eq r w i = r w i + ((eq.filter select).map fun t => t.contrib ck data w i).sum :=
  foldl_vector ck data _ (filter_distinct select eq hd) r w i

/-- **C79.** The residual is the sum of the contributions of the selected terms of all the equations. -/
theorem C79_residual (ck : Clock K) (data : Data K) (select : WTerm K → Bool) (eqs : List (List (WTerm K)))
    (hd : ∀ eq ∈ eqs, ∀ t ∈ eq, t.Distinct) (w i : ℕ) :
    residual ck data select eqs w i
      = ((eqs.flatten.filter select).map fun t => t.contrib ck data w i).sum := by
  have key : ∀ (r : RVec K), eqs.foldl (fun r eq => evalVector ck data select eq r) r w i
      = r w i + ((eqs.flatten.filter select).map fun t => t.contrib ck data w i).sum := by
    induction eqs with
    | nil => intro r; simp
    | cons eq eqs ih =>
      intro r
      rw [List.foldl_cons, ih (fun e he => hd e (List.mem_cons_of_mem _ he)),
        evalVector_eq ck data select eq (hd eq (List.mem_cons_self ..)), List.flatten_cons, List.filter_append,
        List.map_append, List.sum_append, add_assoc]
  rw [residual, key, zero_add]

/-- **C79.** The block of an equation for a test variable. -/
theorem C79_residual_block (ck : Clock K) (data : Data K) (select : WTerm K → Bool) (eq : List (WTerm K))
    (hd : ∀ t ∈ eq, t.Distinct) (w i : ℕ) :
    residualBlock ck data select eq w i = ((eq.filter select).map fun t => t.contrib ck data w i).sum := by
  rw [residualBlock, evalVector_eq ck data select eq hd, zero_add]

/-- **C79.** With distinct names of the terms in an equation, the items of `by_terms=True` are the
contributions of the terms. -/
theorem C79_residual_by_terms (ck : Clock K) (data : Data K) (select : WTerm K → Bool) (eq : List (WTerm K))
    (hd : ∀ t ∈ eq, t.Distinct) (hn : (eq.map (·.name)).Nodup) (t : WTerm K) (ht : t ∈ eq) (i : ℕ) :
    residualOfTerm ck data select eq t i = if select t then t.contrib ck data t.virt i else 0 := by
  rw [residualOfTerm, evalVector_eq ck data _ eq hd, zero_add]
  have : ∀ (l : List (WTerm K)), (l.map (·.name)).Nodup → t ∈ l →
      l.filter (fun x => select x && x.name == t.name) = if select t then [t] else [] := by
    intro l
    induction l with
    | nil => intro _ h; cases h
    | cons x l ih =>
      intro hl hm
      rw [List.map_cons, List.nodup_cons] at hl
      rcases List.mem_cons.1 hm with rfl | hm
      · have hnil : l.filter (fun x => select x && x.name == t.name) = [] := by
          rw [List.filter_eq_nil_iff]
          intro y hy
          have : y.name ≠ t.name := fun e => hl.1 (e ▸ List.mem_map.2 ⟨y, hy, rfl⟩)
          simp [this]
        rw [List.filter_cons, hnil]
        cases select t <;> simp
      · have hne : x.name ≠ t.name := fun e => hl.1 (e ▸ List.mem_map.2 ⟨t, hm, rfl⟩)
        rw [List.filter_cons, if_neg (by simp [hne])]
        exact ih hl.2 hm
  rw [this eq hn ht]
  cases select t <;> simp

/-- **C79.** … and their sum over all the equations and terms of a test variable is the residual. -/
theorem C79_by_terms_sum (ck : Clock K) (data : Data K) (select : WTerm K → Bool) (eqs : List (List (WTerm K)))
    (hd : ∀ eq ∈ eqs, ∀ t ∈ eq, t.Distinct) (hn : ∀ eq ∈ eqs, (eq.map (·.name)).Nodup) (w i : ℕ) :
    (eqs.map fun eq => ((eq.filter fun t => decide (t.virt = w)).map fun t =>
      residualOfTerm ck data select eq t i).sum).sum = residual ck data select eqs w i := by
  rw [C79_residual ck data select eqs hd]
  induction eqs with
  | nil => simp
  | cons eq eqs ih =>
    rw [List.map_cons, List.sum_cons, ih (fun e he => hd e (List.mem_cons_of_mem _ he))
      (fun e he => hn e (List.mem_cons_of_mem _ he)), List.flatten_cons, List.filter_append, List.map_append,
      List.sum_append]
    congr 1
    have h1 : ((eq.filter fun t => decide (t.virt = w)).map fun t => residualOfTerm ck data select eq t i)
        = ((eq.filter fun t => decide (t.virt = w)).map fun t => if select t then t.contrib ck data w i else 0) := by
      apply List.map_congr_left
      intro t ht
      obtain ⟨hm, hw⟩ := List.mem_filter.1 ht
      rw [C79_residual_by_terms ck data select eq (hd eq (List.mem_cons_self ..)) (hn eq (List.mem_cons_self ..)) t hm,
        of_decide_eq_true hw]
    rw [h1]
    clear h1
    generalize eq = l
    induction l with
    | nil => rfl
    | cons t l ihl =>
      rw [List.filter_cons, List.filter_cons]
      by_cases hw : t.virt = w
      · simp only [hw, decide_true, if_true, List.map_cons, List.sum_cons, ihl]
        cases select t <;> simp
      · have : t.contrib ck data w i = 0 := if_neg (Ne.symm hw)
        simp only [hw, decide_false, Bool.false_eq_true, if_false, ihl]
        cases select t <;> simp [this]

/-- **C79**, a finding: two terms of the same name in an equation: both items of `by_terms=True` contain
both of the terms. -/
theorem C79_by_terms_same_name (ck : Clock K) (data : Data K) (t t' : WTerm K) (hd : t.Distinct) (hd' : t'.Distinct)
    (hn : t.name = t'.name) (hv : t.virt = t'.virt) (i : ℕ) :
    residualOfTerm ck data (fun _ => true) [t, t'] t i
      = t.contrib ck data t.virt i + t'.contrib ck data t.virt i ∧
    residualOfTerm ck data (fun _ => true) [t, t'] t' i
      = t.contrib ck data t.virt i + t'.contrib ck data t.virt i := by
  have h : ∀ x ∈ [t, t'], x.Distinct := by simp [hd, hd']
  constructor <;>
  · rw [residualOfTerm, evalVector_eq ck data _ _ h, zero_add]
    simp [hn, hv]

/-! ### Matrices -/

/-- The matrix of a term for one of its unknown variables. -/
def WTerm.tm (ck : Clock K) (data : Data K) (t : WTerm K) (v w i v' c : ℕ) : K :=
  if w = t.virt ∧ v' = v then t.factor ck v * (t.deriv v (t.values ck data) i c * t.sign) else 0

def WTerm.tms (ck : Clock K) (data : Data K) (unknown : ℕ → Bool) (t : WTerm K) (w i v' c : ℕ) : K :=
  ((t.svars unknown).map fun v => t.tm ck data v w i v' c).sum

def extraSum (l : List (RMat K)) (w i v c : ℕ) : K := (l.map fun x => x w i v c).sum

theorem addMatrix_eq (ck : Clock K) (data : Data K) (t : WTerm K) (v : ℕ) (m : RMat K) (w i v' c : ℕ) :
    t.addMatrix ck data v m w i v' c = m w i v' c + t.tm ck data v w i v' c := by
  unfold WTerm.addMatrix WTerm.tm
  split <;> simp

theorem extraSum_append (a b : List (RMat K)) (w i v c : ℕ) :
    extraSum (a ++ b) w i v c = extraSum a w i v c + extraSum b w i v c := by
  simp [extraSum]

theorem inner_fold (ck : Clock K) (data : Data K) (t : WTerm K) (vs : List ℕ) (acc : RMat K × List (RMat K))
    (w i v' c : ℕ) :
    (let o := vs.foldl (fun acc v =>
      if t.dynamic then (acc.1, acc.2 ++ [t.addMatrix ck data v fun _ _ _ _ => 0])
      else (t.addMatrix ck data v acc.1, acc.2)) acc
    o.1 w i v' c + extraSum o.2 w i v' c)
    = acc.1 w i v' c + extraSum acc.2 w i v' c + (vs.map fun v => t.tm ck data v w i v' c).sum := by
  induction vs generalizing acc with
  | nil => simp
  | cons v vs ih =>
    rw [List.foldl_cons]
    have := ih (if t.dynamic then (acc.1, acc.2 ++ [t.addMatrix ck data v fun _ _ _ _ => 0])
      else (t.addMatrix ck data v acc.1, acc.2))
    simp only at this ⊢
    rw [this, List.map_cons, List.sum_cons]
    cases t.dynamic with
    | true =>
      simp only [if_true, extraSum_append]
      simp only [extraSum, List.map_cons, List.map_nil, List.sum_cons, List.sum_nil, addMatrix_eq]
      ring
    | false => simp only [Bool.false_eq_true, if_false, addMatrix_eq]; ring

theorem evalMatrix_eq (ck : Clock K) (data : Data K) (unknown : ℕ → Bool) (select : WTerm K → Bool)
    (eq : List (WTerm K)) (m : RMat K) (w i v c : ℕ) :
    (evalMatrix ck data unknown select eq m).1 w i v c
      + extraSum (evalMatrix ck data unknown select eq m).2 w i v c
    = m w i v c + ((eq.filter select).map fun t => t.tms ck data unknown w i v c).sum := by
  unfold evalMatrix
  have key : ∀ (l : List (WTerm K)) (acc : RMat K × List (RMat K)),
      (let o := l.foldl (fun acc t => (t.svars unknown).foldl (fun acc v =>
        if t.dynamic then (acc.1, acc.2 ++ [t.addMatrix ck data v fun _ _ _ _ => 0])
        else (t.addMatrix ck data v acc.1, acc.2)) acc) acc
      o.1 w i v c + extraSum o.2 w i v c)
      = acc.1 w i v c + extraSum acc.2 w i v c + (l.map fun t => t.tms ck data unknown w i v c).sum := by
    intro l
    induction l with
    | nil => intro acc; simp
    | cons t l ih =>
      intro acc
      rw [List.foldl_cons]
      have h1 := ih ((t.svars unknown).foldl (fun acc v =>
        if t.dynamic then (acc.1, acc.2 ++ [t.addMatrix ck data v fun _ _ _ _ => 0])
        else (t.addMatrix ck data v acc.1, acc.2)) acc)
      have h2 := inner_fold ck data t (t.svars unknown) acc w i v c
      simp only at h1 h2 ⊢
      rw [h1, h2, List.map_cons, List.sum_cons, add_assoc]
      rfl
  have := key (eq.filter select) (m, [])
  simp only at this
  rw [this]
  simp [extraSum]

theorem add_extras (l : List (RMat K)) (m : RMat K) (w i v c : ℕ) :
    l.foldl (fun m x => fun w i v c => m w i v c + x w i v c) m w i v c = m w i v c + extraSum l w i v c := by
  induction l generalizing m with
  | nil => simp [extraSum]
  | cons x l ih => rw [List.foldl_cons, ih]; simp [extraSum, add_assoc]

theorem tangent_eq (ck : Clock K) (data : Data K) (unknown : ℕ → Bool) (select : WTerm K → Bool)
    (eqs : List (List (WTerm K))) (w i v c : ℕ) :
    tangent ck data unknown select eqs w i v c
      = ((eqs.flatten.filter select).map fun t => t.tms ck data unknown w i v c).sum := by
  unfold tangent
  have key : ∀ (acc : RMat K × List (RMat K)),
      (let o := eqs.foldl (fun acc eq =>
        let o := evalMatrix ck data unknown select eq acc.1
        (o.1, acc.2 ++ o.2)) acc
      o.1 w i v c + extraSum o.2 w i v c)
      = acc.1 w i v c + extraSum acc.2 w i v c
        + ((eqs.flatten.filter select).map fun t => t.tms ck data unknown w i v c).sum := by
    induction eqs with
    | nil => intro acc; simp
    | cons eq eqs ih =>
      intro acc
      have h1 := ih ((evalMatrix ck data unknown select eq acc.1).1,
        acc.2 ++ (evalMatrix ck data unknown select eq acc.1).2)
      have h2 := evalMatrix_eq ck data unknown select eq acc.1 w i v c
      simp only [List.foldl_cons] at h1 ⊢
      rw [h1, extraSum_append, List.flatten_cons, List.filter_append, List.map_append, List.sum_append]
      linear_combination h2
  have := key ((fun _ _ _ _ => 0 : RMat K), ([] : List (RMat K)))
  simp only at this ⊢
  rw [add_extras, this]
  simp [extraSum]

/-! ### The tangent matrix is the derivative of the residual -/

/-- The direction in which an argument moves. -/
def Arg.dir (ck : Clock K) (unknown : ℕ → Bool) (δ : ℕ → ℕ → K) (a : Arg) : ℕ → K := fun c =>
  if a.back = 0 ∧ unknown a.var = true then
    if a.dt then (if ck.step = 0 then 0 else δ a.var c / ck.dt) else δ a.var c
  else 0

theorem written_moved (ck : Clock K) (unknown : ℕ → Bool) (data : Data K) (δ : ℕ → ℕ → K) (s : K) (a : Arg)
    (h : ck.step = 0 → a.back ≠ 1) :
    a.written ck (moved unknown data δ s) = fun c => a.written ck data c + s * a.dir ck unknown δ c := by
  funext c
  unfold Arg.written Arg.dir callVar
  by_cases hb : a.back = 0
  · cases hu : unknown a.var with
    | true =>
      cases a.dt with
      | true =>
        by_cases hs : ck.step = 0
        · simp [callStep, hb, hs]
        · simp only [hb, hu, callStep, hs, moved, if_true, and_self, if_false, false_and, zero_add, one_ne_zero]
          ring
      | false => simp [hb, hu, callStep, moved]
    | false =>
      have hm : ∀ k, moved unknown data δ s a.var k = data a.var k := by
        intro k; funext c; simp [moved, hu]
      cases a.dt <;> simp [callStep, hm]
  · have h1 : ¬(ck.step = 0 ∧ a.back = 1) := fun h' => h h'.1 h'.2
    cases a.dt <;> simp [hb, h1, callStep, moved]

theorem svars_eq (unknown : ℕ → Bool) (t : WTerm K) (h : t.Distinct) :
    t.svars unknown = (t.args.filter fun a => a.state && (unknown a.var && a.back == 0)).map (·.var) := by
  unfold WTerm.svars
  have hl := lookup_distinct t.args h
  have key : ∀ l : List Arg, (∀ a ∈ l, lookup t.args a.var = some a) →
      ((l.filter (·.state)).map (·.var)).filter (fun v =>
        unknown v && (match lookup t.args v with | some b => b.back == 0 | none => false))
      = (l.filter fun a => a.state && (unknown a.var && a.back == 0)).map (·.var) := by
    intro l hl
    induction l with
    | nil => rfl
    | cons a l ih =>
      have ih := ih fun b hb => hl b (List.mem_cons_of_mem _ hb)
      have ha := hl a (List.mem_cons_self ..)
      rw [List.filter_cons, List.filter_cons]
      cases hs : a.state with
      | false => simpa using ih
      | true =>
        simp only [if_true, List.map_cons, Bool.true_and]
        rw [List.filter_cons, ha]
        simp only
        rw [ih]
        split <;> simp
  exact key t.args hl

theorem sum_var (nv v : ℕ) (hv : v < nv) (n : ℕ → ℕ) (f : ℕ → ℕ → K) (p : Prop) [Decidable p] :
    ∑ v' ∈ Finset.range nv, ∑ c ∈ Finset.range (n v'), (if p ∧ v' = v then f v' c else 0)
      = if p then ∑ c ∈ Finset.range (n v), f v c else 0 := by
  by_cases hp : p
  · simp only [hp, true_and, if_true]
    rw [Finset.sum_eq_single v]
    · simp
    · intro b _ hb; simp [hb]
    · intro h; exact absurd (Finset.mem_range.2 hv) h
  · simp [hp]

theorem term_derivative (ck : Clock ℝ) (unknown : ℕ → Bool) (data : Data ℝ) (δ : ℕ → ℕ → ℝ) (n : ℕ → ℕ) (nv : ℕ)
    (t : WTerm ℝ) (hd : t.Distinct) (hv : ∀ a ∈ t.args, a.var < nv)
    (hs : ∀ a ∈ t.args, unknown a.var = true → a.back = 0 → a.state = true)
    (h0 : ck.step = 0 → ck.quasistatic = true ∧ ∀ a ∈ t.args, a.back ≠ 1)
    (hdiff : t.Differentiable n) (w i : ℕ) :
    HasDerivAt (fun s => t.contrib ck (moved unknown data δ s) w i)
      (∑ v ∈ Finset.range nv, ∑ c ∈ Finset.range (n v), t.tms ck data unknown w i v c * δ v c) 0 := by
  have hval : ∀ s, t.args.map (Arg.written ck (moved unknown data δ s))
      = List.zipWith (fun x d => fun c => x c + s * d c) (t.args.map (Arg.written ck data))
        (t.args.map (Arg.dir ck unknown δ)) := by
    intro s
    rw [List.zipWith_map, List.zipWith_self]
    apply List.map_congr_left
    intro a ha
    exact written_moved ck unknown data δ s a fun h => (h0 h).2 a ha
  have hderiv := hdiff (t.args.map (Arg.written ck data)) (t.args.map (Arg.dir ck unknown δ)) (by simp) (by simp)
    (by
      intro k a ha hst
      rw [List.getElem?_map, ha, Option.map_some]
      congr 1
      funext c
      unfold Arg.dir
      rw [if_neg]
      rintro ⟨hb, hu⟩
      rw [hs a (List.mem_of_getElem? ha) hu hb] at hst
      cases hst) i
  by_cases hw : w = t.virt
  · have hfun : (fun s => t.contrib ck (moved unknown data δ s) w i)
        = fun s => t.sign * t.kernel (List.zipWith (fun x d => fun c => x c + s * d c)
          (t.args.map (Arg.written ck data)) (t.args.map (Arg.dir ck unknown δ))) i := by
      funext s; rw [WTerm.contrib, if_pos hw, hval s]
    rw [hfun]
    refine (hderiv.const_mul t.sign).congr_deriv (Eq.symm ?_)
    unfold WTerm.tms
    rw [svars_eq unknown t hd]
    unfold WTerm.tm
    rw [values_distinct ck data t hd]
    generalize hxs : t.args.map (Arg.written ck data) = xs
    have key : ∀ l : List Arg, (∀ a ∈ l, a ∈ t.args) →
        ∑ v ∈ Finset.range nv, ∑ c ∈ Finset.range (n v),
          (((l.filter fun a => a.state && (unknown a.var && a.back == 0)).map (·.var)).map fun v_1 =>
            if w = t.virt ∧ v = v_1 then t.factor ck v_1 * (t.deriv v_1 xs i c * t.sign) else 0).sum * δ v c
        = t.sign * (List.zipWith (fun a d => ∑ c ∈ Finset.range (n a.var), t.deriv a.var xs i c * d c) l
          (l.map (Arg.dir ck unknown δ))).sum := by
      intro l hl
      induction l with
      | nil => simp
      | cons a l ih =>
        have ih := ih fun b hb => hl b (List.mem_cons_of_mem _ hb)
        have ha := hl a (List.mem_cons_self ..)
        rw [List.map_cons, List.zipWith_cons_cons, List.sum_cons, mul_add, ← ih, List.filter_cons]
        by_cases hc : a.back = 0 ∧ unknown a.var = true
        · have hst := hs a ha hc.2 hc.1
          rw [if_pos (by simp [hst, hc])]
          simp only [List.map_cons, List.sum_cons, add_mul, Finset.sum_add_distrib]
          congr 1
          have hfac : ∀ c, t.factor ck a.var * δ a.var c = a.dir ck unknown δ c := by
            intro c
            unfold WTerm.factor Arg.dir
            rw [lookup_distinct t.args hd a ha, if_pos hc]
            simp only
            cases a.dt with
            | false => simp
            | true =>
              by_cases hs0 : ck.step = 0
              · simp [hs0, (h0 hs0).1]
              · have : 0 < ck.step := Nat.pos_of_ne_zero hs0
                simp only [if_true, this, decide_true, Bool.or_true, hs0, if_false]
                ring
          simp only [ite_mul, zero_mul]
          rw [sum_var nv a.var (hv a ha) n (fun v' c =>
            t.factor ck a.var * (t.deriv a.var xs i c * t.sign) * δ v' c), if_pos hw, Finset.mul_sum]
          refine Finset.sum_congr rfl fun c _ => ?_
          rw [← hfac c]; ring
        · rw [if_neg (by
            intro h
            simp only [Bool.and_eq_true, beq_iff_eq] at h
            exact hc ⟨h.2.2, h.2.1⟩)]
          have : ∀ c, a.dir ck unknown δ c = 0 := fun c => if_neg hc
          simp [this]
    exact key t.args fun a ha => ha
  · have hfun : (fun s => t.contrib ck (moved unknown data δ s) w i) = fun _ => 0 := by
      funext s; rw [WTerm.contrib, if_neg hw]
    rw [hfun]
    refine (hasDerivAt_const (0 : ℝ) (0 : ℝ)).congr_deriv (Eq.symm ?_)
    simp [WTerm.tms, WTerm.tm, hw]

/-- **C79.** The tangent matrix is the derivative of the residual with respect to the current values of the
unknown variables: for terms with distinct variables whose matrices are the derivatives of their vectors,
with the unknown variables in the state positions, in any time step after the initial one, or in the
initial one of quasistatic problems without previous values `u[-1]`. -/
theorem C79_tangent_is_derivative (ck : Clock ℝ) (unknown : ℕ → Bool) (data : Data ℝ) (select : WTerm ℝ → Bool)
    (eqs : List (List (WTerm ℝ))) (n : ℕ → ℕ) (nv : ℕ)
    (hd : ∀ eq ∈ eqs, ∀ t ∈ eq, t.Distinct) (hv : ∀ eq ∈ eqs, ∀ t ∈ eq, ∀ a ∈ t.args, a.var < nv)
    (hs : ∀ eq ∈ eqs, ∀ t ∈ eq, ∀ a ∈ t.args, unknown a.var = true → a.back = 0 → a.state = true)
    (h0 : ck.step = 0 → ck.quasistatic = true ∧ ∀ eq ∈ eqs, ∀ t ∈ eq, ∀ a ∈ t.args, a.back ≠ 1)
    (hdiff : ∀ eq ∈ eqs, ∀ t ∈ eq, t.Differentiable n) (δ : ℕ → ℕ → ℝ) (w i : ℕ) :
    HasDerivAt (fun s => residual ck (moved unknown data δ s) select eqs w i)
      (∑ v ∈ Finset.range nv, ∑ c ∈ Finset.range (n v), tangent ck data unknown select eqs w i v c * δ v c) 0 := by
  have hfun : (fun s => residual ck (moved unknown data δ s) select eqs w i)
      = fun s => ((eqs.flatten.filter select).map fun t => t.contrib ck (moved unknown data δ s) w i).sum := by
    funext s; exact C79_residual ck _ select eqs hd w i
  rw [hfun]
  simp only [tangent_eq]
  have hmem : ∀ t ∈ eqs.flatten.filter select, ∃ eq ∈ eqs, t ∈ eq := fun t ht =>
    List.mem_flatten.1 (List.mem_filter.1 ht).1
  generalize eqs.flatten.filter select = l at hmem
  induction l with
  | nil => simpa using hasDerivAt_const (0 : ℝ) (0 : ℝ)
  | cons t l ih =>
    obtain ⟨eq, he, ht⟩ := hmem t (List.mem_cons_self ..)
    have h1 := term_derivative ck unknown data δ n nv t (hd eq he t ht) (hv eq he t ht) (hs eq he t ht)
      (fun h => ⟨(h0 h).1, (h0 h).2 eq he t ht⟩) (hdiff eq he t ht) w i
    have h2 := ih fun t ht => hmem t (List.mem_cons_of_mem _ ht)
    refine (h1.add h2).congr_deriv (Eq.symm ?_)
    simp only [List.map_cons, List.sum_cons, add_mul, Finset.sum_add_distrib]

/-- **C79**, a finding: in the initial step, `du/dt` is zero for all values, but without the quasistatic
option the tangent matrix contains `1/dt` times the matrix of the term. -/
theorem C79_initial_rate (ck : Clock K) (hs : ck.step = 0) (hq : ck.quasistatic = false) (data : Data K)
    (t : WTerm K) (v : ℕ) (ht : t.args = [⟨v, 0, true, true⟩]) :
    t.values ck data = [fun _ => 0] ∧ t.factor ck v = 1 / ck.dt := by
  simp [WTerm.values, WTerm.factor, lookup, ht, callVar, callStep, hs, hq]

/-- **C79.** The matrices of `by_terms=True`: with distinct names and no dynamic connectivities. -/
theorem C79_tangent_by_terms (ck : Clock K) (data : Data K) (unknown : ℕ → Bool) (eq : List (WTerm K))
    (hdyn : ∀ t ∈ eq, t.dynamic = false) (hn : (eq.map (·.name)).Nodup)
    (t : WTerm K) (ht : t ∈ eq) (i v c : ℕ) :
    tangentOfTerm ck data unknown (fun _ => true) eq t i v c = tangent ck data unknown (fun _ => true) [[t]] t.virt i v c := by
  have hno : ∀ (l : List (WTerm K)) (acc : RMat K × List (RMat K)), (∀ t ∈ l, t.dynamic = false) →
      (l.foldl (fun acc t => (t.svars unknown).foldl (fun acc v =>
        if t.dynamic then (acc.1, acc.2 ++ [t.addMatrix ck data v fun _ _ _ _ => 0])
        else (t.addMatrix ck data v acc.1, acc.2)) acc) acc).2 = acc.2 := by
    intro l
    induction l with
    | nil => intro acc _; rfl
    | cons t l ih =>
      intro acc h
      rw [List.foldl_cons, ih _ fun t ht => h t (List.mem_cons_of_mem _ ht)]
      have hdt := h t (List.mem_cons_self ..)
      generalize t.svars unknown = vs
      induction vs generalizing acc with
      | nil => rfl
      | cons v vs ihv => rw [List.foldl_cons, ihv]; simp [hdt]
  have hkey := evalMatrix_eq ck data unknown (fun x => true && x.name == t.name) eq (fun _ _ _ _ => 0) t.virt i v c
  have hx : (evalMatrix ck data unknown (fun x => true && x.name == t.name) eq fun _ _ _ _ => 0).2 = [] := by
    unfold evalMatrix
    exact hno _ _ fun t ht => hdyn t (List.mem_filter.1 ht).1
  rw [hx] at hkey
  unfold tangentOfTerm
  rw [tangent_eq]
  have hf : ∀ l : List (WTerm K), (l.map (·.name)).Nodup → t ∈ l → l.filter (fun x => true && x.name == t.name) = [t] := by
    intro l
    induction l with
    | nil => intro _ h; cases h
    | cons x l ih =>
      intro hl hm
      rw [List.map_cons, List.nodup_cons] at hl
      rcases List.mem_cons.1 hm with rfl | hm
      · have hnil : l.filter (fun x => true && x.name == t.name) = [] := by
          rw [List.filter_eq_nil_iff]
          intro y hy
          have : y.name ≠ t.name := fun e => hl.1 (e ▸ List.mem_map.2 ⟨y, hy, rfl⟩)
          simp [this]
        rw [List.filter_cons, hnil]
        simp
      · have hne : x.name ≠ t.name := fun e => hl.1 (e ▸ List.mem_map.2 ⟨t, hm, rfl⟩)
        rw [List.filter_cons, if_neg (by simp [hne])]
        exact ih hl.2 hm
  rw [hf eq hn ht] at hkey
  simpa [extraSum] using hkey

/-- **C79**, a finding: the matrix of a term with a dynamic connectivity is lost in `by_terms=True`. -/
theorem C79_by_terms_dynamic_lost (ck : Clock K) (data : Data K) (unknown : ℕ → Bool) (t : WTerm K)
    (h : t.dynamic = true) (i v c : ℕ) : tangentOfTerm ck data unknown (fun _ => true) [t] t i v c = 0 := by
  unfold tangentOfTerm evalMatrix
  simp only [Bool.true_and, List.filter_cons, beq_self_eq_true, if_true, List.filter_nil, List.foldl_cons,
    List.foldl_nil, h]
  have : ∀ (vs : List ℕ) (acc : RMat K × List (RMat K)), (vs.foldl (fun acc v =>
      (acc.1, acc.2 ++ [t.addMatrix ck data v fun _ _ _ _ => 0])) acc).1 = acc.1 := by
    intro vs
    induction vs with
    | nil => intro acc; rfl
    | cons v vs ih => intro acc; rw [List.foldl_cons, ih]
  rw [this]

/-- **C79.** A block of the tangent matrix, or an exception with dynamic connectivities. -/
theorem C79_tangent_block (ck : Clock K) (data : Data K) (unknown : ℕ → Bool) (select : WTerm K → Bool)
    (eq : List (WTerm K)) (w v : ℕ) (b : ℕ → ℕ → K)
    (h : tangentBlock ck data unknown select eq w v = some b) (i c : ℕ) :
    b i c = tangent ck data unknown select [eq] w i v c := by
  unfold tangentBlock at h
  simp only at h
  split at h
  · rename_i he
    have hkey := evalMatrix_eq ck data unknown select eq (fun _ _ _ _ => 0) w i v c
    rw [List.isEmpty_iff.1 he] at hkey
    cases h
    rw [tangent_eq]
    simpa [extraSum] using hkey
  · cases h

/-- **C79.** In the mode `'eval'` an equation is the sum of its selected terms with their signs. -/
theorem C79_eval_mode (select : α → Bool) (sign value : α → K) (eq : List α) :
    evalEquation select sign value eq = ((eq.filter select).map fun t => sign t * value t).sum := by
  unfold evalEquation
  have : ∀ (l : List α) (x : K), l.foldl (fun acc t => acc + value t * sign t) x
      = x + (l.map fun t => sign t * value t).sum := by
    intro l
    induction l with
    | nil => intro x; simp
    | cons t l ih => intro x; rw [List.foldl_cons, ih, List.map_cons, List.sum_cons]; ring
  rw [this, zero_add]

end Eqn
