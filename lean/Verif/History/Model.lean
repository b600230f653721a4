/-
Model of the DOF history and of the evaluate cache of a variable
(`sfepy/discrete/variables.py:1040-1075, 1201-1360, 1653-1770`) and of the restart files
(`sfepy/discrete/problem.py:2062-2192`).

NumPy arrays are mutable objects shared by reference, so the model has a heap of arrays; a reference is
an index into the heap.  `V` is the type of the DOF values.
-/
import Mathlib.Algebra.Order.Group.Int
import Mathlib.Data.List.Basic

namespace Verif.History

variable {V : Type}

inductive HErr where
  /-- ValueError -/
  | value
  /-- AttributeError: `None` used as an array -/
  | attribute
  /-- IndexError -/
  | index
deriving DecidableEq, Repr

/-- The heap of arrays. -/
abbrev Heap (V : Type) := List (List V)

/-- The contents of an array. -/
def Heap.get (hp : Heap V) (r : Nat) : List V := hp.getD r []

/-- In-place change of an array. -/
def Heap.put (hp : Heap V) (r : Nat) (v : List V) : Heap V := hp.set r v

/-- `a[lo:hi]`. -/
def slice (a : List V) (lo hi : Nat) : List V := (a.drop lo).take (hi - lo)

/-- `a[lo:hi] = v` for `v` with `hi - lo` values, `hi <= len(a)`. -/
def assign (a : List V) (lo hi : Nat) (v : List V) : List V := a.take lo ++ v ++ a.drop hi

/-- Attributes of a state or parameter `Variable` (variables.py:1040-1056); `history = none` is
`None`. -/
structure Var where
  history : Option Nat
  nDof : Nat
  data : List (Option Nat)
  lo : Nat
  hi : Nat
  step : Nat
  locked : Bool

/-- `init_history()` (variables.py:1201-1206). -/
def Var.initHistory (x : Var) : Var :=
  match x.history with
  | none => x
  | some h => { x with data := List.replicate (h + 1) none, step := 0 }

/-- First loop of `advance` (variables.py:1225-1227), for `ii = i, ..., i + n - 1`. -/
def fillLoop : Nat → Nat → Heap V → List (Option Nat) → Except HErr (Heap V × List (Option Nat))
  | 0, _, hp, data => .ok (hp, data)
  | n + 1, i, hp, data =>
    if data.length ≤ i then .error .index else
    match data.getD i none with
    | some _ => fillLoop n (i + 1) hp data
    | none =>
      match data.getD (i - 1) none with
      | none => .error .attribute
      | some p => fillLoop n (i + 1) (hp ++ [hp.get p]) (data.set i (some hp.length))

/-- Second loop of `advance` (variables.py:1229-1230), for `ii = n, ..., 1`. -/
def shiftLoop (lo hi : Nat) (data : List (Option Nat)) : Nat → Heap V → Heap V
  | 0, hp => hp
  | n + 1, hp =>
    match data.getD (n + 1) none, data.getD n none with
    | some r, some p =>
      shiftLoop lo hi data n (hp.put r (assign (hp.get r) lo hi (slice (hp.get p) lo hi)))
    | _, _ => hp

/-- `advance(ts)` without the caches (variables.py:1212-1230). -/
def Var.advance (hp : Heap V) (x : Var) (tsStep : Nat) : Except HErr (Heap V × Var) :=
  match x.history with
  | none => .ok (hp, x)
  | some 0 => .ok (hp, { x with step := tsStep + 1 })
  | some (h + 1) =>
    match fillLoop (h + 1) 1 hp x.data with
    | .error e => .error e
    | .ok (hp', data') =>
      .ok (shiftLoop x.lo x.hi data' (h + 1) hp', { x with step := tsStep + 1, data := data' })

/-- Index of the list item that `lst[i]` refers to in Python. -/
def pyIndex (n : Nat) (i : Int) : Option Nat :=
  if 0 ≤ i then (if i < n then some i.toNat else none)
  else if -(n : Int) ≤ i then some (n + i).toNat else none

/-- `set_data(data, indx, step)` (variables.py:1264-1312); `r` is the reference to the (one
dimensional) array, `indx` the slice or `none`. -/
def Var.setData (hp : Heap V) (x : Var) (r : Nat) (indx : Option (Nat × Nat)) (step : Int) :
    Except HErr Var :=
  if x.locked then .error .value
  else
    let p := indx.getD (0, (hp.get r).length)
    if x.nDof ≠ p.2 - p.1 ∨ p.2 < p.1 then .error .value
    else if step > 0 ∨ -step ≥ x.data.length then .error .value
    else
      match pyIndex x.data.length step with
      | none => .error .index
      | some i => .ok { x with data := x.data.set i (some r), lo := p.1, hi := p.2 }

/-- `__call__(step)` without a derivative (variables.py:1339-1349) for `step <= 0`. -/
def Var.call (hp : Heap V) (x : Var) (step : Int) : Except HErr (List V) :=
  if x.step = 0 ∧ step = -1 then
    match x.data.getD 0 none with
    | none => .error .value
    | some r => .ok (slice (hp.get r) x.lo x.hi)
  else
    match pyIndex x.data.length (-step) with
    | none => .error .index
    | some i =>
      match x.data.getD i none with
      | none => .error .value
      | some r => .ok (slice (hp.get r) x.lo x.hi)

/-! ### Restart files -/

/-- The history part of `save_restart` (problem.py:2079-2125): the stored vectors `data_0,
data_1, ...` of one variable. -/
def saveVar (hp : Heap V) (x : Var) : Except HErr (List (List V)) :=
  (List.range x.data.length).mapM fun (ii : Nat) => x.call hp (-(ii : Int))

/-- The loop of `load_restart` over the stored vectors (problem.py:2177-2187), each read into
a new array; `k` is the index of the first of `ds`. -/
def loadLoop : Nat → List (List V) → Heap V → Var → Except HErr (Heap V × Var)
  | _, [], hp, x => .ok (hp, x)
  | k, d :: ds, hp, x =>
    match ({ x with locked := false }).setData (hp ++ [d]) hp.length none (-(k : Int)) with
    | .error e => .error e
    | .ok x' => loadLoop (k + 1) ds (hp ++ [d]) { x' with locked := true }

/-- `load_restart` (problem.py:2158-2193) for one variable occupying `vec[lo:hi]` of the state
vector of the size `n` (zeros `z` before): the loop, `set_vec_part` and then
`variables.init_state(vec)` (variables.py:652-666), which calls `init_history`. -/
def loadVar (z : V) (n lo hi : Nat) (ds : List (List V)) (hp : Heap V) (x : Var) :
    Except HErr (Heap V × Var) :=
  match loadLoop 0 ds hp x with
  | .error e => .error e
  | .ok (hp1, x1) =>
    let vec := assign (List.replicate n z) lo hi (ds.headD [])
    let hp2 := hp1 ++ [vec]
    match ({ x1.initHistory with locked := false }).setData hp2 hp1.length (some (lo, hi)) 0 with
    | .error e => .error e
    | .ok x2 => .ok (hp2, { x2 with locked := true })

/-! ### Evaluate cache -/

/-- `evaluate_cache[mode][step][key]`; the modes with no entry and with an empty dictionary
are not distinguished, the steps with an empty dictionary are kept (they matter in
`advance`).  The dictionaries are values here; in the code `advance` lets two steps share one
dictionary when there are gaps in the cached steps (the case excluded in the theorems). `κ` contains the mapping key, the time derivative flag and the trace region. -/
abbrev Cache (M κ W : Type) := M → List (Int × List (κ × W))

variable {M κ W H : Type} [DecidableEq M] [DecidableEq κ]

/-- Dictionary lookup. -/
def lookup {α β : Type} [DecidableEq α] (k : α) : List (α × β) → Option β
  | [] => none
  | p :: l => if p.1 = k then some p.2 else lookup k l

/-- `d[k] = v`. -/
def store {α β : Type} [DecidableEq α] (k : α) (v : β) : List (α × β) → List (α × β)
  | [] => [(k, v)]
  | p :: l => if p.1 = k then (k, v) :: l else p :: store k v l

/-- `d.pop(k)`. -/
def erase {α β : Type} [DecidableEq α] (k : α) (l : List (α × β)) : List (α × β) :=
  l.filter fun p => p.1 ≠ k

/-- `invalidate_evaluate_cache(step)` (variables.py:1659-1671). -/
def Cache.invalidate (c : Cache M κ W) (step : Int) : Cache M κ W := fun m => erase step (c m)

/-- Loop of `advance` over the cached steps of a mode (variables.py:1235-1245), for ascending
steps. -/
def shiftCache (h : Nat) : List Int → List (Int × List (κ × W)) → List (Int × List (κ × W))
  | [], d => d
  | s :: ss, d =>
    shiftCache h ss (if -s < h then store (s - 1) ((lookup s d).getD []) d else d)

/-- Ascending order of the keys: `sorted(step_cache.keys())`. -/
def insertSorted (s : Int) : List Int → List Int
  | [] => [s]
  | t :: l => if s ≤ t then s :: t :: l else t :: insertSorted s l

def sortedKeys (d : List (Int × List (κ × W))) : List Int :=
  (d.map (·.1)).foldr insertSorted []

/-- The cache part of `advance` (variables.py:1232-1248); the special caches with the step
`None` are not modelled. -/
def advanceCache (h : Nat) (d : List (Int × List (κ × W))) : List (Int × List (κ × W)) :=
  let steps := sortedKeys d
  match steps.getLast? with
  | none => d
  | some last => erase last (shiftCache h steps d)

def Cache.advance (history : Option Nat) (c : Cache M κ W) : Cache M κ W :=
  match history with
  | none | some 0 => c
  | some h => fun m => advanceCache h (c m)

/-- What the evaluation depends on besides the variable: `val m k p v` is the array computed
in the mode `m` with the mapping key `k` and the base function argument in `p` from the DOF vector
`v`; `diff p a b` is `(a - b) / dt` with the time step in `p`; `isDt k` says that the key asks for the
time derivative. -/
structure Env (M κ W H V : Type) where
  val : M → κ → H → List V → W
  diff : H → List V → List V → List V
  isDt : κ → Bool

/-- `__call__(step, derivative, dt)` (variables.py:1339-1358). -/
def callD (E : Env M κ W H V) (hp : Heap V) (x : Var) (k : κ) (p : H) (step : Int) :
    Except HErr (List V) :=
  if E.isDt k then
    match x.history with
    | none => .error .value
    | some _ =>
      match x.call hp step, x.call hp (step - 1) with
      | .ok a, .ok b => .ok (E.diff p a b)
      | .error e, _ => .error e
      | _, .error e => .error e
  else x.call hp step

/-- `evaluate(mode, ..., step)` (variables.py:1672-1770): the returned array and the new cache. -/
def evaluate (E : Env M κ W H V) (hp : Heap V) (x : Var) (c : Cache M κ W) (m : M) (step : Int)
    (k : κ) (p : H) : Except HErr W × Cache M κ W :=
  let inner := (lookup step (c m)).getD []
  let c' : Cache M κ W := Function.update c m (store step inner (c m))
  match lookup k inner with
  | some w => (.ok w, c')
  | none =>
    match callD E hp x k p step with
    | .error e => (.error e, c')
    | .ok v =>
      let w := E.val m k p v
      (.ok w, Function.update c' m (store step (store k w inner) (c' m)))

end Verif.History
