/-
Model of the homogenization engine: `sfepy/homogenization/engine.py`.

The names of the requirements and of the coefficients (`'c.<name>'`) are pairs: `(false, a)` is the requirement `a`,
`(true, a)` the coefficient `a`.  The names do not contain the prefix or the chunk tag themselves.  The mini
applications are functions of the values of their direct dependencies.
-/
import Mathlib.Data.List.Basic
import Mathlib.Data.Int.Basic

namespace Verif.Homog

/-- A requirement or a coefficient `'c.<name>'`. -/
abbrev Name (α : Type) := Bool × α

/-- The exceptions: `ValueError` of an undefined or a circular requirement, `KeyError`; `fuel` is the recursion limit
of Python. -/
inductive Err
  | undefined
  | circular
  | key
  | fuel
  deriving DecidableEq, Repr

section
variable {α : Type} [DecidableEq α]

/-- The definitions: `requires` of the given name (an empty list when missing), nothing for an unknown name. -/
abbrev Info (α : Type) := α → Option (List (Name α))

/-- `reqcoef_info = copy(coef_info); reqcoef_info.update(req_info)`
(sfepy/homogenization/engine.py:149-150). -/
def merged (reqInfo coefInfo : Info α) : Info α := fun a =>
  match reqInfo a with
  | some r => some r
  | none => coefInfo a

/-- `insert_sub_reqs()` (sfepy/homogenization/engine.py:11-37). -/
def insertSubReqs (info : Info α) : ℕ → List (Name α) → List (Name α) → Except Err (List (Name α))
  | 0, _, _ => .error .fuel
  | f + 1, reqs, levels =>
    reqs.foldlM (fun all req =>
      match info req.2 with
      | none => .error .undefined
      | some sub =>
        if req ∈ levels then .error .circular
        else
          match (if sub ≠ [] then
              (insertSubReqs info f sub (levels ++ [req])).map fun s => all ++ s.filter fun i => i ∉ all
            else .ok all) with
          | .error e => .error e
          | .ok all => .ok (if req ∈ all then all else all ++ [req])) []

/-- `HomogenizationWorker.get_sorted_dependencies()` (sfepy/homogenization/engine.py:145-164): `computeNames` is
`compute_only` or the names of all the coefficients, in the order of the set. -/
def sortedDeps (fuel : ℕ) (reqInfo coefInfo : Info α) (computeNames : List α) : Except Err (List (Name α)) :=
  computeNames.foldlM (fun names a =>
    match coefInfo a with
    | none => .error .key
    | some requires =>
      match insertSubReqs (merged reqInfo coefInfo) fuel requires [] with
      | .error e => .error e
      | .ok deps => .ok ((deps ++ [(true, a)]).foldl (fun names dep => if dep ∈ names then names else names ++ [dep])
          names)) []

/-- `requires` of a name in `calculate_req()` and in the multiprocessing worker
(sfepy/homogenization/engine.py:274-282, 294-306, 464-468). -/
def requires (reqInfo coefInfo : Info α) (n : Name α) : Option (List (Name α)) :=
  if n.1 then coefInfo n.2 else reqInfo n.2

variable {V S : Type}

/-- The data of the direct dependencies, `dependencies[key] for key in dep_requires`
(sfepy/homogenization/engine.py:168-171); nothing is a `KeyError`. -/
def depData (deps : Name α → Option V) (rs : List (Name α)) : Option (List (Name α × V)) :=
  rs.mapM fun r => (deps r).map fun v => (r, v)

/-- `HomogenizationWorker.calculate_req()` (sfepy/homogenization/engine.py:230-313): the mini application is called
with the direct dependencies; it can change the state of the worker or fail. -/
def calculateReq (reqs : Name α → Option (List (Name α))) (app : S → Name α → List (Name α × V) → Option (V × S)) (s : S)
    (deps : Name α → Option V) (n : Name α) : Option (V × S) :=
  match reqs n with
  | none => none
  | some rs => (depData deps rs).bind fun data => app s n data

/-- `HomogenizationWorker.__call__()` (sfepy/homogenization/engine.py:125-143) with the sorted names. -/
def serial (reqs : Name α → Option (List (Name α))) (app : S → Name α → List (Name α × V) → Option (V × S)) (s : S)
    (names : List (Name α)) : Option ((Name α → Option V) × S) :=
  names.foldlM (fun (st : (Name α → Option V) × S) name =>
    (calculateReq reqs app st.2 st.1 name).map fun r => (fun m => if m = name then some r.1 else st.1 m, r.2))
    (fun _ => none, s)

/-! ### Multiprocessing -/

/-- The state of `HomogenizationWorkerMulti.__call__()`. -/
structure MState (α V : Type) where
  /-- The shared dictionary. -/
  deps : Name α → Option V
  /-- The dictionary `numdeps`. -/
  numdeps : List (Name α × ℤ)
  /-- The tasks of the last `workers.map()`. -/
  tasks : List (Name α)
  /-- The number of the results already taken by `zip(tasks, workers.map(wfun, tasks))`. -/
  taken : ℕ
  /-- The results available in the worker processes. -/
  results : Name α → Option V
  /-- The variable `remaining`. -/
  remaining : ℤ
  /-- An exception was raised. -/
  failed : Bool

/-- `numdeps` and `remaining` before the loop (sfepy/homogenization/engine.py:461-478). -/
def mInit (reqs : Name α → List (Name α)) (names : List (Name α)) : MState α V where
  deps := fun _ => none
  numdeps := names.map fun n => (n, ((reqs n).length : ℤ))
  tasks := []
  taken := 0
  results := fun _ => none
  remaining := names.length
  failed := false

/-- `inverse_deps[req]` (sfepy/homogenization/engine.py:470-475). -/
def inverseDeps (reqs : Name α → List (Name α)) (names : List (Name α)) (req : Name α) : List (Name α) :=
  names.flatMap fun n => (reqs n).filterMap fun r => if r = req then some n else none

/-- `numdeps[itask] -= 1` (sfepy/homogenization/engine.py:489-491); nothing is a `KeyError`. -/
def decr (numdeps : List (Name α × ℤ)) (itask : Name α) : Option (List (Name α × ℤ)) :=
  if itask ∈ numdeps.map Prod.fst then some (numdeps.map fun p => if p.1 = itask then (p.1, p.2 - 1) else p)
  else none

/-- The start of an iteration of the `while` loop (sfepy/homogenization/engine.py:480-483): when there is nothing in
`numdeps`, the previous tasks are run again. -/
def mStart (s : MState α V) : MState α V :=
  if s.numdeps ≠ [] then
    { s with
      tasks := (s.numdeps.filter fun p => p.2 = 0).map Prod.fst
      numdeps := s.numdeps.filter fun p => 0 < p.2
      taken := 0
      results := fun _ => none }
  else { s with taken := 0, results := fun _ => none }

/-- A worker process runs a task (sfepy/homogenization/engine.py:347-378), reading the shared dictionary. -/
def mWork (reqs : Name α → List (Name α)) (app : Name α → List (Name α × V) → Option V) (t : Name α) (s : MState α V) :
    MState α V :=
  match (depData s.deps (reqs t)).bind (app t) with
  | none => { s with failed := true }
  | some v => { s with results := fun m => if m = t then some v else s.results m }

/-- The result `v` of the task `t` is taken (sfepy/homogenization/engine.py:485-493). -/
def mTake (reqs : Name α → List (Name α)) (names : List (Name α)) (t : Name α) (v : V) (s : MState α V) : MState α V :=
  match (inverseDeps reqs names t).foldlM decr s.numdeps with
  | none => { s with failed := true }
  | some numdeps =>
    { s with
      deps := fun m => if m = t then some v else s.deps m
      numdeps := numdeps
      taken := s.taken + 1
      remaining := s.remaining - 1 }

/-- One step of the program: the main process and the worker processes run in any order. -/
inductive MStep (reqs : Name α → List (Name α)) (app : Name α → List (Name α × V) → Option V) (names : List (Name α)) :
    MState α V → MState α V → Prop
  | start (s : MState α V) : s.failed = false → s.taken = s.tasks.length → 0 < s.remaining →
      MStep reqs app names s (mStart s)
  | work (s : MState α V) (i : ℕ) (t : Name α) : s.failed = false → s.taken ≤ i → s.tasks[i]? = some t →
      s.results t = none → MStep reqs app names s (mWork reqs app t s)
  | take (s : MState α V) (t : Name α) (v : V) : s.failed = false → s.tasks[s.taken]? = some t →
      s.results t = some v → MStep reqs app names s (mTake reqs names t v s)

end

/-! ### Chunks of microstructures -/

section
variable {α : Type} [DecidableEq α]

/-- `micro_tab` in `chunk_micro_tasks()` (sfepy/homogenization/engine.py:532-536): the slices `(start, stop)`. -/
def microTab (numMicro chunkSize : ℕ) : List (ℕ × ℕ) :=
  (List.range ((numMicro + chunkSize - 1) / chunkSize)).map fun i =>
    (i * chunkSize, min numMicro (chunkSize + i * chunkSize))

/-- `store_idxs` in `chunk_micro_tasks()` (sfepy/homogenization/engine.py:537-539). -/
def storeIdxs (numMicro chunkSize : ℕ) (store : List ℕ) : List (List ℕ × ℕ) :=
  if store = [] then []
  else (List.range ((numMicro + chunkSize - 1) / chunkSize)).map fun i =>
    ((store.filter fun k => i * chunkSize ≤ k ∧ k < chunkSize + i * chunkSize).map fun k => k - i * chunkSize,
      i * chunkSize)

/-- A name with an optional chunk tag `'|ch:<i>'`. -/
abbrev Tagged (α : Type) := α × Option ℕ

/-- `k + lab`. -/
def addTag (ii : ℕ) (n : Name (Tagged α)) : Name (Tagged α) := (n.1, n.2.1, some ii)

/-- `process_reqs_coefs()` (sfepy/homogenization/engine.py:325-344): the definitions of the chunks. -/
def chunkInfo (nchunk : ℕ) (info : Info (Tagged α)) : Info (Tagged α) := fun a =>
  match a.2 with
  | none => none
  | some ii => if ii < nchunk then (info (a.1, none)).map fun rs => rs.map (addTag ii) else none

/-- `chunk_req_info()` (sfepy/homogenization/engine.py:66-77). -/
def chunkReqInfo (info : Info (Tagged α)) (a : Tagged α) : Option (List (Name (Tagged α))) :=
  match a.2 with
  | some ii => (info (a.1, none)).map fun rs => rs.map (addTag ii)
  | none => info a

variable {W C : Type}

/-- `rm_chtag()` (sfepy/homogenization/engine.py:61-63). -/
def rmTag (n : Name (Tagged α)) : Name α := (n.1, n.2.1)

/-- The loop over the microstructures in `calculate()` (sfepy/homogenization/engine.py:193-226): `app` is the mini
application in the microstructure with the given coordinates; `upd` is the displacement of a result named
`'update_coors'`. -/
def microLoop {β : Type} (app : C → List (β × W) → Option W) (upd : W → Option (C → C))
    (data : List (β × List W)) (coors : List C) : Option (List W × List C) :=
  (List.range coors.length).foldlM (fun (st : List W × List C) im =>
    st.2[im]?.bind fun c => (data.mapM fun p => p.2[im]?.map fun w => (p.1, w)).bind fun d =>
    (app c d).bind fun w =>
      if (st.1 ++ [w]).length = 1 then
        match upd w with
        | some f => some (st.1 ++ [w], st.2.set im (f c))
        | none => some (st.1 ++ [w], st.2)
      else some (st.1 ++ [w], st.2)) ([], coors)

/-- `local_state['coors']` (sfepy/homogenization/engine.py:182-191): the slice of a chunk. -/
def localCoors (tab : Option (List (ℕ × ℕ))) (coors : List C) (n : Name (Tagged α)) : Option (List C) :=
  match n.2.2, tab with
  | some ii, some tab => tab[ii]?.map fun sl => (coors.take sl.2).drop sl.1
  | _, _ => some coors

/-- `calculate()` with microstructures (sfepy/homogenization/engine.py:165-228); the mini applications get the data
without the chunk tags. -/
def calcMicro (tab : Option (List (ℕ × ℕ))) (app : Name α → C → List (Name α × W) → Option W)
    (upd : W → Option (C → C)) (coors : List C) (n : Name (Tagged α)) (data : List (Name (Tagged α) × List W)) :
    Option (List W × List C) :=
  (localCoors tab coors n).bind fun cs => microLoop (app (rmTag n)) upd (data.map fun p => (rmTag p.1, p.2)) cs

/-- `dechunk_reqs_coefs()` (sfepy/homogenization/engine.py:548-570) for one name. -/
def dechunk (deps : Name (Tagged α) → Option (List W)) (nchunk : ℕ) (n : Name (Tagged α)) : Option (List W) :=
  ((List.range nchunk).mapM fun ii => deps (addTag ii n)).map List.flatten

end

end Verif.Homog
