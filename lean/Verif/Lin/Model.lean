import Mathlib.Data.List.Basic
import Mathlib.Data.Nat.Basic

/-!
# Adaptive linearization of higher-order solutions for output

Models `create_output()` of `/repo/sfepy/discrete/fem/linearizer.py:44-166`: which reference
sub-elements of which elements are written, and the connectivity of the output mesh.

Simplifications.  The numerical criterion `msd > eps_r` (lines 52-68, 80-81, 156-158) is an arbitrary
oracle `crit level iels e p` - it may depend on the level and on the whole set of elements still
processed (as `rng` does), and it is not assumed to be related between levels.  Coordinates and values
are not computed; an output cell is identified by (level, element, sub-element).  Sub-element `p` of
level `l` has the children `p * factor + k` (`refine.py:223-296` refines cell by cell, so that the
children of a cell are consecutive; `refine_mesh` is modelled in `Verif/Mesh`).
-/

namespace Verif.Lin

/-- An output cell: (refinement level, element, sub-element of the reference element). -/
abbrev Cell := ℕ × ℕ × ℕ

/-- `flag = msd > eps_r`: one row per processed element, one column per sub-element of the level -
`/repo/sfepy/discrete/fem/linearizer.py:80-82,156-158` (`refine_reference` gives `factor ** level`
sub-elements). -/
def flagRows (factor : ℕ) (crit : ℕ → List ℕ → ℕ → ℕ → Bool) (level : ℕ) (iels : List ℕ) :
    List (List Bool) :=
  iels.map fun e => (List.range (factor ^ level)).map (crit level iels e)

/-- Forced refinement below `min_level`, forced stop on the last level -
`/repo/sfepy/discrete/fem/linearizer.py:92-97`. -/
def overrideFlag (minLevel maxLevel level : ℕ) (flag : List (List Bool)) : List (List Bool) :=
  if level < minLevel then flag.map fun r => r.map fun _ => true
  else if level = maxLevel then flag.map fun r => r.map fun _ => false
  else flag

/-- `nm.searchsorted(iels0, iels)` for one element: the number of entries below it -
`/repo/sfepy/discrete/fem/linearizer.py:101`. -/
def searchsorted (a : List ℕ) (x : ℕ) : ℕ := a.countP fun y => decide (y < x)

/-- `row.repeat(factor)` - `/repo/sfepy/discrete/fem/linearizer.py:102`. -/
def repeatRow (factor : ℕ) (r : List Bool) : List Bool := r.flatMap fun b => List.replicate factor b

/-- `expand_flag0` - `/repo/sfepy/discrete/fem/linearizer.py:99-105`. -/
def expandFlag (factor : ℕ) (prev : Option (List ℕ × List (List Bool))) (iels : List ℕ)
    (flag : List (List Bool)) : List (List Bool) :=
  match prev with
  | some (iels0, flag0) =>
    iels.map fun e => repeatRow factor (flag0.getD (searchsorted iels0 e) [])
  | none => flag.map fun r => r.map fun _ => true

/-- One row of `nm.where((flag == False) & (expand_flag0 == True))` -
`/repo/sfepy/discrete/fem/linearizer.py:107`. -/
def whereRow (f x : List Bool) : List ℕ :=
  (List.range f.length).filter fun i => f.getD i true == false && x.getD i false == true

/-- `ie, ir = nm.where(...)`, with `iels[ie]` looked up (row-major order) -
`/repo/sfepy/discrete/fem/linearizer.py:107-126`. -/
def finished (level : ℕ) (iels : List ℕ) (flag expand : List (List Bool)) : List Cell :=
  (List.range iels.length).flatMap fun ie =>
    (whereRow (flag.getD ie []) (expand.getD ie [])).map fun ir => (level, iels.getD ie 0, ir)

/-- `iels = iels[eflag]`, with `eflag = flag.sum(axis=1, dtype=bool)` -
`/repo/sfepy/discrete/fem/linearizer.py:149-150`. -/
def toRefine (iels : List ℕ) (flag : List (List Bool)) : List ℕ :=
  ((iels.zip flag).filter fun p => p.2.any id).map Prod.fst

/-- The loop over levels from `level` on with `fuel` further levels allowed; the result is the list of
the cells output on each level - `/repo/sfepy/discrete/fem/linearizer.py:91-158`. -/
def loop (factor minLevel maxLevel : ℕ) (crit : ℕ → List ℕ → ℕ → ℕ → Bool) :
    ℕ → ℕ → List ℕ → Option (List ℕ × List (List Bool)) → List (List Cell)
  | fuel, level, iels, prev =>
    let flag := overrideFlag minLevel maxLevel level (flagRows factor crit level iels)
    let out := finished level iels flag (expandFlag factor prev iels flag)
    if flag.any (fun r => r.any id) then
      match fuel with
      | 0 => [out]
      | fuel + 1 => out :: loop factor minLevel maxLevel crit fuel (level + 1) (toRefine iels flag)
          (some (iels, flag))
    else [out]

/-- `create_output()`: the output cells, level by level -
`/repo/sfepy/discrete/fem/linearizer.py:70-160`. -/
def createOutput (factor nEl minLevel maxLevel : ℕ) (crit : ℕ → List ℕ → ℕ → ℕ → Bool) :
    List (List Cell) :=
  loop factor minLevel maxLevel crit maxLevel 0 (List.range nEl) none

/-- The connectivity of the output mesh: `conn = arange(nc).reshape(-1, np) + inod` for each level with
some output, `inod += nc` - `/repo/sfepy/discrete/fem/linearizer.py:108-138,161`. -/
def outConn (np : ℕ) : ℕ → List (List Cell) → List (List ℕ)
  | _, [] => []
  | inod, out :: rest =>
    (List.range out.length).map (fun c => (List.range np).map fun v => c * np + v + inod) ++
      outConn np (inod + out.length * np) rest

end Verif.Lin
