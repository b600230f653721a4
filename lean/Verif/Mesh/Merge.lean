/-
Model of merging of meshes and of matching of coordinates (`sfepy/discrete/fem/mesh.py:12-118`,
`sfepy/discrete/fem/periodic.py`).

Coordinates are vectors `Fin d → K` over an ordered field; distances are compared by squares.  The
KD tree query is represented by its result, a list of pairs in any order (`IsPairs` of
`SpecMerge.lean`); `argsort` by its result, any permutation that sorts.
-/
import Mathlib.Algebra.BigOperators.Fin
import Mathlib.Algebra.Order.BigOperators.Ring.Finset
import Mathlib.Algebra.Order.Field.Basic
import Mathlib.Data.List.Basic
import Verif.Np.Vec

namespace Verif.Mesh

open Verif.Np

/-- The position of an index in a NumPy array of the length `n`: negative indices from the end. -/
def npPos (n : ℕ) (k : ℤ) : ℕ := if k < 0 then ((n : ℤ) + k).toNat else k.toNat

/-- `find_map()` (mesh.py:16-46) for `n1 = x1.shape[0]`; `Q` is the result of `kdtree.query_pairs()`,
`none` is the ValueError of line 40.  The second column is a difference (line 42), so it can be
negative. -/
def findMap (n1 : ℕ) (Q : List (ℕ × ℕ)) (allowDouble : Bool) : Option (List (ℕ × ℤ)) :=
  let dns1 := Q.filter fun p => p.2 < n1
  let dns2 := Q.filter fun p => n1 ≤ p.1
  if dns1.length + dns2.length ≠ 0 ∧ allowDouble = false then none
  else some (Q.map fun p => (p.1, (p.2 : ℤ) - n1))

/-- `nm.cumsum(mask)`. -/
def cumsum (mask : ℕ → ℤ) (j : ℕ) : ℤ := ((List.range (j + 1)).map mask).sum

/-- `remap` of `merge_mesh()` (mesh.py:63-66). -/
def mergeRemap (n1 n2 : ℕ) (cmap : List (ℕ × ℤ)) : ℕ → ℤ :=
  let mask := scatterConst (fun _ => (1 : ℤ)) (cmap.map fun p => npPos n2 p.2) 0
  scatter (fun j => cumsum mask j + n1 - 1) (cmap.map fun p => (npPos n2 p.2, (p.1 : ℤ)))

/-- `i2` of `merge_mesh()` (mesh.py:68): `setdiff1d(arange(n2), cmap[:,1])`. -/
def mergeI2 (n2 : ℕ) (cmap : List (ℕ × ℤ)) : List ℕ :=
  (List.range n2).filter fun (j : ℕ) => (j : ℤ) ∉ cmap.map Prod.snd

section

variable {d : ℕ} {K : Type} [Field K] [LinearOrder K]

/-- The square of the distance. -/
def dist2 (a b : Fin d → K) : K := ∑ c, (a c - b c) ^ 2

/-- The error of `merge_mesh()` (mesh.py:59): the last coordinate is left out (`:-1`). -/
def mergeErr (x1 x2 : List (Fin d → K)) (cmap : List (ℕ × ℤ)) : K :=
  (cmap.map fun p => ∑ c : Fin d, if c.val + 1 < d then
    |x1.getD p.1 0 c - x2.getD (npPos x2.length p.2) 0 c| else 0).sum

/-- Mesh data: coordinates, vertex groups, connectivity, cell groups. -/
structure MData (X : Type) where
  coors : List X
  ngroups : List ℕ
  conn : List (List ℤ)
  mats : List ℕ

/-- `merge_mesh()` (mesh.py:48-80), `none` is the ValueError of line 61.  Cell groups are always given
(`Mesh.__add__()`, mesh.py:323-343). -/
def mergeMesh (eps : K) (m1 m2 : MData (Fin d → K)) (cmap : List (ℕ × ℤ)) : Option (MData (Fin d → K)) :=
  let n1 := m1.coors.length
  let n2 := m2.coors.length
  if 10 * eps < |mergeErr m1.coors m2.coors cmap| then none
  else
    let remap := mergeRemap n1 n2 cmap
    let i2 := mergeI2 n2 cmap
    some
      { coors := m1.coors ++ i2.map fun j => m2.coors.getD j 0
        ngroups := m1.ngroups ++ i2.map fun j => m2.ngroups.getD j 0
        conn := m1.conn ++ m2.conn.map fun row => row.map fun v => remap (npPos n2 v)
        mats := m1.mats ++ m2.mats }

/-- `Mesh.__add__()` (mesh.py:323-343); `Q` is the result of the query for `vstack([x1, x2])`. -/
def addMesh (eps : K) (m1 m2 : MData (Fin d → K)) (Q : List (ℕ × ℕ)) : Option (MData (Fin d → K)) :=
  match findMap m1.coors.length Q false with
  | none => none
  | some cmap => mergeMesh eps m1 m2 cmap

end

/-- `eq` of the loop in `fix_double_nodes()` (mesh.py:100-103): removed nodes have -1, the others are
numbered; `eqi` is the list of the nodes left. -/
def fixEqi (n : ℕ) (scmap : List (ℕ × ℤ)) : List ℕ :=
  (List.range n).filter fun j => j ∉ scmap.map fun p => npPos n p.2

def fixEq (n : ℕ) (scmap : List (ℕ × ℤ)) : ℕ → ℤ :=
  let eq0 := scatterConst (fun j => (j : ℤ)) (scmap.map fun p => npPos n p.2) (-1)
  scatter eq0 ((fixEqi n scmap).zipIdx.map fun p => (p.1, (p.2 : ℤ)))

/-- `remap` (mesh.py:104-105). -/
def fixRemap (n : ℕ) (scmap : List (ℕ × ℤ)) : ℕ → ℤ :=
  scatter (fixEq n scmap) (scmap.map fun p => (npPos n p.2, fixEq n scmap p.1))

/-- One iteration of the loop in `fix_double_nodes()` (mesh.py:95-115), `scmap` is the sorted map. -/
def fixStep {X : Type} [Zero X] (x : List X) (ngroups : List ℕ) (conns : List (List (List ℤ)))
    (scmap : List (ℕ × ℤ)) : List X × List ℕ × List (List (List ℤ)) :=
  let n := x.length
  let eqi := fixEqi n scmap
  let remap := fixRemap n scmap
  (eqi.map fun j => x.getD j 0, eqi.map fun j => ngroups.getD j 0,
    conns.map fun conn => conn.map fun row => row.map fun v => remap (npPos n v))

/-- `fix_double_nodes()` (mesh.py:82-118): `query` stands for the KD tree query and `sort` for
`argsort(cmap[:,1])`; the number of iterations is bounded by `fuel` (one iteration is enough,
`C68_fix_double_once`). -/
def fixDoubleNodes {X : Type} [Zero X] (query : List X → List (ℕ × ℕ))
    (sort : List (ℕ × ℤ) → List (ℕ × ℤ)) :
    ℕ → List X → List ℕ → List (List (List ℤ)) → Option (List X × List ℕ × List (List (List ℤ)))
  | fuel, x, g, conns =>
    match findMap x.length (query x) true with
    | none => none
    | some [] => some (x, g, conns)
    | some (p :: cmap) =>
      match fuel with
      | 0 => none
      | fuel + 1 =>
        let r := fixStep x g conns (sort (p :: cmap))
        fixDoubleNodes query sort fuel r.1 r.2.1 r.2.2

section

variable {d : ℕ} {K : Type} [Field K] [LinearOrder K]

/-- The square of the distance of `p` from the line with the unit direction `u`
(periodic.py:72-74: `norm(x0p - dot(x0p, direction) * direction.T, axis=1)`); the normalization of the
direction (line 71) is done before. -/
def offLine2 (u p : Fin d → K) : K :=
  ∑ c, (p c - (∑ c', p c' * u c') * u c) ^ 2

/-- The coordinates `aux` in `match_plane_by_dir()` (periodic.py:66-82), `none` is the ValueError of
line 79. -/
def planeAux (eps : K) (x1 x2 : List (Fin d → K)) : Option (Fin d → K) → Option (List (Fin d → K))
  | none => some x2
  | some u =>
    match x2.find? fun y => offLine2 u (x1.getD 0 0 - y) < eps ^ 2 with
    | none => none
    | some y => some (x2.map fun z => z + (x1.getD 0 0 - y))

/-- `match_plane_by_dir()` (periodic.py:52-97) without the cache; `query` is the KD tree query of
`find_map()` for `vstack([x1, aux])`.  `eps` is `periodic.eps`; the tolerance of the query is
`mesh.eps`, a different variable. -/
def matchPlane (eps : K) (query : List (Fin d → K) → List (ℕ × ℕ)) (x1 x2 : List (Fin d → K))
    (dir : Option (Fin d → K)) : Option (List ℕ × List ℤ) :=
  if x1.length ≠ x2.length then none
  else
    match planeAux eps x1 x2 dir with
    | none => none
    | some aux =>
      match findMap x1.length (query (x1 ++ aux)) false with
      | none => none
      | some cmap =>
        if cmap.length ≠ x1.length then none else some (cmap.map Prod.fst, cmap.map Prod.snd)

/-- `match_grid_line()` (periodic.py:15-40) without the cache; `sort` is `argsort`. -/
def matchLine (eps : K) (sort : List K → List ℕ) (x1 x2 : List (Fin d → K)) (which : Fin d) :
    Option (List ℕ × List ℕ) :=
  if x1.length ≠ x2.length then none
  else
    let c1 := x1.map fun x => x which
    let c2 := x2.map fun x => x which
    let i1 := sort c1
    let i2 := sort c2
    if (List.zip i1 i2).all fun p => |c1.getD p.1 0 - c2.getD p.2 0| < eps then some (i1, i2)
    else none

end

/-- The cache (periodic.py:5, 22-24, 38, 60-63, 93): the key has only the shape of `coors1` and the
axis or the direction.  `compute` is the matching without the cache; `none` is an exception, nothing is
saved then. -/
def cached {Key R : Type} [DecidableEq Key] (cache : List (Key × R)) (key : Key) (getSaved : Bool)
    (compute : Option R) : List (Key × R) × Option R :=
  match cache.lookup key, getSaved with
  | some r, true => (cache, some r)
  | _, _ =>
    match compute with
    | none => (cache, none)
    | some r => ((key, r) :: cache, some r)

/-- The key of `match_grid_line()` (periodic.py:22): `coors1.shape + ('line', which)`. -/
def lineKey {d : ℕ} {K : Type} (x1 : List (Fin d → K)) (which : Fin d) : ℕ × ℕ × ℕ :=
  (x1.length, d, which.val)

/-- `match_grid_line()` (periodic.py:15-40) with the cache. -/
def matchGridLine {d : ℕ} {K : Type} [Field K] [LinearOrder K] (eps : K) (sort : List K → List ℕ)
    (cache : List ((ℕ × ℕ × ℕ) × (List ℕ × List ℕ))) (x1 x2 : List (Fin d → K)) (which : Fin d)
    (getSaved : Bool) : List ((ℕ × ℕ × ℕ) × (List ℕ × List ℕ)) × Option (List ℕ × List ℕ) :=
  if x1.length ≠ x2.length then (cache, none)
  else cached cache (lineKey x1 which) getSaved (matchLine eps sort x1 x2 which)

end Verif.Mesh
