/-
Model of the mesh topology code `sfepy/discrete/common/extmods/mesh.c`: connectivities stored by
offsets and indices, their transposition, intersection, and the construction of unique facets.

`uint32` is replaced by the natural numbers; allocated memory (zeroed by `mem_alloc_mem()`,
sfepy/discrete/common/extmods/common_python.c:187) is a function of the index, of which only the part
inside of the allocated size is meaningful.  `none` is the failure reported by `errput()`.
-/
import Mathlib.Data.List.Basic
import Mathlib.Data.List.Range
import Mathlib.Logic.Function.Basic

namespace Verif.CMesh

/-- `UINT32_None` (sfepy/discrete/common/extmods/mesh.h:25). -/
def u32None : ℕ := 2 ^ 32 - 1

/-- `MeshConnectivity` (sfepy/discrete/common/extmods/mesh.h:46-51).  `nInc` is `n_incident`; the
pointer `indices` is null iff `nInc = 0`. -/
structure Conn where
  num : ℕ
  nInc : ℕ
  indices : ℕ → ℕ
  offsets : ℕ → ℕ

/-- The positions `offsets[ii], ..., offsets[ii+1] - 1` of the row `ii`. -/
def Conn.positions (c : Conn) (ii : ℕ) : List ℕ :=
  List.range' (c.offsets ii) (c.offsets (ii + 1) - c.offsets ii)

/-- The values `entity->ii` of the loop `for (mei_init_conn(it, entity, dim); mei_go(it);
mei_next(it))` over the row `ii` of a connectivity
(sfepy/discrete/common/extmods/mesh.c:134-156, 179-192). -/
def Conn.iter (c : Conn) (ii : ℕ) : List ℕ :=
  if 0 < c.num ∧ 0 < c.nInc then (c.positions ii).map c.indices else []

/-- The position of `indices` that `mei_init_conn()` reads whether the row `ii` is empty or not
(sfepy/discrete/common/extmods/mesh.c:145-148). -/
def Conn.initReadPos (c : Conn) (ii : ℕ) : Option ℕ :=
  if 0 < c.num ∧ 0 < c.nInc then some (c.offsets ii) else none

/-- `me_get_incident2()` (sfepy/discrete/common/extmods/mesh.c:1193-1200): the indices of the row
`ii`. -/
def Conn.row (c : Conn) (ii : ℕ) : List ℕ := (c.positions ii).map c.indices

/-- `conn_set_to_free()` (sfepy/discrete/common/extmods/mesh.c:301-324): the first free position of
the row `ii` is set to `incident`. -/
def Conn.setToFree (c : Conn) (ii incident : ℕ) : Option Conn :=
  match (c.positions ii).find? fun p => c.indices p == u32None with
  | some p => some { c with indices := Function.update c.indices p incident }
  | none => none

/-- `nd2[ii]++` where `nd2 = offsets + 1`
(sfepy/discrete/common/extmods/mesh.c:592-598, 659, 676, 683). -/
def countOne (off : ℕ → ℕ) (ii : ℕ) : ℕ → ℕ := Function.update off (ii + 1) (off (ii + 1) + 1)

/-- The cumulative sum `for (ii = 1; ii < num + 1; ii++) offsets[ii] += offsets[ii-1]`
(sfepy/discrete/common/extmods/mesh.c:447-450, 601-603, 691-693). -/
def cumsum (num : ℕ) (off : ℕ → ℕ) : ℕ → ℕ :=
  (List.range' 1 num).foldl (fun off ii => Function.update off ii (off ii + off (ii - 1))) off

/-- The connectivity after the second `conn_alloc()` and after setting all the indices to
`UINT32_None` (sfepy/discrete/common/extmods/mesh.c:605-613, 695-703): `counts` is the array of
offsets before the cumulative sum. -/
def allocConn (num : ℕ) (counts : ℕ → ℕ) : Conn :=
  let off := cumsum num counts
  let n := off num
  { num := num, nInc := n, indices := fun ii => if ii < n then u32None else 0, offsets := off }

/-- `mesh_transpose(mesh, d1, d2)` (sfepy/discrete/common/extmods/mesh.c:570-624): `n1`, `n2` are
the numbers of entities of the dimensions `d1`, `d2`, `c21` is the connectivity `d2 -> d1`. -/
def transpose (n1 n2 : ℕ) (c21 : Conn) : Option Conn :=
  let counts := (List.range n2).foldl (fun off it2 => (c21.iter it2).foldl countOne off) fun _ => 0
  (List.range n2).foldlM (fun c it2 => (c21.iter it2).foldlM (fun c it1 => c.setToFree it1 it2) c)
    (allocConn n1 counts)

/-- `contains()` (sfepy/discrete/common/extmods/mesh.c:1202-1221). -/
def contains (i1 i2 : List ℕ) : Bool := i2.all fun v2 => i1.any fun v1 => v1 == v2

/-- Clearing the mask (sfepy/discrete/common/extmods/mesh.c:662-667, 706-711). -/
def clearMask (c13 c32 : Conn) (it1 : ℕ) (mask : ℕ → Bool) : ℕ → Bool :=
  (c13.iter it1).foldl (fun mask it3 => (c32.iter it3).foldl
    (fun mask it2 => Function.update mask it2 false) mask) mask

/-- The condition for adding `it2` to the row `it1`: for `d1 == d2` (no `c10`, `c20`) they differ,
otherwise the vertices of `it2` are vertices of `it1`
(sfepy/discrete/common/extmods/mesh.c:674-685, 718-731). -/
def keepIt (cv : Option (Conn × Conn)) (it1 it2 : ℕ) : Bool :=
  match cv with
  | none => it1 != it2
  | some (c10, c20) => contains (c10.row it1) (c20.row it2)

/-- The body of the innermost loop of the counting pass
(sfepy/discrete/common/extmods/mesh.c:671-685). -/
def countStep (cv : Option (Conn × Conn)) (it1 : ℕ) (s : (ℕ → Bool) × (ℕ → ℕ)) (it2 : ℕ) :
    (ℕ → Bool) × (ℕ → ℕ) :=
  if s.1 it2 then s
  else (Function.update s.1 it2 true, if keepIt cv it1 it2 then countOne s.2 it1 else s.2)

/-- The body of the innermost loop of the filling pass
(sfepy/discrete/common/extmods/mesh.c:715-731). -/
def fillStep (cv : Option (Conn × Conn)) (it1 : ℕ) (s : (ℕ → Bool) × Conn) (it2 : ℕ) :
    Option ((ℕ → Bool) × Conn) :=
  if s.1 it2 then some s
  else if keepIt cv it1 it2 then
    (s.2.setToFree it1 it2).map fun c => (Function.update s.1 it2 true, c)
  else some (Function.update s.1 it2 true, s.2)

/-- The counting pass of `mesh_intersect()` (sfepy/discrete/common/extmods/mesh.c:654-688). -/
def intersectCount (n1 : ℕ) (c13 c32 : Conn) (cv : Option (Conn × Conn)) :
    (ℕ → Bool) × (ℕ → ℕ) :=
  (List.range n1).foldl (fun s it1 =>
    (c13.iter it1).foldl (fun s it3 => (c32.iter it3).foldl (countStep cv it1) s)
      (clearMask c13 c32 it1 s.1, s.2)) (fun _ => false, fun _ => 0)

/-- `mesh_intersect(mesh, d1, d2, d3)` (sfepy/discrete/common/extmods/mesh.c:628-740): `n1` is the
number of entities of the dimension `d1`; `c13`, `c32` are the connectivities `d1 -> d3`,
`d3 -> d2`; `cv` are the connectivities `d1 -> 0`, `d2 -> 0` for `d1 > d2`, nothing for `d1 == d2`.
-/
def intersect (n1 : ℕ) (c13 c32 : Conn) (cv : Option (Conn × Conn)) : Option Conn :=
  let s := intersectCount n1 c13 c32 cv
  ((List.range n1).foldlM (fun s it1 =>
    (c13.iter it1).foldlM (fun s it3 => (c32.iter it3).foldlM (fillStep cv it1) s)
      (clearMask c13 c32 it1 s.1, s.2)) (s.1, allocConn n1 s.2)).map Prod.snd

/-! ### Facets -/

/-- `if (a > b) SwapValues(a, b)` (sfepy/discrete/common/extmods/mesh.c:1271-1273). -/
def cx (p : ℕ × ℕ) : ℕ × ℕ := if p.1 > p.2 then (p.2, p.1) else p

/-- `SORT2` (sfepy/discrete/common/extmods/mesh.c:1290-1292). -/
def sort2 (a b : ℕ) : List ℕ :=
  let x := cx (a, b)
  [x.1, x.2]

/-- `SORT3` (sfepy/discrete/common/extmods/mesh.c:1284-1288). -/
def sort3 (a b c : ℕ) : List ℕ :=
  let x := cx (a, b)
  let y := cx (x.2, c)
  let z := cx (x.1, y.1)
  [z.1, z.2, y.2]

/-- `SORT4` (sfepy/discrete/common/extmods/mesh.c:1275-1282). -/
def sort4 (a b c d : ℕ) : List ℕ :=
  let x := cx (a, b)
  let y := cx (x.2, c)
  let z := cx (y.2, d)
  let x' := cx (x.1, y.1)
  let y' := cx (x'.2, z.1)
  let x'' := cx (x'.1, y'.1)
  [x''.1, x''.2, y'.2, z.2]

/-- The sorting of 2 to 4 values, as in `uint32_sort234_copy()`
(sfepy/discrete/common/extmods/mesh.c:1294-1313) and `sort_local_connectivity()`
(sfepy/discrete/common/extmods/mesh.c:1242-1269); other numbers of values are not sorted. -/
def sort234 : List ℕ → List ℕ
  | [a, b] => sort2 a b
  | [a, b, c] => sort3 a b c
  | [a, b, c, d] => sort4 a b c d
  | l => l

/-- The orientation key (sfepy/discrete/common/extmods/mesh.c:1315-1356, 1242-1269); `-1` cast to
`uint32` for other numbers of values (the stale key of the previous item is not modelled). -/
def oriKey : List ℕ → ℕ
  | [a, b] => if a < b then 1 else 0
  | [a, b, c] => (if a < b then 1 else 0) + (if a < c then 2 else 0) + (if b < c then 4 else 0)
  | [a, b, c, d] =>
    (if a < b then 1 else 0) + (if a < c then 2 else 0) + (if b < c then 4 else 0)
      + (if a < d then 8 else 0) + (if b < d then 16 else 0) + (if c < d then 32 else 0)
  | _ => u32None

/-- The state of `mesh_build()`: the facet counter `id`, the connectivities `D -> d`, `d -> 0` and
the orientations. -/
structure BState where
  id : ℕ
  cDd : Conn
  cd0 : Conn
  oris : ℕ → ℕ

/-- `get_local_connectivity()` (sfepy/discrete/common/extmods/mesh.c:1223-1240): the global vertices
of the local facet `ii` of a cell with the vertices `cv`; the value 0 stands for a read out of the
vertices of the cell, which a valid reference connectivity does not cause. -/
def localFacet (refloc : Conn) (cv : List ℕ) (ii : ℕ) : List ℕ :=
  (refloc.row ii).map fun lv => cv.getD lv 0

/-- The search for a facet in the cells visited previously
(sfepy/discrete/common/extmods/mesh.c:496-520): the facet `it2` of a cell `it1 < it0`, whose first
`n_loc` vertices are those of `sl`.  The `n_loc` vertices are read at the position of the facet `it2`
whatever the number of its vertices is. -/
def findFacet (cDD : Conn) (cDd cd0 : Conn) (it0 : ℕ) (sl : List ℕ) : Option ℕ :=
  (cDD.iter it0).findSome? fun it1 =>
    if it1 ≥ it0 then none
    else (cDd.iter it1).find? fun it2 =>
      sort234 ((List.range' (cd0.offsets it2) sl.length).map cd0.indices) == sl

/-- Storing the list `l` at the positions `p, p + 1, ...` of a memory. -/
def storeList (m : ℕ → ℕ) : ℕ → List ℕ → (ℕ → ℕ)
  | _, [] => m
  | p, x :: l => storeList (Function.update m p x) (p + 1) l

/-- The last used position of the row `it0` of `D -> d`
(sfepy/discrete/common/extmods/mesh.c:538-547). -/
def lastUsed (c : Conn) (it0 : ℕ) : Option ℕ :=
  (c.positions it0).reverse.find? fun p => c.indices p != u32None

/-- The body of the loop over the local facets of the cell `it0`
(sfepy/discrete/common/extmods/mesh.c:494-550); `g` are the global vertices of the facet. -/
def buildStep (cDD : Conn) (it0 : ℕ) (s : BState) (g : List ℕ) : Option BState := do
  let sl := sort234 g
  let s ← match findFacet cDD s.cDd s.cd0 it0 sl with
    | some it2 => do
      let cDd ← s.cDd.setToFree it0 it2
      pure { s with cDd := cDd }
    | none => do
      let cDd ← s.cDd.setToFree it0 s.id
      let off := Function.update s.cd0.offsets (s.id + 1) (s.cd0.offsets s.id + sl.length)
      pure { s with
        id := s.id + 1
        cDd := cDd
        cd0 := { s.cd0 with offsets := off, indices := storeList s.cd0.indices (off s.id) g } }
  let ic ← lastUsed s.cDd it0
  return { s with oris := Function.update s.oris ic (oriKey g) }

/-- The global vertices of all the local facets of the cell `it0`
(sfepy/discrete/common/extmods/mesh.c:486-491). -/
def cellFacets (locs : ℕ → Conn) (cellTypes : ℕ → ℕ) (cD0 : Conn) (it0 : ℕ) : List (List ℕ) :=
  let refloc := locs (cellTypes it0)
  (List.range refloc.num).map (localFacet refloc (cD0.row it0))

/-- `mesh_build(mesh, dim)` (sfepy/discrete/common/extmods/mesh.c:400-566): `nD` is the number of
cells, `nVMax` is 2 for edges, 4 for faces (only the size of a buffer), `locs` are the local facets
of the reference elements, `cDD` is the connectivity `D -> D`, `cD0` are the vertices of the cells. -/
def meshBuild (nD nVMax : ℕ) (locs : ℕ → Conn) (cellTypes : ℕ → ℕ) (cDD cD0 : Conn) :
    Option BState := do
  let counts := fun ii => match ii with
    | 0 => 0
    | it0 + 1 => if it0 < nD then (locs (cellTypes it0)).num else 0
  let cDd := allocConn nD counts
  let s : BState :=
    { id := 0, cDd := cDd,
      cd0 := { num := cDd.nInc, nInc := cDd.nInc * nVMax, indices := fun _ => 0,
               offsets := fun _ => 0 },
      oris := fun _ => 0 }
  let s ← (List.range nD).foldlM (fun s it0 =>
    (cellFacets locs cellTypes cD0 it0).foldlM (buildStep cDD it0) s) s
  return { s with cd0 := { s.cd0 with num := s.id, nInc := s.cd0.offsets s.id } }

end Verif.CMesh
