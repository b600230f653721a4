/-
Model of the incidence queries of `CMesh` and of the region facet indices based on them.
-/
import Verif.CMesh.Model
import Mathlib.Data.List.Sort

namespace Verif.CMesh

/-- `mesh_count_incident()` (sfepy/discrete/common/extmods/mesh.c:742-762). -/
def countIncident (c : Conn) (ents : List ℕ) : ℕ :=
  ents.foldl (fun num e => num + (c.offsets (e + 1) - c.offsets e)) 0

/-- The variables of `mesh_get_incident()`: the position `ii` and the preallocated arrays. -/
structure IncState where
  ii : ℕ
  ind : ℕ → ℕ
  off : ℕ → ℕ

/-- `incident->indices[ii++] = it1->entity->ii` (sfepy/discrete/common/extmods/mesh.c:784). -/
def IncState.put (s : IncState) (v : ℕ) : IncState :=
  { s with ind := Function.update s.ind s.ii v, ii := s.ii + 1 }

/-- The body of the outer loop of `mesh_get_incident()` for the `k`-th entity `e`
(sfepy/discrete/common/extmods/mesh.c:782-787). -/
def incStep (c : Conn) (s : IncState) (p : ℕ × ℕ) : IncState :=
  let s' := (c.iter p.1).foldl IncState.put s
  { s' with off := Function.update s'.off (p.2 + 1) (s'.off p.2 + (c.iter p.1).length) }

/-- `mesh_get_incident()` (sfepy/discrete/common/extmods/mesh.c:765-792). -/
def incRun (c : Conn) (ents : List ℕ) : IncState :=
  ents.zipIdx.foldl (incStep c) { ii := 0, ind := fun _ => 0, off := fun _ => 0 }

/-- `CMesh.get_incident(dim, entities, dent, ret_offsets=True)`
(sfepy/discrete/common/extmods/cmesh.pyx:510-554): `c` is the connectivity `dent -> dim`, which is
required to be available. -/
def getIncident (c : Conn) (ents : List ℕ) : List ℕ × List ℕ :=
  if ents = [] then ([], [])
  else
    let num := countIncident c ents
    if 0 < num then
      let s := incRun c ents
      ((List.range num).map s.ind, (List.range (ents.length + 1)).map s.off)
    else ([], List.replicate (ents.length + 1) 0)

/-- The innermost loop of `mesh_get_local_ids()` (sfepy/discrete/common/extmods/mesh.c:818-831):
the first position of the entity `e` in the row `inc`. -/
def localId (c : Conn) (e inc : ℕ) : Option ℕ := (c.iter inc).findIdx? (· == e)

/-- `CMesh.get_local_ids(entities, dent, incident, offsets, dim)`
(sfepy/discrete/common/extmods/cmesh.pyx:557-591, sfepy/discrete/common/extmods/mesh.c:794-837): `c`
is the connectivity `dim -> dent`; the result is nothing for an entity not found, or for
`&incident[0]` of an empty array (an `IndexError`). -/
def getLocalIds (c : Conn) (ents incident offs : List ℕ) : Option (List ℕ) :=
  if ents = [] then some []
  else if incident = [] then none
  else (List.range ents.length).foldlM (fun out iind =>
    (List.range' (offs.getD iind 0) (offs.getD (iind + 1) 0 - offs.getD iind 0)).foldlM
      (fun out ic => (localId c (ents.getD iind 0) (incident.getD ic 0)).map fun l => out ++ [l]) out) []

/-- `mesh_select_complete()` (sfepy/discrete/common/extmods/mesh.c:842-884): the mask; `n` is the
number of entities of the dimension `dim`, `c` is the connectivity `dim -> dent`. -/
def selectComplete (c : Conn) (ents : List ℕ) (n : ℕ) : List Bool :=
  let entMask := ents.foldl (fun m e => Function.update m e true) fun _ => false
  (List.range n).map fun i =>
    (c.iter i).foldl (fun inum j => if entMask j then inum + 1 else inum) 0 == (c.iter i).length

/-- `CMesh.get_complete(dim, entities, dent)` (sfepy/discrete/common/extmods/cmesh.pyx:593-628). -/
def getComplete (c : Conn) (ents : List ℕ) (n : ℕ) : List ℕ :=
  if ents = [] then [] else (List.range n).filter fun i => (selectComplete c ents n).getD i false

/-- `CMesh.get_surface_facets()` (sfepy/discrete/common/extmods/cmesh.pyx:499-508): `c` is the
connectivity facets -> cells. -/
def surfaceFacets (c : Conn) : List ℕ :=
  (List.range c.num).filter fun f => c.offsets (f + 1) - c.offsets f == 1

/-- `nm.cumsum(nm.r_[0, counts])`. -/
def cumsum0 (counts : List ℕ) : List ℕ := counts.scanl (· + ·) 0

/-- The filter of the cells of the parent region in `Region.get_facet_indices()`
(sfepy/discrete/common/region.py:656-664): the filtered cells and the new offsets;
`pos = repeat(arange(n), diff(offs))`. -/
def parentFilter (n : ℕ) (pcells cells offs : List ℕ) : List ℕ × List ℕ :=
  let pos := (List.range n).flatMap fun k =>
    List.replicate (offs.getD (k + 1) 0 - offs.getD k 0) k
  let ip := cells.map fun c => pcells.contains c
  -- `bincount(pos, weights=ip)` has the length `max(pos) + 1`.
  let nb := (pos.map (· + 1)).foldl max 0
  let counts := (List.range nb).map fun k =>
    ((pos.zip ip).filter fun q => q.1 == k && q.2).length
  (cells.filter fun c => pcells.contains c, cumsum0 counts)

/-- `Region.get_facet_indices()` (sfepy/discrete/common/region.py:644-669): `cfc`, `ccf` are the
connectivities facets -> cells, cells -> facets; the rows `(iel, ifa)`. -/
def facetIndices (cfc ccf : Conn) (facets : List ℕ) (parent : Option (List ℕ)) :
    Option (List (ℕ × ℕ)) :=
  let co := getIncident cfc facets
  let co := match parent with
    | none => co
    | some pcells => parentFilter facets.length pcells co.1 co.2
  (getLocalIds ccf facets co.1 co.2).map fun ii => co.1.zip ii

/-- `Region.get_cells(true_cells_only=False)` of a region without true cells
(sfepy/discrete/common/region.py:606-616). -/
def regionFacetCells (cfc : Conn) (facets : List ℕ) (parent : Option (List ℕ)) : List ℕ :=
  let out := (getIncident cfc facets).1
  match parent with
  | none => out
  | some pcells => out.filter fun c => pcells.contains c

/-- `nm.searchsorted(a, v)` on the contents of `a` read as if sorted: binary search for the first
item not less than `v` (NumPy does not check the order).  The first argument bounds the steps. -/
def searchGo (a : List ℕ) (v : ℕ) : ℕ → ℕ → ℕ → ℕ
  | 0, lo, _ => lo
  | n + 1, lo, hi =>
    if lo < hi then
      let mid := (lo + hi) / 2
      if a.getD mid 0 < v then searchGo a v n (mid + 1) hi else searchGo a v n lo mid
    else lo

/-- `nm.searchsorted(a, v)`. -/
def searchsorted (a : List ℕ) (v : ℕ) : ℕ := searchGo a v a.length 0 a.length

/-- `Region.get_cell_indices()` (sfepy/discrete/common/region.py:622-642) for the region cells
`fcells`: nothing is an exception (`ValueError`, `IndexError` or `AssertionError`). -/
def cellIndices (fcells cells : List ℕ) : Option (List ℕ) :=
  if cells.all fun c => fcells.contains c then
    let iis := cells.map (searchsorted fcells)
    if (iis.zip cells).all fun p => fcells[p.1]? == some p.2 then some iis else none
  else none

end Verif.CMesh
