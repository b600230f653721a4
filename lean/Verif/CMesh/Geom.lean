/-
Model of the geometry computations of `CMesh`: centroids, volumes, facet normals.  The coordinates of the
vertex `ic` of an entity (`VS(ic, id)`) are `P ic id`; `float64` is replaced by the reals.
-/
import Mathlib.Analysis.Real.Sqrt
import Mathlib.Algebra.BigOperators.Group.Finset.Basic

namespace Verif.CMesh

open Real

/-- `gtr_cross_product()` (sfepy/discrete/common/extmods/geomtrans.c:9-16). -/
def cross (a b : ℕ → ℝ) : ℕ → ℝ := fun i =>
  if i = 0 then a 1 * b 2 - a 2 * b 1
  else if i = 1 then a 2 * b 0 - a 0 * b 2
  else if i = 2 then a 0 * b 1 - a 1 * b 0 else 0

/-- `gtr_dot_v3()` (sfepy/discrete/common/extmods/geomtrans.c:60-71). -/
def dotV (dim : ℕ) (a b : ℕ → ℝ) : ℝ :=
  if dim = 3 then a 0 * b 0 + a 1 * b 1 + a 2 * b 2 else a 0 * b 0 + a 1 * b 1

/-- `gtr_normalize_v3()` (sfepy/discrete/common/extmods/geomtrans.c:24-51), `eps` is
`CONST_MachEps`. -/
noncomputable def normalizeV (eps : ℝ) (dim : ℕ) (v : ℕ → ℝ) : ℕ → ℝ :=
  let norm := √(dotV dim v v)
  fun i => if norm > eps then v i / norm else 0

/-- The coordinates `i < nc`; the third one is zero in 2D
(sfepy/discrete/common/extmods/mesh.c:927-936). -/
def pad (nc : ℕ) (v : ℕ → ℝ) : ℕ → ℝ := fun i => if i < nc then v i else 0

/-- `_tri_area()` (sfepy/discrete/common/extmods/mesh.c:919-946) of the vertices `i`, `j`, `k`. -/
noncomputable def triArea (nc : ℕ) (P : ℕ → ℕ → ℝ) (i j k : ℕ) : ℝ :=
  let v0 := pad nc fun d => P j d - P i d
  let v1 := pad nc fun d => P k d - P i d
  let n := cross v0 v1
  if nc = 2 then 1 / 2 * |n 2| else 1 / 2 * √(n 0 * n 0 + n 1 * n 1 + n 2 * n 2)

/-- `_det3x3()` (sfepy/discrete/common/extmods/mesh.c:913-917). -/
def det3x3 (j0 j1 j2 j3 j4 j5 j6 j7 j8 : ℝ) : ℝ :=
  j0 * j4 * j8 + j3 * j7 * j2 + j1 * j5 * j6 - j2 * j4 * j6 - j5 * j7 * j0 - j1 * j3 * j8

/-- `_aux_hex()` (sfepy/discrete/common/extmods/mesh.c:948-969). -/
def auxHex (P : ℕ → ℕ → ℝ) (h i j k : ℕ) : ℝ :=
  det3x3 (P i 0 + P h 0) (P i 1 + P h 1) (P i 2 + P h 2)
    (P j 0 - P i 0) (P j 1 - P i 1) (P j 2 - P i 2)
    (P k 0 - P h 0) (P k 1 - P h 1) (P k 2 - P h 2)

/-- The tetrahedral cells (sfepy/discrete/common/extmods/mesh.c:1034-1048). -/
noncomputable def tetVol (P : ℕ → ℕ → ℝ) : ℝ :=
  dotV 3 (fun d => P 3 d - P 2 d) (cross (fun d => P 1 d - P 0 d) fun d => P 2 d - P 0 d) / 6

/-- The wedge cells (sfepy/discrete/common/extmods/mesh.c:1049-1062). -/
noncomputable def wedgeVol (P : ℕ → ℕ → ℝ) : ℝ :=
  dotV 3 (fun d => P 3 d - P 2 d) (cross (fun d => P 1 d - P 0 d) fun d => P 2 d - P 0 d) / 2

/-- The hexahedral cells (sfepy/discrete/common/extmods/mesh.c:1063-1073). -/
noncomputable def hexVol (P : ℕ → ℕ → ℝ) : ℝ :=
  (auxHex P 0 1 3 2 - auxHex P 4 5 7 6 - auxHex P 0 1 4 5 + auxHex P 3 2 7 6 + auxHex P 0 3 4 7
    - auxHex P 1 2 5 6) / 12

/-- `mesh_get_volumes()` (sfepy/discrete/common/extmods/mesh.c:971-1084) for an entity of the topological
dimension `dim` with `n` vertices in the space dimension `nc`; nothing if the output is not set. -/
noncomputable def volume (dim nc n : ℕ) (P : ℕ → ℕ → ℝ) : Option ℝ :=
  if dim = 1 then some √(∑ d ∈ Finset.range nc, (P 1 d - P 0 d) * (P 1 d - P 0 d))
  else if n = 3 then some (triArea nc P 0 1 2)
  else if nc = 2 then some (triArea nc P 0 1 2 + triArea nc P 2 3 0)
  else if nc = 3 then
    if n = 4 then
      if dim = 2 then some (1 / 2 * (triArea nc P 0 1 2 + triArea nc P 1 2 3 + triArea nc P 2 3 0
        + triArea nc P 3 0 1))
      else some (tetVol P)
    else if n = 6 then some (wedgeVol P)
    else some (hexVol P)
  else none

/-- `mesh_get_centroids()` (sfepy/discrete/common/extmods/mesh.c:887-911) for an entity with the vertices
`verts`. -/
noncomputable def centroid (coors : ℕ → ℕ → ℝ) (verts : List ℕ) (d : ℕ) : ℝ :=
  verts.foldl (fun acc v => acc + coors v d) 0 / verts.length

/-- The direction of the normal of the facet with `n` vertices `Q 0, ..., Q (n - 1)` in
`mesh_get_facet_normals()` (sfepy/discrete/common/extmods/mesh.c:1116-1163). -/
def normalDir (n : ℕ) (which : ℤ) (Q : ℕ → ℕ → ℝ) : ℕ → ℝ :=
  if n = 2 then fun i => if i = 0 then Q 1 1 - Q 0 1 else if i = 1 then -(Q 1 0 - Q 0 0) else 0
  else if n = 3 then cross (fun d => Q 1 d - Q 0 d) fun d => Q 2 d - Q 0 d
  else
    let n0 := cross (fun d => Q 1 d - Q 0 d) fun d => Q 3 d - Q 0 d
    let n1 := cross (fun d => Q 3 d - Q 2 d) fun d => Q 1 d - Q 2 d
    if which = 0 then n0 else if which = 1 then n1 else fun i => n0 i + n1 i

/-- The normal of a facet given by local vertices `ik` of a cell
(sfepy/discrete/common/extmods/mesh.c:1112-1169). -/
noncomputable def facetNormal (eps : ℝ) (nc : ℕ) (which : ℤ) (P : ℕ → ℕ → ℝ) (ik : List ℕ) : ℕ → ℝ :=
  normalizeV eps nc (normalDir ik.length which fun ic => P (ik.getD ic 0))

/-- `edges` of a triangle (sfepy/discrete/fem/geometry_element.py:123-125). -/
def edges23 : List (List ℕ) := [[0, 1], [1, 2], [2, 0]]

/-- `edges` of a quadrilateral (sfepy/discrete/fem/geometry_element.py:137-140). -/
def edges24 : List (List ℕ) := [[0, 1], [1, 2], [2, 3], [3, 0]]

/-- `faces` of a tetrahedron (sfepy/discrete/fem/geometry_element.py:152-155). -/
def faces34 : List (List ℕ) := [[0, 2, 1], [0, 3, 2], [0, 1, 3], [1, 2, 3]]

/-- `faces` of a hexahedron (sfepy/discrete/fem/geometry_element.py:202-207). -/
def faces38 : List (List ℕ) :=
  [[0, 3, 2, 1], [0, 4, 7, 3], [0, 1, 5, 4], [4, 5, 6, 7], [1, 2, 6, 5], [3, 7, 6, 2]]

end Verif.CMesh
