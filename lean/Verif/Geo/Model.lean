/-
A model of sfepy/linalg/geometry.py and sfepy/mechanics/contact_bodies.py.

Real numbers stand for floating point numbers; `nla.solve` and `nm.linalg.det` are modelled by the exact
inverse and determinant.  Functions vectorized over simplices or points are modelled for one of them.
-/
import Mathlib.LinearAlgebra.Matrix.NonsingularInverse
import Mathlib.Analysis.SpecialFunctions.Trigonometric.Inverse
import Mathlib.Analysis.Real.Sqrt
import Mathlib.Data.Nat.Factorial.Basic
import Verif.Mech.Model

namespace Geo

/-- A vector of real numbers. -/
abbrev Vec (d : ℕ) := Fin d → ℝ

/-- `norm(ar, squared=True)` of one row, sfepy/linalg/utils.py:10-37. -/
def norm2 {d : ℕ} (x : Vec d) : ℝ := ∑ i, x i ^ 2

/-- `norm(ar)` of one row, sfepy/linalg/utils.py:10-37. -/
noncomputable def norm {d : ℕ} (x : Vec d) : ℝ := √(norm2 x)

/-- `nm.dot` of two vectors. -/
def dot {d : ℕ} (x y : Vec d) : ℝ := ∑ i, x i * y i

/-- `nm.cross` in 3D. -/
def cross (x y : Vec 3) : Vec 3 :=
  ![x 1 * y 2 - x 2 * y 1, x 2 * y 0 - x 0 * y 2, x 0 * y 1 - x 1 * y 0]

/-! ## Simplices -/

/-- `transform_bar_to_space_coors`, sfepy/linalg/geometry.py:10-19: the loop over the vertices. -/
def barToSpace {n d : ℕ} (bc : Fin n → ℝ) (v : Fin n → Vec d) : Vec d :=
  (List.finRange n).foldl (fun acc iv => acc + bc iv • v iv) 0

/-- The barycentric coordinates of the circumcentre of a triangle before the normalization,
sfepy/linalg/geometry.py:51-58. -/
def triBar {d : ℕ} (v : Fin 3 → Vec d) : Fin 3 → ℝ :=
  let a2 := norm2 (v 1 - v 2)
  let b2 := norm2 (v 0 - v 2)
  let c2 := norm2 (v 0 - v 1)
  ![a2 * (-a2 + b2 + c2), b2 * (a2 - b2 + c2), c2 * (a2 + b2 - c2)]

/-- The same for a tetrahedron, sfepy/linalg/geometry.py:60-82. -/
def tetBar {d : ℕ} (v : Fin 4 → Vec d) : Fin 4 → ℝ :=
  let a2 := norm2 (v 2 - v 1)
  let b2 := norm2 (v 2 - v 0)
  let c2 := norm2 (v 1 - v 0)
  let d2 := norm2 (v 3 - v 0)
  let e2 := norm2 (v 3 - v 1)
  let f2 := norm2 (v 3 - v 2)
  ![d2 * a2 * (f2 + e2 - a2) + b2 * e2 * (a2 + f2 - e2) + c2 * f2 * (e2 + a2 - f2) - 2 * a2 * e2 * f2,
    e2 * b2 * (f2 + d2 - b2) + c2 * f2 * (d2 + b2 - f2) + a2 * d2 * (b2 + f2 - d2) - 2 * b2 * d2 * f2,
    f2 * c2 * (e2 + d2 - c2) + b2 * e2 * (d2 + c2 - e2) + a2 * d2 * (c2 + e2 - d2) - 2 * c2 * e2 * d2,
    d2 * a2 * (b2 + c2 - a2) + e2 * b2 * (c2 + a2 - b2) + f2 * c2 * (a2 + b2 - c2) - 2 * a2 * b2 * c2]

/-- `bar_coors /= nm.sum(bar_coors, axis=1)`, sfepy/linalg/geometry.py:87. -/
noncomputable def normalize {n : ℕ} (b : Fin n → ℝ) : Fin n → ℝ := fun i => b i / ∑ j, b j

/-- `nm.min` of a row. -/
noncomputable def minOf {n : ℕ} (b : Fin (n + 1) → ℝ) : ℝ := Finset.univ.inf' Finset.univ_nonempty b

/-- Moving the barycentric coordinates inside, sfepy/linalg/geometry.py:88-110. -/
noncomputable def forceInside {n : ℕ} (eps : ℝ) (b : Fin (n + 1) → ℝ) : Fin (n + 1) → ℝ :=
  let bc : ℝ := 1 / ((n + 1 : ℕ) : ℝ)
  let limit := 9 / 10 * bc
  let eps := if eps > limit then limit else eps
  let mb := minOf b
  if mb < eps then
    let alpha := (eps - mb) / (bc - mb)
    fun i => (1 - alpha) * b i + alpha * bc
  else b

/-- `get_simplex_circumcentres` of an edge, sfepy/linalg/geometry.py:47-48. -/
noncomputable def edgeCentre {d : ℕ} (v : Fin 2 → Vec d) : Vec d := (1 / 2 : ℝ) • (v 0 + v 1)

/-- `get_simplex_circumcentres` of a triangle, sfepy/linalg/geometry.py:21-114. -/
noncomputable def triCentre {d : ℕ} (v : Fin 3 → Vec d) (eps : Option ℝ) : Vec d :=
  let b := normalize (triBar v)
  match eps with
  | none => barToSpace b v
  | some e => barToSpace (forceInside e b) v

/-- `get_simplex_circumcentres` of a tetrahedron, sfepy/linalg/geometry.py:21-114. -/
noncomputable def tetCentre {d : ℕ} (v : Fin 4 → Vec d) (eps : Option ℝ) : Vec d :=
  let b := normalize (tetBar v)
  match eps with
  | none => barToSpace b v
  | some e => barToSpace (forceInside e b) v

/-- `get_simplex_volumes` of one simplex, sfepy/linalg/geometry.py:116-137. -/
noncomputable def simplexVolume {d : ℕ} (v : Fin (d + 1) → Vec d) : ℝ :=
  Matrix.det (Matrix.of fun i j : Fin d => v i.succ j - v 0 j) / (d.factorial : ℝ)

/-- The matrix of the barycentric system, sfepy/linalg/geometry.py:155-156. -/
def baryMtx {d : ℕ} (v : Fin (d + 1) → Vec d) : Matrix (Fin (d + 1)) (Fin (d + 1)) ℝ :=
  Matrix.of fun i j => Fin.lastCases (motive := fun _ => ℝ) 1 (fun k => v j k) i

/-- The right-hand side of the barycentric system, sfepy/linalg/geometry.py:158-160. -/
def baryRhs {d : ℕ} (x : Vec d) : Fin (d + 1) → ℝ :=
  fun i => Fin.lastCases (motive := fun _ => ℝ) 1 (fun k => x k) i

/-- `barycentric_coors` of one point, sfepy/linalg/geometry.py:139-164; `none` is the LinAlgError of a
singular matrix. -/
noncomputable def barycentricCoors {d : ℕ} (v : Fin (d + 1) → Vec d) (x : Vec d) :
    Option (Fin (d + 1) → ℝ) :=
  if (baryMtx v).det = 0 then none else some ((baryMtx v)⁻¹.mulVec (baryRhs x))

/-- `points_in_simplex` of one point, sfepy/linalg/geometry.py:166-177. -/
noncomputable def pointInSimplex {d : ℕ} (v : Fin (d + 1) → Vec d) (x : Vec d) (eps : ℝ) : Option Bool :=
  (barycentricCoors v x).map fun bc =>
    (List.finRange (d + 1)).foldl (fun flag i => flag && decide (bc i > -eps ∧ bc i < 1 + eps)) true

/-- `inverse_element_mapping` of one point in a simplex, sfepy/linalg/geometry.py:232-234. -/
noncomputable def inverseSimplex {d : ℕ} (v : Fin (d + 1) → Vec d) (ref : Fin (d + 1) → Vec d) (x : Vec d) :
    Option (Vec d) :=
  (barycentricCoors v x).map fun bc => fun k => ∑ i, bc i * ref i k

/-- The state of `mini_newton` after the loop, sfepy/linalg/utils.py:330-346: `inv` is `nla.inv` (`none` is
an exception). -/
noncomputable def miniNewton {d : ℕ} (f : Vec d → Vec d) (df : Vec d → Matrix (Fin d) (Fin d) ℝ)
    (inv : Matrix (Fin d) (Fin d) ℝ → Option (Matrix (Fin d) (Fin d) ℝ)) (eps : ℝ) : ℕ → Vec d → Vec d
  | 0, x => x
  | it + 1, x =>
    if norm (f x) < eps then x
    else
      match inv (df x).transpose with
      | none => x
      | some m => miniNewton f df inv eps it (x - m.mulVec (f x))

/-- `get_face_areas` of a triangle in 3D, sfepy/linalg/geometry.py:305-313. -/
noncomputable def triArea (a b c : Vec 3) : ℝ := 1 / 2 * norm (cross (b - a) (c - a))

/-- The padding of plane coordinates, sfepy/linalg/geometry.py:307-309. -/
def pad (a : Vec 2) : Vec 3 := ![a 0, a 1, 0]

/-- `get_face_areas` of a quadrilateral in 3D, sfepy/linalg/geometry.py:315-319. -/
noncomputable def quadArea (a b c d : Vec 3) : ℝ := triArea a b c + triArea a c d

/-! ## Points in polygons -/

/-- The condition of one edge in `flag_points_in_polygon2d` for a point, sfepy/linalg/geometry.py:204-210:
whether the flag is inverted; `vi`, `vj` are the vertices. -/
noncomputable def flips (p vi vj : ℝ × ℝ) : Bool :=
  if decide (vi.2 > p.2) != decide (vj.2 > p.2) then
    decide (p.1 < (vj.1 - vi.1) * (p.2 - vi.2) / (vj.2 - vi.2) + vi.1)
  else false

/-- `flag_points_in_polygon2d` of one point, sfepy/linalg/geometry.py:179-211: the vertex `ii` goes with the
vertex `ii-1`, the first one with the last one. -/
noncomputable def inPolygon (polygon : List (ℝ × ℝ)) (p : ℝ × ℝ) : Bool :=
  (List.zip polygon (polygon.getLast?.toList ++ polygon)).foldl
    (fun flag e => if flips p e.1 e.2 then !flag else flag) false

/-! ## Directions and selections -/

/-- `get_perpendiculars` in 2D, sfepy/linalg/geometry.py:254-263; also the normalized input, which is
changed in place. -/
noncomputable def perp2 (v : Vec 2) : Vec 2 × Vec 2 :=
  let v := fun i => v i / norm v
  (v, ![v 1, -v 0])

/-- `get_perpendiculars` in 3D, sfepy/linalg/geometry.py:254-282. -/
noncomputable def perp3 (v : Vec 3) : Vec 3 × Vec 3 × Vec 3 :=
  let v : Vec 3 := fun i => v i / norm v
  let v1 := cross v ![0, 0, 1]
  let v1 := if norm v1 < 1 / 10 then cross v ![0, 1, 0] else v1
  let v1 : Vec 3 := fun i => v1 i / norm v1
  let v2 := cross v v1
  let v2 : Vec 3 := fun i => v2 i / norm v2
  (v, v1, v2)

/-- `rotation_matrix2d`, sfepy/linalg/geometry.py:326-333. -/
noncomputable def rotation2d (angle : ℝ) : Matrix (Fin 2) (Fin 2) ℝ :=
  let a := angle * (Real.pi / 180)
  !![Real.cos a, -Real.sin a; Real.sin a, Real.cos a]

/-- `nm.where(...)[0]`: the indices that satisfy a condition. -/
def whereIdx {α : Type} (c : α → Bool) (l : List α) : List ℕ :=
  (l.zipIdx.filter fun x => c x.1).map Prod.snd

/-- `get_coors_in_tube`, sfepy/linalg/geometry.py:400-436. -/
noncomputable def coorsInTube (coors : List (Vec 3)) (centre axis : Vec 3) (rIn rOut length : ℝ)
    (inside : Bool) : List ℕ :=
  let dr := fun x => norm (cross axis (x - centre))
  let dl := fun x => dot (x - centre) axis
  let l2 := 1 / 2 * length
  if inside then
    whereIdx (fun x => decide (dl x ≥ -l2) && decide (dl x ≤ l2) && decide (dr x ≥ rIn) &&
      decide (dr x ≤ rOut)) coors
  else
    whereIdx (fun x => decide (dl x ≥ -l2) && decide (dl x ≤ l2) && decide (dr x ≤ rIn) &&
      decide (dr x ≥ rOut)) coors

/-- `get_coors_in_ball`, sfepy/linalg/geometry.py:438-474. -/
noncomputable def coorsInBall {d : ℕ} (coors : List (Vec d)) (centre : Vec d) (radius : ℝ)
    (radius2 : Option ℝ) (inside : Bool) : List ℕ :=
  let nvec := fun x => norm (x - centre)
  match radius2 with
  | none =>
    if inside then whereIdx (fun x => decide (nvec x ≤ radius)) coors
    else whereIdx (fun x => decide (nvec x ≥ radius)) coors
  | some r2 =>
    if inside then whereIdx (fun x => decide (nvec x ≤ radius) && decide (nvec x ≥ r2)) coors
    else whereIdx (fun x => decide (nvec x ≥ radius) && decide (nvec x ≤ r2)) coors

/-! ## Contact bodies -/

/-- A `ContactPlane`, sfepy/mechanics/contact_bodies.py:6-45. -/
structure Plane where
  normal : Vec 3
  mtx : Matrix (Fin 3) (Fin 3) ℝ
  bounds2d : List (ℝ × ℝ)
  adotn : ℝ

/-- The first two coordinates of a vector. -/
def xy (x : Vec 3) : ℝ × ℝ := (x 0, x 1)

/-- The matrix of the plane, sfepy/mechanics/contact_bodies.py:17-32; `normal` is the unit normal. -/
noncomputable def planeMtx (normal : Vec 3) (eps : ℝ) : Matrix (Fin 3) (Fin 3) ℝ :=
  let angle := Real.arccos (dot ![0, 0, 1] normal)
  if |angle| < eps then 1
  else if |angle - Real.pi| < eps then Verif.Mech.axisRotation ![1, 0, 0] angle
  else Verif.Mech.axisRotation (cross ![0, 0, 1] normal) angle

/-- `ContactPlane.__init__`, sfepy/mechanics/contact_bodies.py:8-45: `none` is a failed assertion. -/
noncomputable def mkPlane (anchor normal : Vec 3) (bounds : List (Vec 3)) (eps : ℝ) : Option Plane :=
  let normal : Vec 3 := fun i => normal i / norm normal
  let mtx := planeMtx normal eps
  if ∀ i, |(mtx.mulVec normal) i - (![0, 0, 1] : Vec 3) i| ≤ 1 / 10 ^ 12 then
    some { normal := normal, mtx := mtx, bounds2d := bounds.map fun b => xy (mtx.mulVec b),
           adotn := dot anchor normal }
  else none

/-- `ContactPlane.mask_points` of one point, sfepy/mechanics/contact_bodies.py:47-51. -/
noncomputable def Plane.mask (P : Plane) (x : Vec 3) : Bool := inPolygon P.bounds2d (xy (P.mtx.mulVec x))

/-- `ContactPlane.get_distance` of one point, sfepy/mechanics/contact_bodies.py:53-56. -/
def Plane.distance (P : Plane) (x : Vec 3) : ℝ := dot x P.normal - P.adotn

/-- `ContactSphere.mask_points` of one point, sfepy/mechanics/contact_bodies.py:64-68. -/
noncomputable def sphereMask {d : ℕ} (centre : Vec d) (radius eps : ℝ) (x : Vec d) : Bool :=
  decide (norm2 (x - centre) ≤ (1 + eps) ^ 2 * radius ^ 2)

/-- The penetration distance of `ContactSphere.get_distance`, sfepy/mechanics/contact_bodies.py:82-88. -/
noncomputable def sphereDistance {d : ℕ} (centre : Vec d) (radius : ℝ) (x : Vec d) : ℝ :=
  radius - norm (centre - x)

/-- The normals of `ContactSphere.get_distance`, sfepy/mechanics/contact_bodies.py:82-88: the selected
rows `vecs[ii]` are broadcast with the mask of all the rows, `none` is the error of different shapes. -/
noncomputable def sphereNormals {d : ℕ} (centre : Vec d) (points : List (Vec d)) : Option (List (Vec d)) :=
  let vecs := points.map fun x => centre - x
  let ii := vecs.map fun v => decide (norm v > 1 / 10 ^ 8)
  let sel := vecs.filter fun v => decide (norm v > 1 / 10 ^ 8)
  let pick := fun (flag : Bool) (v : Vec d) => if flag then fun i => v i / norm v else v
  if sel.length = points.length then some (List.zipWith pick ii sel)
  else if sel.length = 1 then some (ii.map fun flag => pick flag (sel.headD 0))
  else if points.length = 1 then some (sel.map fun v => pick (ii.headD false) v)
  else none

/-- `ContactSphere._get_derivatives` of one point, sfepy/mechanics/contact_bodies.py:90-104. -/
noncomputable def sphereDerivatives {d : ℕ} (centre x : Vec d) : Vec d × Matrix (Fin d) (Fin d) ℝ :=
  let vec := centre - x
  let dist := norm vec
  let dd : Vec d := fun i => vec i / dist
  (dd, Matrix.of fun i j => -((if i = j then 1 else 0) - dd i * dd j) / dist)

end Geo
