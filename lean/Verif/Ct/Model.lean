import Mathlib.Analysis.SpecialFunctions.Sqrt
import Mathlib.Data.Matrix.Mul

/-!
# Contact plane and contact sphere terms

Models `ContactPlaneTerm`, `ContactSphereTerm` of `/repo/sfepy/terms/terms_surface.py` and the bodies of
`/repo/sfepy/mechanics/contact_bodies.py`.  Exact real arithmetic.  Points are functions of the component
`0, ..., dim - 1` (the code has `dim = 3`); the values outside are not used.  The columns of a local vector are
`component * n_ep + node`, as produced by reshaping.  `geo.integrate()` is the sum over the quadrature points with
weights `wt`.
-/

open Finset

namespace Verif.Ct

/-! ## The force law -/

/-- `eps` of `ContactPlaneTerm._get_force_pars()` - `/repo/sfepy/terms/terms_surface.py:286-287`. -/
noncomputable def epsPar (k f0 : ℝ) : ℝ := if f0 ≥ 1e-14 then -2.0 * f0 / k else 0

/-- `a` of `ContactPlaneTerm._get_force_pars()` - `/repo/sfepy/terms/terms_surface.py:288-289`. -/
noncomputable def aPar (k f0 : ℝ) : ℝ := if f0 ≥ 1e-14 then k ^ 2 / (4.0 * f0) else 0

/-- `ContactPlaneTerm.smooth_f()` in one point - `/repo/sfepy/terms/terms_surface.py:264-278`. -/
noncomputable def smoothF (d k f0 a eps : ℝ) (diff : Bool) : ℝ :=
  if d > eps ∧ d ≤ 0 then (if diff then 2 * a * d + k else a * d ^ 2 + k * d + f0)
  else if d > 0 then (if diff then k else k * d + f0) else 0

/-- The call of `smooth_f()` with the parameters of `_get_force_pars()` - `/repo/sfepy/terms/terms_surface.py:323`. -/
noncomputable def force (k f0 d : ℝ) (diff : Bool) : ℝ := smoothF d k f0 (aPar k f0) (epsPar k f0) diff

/-! ## The bodies -/

/-- `ContactPlane.get_distance()` - `/repo/sfepy/mechanics/contact_bodies.py:53-56` with `adotn` of line 41. -/
noncomputable def planeDistance (dim : ℕ) (anchor normal x : ℕ → ℝ) : ℝ :=
  ∑ i ∈ range dim, x i * normal i - ∑ i ∈ range dim, anchor i * normal i

/-- The normalization of the normal - `/repo/sfepy/mechanics/contact_bodies.py:12-15`. -/
noncomputable def unitNormal (dim : ℕ) (normal : ℕ → ℝ) (i : ℕ) : ℝ :=
  normal i / √(∑ j ∈ range dim, normal j ^ 2)

/-- `points2d` of `ContactPlane.mask_points()` - `/repo/sfepy/mechanics/contact_bodies.py:47-49`. -/
noncomputable def points2d (mtx : ℕ → ℕ → ℝ) (x : ℕ → ℝ) : ℝ × ℝ :=
  (∑ j ∈ range 3, mtx 0 j * x j, ∑ j ∈ range 3, mtx 1 j * x j)

/-- `norm_l2_along_axis(centre - point)` - `/repo/sfepy/mechanics/contact_bodies.py:82-83`. -/
noncomputable def centreDist (dim : ℕ) (centre x : ℕ → ℝ) : ℝ := √(∑ i ∈ range dim, (centre i - x i) ^ 2)

/-- `ContactSphere.mask_points()` of a point - `/repo/sfepy/mechanics/contact_bodies.py:64-68`. -/
def sphereMask (dim : ℕ) (centre : ℕ → ℝ) (radius e : ℝ) (x : ℕ → ℝ) : Prop :=
  ∑ i ∈ range dim, (x i - centre i) ^ 2 ≤ (1 + e) ^ 2 * radius ^ 2

/-- `ContactSphere.get_distance()`, the distance of a point - `/repo/sfepy/mechanics/contact_bodies.py:82-88`. -/
noncomputable def sphereDistance (dim : ℕ) (centre : ℕ → ℝ) (radius : ℝ) (x : ℕ → ℝ) : ℝ :=
  radius - centreDist dim centre x

/-- The row of `normals` of a point with `dist > 1e-8` - `/repo/sfepy/mechanics/contact_bodies.py:86`. -/
noncomputable def sphereNormal (dim : ℕ) (centre x : ℕ → ℝ) (i : ℕ) : ℝ := (centre i - x i) / centreDist dim centre x

/-- `numpy.where(flags[:, None], xs, ys)` for arrays `xs`, `ys` of the same number of rows: the numbers of rows of
`flags` and of `xs` have to be equal, or one of them one (NumPy broadcasting); `none` is an exception. -/
def whereRows {α : Type} (flags : List Bool) (xs ys : List α) : Option (List α) :=
  if flags.length = xs.length then
    some (List.zipWith (fun (b : Bool) (r : α × α) => if b then r.1 else r.2) flags (xs.zip ys))
  else match flags, xs, ys with
    | fs, [x], [y] => some (fs.map fun b => if b then x else y)
    | [b], xs, ys => some (if b then xs else ys)
    | _, _, _ => none

open Classical in
/-- The normals of `ContactSphere.get_distance()` of an array of points -
`/repo/sfepy/mechanics/contact_bodies.py:82-87`. -/
noncomputable def sphereNormals (dim : ℕ) (centre : ℕ → ℝ) (pts : List (ℕ → ℝ)) : Option (List (ℕ → ℝ)) :=
  let flags := pts.map fun x => decide (centreDist dim centre x > 1e-8)
  let sel := pts.filter fun x => decide (centreDist dim centre x > 1e-8)
  whereRows flags (sel.map fun x => sphereNormal dim centre x) (sel.map fun x i => centre i - x i)

/-! ## The terms in an element -/

/-- `self.get(state, 'val')` in a quadrature point plus its coordinates - `/repo/sfepy/terms/terms_surface.py:305-310`;
`N` are the values of the basis functions, `u` the local vector. -/
noncomputable def deformed (nep : ℕ) (X N u : ℕ → ℝ) (i : ℕ) : ℝ := ∑ a ∈ range nep, N a * u (i * nep + a) + X i

/-- `nbf` of `ContactPlaneTerm.function()` in a quadrature point, reshaped to one index -
`/repo/sfepy/terms/terms_surface.py:248-250`; `399-402` for the sphere. -/
noncomputable def nbf (nep : ℕ) (N normal : ℕ → ℝ) (k : ℕ) : ℝ := N (k % nep) * normal (k / nep)

/-- `vb` of `ContactSphereTerm.function()` in a quadrature point - `/repo/sfepy/terms/terms_surface.py:411-415`. -/
noncomputable def vb (nep : ℕ) (N : ℕ → ℝ) (i k : ℕ) : ℝ :=
  if i * nep ≤ k ∧ k < (i + 1) * nep then N (k - i * nep) else 0

/-- `eebf2` - `/repo/sfepy/terms/terms_surface.py:416-417`. -/
noncomputable def eebf2 (dim nep : ℕ) (N : ℕ → ℝ) (k l : ℕ) : ℝ := ∑ i ∈ range dim, vb nep N i k * vb nep N i l

open Classical in
/-- `ContactPlaneTerm` in an element, the vector (`fmode = 0`) - `/repo/sfepy/terms/terms_surface.py:246-261,
319-325`; `mask q` is `mask_points()` of the undeformed quadrature points. -/
noncomputable def planeVec (nq dim nep : ℕ) (wt : ℕ → ℝ) (X N : ℕ → ℕ → ℝ) (k f0 : ℕ → ℝ) (mask : ℕ → Prop)
    (anchor normal : ℕ → ℝ) (u : ℕ → ℝ) (r : ℕ) : ℝ :=
  ∑ q ∈ range nq, wt q *
    ((if mask q then force (k q) (f0 q) (planeDistance dim anchor normal (deformed nep (X q) (N q) u)) false else 0) *
      nbf nep (N q) normal r)

open Classical in
/-- `ContactPlaneTerm` in an element, the matrix (`fmode = 1`) - `/repo/sfepy/terms/terms_surface.py:246-261,
327-333`. -/
noncomputable def planeMat (nq dim nep : ℕ) (wt : ℕ → ℝ) (X N : ℕ → ℕ → ℝ) (k f0 : ℕ → ℝ) (mask : ℕ → Prop)
    (anchor normal : ℕ → ℝ) (u : ℕ → ℝ) (r s : ℕ) : ℝ :=
  ∑ q ∈ range nq, wt q *
    ((if mask q then force (k q) (f0 q) (planeDistance dim anchor normal (deformed nep (X q) (N q) u)) true else 0) *
      (nbf nep (N q) normal r * nbf nep (N q) normal s))

/-- `nm.abs(eps.min())` - `/repo/sfepy/terms/terms_surface.py:450-453`; `nq + 1` quadrature points. -/
noncomputable def maskEps (nq : ℕ) (k f0 : ℕ → ℝ) : ℝ :=
  |(range (nq + 1)).inf' (by simp) fun q => epsPar (k q) (f0 q)|

open Classical in
/-- `ContactSphereTerm` in an element, the vector - `/repo/sfepy/terms/terms_surface.py:404-405, 455-460`; the points
outside of the mask have zero force and normal. -/
noncomputable def sphereVec (nq dim nep : ℕ) (wt : ℕ → ℝ) (X N : ℕ → ℕ → ℝ) (k f0 : ℕ → ℝ) (centre : ℕ → ℝ)
    (radius : ℝ) (u : ℕ → ℝ) (r : ℕ) : ℝ :=
  ∑ q ∈ range (nq + 1),
    let x := deformed nep (X q) (N q) u
    if sphereMask dim centre radius (maskEps nq k f0) x then
      wt q * (force (k q) (f0 q) (sphereDistance dim centre radius x) false *
        nbf nep (N q) (sphereNormal dim centre x) r)
    else 0

open Classical in
/-- `ContactSphereTerm` in an element, the matrix - `/repo/sfepy/terms/terms_surface.py:407-421, 462-474`. -/
noncomputable def sphereMat (nq dim nep : ℕ) (wt : ℕ → ℝ) (X N : ℕ → ℕ → ℝ) (k f0 : ℕ → ℝ) (centre : ℕ → ℝ)
    (radius : ℝ) (u : ℕ → ℝ) (r s : ℕ) : ℝ :=
  ∑ q ∈ range (nq + 1),
    let x := deformed nep (X q) (N q) u
    let d := sphereDistance dim centre radius x
    if sphereMask dim centre radius (maskEps nq k f0) x then
      let nbf2 := nbf nep (N q) (sphereNormal dim centre x) r * nbf nep (N q) (sphereNormal dim centre x) s
      let fd := force (k q) (f0 q) d false / (radius - d)
      wt q * (force (k q) (f0 q) d true * nbf2 - fd * (eebf2 dim nep (N q) r s - nbf2))
    else 0

end Verif.Ct
