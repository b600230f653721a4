import Mathlib.Data.Real.Basic
import Mathlib.Analysis.SpecialFunctions.Trigonometric.Basic
import Mathlib.Analysis.SpecialFunctions.Trigonometric.Inverse
import Mathlib.LinearAlgebra.CrossProduct
import Verif.Mech.Model

/-!
# Probes: sampling points along lines, rays and circles

Models `sfepy/discrete/probes.py`: the number of points, the adaptive refinement of the
parametrization and the point generators.  Numbers are real (no rounding).  The evaluation of the
probed variable is not modelled; the only thing the refinement uses from it, the diameter of the
element enclosing a point, is a function `ed` of the point.
-/

namespace Verif.Prb

/-- `Probe.set_n_point()` (sfepy/discrete/probes.py:213-236): the starting number of points and
the required number (−1 in the adaptive mode). -/
def setNPoint (n : Option ℤ) : ℕ × ℤ :=
  let n := n.getD (-10)
  if n ≤ 0 then ((max (-n) 2).toNat, -1) else ((max n 2).toNat, max n 2)

/-- `nm.where(refine_flag)[0]` (sfepy/discrete/probes.py:392). -/
def whereTrue (flags : List Bool) : List ℕ :=
  (List.range flags.length).filter fun i => flags.getD i false

/-- `nm.insert(arr, idx, vals)` (used in sfepy/discrete/probes.py:402): every value is inserted
before the element with the given index of the *original* array (at the end for the index
`len(arr)`). -/
def npInsert (arr : List ℝ) (ins : List (ℕ × ℝ)) : List ℝ :=
  (List.range (arr.length + 1)).flatMap fun j =>
    (ins.filter fun p => p.1 == j).map Prod.snd ++ (arr[j]?).toList

/-- `Probe.refine_pars()` (sfepy/discrete/probes.py:388-404).  An index out of range (an error in
numpy) reads 0 here; it does not occur for flag lists of the right length. -/
noncomputable def refinePars (pars : List ℝ) (flags : List Bool) (cyc : Option ℝ) : List ℝ :=
  let ii := whereTrue flags
  let cpars := match cyc with
    | some c => pars ++ [c]
    | none => pars
  npInsert pars (ii.map fun i => (i + 1, 0.5 * (cpars.getD (i + 1) 0 + cpars.getD i 0)))

/-- A point of the `d`-dimensional space. -/
abbrev Pt (d : ℕ) := Fin d → ℝ

/-- The Euclidean norm of a vector (`norm_l2_along_axis`, `nla.norm`). -/
noncomputable def nrm {d : ℕ} (v : Pt d) : ℝ := √(∑ i, v i ^ 2)

/-- The size a distance of neighbouring points is compared to: `size_hint`, or the mean of the two
element diameters (sfepy/discrete/probes.py:369-374). -/
noncomputable def pairSize {d : ℕ} (hint : Option ℝ) (ed : Pt d → ℝ) (p q : Pt d) : ℝ :=
  match hint with
  | none => 0.5 * (ed q + ed p)
  | some h => h

/-- `Probe.refine_points()` (sfepy/discrete/probes.py:354-385).  For a cyclic probe with a size
hint the source fails (`ed` is not assigned); here the hint is not used for the closing pair. -/
noncomputable def refinePoints {d : ℕ} (required : ℤ) (hint : Option ℝ) (ed : Pt d → ℝ)
    (cyclic : Bool) (points : List (Pt d)) : List Bool :=
  open Classical in
  if required = (points.length : ℤ) then [false]
  else
    let flags := List.zipWith (fun p q => decide (nrm (q - p) > pairSize hint ed p q))
      points points.tail
    if cyclic then
      match points.head?, points.getLast? with
      | some p, some q => flags ++ [decide (nrm (p - q) > 0.5 * (ed p + ed q))]
      | _, _ => flags
    else flags

/-- The loop of `Probe.probe()` (sfepy/discrete/probes.py:315-339): the points of the parameters
`pars` are flagged, and the parameters refined until no flag is set.  `none`: out of fuel. -/
noncomputable def probeLoop {d : ℕ} (pts : List ℝ → List (Pt d)) (cyc : Option ℝ)
    (flagsOf : List (Pt d) → List Bool) : ℕ → List ℝ → Option (List ℝ)
  | 0, _ => none
  | k + 1, pars =>
    let fl := flagsOf (pts pars)
    if fl.any id then probeLoop pts cyc flagsOf k (refinePars pars fl cyc) else some pars

/-- `nm.linspace(a, b, n)`. -/
noncomputable def linspace (a b : ℝ) (n : ℕ) : List ℝ :=
  (List.range n).map fun i : ℕ => a + (i : ℝ) * ((b - a) / ((n : ℝ) - 1))

/-- `LineProbe`: the length and direction (sfepy/discrete/probes.py:491-493). -/
noncomputable def lineLength {d : ℕ} (p0 p1 : Pt d) : ℝ := nrm (p1 - p0)

/-- See `lineLength`. -/
noncomputable def lineDir {d : ℕ} (p0 p1 : Pt d) : Pt d := fun i => (p1 i - p0 i) / lineLength p0 p1

/-- `points = self.p0 + self.dirvec * pars[:,None]` (sfepy/discrete/probes.py:537). -/
noncomputable def linePoints {d : ℕ} (p0 dirvec : Pt d) (pars : List ℝ) : List (Pt d) :=
  pars.map fun t => fun i => p0 i + dirvec i * t

/-- `LineProbe(p0, p1, n_point)` followed by `probe()` (sfepy/discrete/probes.py:475-539, 282-345):
the parameters and the points. -/
noncomputable def lineProbe {d : ℕ} (p0 p1 : Pt d) (n : Option ℤ) (hint : Option ℝ)
    (ed : Pt d → ℝ) (fuel : ℕ) : Option (List ℝ × List (Pt d)) :=
  let (n0, req) := setNPoint n
  let pts := linePoints p0 (lineDir p0 p1)
  (probeLoop pts none (refinePoints req hint ed false) fuel (linspace 0 (lineLength p0 p1) n0)).map
    fun pars => (pars, pts pars)

/-- `RayProbe.gen_points()` and `RayProbe.get_points()` (sfepy/discrete/probes.py:604-626); the
direction is normalized by the constructor (565). -/
noncomputable def rayPoints {d : ℕ} (p0 dir : Pt d) (pFun : ℝ → ℝ) (n : ℕ) (both : Bool) :
    List ℝ × List (Pt d) :=
  let dirvec : Pt d := fun i => dir i / nrm dir
  let pars := (List.range n).map fun i : ℕ => pFun i
  let gen (sign : ℝ) : List (Pt d) := pars.map fun t => fun i => p0 i + sign * dirvec i * t
  if both then (pars.reverse.map (fun t => -t) ++ pars, (gen (-1)).reverse ++ gen 1)
  else (pars, gen 1)

/-- The initial angles of the circle (sfepy/discrete/probes.py:695). -/
noncomputable def circlePars (n : ℕ) : List ℝ := (linspace 0 (2 * Real.pi) (n + 1)).dropLast

/-- The point of `CircleProbe.get_points()` in the plane (sfepy/discrete/probes.py:706-707,
726-729). -/
noncomputable def circlePoint2 (centre : Pt 2) (radius : ℝ) (t : ℝ) : Pt 2 :=
  ![radius * Real.cos t + centre 0, radius * Real.sin t + centre 1]

/-- The rotation of the circle to its normal (sfepy/discrete/probes.py:713-722); `normal` is
normalized by the constructor (652). -/
noncomputable def circleRotation (normal : Pt 3) : Matrix (Fin 3) (Fin 3) ℝ :=
  let axis : Pt 3 := crossProduct ![0, 0, 1] normal
  let angle := Real.arccos (∑ i, (![0, 0, 1] : Pt 3) i * normal i)
  open Classical in
  if nrm axis < 0.1 then 1 else Verif.Mech.axisRotation axis angle

/-- The point of `CircleProbe.get_points()` in space (sfepy/discrete/probes.py:705-729): the row
vector of the point in the xy plane times the rotation matrix, plus the centre. -/
noncomputable def circlePoint3 (centre normal : Pt 3) (radius : ℝ) (t : ℝ) : Pt 3 := fun j =>
  (∑ i, (![radius * Real.cos t, radius * Real.sin t, 0] : Pt 3) i *
    circleRotation (fun i => normal i / nrm normal) i j) + centre j

/-- `CircleProbe(centre, normal, radius, n_point)` and `probe()` in the plane or in space
(sfepy/discrete/probes.py:639-733, 282-345); `pt` is the point generator. -/
noncomputable def circleProbe {d : ℕ} (pt : ℝ → Pt d) (n : Option ℤ) (ed : Pt d → ℝ) (fuel : ℕ) :
    Option (List ℝ × List (Pt d)) :=
  let (n0, req) := setNPoint n
  let pts := fun pars : List ℝ => pars.map pt
  (probeLoop pts (some (2 * Real.pi)) (refinePoints req none ed true) fuel (circlePars n0)).map
    fun pars => (pars, pts pars)

end Verif.Prb
