import Verif.Iga.Extract
import Mathlib.LinearAlgebra.Matrix.NonsingularInverse

/-!
# B-spline curves and surfaces

Models `/repo/sfepy/mesh/bspline.py` (`BSpline`, `BSplineSurf`).  Exact arithmetic; the constant
`nm_f64_eps` is a parameter `eps`; one parameter value `t` and one coordinate of the control points at a
time (the code treats all values and all coordinates in the same way).  `knotFn kn i` of
`Verif/Iga/Extract` is `knots[i]`.
-/

namespace Verif.Spl

open Iga

variable {K : Type} [Field K] [LinearOrder K]

/-- `basis_function_dg0()` - `/repo/sfepy/mesh/bspline.py:113-138`; column `i`. -/
def basis0 (t : K) (kn : ℕ → K) (i : ℕ) : K := if kn i ≤ t ∧ t < kn (i + 1) then 1 else 0

/-- `basis_function_dg()` - `/repo/sfepy/mesh/bspline.py:141-182`; column `i`. -/
def basisDg (eps t : K) (kn : ℕ → K) : ℕ → ℕ → K
  | 0, i => basis0 t kn i
  | d + 1, i =>
    let b := if |kn (i + (d + 1)) - kn i| > eps then
        (t - kn i) / (kn (i + (d + 1)) - kn i) * basisDg eps t kn d i else 0
    if |kn (i + (d + 1) + 1) - kn (i + 1)| > eps then
      b + (kn (i + (d + 1) + 1) - t) / (kn (i + (d + 1) + 1) - kn (i + 1)) * basisDg eps t kn d (i + 1)
    else b

/-- `eval()`: `dot(basis, cp_coors)` - `/repo/sfepy/mesh/bspline.py:317-334`. -/
def evalCurve (eps t : K) (dg : ℕ) (kn cp : List K) : K :=
  ∑ i ∈ Finset.range cp.length, basisDg eps t (knotFn kn) dg i * cp.getD i 0

/-- `linspace(r0, r1, n)` - `/repo/sfepy/mesh/bspline.py:203`. -/
def linspace (r0 r1 : K) (n : ℕ) : List K :=
  (List.range n).map fun k : ℕ => r0 + (r1 - r0) * k / ((n - 1 : ℕ) : K)

/-- `make_knot_vector('clamped')` - `/repo/sfepy/mesh/bspline.py:199-212`. -/
def clampedKnots (dg ncp : ℕ) (r0 r1 : K) : List K :=
  let aux := linspace r0 r1 (dg + ncp + 1 - 2 * dg)
  List.replicate dg (aux.getD 0 0) ++ aux ++ List.replicate dg (aux.getLastD 0)

/-- `make_knot_vector('cyclic')` - `/repo/sfepy/mesh/bspline.py:199-208`. -/
def cyclicKnots (dg ncp : ℕ) (r0 r1 : K) : List K :=
  let aux := linspace r0 r1 (dg + ncp + 1 - 2 * dg)
  let dd := aux.getD 1 0
  ((List.range dg).map fun k : ℕ => ((k : K) - dg) * dd) ++ aux ++
    (List.range dg).map fun k : ℕ => ((k : K) + 1) * dd + 1

/-- `set_control_points()` of a cyclic curve - `/repo/sfepy/mesh/bspline.py:51-68`. -/
def cyclicForm (dg : ℕ) (cp : List K) : List K := cp ++ cp.take dg

/-- `get_control_points()` of a cyclic curve - `/repo/sfepy/mesh/bspline.py:70-82`. -/
def uniquePoints (dg : ℕ) (cp : List K) : List K := cp.take (cp.length - dg)

/-- `nm.where(logical_and(kn[:-1] <= new, new < kn[1:]))[0]` - `/repo/sfepy/mesh/bspline.py:255`. -/
def whereSpan (kn : List K) (new : K) : List ℕ :=
  (List.range (kn.length - 1)).filter fun i => decide (knotFn kn i ≤ new ∧ new < knotFn kn (i + 1))

/-- `insert_knot()` - `/repo/sfepy/mesh/bspline.py:242-286`: the new knots and control points.
Simplification: `u1 = idx - dg + 1` is a natural number (the code lets it be negative, when the new knot is
before the first inner span; then its slices wrap around). -/
def insertKnot (dg : ℕ) (kn cp : List K) (new : K) : List K × List K :=
  match whereSpan kn new with
  | [] => (kn, cp)
  | idx :: _ =>
    if kn.countP (fun k => decide (k = new)) < dg then
      (kn.take (idx + 1) ++ new :: kn.drop (idx + 1),
        (List.range (cp.length + 1)).map fun i =>
          if idx + 1 - dg ≤ i ∧ i < idx + 1 then
            (knotFn kn (i + dg) - new) / (knotFn kn (i + dg) - knotFn kn i) * cp.getD (i - 1) 0 +
              (new - knotFn kn i) / (knotFn kn (i + dg) - knotFn kn i) * cp.getD i 0
          else if i < idx + 1 - dg then cp.getD i 0
          else cp.getD (i - 1) 0)
    else (kn, cp)

/-- `BSplineSurf.eval()` - `/repo/sfepy/mesh/bspline.py:594-621`: `aux` by the first basis, then the second. -/
def evalSurf (eps t0 t1 : K) (dg0 dg1 : ℕ) (kn0 kn1 : List K) (n0 n1 : ℕ) (cp : ℕ → ℕ → K) : K :=
  let aux := fun j => ∑ i ∈ Finset.range n0, basisDg eps t0 (knotFn kn0) dg0 i * cp i j
  ∑ j ∈ Finset.range n1, basisDg eps t1 (knotFn kn1) dg1 j * aux j

open Matrix

/-- `approximate()`, the control points of a curve that is not cyclic -
`/repo/sfepy/mesh/bspline.py:450-468`; `B` is the basis matrix, `y` the coordinates. -/
noncomputable def fit {m n : ℕ} (B : Matrix (Fin m) (Fin n) K) (y : Fin m → K) : Fin n → K :=
  (Bᵀ * B)⁻¹ *ᵥ (Bᵀ *ᵥ y)

/-- The matrix `R` - `/repo/sfepy/mesh/bspline.py:454-460`. -/
def cyclicR (nred dg : ℕ) : Matrix (Fin (nred + dg)) (Fin nred) K := fun i j =>
  if i.1 = j.1 then 1 else if j.1 < dg ∧ i.1 = nred + j.1 then 1 else 0

/-- `approximate()` of a cyclic curve - `/repo/sfepy/mesh/bspline.py:450-465`. -/
noncomputable def fitCyclic {m : ℕ} (nred dg : ℕ) (B : Matrix (Fin m) (Fin (nred + dg)) K) (y : Fin m → K) :
    Fin (nred + dg) → K :=
  cyclicR nred dg *ᵥ (((cyclicR nred dg)ᵀ * ((Bᵀ * B) * cyclicR nred dg))⁻¹ *ᵥ
    ((cyclicR nred dg)ᵀ *ᵥ (Bᵀ *ᵥ y)))

end Verif.Spl
