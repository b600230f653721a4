/-
Model of `sfepy/mechanics/tensors.py`, `sfepy/mechanics/matcoefs.py`, of the rotation matrix of
`sfepy/linalg/geometry.py` and of `invs_fast()` of `sfepy/linalg/utils.py`.

The functions work on arrays with leading axes (points, or cells and quadrature points); they act
on each item independently, and the model is of one item.  float64 is replaced by a field `K`, or
by the reals where square roots or trigonometric functions occur.
-/
import Mathlib.Algebra.BigOperators.Fin
import Mathlib.Algebra.Field.Basic
import Mathlib.Analysis.Real.Sqrt
import Mathlib.Analysis.SpecialFunctions.Trigonometric.Basic
import Mathlib.Analysis.SpecialFunctions.Complex.Arg
import Mathlib.LinearAlgebra.Matrix.NonsingularInverse
import Mathlib.LinearAlgebra.Matrix.Notation
import Mathlib.Data.Matrix.ColumnRowPartitioned
import Mathlib.Algebra.Order.Floor.Semiring

namespace Verif.Mech

open Matrix

/-! ### Symmetric storage -/

/-- `dim2sym()` (sfepy/mechanics/tensors.py:10-14). -/
def dim2sym (dim : ℕ) : ℕ := (dim + 1) * dim / 2

/-- `sym2dim()` (sfepy/mechanics/tensors.py:16-27); `none` is the failed assertion.  The argument of
`int()` is non-negative, so that the truncation is the floor. -/
noncomputable def sym2dim (sym : ℕ) : Option ℕ :=
  let val := ⌊(-(1 / 2 : ℝ) + √(2 * (sym : ℝ) + 1 / 4))⌋₊
  if dim2sym val = sym then some val else none

/-- `get_full_indices(2)` (sfepy/mechanics/tensors.py:29-36). -/
def fullIdx2 : Fin 2 → Fin 2 → Fin 3 := ![![0, 2], ![2, 1]]

/-- `get_full_indices(3)` (sfepy/mechanics/tensors.py:29-36). -/
def fullIdx3 : Fin 3 → Fin 3 → Fin 6 := ![![0, 3, 4], ![3, 1, 5], ![4, 5, 2]]

/-- `get_sym_indices(2)` (sfepy/mechanics/tensors.py:38-45). -/
def symIdx2 : Fin 3 → Fin 4 := ![0, 3, 1]

/-- `get_sym_indices(3)` (sfepy/mechanics/tensors.py:38-45). -/
def symIdx3 : Fin 6 → Fin 9 := ![0, 4, 8, 1, 2, 5]

/-- `get_non_diagonal_indices(2)` (sfepy/mechanics/tensors.py:47-54). -/
def nonDiag2 : List (Fin 4) × List (Fin 4) := ([1], [2])

/-- `get_non_diagonal_indices(3)` (sfepy/mechanics/tensors.py:47-54). -/
def nonDiag3 : List (Fin 9) × List (Fin 9) := ([1, 2, 5], [3, 6, 7])

/-- NumPy `a.reshape((n * n,))` of a C-ordered `(n, n)` array: flat position `p` is row `p / n`,
column `p % n`. -/
def flat2 {α : Type*} (a : Matrix (Fin 2) (Fin 2) α) : Fin 4 → α :=
  fun p => a ⟨p / 2, by omega⟩ ⟨p % 2, by omega⟩

/-- The same for `n = 3`. -/
def flat3 {α : Type*} (a : Matrix (Fin 3) (Fin 3) α) : Fin 9 → α :=
  fun p => a ⟨p / 3, by omega⟩ ⟨p % 3, by omega⟩

/-- `t[iif]`: symmetric to full storage, as used in sfepy/mechanics/tensors.py:311, 391, 417. -/
def toFull2 {α : Type*} (t : Fin 3 → α) : Matrix (Fin 2) (Fin 2) α :=
  Matrix.of fun i j => t (fullIdx2 i j)

/-- The same in 3D. -/
def toFull3 {α : Type*} (t : Fin 6 → α) : Matrix (Fin 3) (Fin 3) α :=
  Matrix.of fun i j => t (fullIdx3 i j)

/-- `a.reshape(...)[iis]`: full to symmetric storage, as used in
sfepy/mechanics/tensors.py:317-319, 424-430. -/
def toSym2 {α : Type*} (a : Matrix (Fin 2) (Fin 2) α) : Fin 3 → α := fun k => flat2 a (symIdx2 k)

/-- The same in 3D. -/
def toSym3 {α : Type*} (a : Matrix (Fin 3) (Fin 3) α) : Fin 6 → α := fun k => flat3 a (symIdx3 k)

/-- `get_t4_from_t2s()` in 2D (sfepy/mechanics/tensors.py:177-199):
`t2s[:, iif][iif, ...][i, j, k, l] = t2s[iif[i, j], iif[k, l]]`. -/
def t4FromT2s2 {α : Type*} (t : Matrix (Fin 3) (Fin 3) α) (i j k l : Fin 2) : α :=
  t (fullIdx2 i j) (fullIdx2 k l)

/-- `get_t4_from_t2s()` in 3D (sfepy/mechanics/tensors.py:177-199). -/
def t4FromT2s3 {α : Type*} (t : Matrix (Fin 6) (Fin 6) α) (i j k l : Fin 3) : α :=
  t (fullIdx3 i j) (fullIdx3 k l)

section field
variable {K : Type} [Field K]

/-! ### Trace, volumetric part, deviator -/

/-- `nm.sum(tensor[:, :dim], axis=1)` of one item of the symmetric storage. -/
def sumFirst {n : ℕ} (d : ℕ) (t : Fin n → K) : K := ∑ i : Fin n, if (i : ℕ) < d then t i else 0

/-- `get_trace(tensor, sym_storage=True)` (sfepy/mechanics/tensors.py:56-67). -/
noncomputable def getTraceSym {n : ℕ} (t : Fin n → K) : Option K :=
  (sym2dim n).map fun d => sumFirst d t

/-- `get_trace(tensor, sym_storage=False)` (sfepy/mechanics/tensors.py:56-67). -/
def getTraceFull {d : ℕ} (t : Matrix (Fin d) (Fin d) K) : K := ∑ i, t i i

/-- `get_volumetric_tensor(tensor, sym_storage=True)` (sfepy/mechanics/tensors.py:69-87). -/
noncomputable def getVolumetricSym {n : ℕ} (t : Fin n → K) : Option (Fin n → K) := do
  let dim ← sym2dim n
  let trace ← getTraceSym t
  let val := trace / (dim : K)
  return fun i => if (i : ℕ) < dim then val else 0

/-- `get_volumetric_tensor(tensor, sym_storage=False)` (sfepy/mechanics/tensors.py:69-87). -/
def getVolumetricFull {d : ℕ} (t : Matrix (Fin d) (Fin d) K) : Matrix (Fin d) (Fin d) K :=
  (getTraceFull t / (d : K)) • (1 : Matrix (Fin d) (Fin d) K)

/-- `get_deviator(tensor, sym_storage=True)` (sfepy/mechanics/tensors.py:89-96). -/
noncomputable def getDeviatorSym {n : ℕ} (t : Fin n → K) : Option (Fin n → K) := do
  let vt ← getVolumetricSym t
  return t - vt

/-- `get_deviator(tensor, sym_storage=False)` (sfepy/mechanics/tensors.py:89-96). -/
def getDeviatorFull {d : ℕ} (t : Matrix (Fin d) (Fin d) K) : Matrix (Fin d) (Fin d) K :=
  t - getVolumetricFull t

/-- `get_cauchy_strain()` in 2D (sfepy/mechanics/tensors.py:99-121, table 2). -/
def getCauchyStrain2 (g : Matrix (Fin 2) (Fin 2) K) : Fin 3 → K :=
  ![flat2 g 0, flat2 g 3, flat2 g 1 + flat2 g 2]

/-- `get_cauchy_strain()` in 3D (sfepy/mechanics/tensors.py:99-121, table 3). -/
def getCauchyStrain3 (g : Matrix (Fin 3) (Fin 3) K) : Fin 6 → K :=
  ![flat3 g 0, flat3 g 4, flat3 g 8, flat3 g 1 + flat3 g 3, flat3 g 2 + flat3 g 6,
    flat3 g 5 + flat3 g 7]

/-! ### Transformations -/

/-- `transform_data()` of a vector (sfepy/mechanics/tensors.py:298-299). -/
def transformVec (m : Matrix (Fin 3) (Fin 3) K) (v : Fin 3 → K) : Fin 3 → K := m *ᵥ v

/-- `transform_data()` of a second order tensor in the symmetric storage
(sfepy/mechanics/tensors.py:301-321).  The internal `allclose` check compares the same product
computed twice. -/
def transformSym (m : Matrix (Fin 3) (Fin 3) K) (t : Fin 6 → K) : Fin 6 → K :=
  let aux := toFull3 t
  let aux2 := m * aux * mᵀ
  toSym3 aux2

/-- The `einsum` of `transform_data()` of a fourth order tensor
(sfepy/mechanics/tensors.py:326-327). -/
def transformT4 (m : Matrix (Fin 3) (Fin 3) K) (t : Fin 3 → Fin 3 → Fin 3 → Fin 3 → K)
    (i j k l : Fin 3) : K :=
  ∑ p, ∑ q, ∑ r, ∑ s, t p q r s * m i p * m j q * m k r * m l s

/-- `tdf.reshape(n, 9, 9)[:, :, iis][:, iis]` (sfepy/mechanics/tensors.py:328-329). -/
def t4ToSym (t : Fin 3 → Fin 3 → Fin 3 → Fin 3 → K) : Matrix (Fin 6) (Fin 6) K :=
  Matrix.of fun a b =>
    flat3 (Matrix.of fun i j => flat3 (Matrix.of fun k l => t i j k l) (symIdx3 b)) (symIdx3 a)

/-- `transform_data()` of a fourth order tensor in the symmetric storage
(sfepy/mechanics/tensors.py:323-329). -/
def transformSym4 (m : Matrix (Fin 3) (Fin 3) K) (t : Matrix (Fin 6) (Fin 6) K) :
    Matrix (Fin 6) (Fin 6) K :=
  t4ToSym (transformT4 m (t4FromT2s3 t))

/-- `StressTransform.get_1pk_from_2pk()` in 3D (sfepy/mechanics/tensors.py:369-393). -/
def pk1From2pk3 (f : Matrix (Fin 3) (Fin 3) K) (s : Fin 6 → K) : Matrix (Fin 3) (Fin 3) K :=
  f * toFull3 s

/-- `StressTransform.get_cauchy_from_2pk()` in 3D with the Jacobian computed in `__init__()`
(sfepy/mechanics/tensors.py:348-363, 395-431); `none` is the failed symmetry assertion. -/
def cauchyFrom2pk3 [DecidableEq K] (f : Matrix (Fin 3) (Fin 3) K) (s : Fin 6 → K) :
    Option (Fin 6 → K) :=
  let valIl := f * toFull3 s
  let valIj := valIl * fᵀ
  let out := f.det⁻¹ • valIj
  if nonDiag3.1.map (flat3 out) = nonDiag3.2.map (flat3 out) then some (toSym3 out) else none

/-- `StressTransform.get_1pk_from_2pk()` in 2D (sfepy/mechanics/tensors.py:369-393). -/
def pk1From2pk2 (f : Matrix (Fin 2) (Fin 2) K) (s : Fin 3 → K) : Matrix (Fin 2) (Fin 2) K :=
  f * toFull2 s

/-- `StressTransform.get_cauchy_from_2pk()` in 2D (sfepy/mechanics/tensors.py:395-430). -/
def cauchyFrom2pk2 [DecidableEq K] (f : Matrix (Fin 2) (Fin 2) K) (s : Fin 3 → K) :
    Option (Fin 3 → K) :=
  let valIl := f * toFull2 s
  let valIj := valIl * fᵀ
  let out := f.det⁻¹ • valIj
  if nonDiag2.1.map (flat2 out) = nonDiag2.2.map (flat2 out) then some (toSym2 out) else none

/-! ### Isotropic stiffness -/

/-- The `plane` argument. -/
inductive Plane where
  | strain
  | stress
deriving DecidableEq, Repr

/-- `lame_from_youngpoisson()` (sfepy/mechanics/matcoefs.py:11-37). -/
def lameFromYoungpoisson (young poisson : K) (plane : Plane := .strain) : K × K :=
  let mu := young / (2 * (1 + poisson))
  let lam := young * poisson / ((1 + poisson) * (1 - 2 * poisson))
  match plane with
  | .stress => (2 * lam * mu / (lam + 2 * mu), mu)
  | .strain => (lam, mu)

/-- The vector `o` of `stiffness_from_lame()` (sfepy/mechanics/matcoefs.py:53-54). -/
def oVec (dim : ℕ) : Fin (dim2sym dim) → K := fun i => if (i : ℕ) < dim then 1 else 0

/-- `stiffness_from_lame()` (sfepy/mechanics/matcoefs.py:39-60). -/
def stiffnessFromLame (dim : ℕ) (lam mu : K) :
    Matrix (Fin (dim2sym dim)) (Fin (dim2sym dim)) K :=
  let o : Fin (dim2sym dim) → K := oVec dim
  let oot : Matrix _ _ K := Matrix.of fun i j => o i * o j
  let do1 := Matrix.diagonal fun i => o i + 1
  lam • oot + mu • do1

/-- `stiffness_from_youngpoisson()` (sfepy/mechanics/matcoefs.py:62-69). -/
def stiffnessFromYoungpoisson (dim : ℕ) (young poisson : K) (plane : Plane := .strain) :
    Matrix (Fin (dim2sym dim)) (Fin (dim2sym dim)) K :=
  let lm := lameFromYoungpoisson young poisson plane
  stiffnessFromLame dim lm.1 lm.2

/-- `stiffness_from_lame_mixed()` (sfepy/mechanics/matcoefs.py:71-96). -/
def stiffnessFromLameMixed (dim : ℕ) (_lam mu : K) :
    Matrix (Fin (dim2sym dim)) (Fin (dim2sym dim)) K :=
  let lam := -(2 / 3) * mu
  stiffnessFromLame dim lam mu

/-- `stiffness_from_youngpoisson_mixed()` (sfepy/mechanics/matcoefs.py:98-105). -/
def stiffnessFromYoungpoissonMixed (dim : ℕ) (young poisson : K) (plane : Plane := .strain) :
    Matrix (Fin (dim2sym dim)) (Fin (dim2sym dim)) K :=
  let lm := lameFromYoungpoisson young poisson plane
  stiffnessFromLameMixed dim lm.1 lm.2

/-- `bulk_from_lame()` (sfepy/mechanics/matcoefs.py:107-114). -/
def bulkFromLame (lam mu : K) : K := lam + 2 * mu / 3

/-- `bulk_from_youngpoisson()` (sfepy/mechanics/matcoefs.py:116-122). -/
def bulkFromYoungpoisson (young poisson : K) (plane : Plane := .strain) : K :=
  let lm := lameFromYoungpoisson young poisson plane
  bulkFromLame lm.1 lm.2

/-- `lame_from_stiffness()` (sfepy/mechanics/matcoefs.py:124-133); `none` is the `IndexError` of
`stiffness[..., 0, 1]` for a `1 x 1` matrix (and of `[..., -1, -1]` for an empty one). -/
def lameFromStiffness {n : ℕ} (d : Matrix (Fin n) (Fin n) K) (plane : Plane := .strain) :
    Option (K × K) :=
  if h : 2 ≤ n then
    let lam := d ⟨0, by omega⟩ ⟨1, by omega⟩
    let mu := d ⟨n - 1, by omega⟩ ⟨n - 1, by omega⟩
    match plane with
    | .stress => some (-2 * mu * lam / (lam - 2 * mu), mu)
    | .strain => some (lam, mu)
  else none

/-- `youngpoisson_from_stiffness()` (sfepy/mechanics/matcoefs.py:135-144). -/
def youngpoissonFromStiffness {n : ℕ} (d : Matrix (Fin n) (Fin n) K) (plane : Plane := .strain) :
    Option (K × K) := do
  let lm ← lameFromStiffness d plane
  let lam := lm.1
  let mu := lm.2
  return ((3 * lam * mu + 2 * mu ^ 2) / (lam + mu), lam / (2 * lam + 2 * mu))

/-- The compliance matrix of `stiffness_from_yps_ortho3()` (sfepy/mechanics/matcoefs.py:174-184).
-/
def complianceOrtho3 (young poisson shear : Fin 3 → K) : Matrix (Fin 6) (Fin 6) K :=
  !![1 / young 0, -poisson 0 / young 0, -poisson 1 / young 0, 0, 0, 0;
     -poisson 0 / young 0, 1 / young 1, -poisson 2 / young 1, 0, 0, 0;
     -poisson 1 / young 0, -poisson 2 / young 1, 1 / young 2, 0, 0, 0;
     0, 0, 0, 1 / shear 0, 0, 0;
     0, 0, 0, 0, 1 / shear 1, 0;
     0, 0, 0, 0, 0, 1 / shear 2]

/-- `stiffness_from_yps_ortho3()` (sfepy/mechanics/matcoefs.py:147-188); `nm.linalg.inv()` is the
matrix inverse (`none`: `LinAlgError` of a singular matrix). -/
noncomputable def stiffnessFromYpsOrtho3 [DecidableEq K] (young poisson shear : Fin 3 → K) :
    Option (Matrix (Fin 6) (Fin 6) K) :=
  let compl := complianceOrtho3 young poisson shear
  if compl.det = 0 then none else some compl⁻¹

/-! ### Plane stress transformation -/

/-- The index sets of `TransformToPlane.__init__()` (sfepy/mechanics/matcoefs.py:381-403) for the
plane `iplane`: `i_m` and `i_s` for vectors, `i_ms` and `i_ss` for the symmetric storage. -/
structure PlaneIdx where
  im : Fin 2 → Fin 3
  is : Fin 1 → Fin 3
  ims : Fin 3 → Fin 6
  iss : Fin 3 → Fin 6

/-- The keys of the table at sfepy/mechanics/matcoefs.py:397-399: the sorted `iplane`. -/
inductive PlaneKind where
  | p01
  | p02
  | p12
deriving DecidableEq, Repr

/-- `TransformToPlane.__init__()` (sfepy/mechanics/matcoefs.py:392-403). -/
def planeIdx : PlaneKind → PlaneIdx
  | .p01 => ⟨![0, 1], ![2], ![0, 1, 3], ![2, 4, 5]⟩
  | .p02 => ⟨![0, 2], ![1], ![0, 2, 4], ![1, 3, 5]⟩
  | .p12 => ⟨![1, 2], ![0], ![1, 2, 5], ![0, 3, 4]⟩

/-- `a[tuple(nm.meshgrid(x, y))]`: `meshgrid` (indexing 'xy') gives `X[i, j] = x[j]`,
`Y[i, j] = y[i]`, so that the result at `(i, j)` is `a[x[j], y[i]]`. -/
def mg {R C : Type*} {p q : ℕ} (a : Matrix R C K) (x : Fin p → R) (y : Fin q → C) :
    Matrix (Fin q) (Fin p) K :=
  Matrix.of fun i j => a (x j) (y i)

/-- `TransformToPlane.tensor_plane_stress(c3)` (sfepy/mechanics/matcoefs.py:405-433), elasticity
only. -/
noncomputable def planeStressElastic [DecidableEq K] (pk : PlaneIdx)
    (c3 : Matrix (Fin 6) (Fin 6) K) : Option (Matrix (Fin 3) (Fin 3) K) :=
  let cs := mg c3 pk.iss pk.iss
  let cm := (mg c3 pk.iss pk.ims)ᵀ
  if cs.det = 0 then none else some (mg c3 pk.ims pk.ims - cmᵀ * (cs⁻¹ * cm))

/-- The matrix `A` of `tensor_plane_stress(c3, d3, b3)` (sfepy/mechanics/matcoefs.py:438-440). -/
def piezoA (pk : PlaneIdx) (c3 : Matrix (Fin 6) (Fin 6) K) (d3 : Matrix (Fin 3) (Fin 3) K)
    (b3 : Matrix (Fin 3) (Fin 6) K) : Matrix (Fin 3 ⊕ Fin 1) (Fin 3 ⊕ Fin 1) K :=
  let cs := mg c3 pk.iss pk.iss
  let ds := mg d3 pk.is pk.is
  let b := mg b3 pk.is pk.iss
  Matrix.fromBlocks cs b bᵀ (-ds)

/-- `Feps = F[:, :3]` (sfepy/mechanics/matcoefs.py:441-444). -/
def piezoFeps (pk : PlaneIdx) (c3 : Matrix (Fin 6) (Fin 6) K) (b3 : Matrix (Fin 3) (Fin 6) K) :
    Matrix (Fin 3 ⊕ Fin 1) (Fin 3) K :=
  Matrix.fromRows ((mg c3 pk.iss pk.ims)ᵀ) ((mg b3 pk.is pk.ims)ᵀ)

/-- `FE = F[:, 3:]` (sfepy/mechanics/matcoefs.py:441-445). -/
def piezoFE (pk : PlaneIdx) (d3 : Matrix (Fin 3) (Fin 3) K) (b3 : Matrix (Fin 3) (Fin 6) K) :
    Matrix (Fin 3 ⊕ Fin 1) (Fin 2) K :=
  Matrix.fromRows (mg b3 pk.im pk.iss) (-((mg d3 pk.is pk.im)ᵀ))

/-- `TransformToPlane.tensor_plane_stress(c3, d3, b3)` (sfepy/mechanics/matcoefs.py:434-454): the
triple `c2, d2, b2`. -/
noncomputable def planeStressPiezo [DecidableEq K] (pk : PlaneIdx)
    (c3 : Matrix (Fin 6) (Fin 6) K) (d3 : Matrix (Fin 3) (Fin 3) K)
    (b3 : Matrix (Fin 3) (Fin 6) K) :
    Option (Matrix (Fin 3) (Fin 3) K × Matrix (Fin 2) (Fin 2) K × Matrix (Fin 2) (Fin 3) K) :=
  let a := piezoA pk c3 d3 b3
  let feps := piezoFeps pk c3 b3
  let fe := piezoFE pk d3 b3
  if a.det = 0 then none
  else some (mg c3 pk.ims pk.ims - fepsᵀ * (a⁻¹ * feps),
             mg d3 pk.im pk.im - feᵀ * (a⁻¹ * fe),
             (mg b3 pk.im pk.ims)ᵀ - feᵀ * (a⁻¹ * feps))

/-! ### Small inverses -/

/-- `invs_fast()` of a `1 x 1` matrix (sfepy/linalg/utils.py:140-145); `det` is the optional
argument or the result of `dets_fast()` (sfepy/linalg/utils.py:118-121). -/
def invsFast1 (_a : Matrix (Fin 1) (Fin 1) K) (det : K) : Matrix (Fin 1) (Fin 1) K :=
  Matrix.of fun i j => !![(1 : K)] i j / det

/-- `invs_fast()` of a `2 x 2` matrix (sfepy/linalg/utils.py:135-145). -/
def invsFast2 (a : Matrix (Fin 2) (Fin 2) K) (det : K) : Matrix (Fin 2) (Fin 2) K :=
  Matrix.of fun i j => !![a 1 1, -a 0 1; -a 1 0, a 0 0] i j / det

/-- `invs_fast()` of a `3 x 3` matrix (sfepy/linalg/utils.py:123-145). -/
def invsFast3 (a : Matrix (Fin 3) (Fin 3) K) (det : K) : Matrix (Fin 3) (Fin 3) K :=
  Matrix.of fun i j =>
    !![-a 1 2 * a 2 1 + a 1 1 * a 2 2, a 0 2 * a 2 1 - a 0 1 * a 2 2,
         -a 0 2 * a 1 1 + a 0 1 * a 1 2;
       a 1 2 * a 2 0 - a 1 0 * a 2 2, -a 0 2 * a 2 0 + a 0 0 * a 2 2,
         a 0 2 * a 1 0 - a 0 0 * a 1 2;
       -a 1 1 * a 2 0 + a 1 0 * a 2 1, a 0 1 * a 2 0 - a 0 0 * a 2 1,
         -a 0 1 * a 1 0 + a 0 0 * a 1 1] i j / det

end field

/-! ### Real-valued functions -/

/-- The 2D formula of `get_von_mises_stress()` (sfepy/mechanics/tensors.py:140-152). -/
noncomputable def vonMises2 (s11 s22 s12 : ℝ) : ℝ :=
  √(s11 ^ 2 - s11 * s22 + s22 ^ 2 + 3 * s12 ^ 2)

/-- The 3D formula of `get_von_mises_stress()` (sfepy/mechanics/tensors.py:154-173). -/
noncomputable def vonMises3 (s11 s22 s33 s12 s13 s23 : ℝ) : ℝ :=
  √(1 / 2 * ((s11 - s22) ^ 2 + (s22 - s33) ^ 2 + (s11 - s33) ^ 2
      + 6 * (s12 ^ 2 + s13 ^ 2 + s23 ^ 2)))

/-- `get_von_mises_stress(stress, sym_storage=True)` (sfepy/mechanics/tensors.py:124-175) of one
item with `n` components; `none` is the failed `sym2dim` assertion or an `IndexError`. -/
noncomputable def getVonMisesSym {n : ℕ} (s : Fin n → ℝ) : Option ℝ := do
  let dim ← sym2dim n
  if dim = 2 then
    if h : 3 ≤ n then
      return vonMises2 (s ⟨0, by omega⟩) (s ⟨1, by omega⟩) (s ⟨2, by omega⟩)
    else none
  else
    if h : 6 ≤ n then
      return vonMises3 (s ⟨0, by omega⟩) (s ⟨1, by omega⟩) (s ⟨2, by omega⟩) (s ⟨3, by omega⟩)
        (s ⟨4, by omega⟩) (s ⟨5, by omega⟩)
    else none

/-- `get_von_mises_stress(stress, sym_storage=False)` (sfepy/mechanics/tensors.py:124-175) of one
`d x d` item. -/
noncomputable def getVonMisesFull {d : ℕ} (s : Matrix (Fin d) (Fin d) ℝ) : Option ℝ :=
  if h2 : d = 2 then
    let a : Fin d := ⟨0, by omega⟩
    let b : Fin d := ⟨1, by omega⟩
    some (vonMises2 (s a a) (s b b) (s a b))
  else if h3 : 3 ≤ d then
    let a : Fin d := ⟨0, by omega⟩
    let b : Fin d := ⟨1, by omega⟩
    let c : Fin d := ⟨2, by omega⟩
    some (vonMises3 (s a a) (s b b) (s c c) (s a b) (s a c) (s b c))
  else none

/-- `make_axis_rotation_matrix()` (sfepy/linalg/geometry.py:335-398). -/
noncomputable def axisRotation (direction : Fin 3 → ℝ) (angle : ℝ) : Matrix (Fin 3) (Fin 3) ℝ :=
  let nrm := √(direction 0 ^ 2 + direction 1 ^ 2 + direction 2 ^ 2)
  let d : Fin 3 → ℝ := fun i => direction i / nrm
  let ddt : Matrix (Fin 3) (Fin 3) ℝ := Matrix.of fun i j => d i * d j
  let skew : Matrix (Fin 3) (Fin 3) ℝ := !![0, d 2, -d 1; -d 2, 0, d 0; d 1, -d 0, 0]
  ddt + Real.cos angle • (1 - ddt) + Real.sin angle • skew

/-- `nm.arctan2(y, x)`, with the value 0 at the origin. -/
noncomputable def arctan2 (y x : ℝ) : ℝ := Complex.arg ⟨x, y⟩

/-- `prepare_cylindrical_transform()` (sfepy/mechanics/tensors.py:201-234) at one point;
`data` is `mode == 'data'`. -/
noncomputable def cylindricalTransform (coor origin : Fin 3 → ℝ) (data : Bool) :
    Matrix (Fin 3) (Fin 3) ℝ :=
  let x := coor 0 - origin 0
  let y := coor 1 - origin 1
  let theta := arctan2 y x
  axisRotation ![0, 0, 1] (if data then -theta else theta)

/-- `youngpoisson_from_wave_speeds()` (sfepy/mechanics/matcoefs.py:456-487). -/
noncomputable def youngpoissonFromWaveSpeeds (vp vs rho : ℝ) : ℝ × ℝ :=
  let vs2 := vs ^ 2
  let vp2 := vp ^ 2
  let aux := vp2 - vs2
  (vs2 * rho * (3 * vp2 - 4 * vs ^ 2) / aux, (vp2 / 2 - vs2) / aux)

/-- `wave_speeds_from_youngpoisson()` (sfepy/mechanics/matcoefs.py:489-520). -/
noncomputable def waveSpeedsFromYoungpoisson (young poisson rho : ℝ) : ℝ × ℝ :=
  (√(young * (1 - poisson) / (rho * (1 + poisson) * (1 - 2 * poisson))),
   √(young / (2 * rho * (1 + poisson))))

end Verif.Mech
