import Mathlib.Analysis.SpecialFunctions.Sqrt

/-!
# Membranes

Models `/repo/sfepy/mechanics/membranes.py` and `TLMembraneTerm` of `/repo/sfepy/terms/terms_membrane.py` in an element.
Exact real arithmetic.  `u a i` is the displacement `i` of the node `a`, `g α a` the in-plane gradient of the basis
function `a`; the columns of local vectors are `component * n_ep + node`.
-/

open Finset

namespace Verif.Mem

/-! ## Geometry -/

/-- `nm.cross()` of 3D vectors. -/
def cross (a b : ℕ → ℝ) (i : ℕ) : ℝ :=
  if i = 0 then a 1 * b 2 - a 2 * b 1 else if i = 1 then a 2 * b 0 - a 0 * b 2
  else if i = 2 then a 0 * b 1 - a 1 * b 0 else 0

/-- `norm_l2_along_axis()` of a 3D vector. -/
noncomputable def norm3 (a : ℕ → ℝ) : ℝ := √(∑ i ∈ range 3, a i ^ 2)

/-- `create_transformation_matrix()` of an element, `T i j` - `/repo/sfepy/mechanics/membranes.py:34-49`; `x0`, `x1`, `xl`
are the first, second and last node. -/
noncomputable def transMtx (x0 x1 xl : ℕ → ℝ) (i j : ℕ) : ℝ :=
  let t1 := fun m => x1 m - x0 m
  let t2 := fun m => xl m - x0 m
  let n := cross t1 t2
  let t2 := cross n t1
  if j = 0 then t1 i / norm3 t1 else if j = 1 then t2 i / norm3 t2 else n i / norm3 n

/-- `coors_loc` of a node - `/repo/sfepy/mechanics/membranes.py:156`. -/
noncomputable def coorsLoc (T : ℕ → ℕ → ℝ) (x0 x : ℕ → ℝ) (j : ℕ) : ℝ := ∑ i ∈ range 3, (x i - x0 i) * T i j

/-! ## Deformation -/

/-- `du` in `describe_deformation()` - `/repo/sfepy/mechanics/membranes.py:208`. -/
def du (nep : ℕ) (g u : ℕ → ℕ → ℝ) (α i : ℕ) : ℝ := ∑ a ∈ range nep, g α a * u a i

/-- `mtx_f` - `/repo/sfepy/mechanics/membranes.py:213`. -/
def mtxF (nep : ℕ) (g u : ℕ → ℕ → ℝ) (α i : ℕ) : ℝ := du nep g u α i + if α = i then 1 else 0

/-- `mtx_c` - `/repo/sfepy/mechanics/membranes.py:217`. -/
def mtxC (nep : ℕ) (g u : ℕ → ℕ → ℝ) (α β : ℕ) : ℝ := ∑ k ∈ range 3, mtxF nep g u α k * mtxF nep g u β k

/-- `c33` of the in-plane components - `/repo/sfepy/mechanics/membranes.py:220-221`. -/
noncomputable def c33 (c11 c22 c12 : ℝ) : ℝ := 1.0 / (c11 * c22 - c12 ^ 2)

/-- `mtx_b` - `/repo/sfepy/mechanics/membranes.py:224-236`; the assignments to the three blocks of columns of a row are
written with the number of the block `k / n_ep`. -/
def mtxB (nep : ℕ) (g u : ℕ → ℕ → ℝ) (s k : ℕ) : ℝ :=
  let i := k / nep
  let a := k % nep
  if s = 0 then g 0 a * mtxF nep g u 0 i
  else if s = 1 then g 1 a * mtxF nep g u 1 i
  else g 1 a * mtxF nep g u 0 i + g 0 a * mtxF nep g u 1 i

/-- `get_tangent_stress_matrix()` - `/repo/sfepy/mechanics/membranes.py:264-274`. -/
def tangentStress (nep : ℕ) (stress : ℕ → ℝ) (g : ℕ → ℕ → ℝ) (k l : ℕ) : ℝ :=
  if k / nep = l / nep then
    stress 0 * (g 0 (k % nep) * g 0 (l % nep)) + stress 2 * (g 0 (k % nep) * g 1 (l % nep)) +
      stress 2 * (g 1 (k % nep) * g 0 (l % nep)) + stress 1 * (g 1 (k % nep) * g 1 (l % nep))
  else 0

/-- `get_invariants()` - `/repo/sfepy/mechanics/membranes.py:301-306`. -/
def invariants (c11 c22 c12 c33 : ℝ) : ℝ × ℝ :=
  (c11 + c22 + c33, c11 * c22 + c22 * c33 + c11 * c33 - c12 ^ 2)

/-- `get_green_strain_sym3d()` - `/repo/sfepy/mechanics/membranes.py:335-341`. -/
noncomputable def greenStrain (c11 c22 c12 c33 : ℝ) (s : ℕ) : ℝ :=
  if s = 0 then 0.5 * (c11 - 1.0) else if s = 1 then 0.5 * (c22 - 1.0) else if s = 2 then 0.5 * (c33 - 1.0)
  else if s = 3 then 0.5 * c12 else 0.0

/-! ## The material -/

/-- `pressure` in `eval_membrane_mooney_rivlin()` - `/repo/sfepy/terms/terms_membrane.py:17-26`. -/
def pressure (a1 a2 c11 c22 c33 : ℝ) : ℝ := c33 * (2 * a1 + 2 * a2 * (c11 + c22))

/-- `eval_membrane_mooney_rivlin()`, `mode = 0` - `/repo/sfepy/terms/terms_membrane.py:28-34`. -/
def stress (a1 a2 c11 c22 c12 c33 : ℝ) (s : ℕ) : ℝ :=
  let a12 := 2 * a1
  let a22 := 2 * a2
  let p := pressure a1 a2 c11 c22 c33
  if s = 0 then -p * c22 * c33 + a12 + a22 * (c22 + c33)
  else if s = 1 then -p * c11 * c33 + a12 + a22 * (c11 + c33)
  else p * c12 * c33 - a22 * c12

/-- `eval_membrane_mooney_rivlin()`, `mode = 1` - `/repo/sfepy/terms/terms_membrane.py:36-62`. -/
def tangent (a1 a2 c11 c22 c12 c33 : ℝ) (s r : ℕ) : ℝ :=
  let a22 := 2 * a2
  let p := pressure a1 a2 c11 c22 c33
  let dp11 := a22 * c33 - p * c22 * c33
  let dp22 := a22 * c33 - p * c11 * c33
  let dp12 := 2 * p * c12 * c33
  let d21 := 2 * ((a22 - p * c33 - (a22 - p * c11) * c22 * c33 ^ 2) - c33 * c11 * dp11)
  let d31 := 2 * (-p * c12 * c22 * c33 ^ 2 + c12 * c33 * dp11)
  let d32 := 2 * (-p * c12 * c11 * c33 ^ 2 + c12 * c33 * dp22)
  match s, r with
  | 0, 0 => -2 * ((a22 - p * c22) * c22 * c33 ^ 2 + c33 * c22 * dp11)
  | 1, 1 => -2 * ((a22 - p * c11) * c11 * c33 ^ 2 + c33 * c11 * dp22)
  | 2, 2 => -a22 + p * (c33 + 2 * c12 ^ 2 * c33 ^ 2) + c12 * c33 * dp12
  | 1, 0 => d21
  | 2, 0 => d31
  | 2, 1 => d32
  | 0, 1 => d21
  | 0, 2 => d31
  | 1, 2 => d32
  | _, _ => 0

/-! ## The term -/

/-- `eval_membrane_mooney_rivlin()` of the deformation in a quadrature point, `mode = 0`, as called in
`TLMembraneTerm.weak_function()` - `/repo/sfepy/terms/terms_membrane.py:112, 124`. -/
noncomputable def qpStress (nep : ℕ) (a1 a2 : ℝ) (g u : ℕ → ℕ → ℝ) (s : ℕ) : ℝ :=
  stress a1 a2 (mtxC nep g u 0 0) (mtxC nep g u 1 1) (mtxC nep g u 0 1)
    (c33 (mtxC nep g u 0 0) (mtxC nep g u 1 1) (mtxC nep g u 0 1)) s

/-- The same with `mode = 1` - `/repo/sfepy/terms/terms_membrane.py:112`. -/
noncomputable def qpTangent (nep : ℕ) (a1 a2 : ℝ) (g u : ℕ → ℕ → ℝ) (s r : ℕ) : ℝ :=
  tangent a1 a2 (mtxC nep g u 0 0) (mtxC nep g u 1 1) (mtxC nep g u 0 1)
    (c33 (mtxC nep g u 0 0) (mtxC nep g u 1 1) (mtxC nep g u 0 1)) s r

/-- The local vector before the transformation - `/repo/sfepy/terms/terms_membrane.py:114-117`. -/
noncomputable def locVec (nq nep : ℕ) (wt a1 a2 h0 : ℕ → ℝ) (g : ℕ → ℕ → ℕ → ℝ) (u : ℕ → ℕ → ℝ) (k : ℕ) : ℝ :=
  ∑ q ∈ range nq, wt q * ((∑ s ∈ range 3, mtxB nep (g q) u s k * qpStress nep (a1 q) (a2 q) (g q) u s) * h0 q)

/-- The local matrix before the transformation - `/repo/sfepy/terms/terms_membrane.py:120-130`. -/
noncomputable def locMat (nq nep : ℕ) (wt a1 a2 h0 : ℕ → ℝ) (g : ℕ → ℕ → ℕ → ℝ) (u : ℕ → ℕ → ℝ) (k l : ℕ) : ℝ :=
  ∑ q ∈ range nq, wt q * ((tangentStress nep (qpStress nep (a1 q) (a2 q) (g q) u) (g q) k l +
    ∑ r ∈ range 3, (∑ s ∈ range 3, mtxB nep (g q) u s k * qpTangent nep (a1 q) (a2 q) (g q) u s r) *
      mtxB nep (g q) u r l) * h0 q)

/-- `transform_asm_vectors()` - `/repo/sfepy/mechanics/membranes.py:64-68`. -/
def transVec (T : ℕ → ℕ → ℝ) (nep : ℕ) (v : ℕ → ℝ) (k : ℕ) : ℝ :=
  ∑ j ∈ range 3, T (k / nep) j * v (j * nep + k % nep)

/-- `transform_asm_matrices()` - `/repo/sfepy/mechanics/membranes.py:83-89`. -/
def transMat (T : ℕ → ℕ → ℝ) (nep : ℕ) (M : ℕ → ℕ → ℝ) (k l : ℕ) : ℝ :=
  ∑ m ∈ range 3, (∑ j ∈ range 3, T (k / nep) j * M (j * nep + k % nep) (m * nep + l % nep)) * T (l / nep) m

/-- `el_u_loc` - `/repo/sfepy/terms/terms_membrane.py:189`. -/
def uLoc (T : ℕ → ℕ → ℝ) (u : ℕ → ℕ → ℝ) (a i : ℕ) : ℝ := ∑ j ∈ range 3, u a j * T j i

/-- `dw_tl_membrane`, the vector - `/repo/sfepy/terms/terms_membrane.py:109-118, 183-199`. -/
noncomputable def termVec (T : ℕ → ℕ → ℝ) (nq nep : ℕ) (wt a1 a2 h0 : ℕ → ℝ) (g : ℕ → ℕ → ℕ → ℝ) (u : ℕ → ℕ → ℝ)
    (k : ℕ) : ℝ :=
  transVec T nep (locVec nq nep wt a1 a2 h0 g (uLoc T u)) k

/-- `dw_tl_membrane`, the matrix - `/repo/sfepy/terms/terms_membrane.py:120-131, 183-199`. -/
noncomputable def termMat (T : ℕ → ℕ → ℝ) (nq nep : ℕ) (wt a1 a2 h0 : ℕ → ℝ) (g : ℕ → ℕ → ℕ → ℝ) (u : ℕ → ℕ → ℝ)
    (k l : ℕ) : ℝ :=
  transMat T nep (locMat nq nep wt a1 a2 h0 g (uLoc T u)) k l

end Verif.Mem
