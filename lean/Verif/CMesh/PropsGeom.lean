/-
C54: volumes, centroids and facet normals.
-/
import Verif.CMesh.Geom
import Mathlib.Analysis.SpecialFunctions.Integrals.Basic
import Mathlib.LinearAlgebra.Matrix.Determinant.Basic
import Mathlib.Tactic.LinearCombination
import Mathlib.Tactic.Ring
import Mathlib.Tactic.Module

namespace Verif.CMesh

open intervalIntegral

/-! ### Specification: the reference mappings and the volumes as integrals of their Jacobians -/

/-- Specification: the Jacobian matrix of a mapping of three variables to the space. -/
noncomputable def jac3 (r : ℝ → ℝ → ℝ → ℕ → ℝ) (x y z : ℝ) : Matrix (Fin 3) (Fin 3) ℝ :=
  !![deriv (fun t => r t y z 0) x, deriv (fun t => r t y z 1) x, deriv (fun t => r t y z 2) x;
    deriv (fun t => r x t z 0) y, deriv (fun t => r x t z 1) y, deriv (fun t => r x t z 2) y;
    deriv (fun t => r x y t 0) z, deriv (fun t => r x y t 1) z, deriv (fun t => r x y t 2) z]

/-- Specification: the Jacobian matrix of a mapping of two variables to the plane. -/
noncomputable def jac2 (r : ℝ → ℝ → ℕ → ℝ) (x y : ℝ) : Matrix (Fin 2) (Fin 2) ℝ :=
  !![deriv (fun t => r t y 0) x, deriv (fun t => r t y 1) x;
    deriv (fun t => r x t 0) y, deriv (fun t => r x t 1) y]

/-- Specification: the affine mapping of the reference tetrahedron. -/
def tetMap (P : ℕ → ℕ → ℝ) (x y z : ℝ) (d : ℕ) : ℝ :=
  (1 - x - y - z) * P 0 d + x * P 1 d + y * P 2 d + z * P 3 d

/-- Specification: the mapping of the reference wedge. -/
def wedgeMap (P : ℕ → ℕ → ℝ) (x y z : ℝ) (d : ℕ) : ℝ :=
  (1 - z) * ((1 - x - y) * P 0 d + x * P 1 d + y * P 2 d)
    + z * ((1 - x - y) * P 3 d + x * P 4 d + y * P 5 d)

/-- Specification: the trilinear mapping of the reference hexahedron. -/
def hexMap (P : ℕ → ℕ → ℝ) (x y z : ℝ) (d : ℕ) : ℝ :=
  (1 - x) * (1 - y) * (1 - z) * P 0 d + x * (1 - y) * (1 - z) * P 1 d + x * y * (1 - z) * P 2 d
    + (1 - x) * y * (1 - z) * P 3 d + (1 - x) * (1 - y) * z * P 4 d + x * (1 - y) * z * P 5 d
    + x * y * z * P 6 d + (1 - x) * y * z * P 7 d

/-- Specification: the bilinear mapping of the reference quadrilateral. -/
def quadMap (P : ℕ → ℕ → ℝ) (x y : ℝ) (d : ℕ) : ℝ :=
  (1 - x) * (1 - y) * P 0 d + x * (1 - y) * P 1 d + x * y * P 2 d + (1 - x) * y * P 3 d

/-! ### Hexahedra -/

def det3 (a b c : ℕ → ℝ) : ℝ := Matrix.det !![a 0, a 1, a 2; b 0, b 1, b 2; c 0, c 1, c 2]

theorem det3_eq (a b c : ℕ → ℝ) : det3 a b c = a 0 * (b 1 * c 2 - b 2 * c 1)
    - a 1 * (b 0 * c 2 - b 2 * c 0) + a 2 * (b 0 * c 1 - b 1 * c 0) := by
  simp [det3, Matrix.det_fin_three]; ring

theorem auxHex_eq (P : ℕ → ℕ → ℝ) (h i j k : ℕ) :
    auxHex P h i j k = det3 (P i + P h) (P j - P i) (P k - P h) := by
  simp only [auxHex, det3x3, det3_eq, Pi.add_apply, Pi.sub_apply]; ring

theorem int_quad (A B C : ℝ) : ∫ t in (0:ℝ)..1, (A + B * t + C * t^2) = A + B / 2 + C / 3 := by
  rw [integral_add, integral_add, integral_const, integral_const_mul, integral_const_mul, integral_id, integral_pow]
  · norm_num; ring
  all_goals exact Continuous.intervalIntegrable (by fun_prop) _ _

theorem d_add1 (a a' b c) : det3 (a + a') b c = det3 a b c + det3 a' b c := by
  simp only [det3_eq, Pi.add_apply]; ring
theorem d_add2 (a b b' c) : det3 a (b + b') c = det3 a b c + det3 a b' c := by
  simp only [det3_eq, Pi.add_apply]; ring
theorem d_add3 (a b c c') : det3 a b (c + c') = det3 a b c + det3 a b c' := by
  simp only [det3_eq, Pi.add_apply]; ring
theorem d_smul1 (t : ℝ) (a b c) : det3 (t • a) b c = t * det3 a b c := by
  simp only [det3_eq, Pi.smul_apply, smul_eq_mul]; ring
theorem d_smul2 (t : ℝ) (a b c) : det3 a (t • b) c = t * det3 a b c := by
  simp only [det3_eq, Pi.smul_apply, smul_eq_mul]; ring
theorem d_smul3 (t : ℝ) (a b c) : det3 a b (t • c) = t * det3 a b c := by
  simp only [det3_eq, Pi.smul_apply, smul_eq_mul]; ring
theorem d_sw12 (a b c) : det3 a b c = - det3 b a c := by simp only [det3_eq]; ring
theorem d_sw23 (a b c) : det3 a b c = - det3 a c b := by simp only [det3_eq]; ring
theorem d_12 (a c) : det3 a a c = 0 := by simp only [det3_eq]; ring
theorem d_23 (a c) : det3 a c c = 0 := by simp only [det3_eq]; ring
theorem d_13 (a c) : det3 a c a = 0 := by simp only [det3_eq]; ring



theorem hex_int_z (a1 a2 a3 a4 a5 a6 a7 : ℕ → ℝ) (x y : ℝ) : ∫ z in (0:ℝ)..1, det3 (a1 + y • a4 + z • a6 + (y * z) • a7) (a2 + x • a4 + z • a5 + (x * z) • a7)
        (a3 + y • a5 + x • a6 + (x * y) • a7) = 
      det3 (a1 + y • a4) (a2 + x • a4) (a3 + y • a5 + x • a6 + (x * y) • a7)
      + (det3 (a6 + y • a7) (a2 + x • a4) (a3 + y • a5 + x • a6 + (x * y) • a7) + det3 (a1 + y • a4) (a5 + x • a7) (a3 + y • a5 + x • a6 + (x * y) • a7)) / 2 + det3 (a6 + y • a7) (a5 + x • a7) (a3 + y • a5 + x • a6 + (x * y) • a7) / 3 := by
  rw [← int_quad]
  congr 1
  funext z
  rw [show a1 + y • a4 + z • a6 + (y * z) • a7 = (a1 + y • a4) + z • (a6 + y • a7) by module,
   show a2 + x • a4 + z • a5 + (x * z) • a7 = (a2 + x • a4) + z • (a5 + x • a7) by module]
  generalize a3 + y • a5 + x • a6 + (x * y) • a7 = w
  simp only [d_add1, d_add2, d_smul1, d_smul2]
  ring

noncomputable def I2 (p q s r t : ℕ → ℝ) : ℝ := det3 p s r + (det3 q s r + det3 p s t) / 2 + det3 q s t / 3

theorem hex_int_y (a1 a2 a3 a4 a5 a6 a7 : ℕ → ℝ) (x : ℝ) : ∫ y in (0:ℝ)..1, (
      det3 (a1 + y • a4) (a2 + x • a4) (a3 + y • a5 + x • a6 + (x * y) • a7)
      + (det3 (a6 + y • a7) (a2 + x • a4) (a3 + y • a5 + x • a6 + (x * y) • a7) + det3 (a1 + y • a4) (a5 + x • a7) (a3 + y • a5 + x • a6 + (x * y) • a7)) / 2 + det3 (a6 + y • a7) (a5 + x • a7) (a3 + y • a5 + x • a6 + (x * y) • a7) / 3)
    = I2 a1 a4 (a2 + x • a4) (a3 + x • a6) (a5 + x • a7) + (I2 a6 a7 (a2 + x • a4) (a3 + x • a6) (a5 + x • a7)
      + I2 a1 a4 (a5 + x • a7) (a3 + x • a6) (a5 + x • a7)) / 2 + I2 a6 a7 (a5 + x • a7) (a3 + x • a6) (a5 + x • a7) / 3 := by
  have h : ∀ y : ℝ, a3 + y • a5 + x • a6 + (x * y) • a7 = (a3 + x • a6) + y • (a5 + x • a7) := by intro y; module
  simp only [h]
  generalize a3 + x • a6 = r
  generalize a5 + x • a7 = t
  generalize a2 + x • a4 = s
  trans ∫ y in (0:ℝ)..1, (
    (det3 a1 s r + (det3 a6 s r + det3 a1 t r) / 2 + det3 a6 t r / 3)
    + ((det3 a4 s r + det3 a1 s t) + ((det3 a7 s r + det3 a6 s t) + (det3 a4 t r + det3 a1 t t)) / 2 + (det3 a7 t r + det3 a6 t t) / 3) * y
    + (det3 a4 s t + (det3 a7 s t + det3 a4 t t) / 2 + det3 a7 t t / 3) * y ^ 2)
  · congr 1
    funext y
    simp only [d_add1, d_add3, d_smul1, d_smul3]
    ring
  · rw [int_quad]
    simp only [I2]
    ring

noncomputable def K0 (p s _s' r _r' : ℕ → ℝ) : ℝ := det3 p s r
noncomputable def K1 (p s s' r r' : ℕ → ℝ) : ℝ := det3 p s' r + det3 p s r'
noncomputable def K2 (p _s s' _r r' : ℕ → ℝ) : ℝ := det3 p s' r'

noncomputable def I3 (p s s' r r' : ℕ → ℝ) : ℝ := det3 p s r + (det3 p s' r + det3 p s r') / 2 + det3 p s' r' / 3

theorem hex_int_x (a1 a2 a3 a4 a5 a6 a7 : ℕ → ℝ) : ∫ x in (0:ℝ)..1, (
    I2 a1 a4 (a2 + x • a4) (a3 + x • a6) (a5 + x • a7) + (I2 a6 a7 (a2 + x • a4) (a3 + x • a6) (a5 + x • a7)
      + I2 a1 a4 (a5 + x • a7) (a3 + x • a6) (a5 + x • a7)) / 2 + I2 a6 a7 (a5 + x • a7) (a3 + x • a6) (a5 + x • a7) / 3)
   = (I3 a1 a2 a4 a3 a6 + (I3 a4 a2 a4 a3 a6 + I3 a1 a2 a4 a5 a7) / 2 + I3 a4 a2 a4 a5 a7 / 3)
   + ((I3 a6 a2 a4 a3 a6 + (I3 a7 a2 a4 a3 a6 + I3 a6 a2 a4 a5 a7) / 2 + I3 a7 a2 a4 a5 a7 / 3)
   + (I3 a1 a5 a7 a3 a6 + (I3 a4 a5 a7 a3 a6 + I3 a1 a5 a7 a5 a7) / 2 + I3 a4 a5 a7 a5 a7 / 3)) / 2
   + (I3 a6 a5 a7 a3 a6 + (I3 a7 a5 a7 a3 a6 + I3 a6 a5 a7 a5 a7) / 2 + I3 a7 a5 a7 a5 a7 / 3) / 3 := by
  have key : ∀ p s s' r r' : ℕ → ℝ, ∀ x : ℝ, det3 p (s + x • s') (r + x • r') = det3 p s r + (det3 p s' r + det3 p s r') * x + det3 p s' r' * x ^ 2 := by
    intro p s s' r r' x
    simp only [d_add2, d_add3, d_smul2, d_smul3]
    ring
  trans ∫ x in (0:ℝ)..1, (((K0 a1 a2 a4 a3 a6 + (K0 a4 a2 a4 a3 a6 + K0 a1 a2 a4 a5 a7) / 2 + K0 a4 a2 a4 a5 a7 / 3)
   + ((K0 a6 a2 a4 a3 a6 + (K0 a7 a2 a4 a3 a6 + K0 a6 a2 a4 a5 a7) / 2 + K0 a7 a2 a4 a5 a7 / 3)
   + (K0 a1 a5 a7 a3 a6 + (K0 a4 a5 a7 a3 a6 + K0 a1 a5 a7 a5 a7) / 2 + K0 a4 a5 a7 a5 a7 / 3)) / 2
   + (K0 a6 a5 a7 a3 a6 + (K0 a7 a5 a7 a3 a6 + K0 a6 a5 a7 a5 a7) / 2 + K0 a7 a5 a7 a5 a7 / 3) / 3) + ((K1 a1 a2 a4 a3 a6 + (K1 a4 a2 a4 a3 a6 + K1 a1 a2 a4 a5 a7) / 2 + K1 a4 a2 a4 a5 a7 / 3)
   + ((K1 a6 a2 a4 a3 a6 + (K1 a7 a2 a4 a3 a6 + K1 a6 a2 a4 a5 a7) / 2 + K1 a7 a2 a4 a5 a7 / 3)
   + (K1 a1 a5 a7 a3 a6 + (K1 a4 a5 a7 a3 a6 + K1 a1 a5 a7 a5 a7) / 2 + K1 a4 a5 a7 a5 a7 / 3)) / 2
   + (K1 a6 a5 a7 a3 a6 + (K1 a7 a5 a7 a3 a6 + K1 a6 a5 a7 a5 a7) / 2 + K1 a7 a5 a7 a5 a7 / 3) / 3) * x + ((K2 a1 a2 a4 a3 a6 + (K2 a4 a2 a4 a3 a6 + K2 a1 a2 a4 a5 a7) / 2 + K2 a4 a2 a4 a5 a7 / 3)
   + ((K2 a6 a2 a4 a3 a6 + (K2 a7 a2 a4 a3 a6 + K2 a6 a2 a4 a5 a7) / 2 + K2 a7 a2 a4 a5 a7 / 3)
   + (K2 a1 a5 a7 a3 a6 + (K2 a4 a5 a7 a3 a6 + K2 a1 a5 a7 a5 a7) / 2 + K2 a4 a5 a7 a5 a7 / 3)) / 2
   + (K2 a6 a5 a7 a3 a6 + (K2 a7 a5 a7 a3 a6 + K2 a6 a5 a7 a5 a7) / 2 + K2 a7 a5 a7 a5 a7 / 3) / 3) * x ^ 2)
  · congr 1
    funext x
    simp only [I2, key, K0, K1, K2]
    ring
  · rw [int_quad]
    simp only [I3, K0, K1, K2]
    ring

theorem hexVol_coefs (a0 a1 a2 a3 a4 a5 a6 a7 : ℕ → ℝ) (P : ℕ → ℕ → ℝ)
   (h0 : P 0 = a0) (h1 : P 1 = a0 + a1) (h3 : P 3 = a0 + a2) (h2 : P 2 = a0 + a1 + a2 + a4) (h4 : P 4 = a0 + a3)
   (h5 : P 5 = a0 + a1 + a3 + a6) (h7 : P 7 = a0 + a2 + a3 + a5) (h6 : P 6 = a0 + a1 + a2 + a3 + a4 + a5 + a6 + a7) :
   hexVol P = (I3 a1 a2 a4 a3 a6 + (I3 a4 a2 a4 a3 a6 + I3 a1 a2 a4 a5 a7) / 2 + I3 a4 a2 a4 a5 a7 / 3)
   + ((I3 a6 a2 a4 a3 a6 + (I3 a7 a2 a4 a3 a6 + I3 a6 a2 a4 a5 a7) / 2 + I3 a7 a2 a4 a5 a7 / 3)
   + (I3 a1 a5 a7 a3 a6 + (I3 a4 a5 a7 a3 a6 + I3 a1 a5 a7 a5 a7) / 2 + I3 a4 a5 a7 a5 a7 / 3)) / 2
   + (I3 a6 a5 a7 a3 a6 + (I3 a7 a5 a7 a3 a6 + I3 a6 a5 a7 a5 a7) / 2 + I3 a7 a5 a7 a5 a7 / 3) / 3 := by
  simp only [hexVol, auxHex_eq, h0, h1, h2, h3, h4, h5, h6, h7, I3]
  simp only [det3_eq, Pi.add_apply, Pi.sub_apply]
  ring

theorem deriv_lin {f : ℝ → ℝ} {a b : ℝ} (h : ∀ t, f t = a + b * t) (x : ℝ) : deriv f x = b := by
  have : f = fun t => a + b * t := funext h
  rw [this]
  simp

/-- C54: the volume of a hexahedron is exactly the integral of the Jacobian of its trilinear mapping. -/
theorem C54_hex (P : ℕ → ℕ → ℝ) : volume 3 3 8 P
    = some (∫ x in (0:ℝ)..1, ∫ y in (0:ℝ)..1, ∫ z in (0:ℝ)..1, (jac3 (hexMap P) x y z).det) := by
  have hv : volume 3 3 8 P = some (hexVol P) := by simp [volume]
  rw [hv]
  congr 1
  let a1 := P 1 - P 0
  let a2 := P 3 - P 0
  let a3 := P 4 - P 0
  let a4 := P 2 - P 1 - P 3 + P 0
  let a5 := P 7 - P 3 - P 4 + P 0
  let a6 := P 5 - P 1 - P 4 + P 0
  let a7 := P 6 - P 2 - P 5 - P 7 + P 1 + P 3 + P 4 - P 0
  have hj : ∀ x y z, (jac3 (hexMap P) x y z).det
      = det3 (a1 + y • a4 + z • a6 + (y * z) • a7) (a2 + x • a4 + z • a5 + (x * z) • a7)
        (a3 + y • a5 + x • a6 + (x * y) • a7) := by
    intro x y z
    have d1 : ∀ d, deriv (fun t => hexMap P t y z d) x = (a1 + y • a4 + z • a6 + (y * z) • a7) d := by
      intro d
      refine deriv_lin (a := hexMap P 0 y z d) (fun t => ?_) x
      simp only [hexMap, a1, a4, a6, a7, Pi.add_apply, Pi.sub_apply, Pi.smul_apply, smul_eq_mul]
      ring
    have d2 : ∀ d, deriv (fun t => hexMap P x t z d) y = (a2 + x • a4 + z • a5 + (x * z) • a7) d := by
      intro d
      refine deriv_lin (a := hexMap P x 0 z d) (fun t => ?_) y
      simp only [hexMap, a2, a4, a5, a7, Pi.add_apply, Pi.sub_apply, Pi.smul_apply, smul_eq_mul]
      ring
    have d3 : ∀ d, deriv (fun t => hexMap P x y t d) z = (a3 + y • a5 + x • a6 + (x * y) • a7) d := by
      intro d
      refine deriv_lin (a := hexMap P x y 0 d) (fun t => ?_) z
      simp only [hexMap, a3, a5, a6, a7, Pi.add_apply, Pi.sub_apply, Pi.smul_apply, smul_eq_mul]
      ring
    simp only [jac3, d1, d2, d3, det3]
  simp only [hj, hex_int_z, hex_int_y, hex_int_x]
  apply hexVol_coefs (P 0) <;> simp only [a1, a2, a3, a4, a5, a6, a7] <;> abel

/-! ### Tetrahedra and wedges -/

theorem int_lin (c A B : ℝ) : ∫ t in (0:ℝ)..c, (A + B * t) = A * c + B * c ^ 2 / 2 := by
  rw [integral_add, integral_const, integral_const_mul, integral_id]
  · simp; ring
  all_goals exact Continuous.intervalIntegrable (by fun_prop) _ _

theorem tet_det (P : ℕ → ℕ → ℝ) (x y z : ℝ) : (jac3 (tetMap P) x y z).det
    = det3 (P 1 - P 0) (P 2 - P 0) (P 3 - P 0) := by
  have d1 : ∀ d, deriv (fun t => tetMap P t y z d) x = (P 1 - P 0) d := by
    intro d
    refine deriv_lin (a := tetMap P 0 y z d) (fun t => ?_) x
    simp only [tetMap, Pi.sub_apply]; ring
  have d2 : ∀ d, deriv (fun t => tetMap P x t z d) y = (P 2 - P 0) d := by
    intro d
    refine deriv_lin (a := tetMap P x 0 z d) (fun t => ?_) y
    simp only [tetMap, Pi.sub_apply]; ring
  have d3 : ∀ d, deriv (fun t => tetMap P x y t d) z = (P 3 - P 0) d := by
    intro d
    refine deriv_lin (a := tetMap P x y 0 d) (fun t => ?_) z
    simp only [tetMap, Pi.sub_apply]; ring
  simp only [jac3, d1, d2, d3, det3]

theorem tetVol_eq (P : ℕ → ℕ → ℝ) : tetVol P = det3 (P 1 - P 0) (P 2 - P 0) (P 3 - P 0) / 6 := by
  simp only [tetVol, dotV, cross, det3_eq, Pi.sub_apply]
  simp; ring

/-- C54: the (signed) volume of a tetrahedron is exactly the integral of the Jacobian of its affine
mapping. -/
theorem C54_tet (P : ℕ → ℕ → ℝ) : volume 3 3 4 P = some (∫ x in (0:ℝ)..1, ∫ y in (0:ℝ)..(1 - x),
    ∫ z in (0:ℝ)..(1 - x - y), (jac3 (tetMap P) x y z).det) := by
  have hv : volume 3 3 4 P = some (tetVol P) := by simp [volume]
  rw [hv, tetVol_eq]
  congr 1
  simp only [tet_det]
  generalize det3 (P 1 - P 0) (P 2 - P 0) (P 3 - P 0) = D
  have e1 : ∀ x y : ℝ, (∫ _ in (0:ℝ)..(1 - x - y), D) = D * (1 - x) + (-D) * y := by
    intro x y; rw [integral_const]; simp; ring
  simp only [e1, int_lin]
  have e2 : ∀ x : ℝ, D * (1 - x) * (1 - x) + -D * (1 - x) ^ 2 / 2 = D / 2 + (-D) * x + (D / 2) * x ^ 2 := by
    intro x; ring
  simp only [e2, int_quad]
  ring

/-- C54: the volume of a wedge is the integral of the Jacobian of its mapping, if its top is the translated
bottom. -/
theorem C54_wedge (P : ℕ → ℕ → ℝ) (h1 : P 4 - P 1 = P 3 - P 0) (h2 : P 5 - P 2 = P 3 - P 0) :
    volume 3 3 6 P = some (∫ x in (0:ℝ)..1, ∫ y in (0:ℝ)..(1 - x), ∫ z in (0:ℝ)..1,
      (jac3 (wedgeMap P) x y z).det) := by
  have hv : volume 3 3 6 P = some (wedgeVol P) := by simp [volume]
  have hw : wedgeVol P = det3 (P 1 - P 0) (P 2 - P 0) (P 3 - P 0) / 2 := by
    simp only [wedgeVol, dotV, cross, det3_eq, Pi.sub_apply]
    simp; ring
  have hj : ∀ x y z, (jac3 (wedgeMap P) x y z).det = det3 (P 1 - P 0) (P 2 - P 0) (P 3 - P 0) := by
    intro x y z
    have g1 : ∀ d, P 4 d = P 1 d + P 3 d - P 0 d := by
      intro d; have := congrFun h1 d; simp only [Pi.sub_apply] at this; linarith
    have g2 : ∀ d, P 5 d = P 2 d + P 3 d - P 0 d := by
      intro d; have := congrFun h2 d; simp only [Pi.sub_apply] at this; linarith
    have d1 : ∀ d, deriv (fun t => wedgeMap P t y z d) x = (P 1 - P 0) d := by
      intro d
      refine deriv_lin (a := wedgeMap P 0 y z d) (fun t => ?_) x
      simp only [wedgeMap, Pi.sub_apply, g1, g2]; ring
    have d2 : ∀ d, deriv (fun t => wedgeMap P x t z d) y = (P 2 - P 0) d := by
      intro d
      refine deriv_lin (a := wedgeMap P x 0 z d) (fun t => ?_) y
      simp only [wedgeMap, Pi.sub_apply, g1, g2]; ring
    have d3 : ∀ d, deriv (fun t => wedgeMap P x y t d) z = (P 3 - P 0) d := by
      intro d
      refine deriv_lin (a := wedgeMap P x y 0 d) (fun t => ?_) z
      simp only [wedgeMap, Pi.sub_apply, g1, g2]; ring
    simp only [jac3, d1, d2, d3, det3]
  rw [hv, hw]
  congr 1
  simp only [hj]
  generalize det3 (P 1 - P 0) (P 2 - P 0) (P 3 - P 0) = D
  have e1 : (∫ _ in (0:ℝ)..1, D) = D := by rw [integral_const]; simp
  have e2 : ∀ x : ℝ, (∫ _ in (0:ℝ)..(1 - x), D) = D + (-D) * x := by
    intro x; rw [integral_const]; simp; ring
  simp only [e1, e2, int_lin]
  ring

/-- A wedge with the top twice as large as the bottom. -/
def bigTop (i d : ℕ) : ℝ :=
  if d = 0 then (if i = 1 then 1 else if i = 4 then 2 else 0)
  else if d = 1 then (if i = 2 then 1 else if i = 5 then 2 else 0)
  else if d = 2 then (if 3 ≤ i then 1 else 0) else 0

/-- Counterexample: for other wedges the volume is wrong: 1/2 instead of 7/6. -/
theorem C54_wedge_wrong : volume 3 3 6 bigTop = some (1 / 2) ∧
    (∫ x in (0:ℝ)..1, ∫ y in (0:ℝ)..(1 - x), ∫ z in (0:ℝ)..1, (jac3 (wedgeMap bigTop) x y z).det)
      = 7 / 6 := by
  constructor
  · have hv : volume 3 3 6 bigTop = some (wedgeVol bigTop) := by simp [volume]
    rw [hv]
    congr 1
    simp [wedgeVol, dotV, cross, bigTop]
  · have hj : ∀ x y z, (jac3 (wedgeMap bigTop) x y z).det = 1 + 2 * z + 1 * z ^ 2 := by
      intro x y z
      have dx0 : deriv (fun t => wedgeMap bigTop t y z 0) x = 1 + z := by
        refine deriv_lin (a := 0) (fun t => ?_) x; simp [wedgeMap, bigTop]; ring
      have dx1 : deriv (fun t => wedgeMap bigTop t y z 1) x = 0 := by
        refine deriv_lin (a := y * (1 + z)) (fun t => ?_) x; simp [wedgeMap, bigTop]; ring
      have dx2 : deriv (fun t => wedgeMap bigTop t y z 2) x = 0 := by
        refine deriv_lin (a := z) (fun t => ?_) x; simp [wedgeMap, bigTop]; ring
      have dy0 : deriv (fun t => wedgeMap bigTop x t z 0) y = 0 := by
        refine deriv_lin (a := x * (1 + z)) (fun t => ?_) y; simp [wedgeMap, bigTop]; ring
      have dy1 : deriv (fun t => wedgeMap bigTop x t z 1) y = 1 + z := by
        refine deriv_lin (a := 0) (fun t => ?_) y; simp [wedgeMap, bigTop]; ring
      have dy2 : deriv (fun t => wedgeMap bigTop x t z 2) y = 0 := by
        refine deriv_lin (a := z) (fun t => ?_) y; simp [wedgeMap, bigTop]; ring
      have dz2 : deriv (fun t => wedgeMap bigTop x y t 2) z = 1 := by
        refine deriv_lin (a := 0) (fun t => ?_) z; simp [wedgeMap, bigTop]; ring
      simp only [jac3, dx0, dx1, dx2, dy0, dy1, dy2, dz2, Matrix.det_fin_three]
      simp
      ring
    simp only [hj, int_quad]
    have e2 : ∀ x : ℝ, (∫ _ in (0:ℝ)..(1 - x), ((1:ℝ) + 2 / 2 + 1 / 3)) = 7 / 3 + (-7 / 3) * x := by
      intro x; rw [integral_const]; simp; ring
    simp only [e2, int_lin]
    norm_num

/-! ### Plane cells -/

theorem C54_edge (nc n : ℕ) (P : ℕ → ℕ → ℝ) :
    volume 1 nc n P = some √(∑ d ∈ Finset.range nc, (P 1 d - P 0 d) ^ 2) := by
  simp [volume, sq]

/-- The signed area of a plane triangle. -/
noncomputable def triSigned (P : ℕ → ℕ → ℝ) (i j k : ℕ) : ℝ :=
  ((P j 0 - P i 0) * (P k 1 - P i 1) - (P j 1 - P i 1) * (P k 0 - P i 0)) / 2

theorem triArea2 (P : ℕ → ℕ → ℝ) (i j k : ℕ) : triArea 2 P i j k = |triSigned P i j k| := by
  simp only [triArea, triSigned, cross, pad]
  norm_num
  rw [abs_div]
  norm_num
  ring_nf

/-- C54: the area of a plane triangle. -/
theorem C54_tri (P : ℕ → ℕ → ℝ) : volume 2 2 3 P = some (|(P 1 0 - P 0 0) * (P 2 1 - P 0 1)
    - (P 1 1 - P 0 1) * (P 2 0 - P 0 0)| / 2) := by
  have hv : volume 2 2 3 P = some (triArea 2 P 0 1 2) := by simp [volume]
  rw [hv, triArea2, triSigned, abs_div]
  norm_num

/-- C54: the area of a triangle in the space: a half of the area of the parallelogram given by two
edges, `4 A^2 = |u|^2 |v|^2 - (u, v)^2`. -/
theorem C54_tri3 (P : ℕ → ℕ → ℝ) : ∃ A, volume 2 3 3 P = some A ∧ 0 ≤ A ∧
    4 * A ^ 2 = dotV 3 (P 1 - P 0) (P 1 - P 0) * dotV 3 (P 2 - P 0) (P 2 - P 0)
      - dotV 3 (P 1 - P 0) (P 2 - P 0) ^ 2 := by
  refine ⟨triArea 3 P 0 1 2, by simp [volume], ?_, ?_⟩
  · simp only [triArea]; norm_num
  · simp only [triArea, dotV, pad, cross]
    norm_num
    rw [mul_pow, Real.sq_sqrt (by nlinarith [sq_nonneg ((P 1 1 - P 0 1) * (P 2 2 - P 0 2) - (P 1 2 - P 0 2) * (P 2 1 - P 0 1)), sq_nonneg ((P 1 2 - P 0 2) * (P 2 0 - P 0 0) - (P 1 0 - P 0 0) * (P 2 2 - P 0 2)), sq_nonneg ((P 1 0 - P 0 0) * (P 2 1 - P 0 1) - (P 1 1 - P 0 1) * (P 2 0 - P 0 0))])]
    ring

/-- C54: the area of a plane quadrilateral is the integral of the Jacobian of its bilinear mapping, if the
two triangles given by the diagonal between the vertices 0 and 2 have the positive orientation. -/
theorem C54_quad (P : ℕ → ℕ → ℝ) (h1 : 0 ≤ triSigned P 0 1 2) (h2 : 0 ≤ triSigned P 2 3 0) :
    volume 2 2 4 P = some (∫ x in (0:ℝ)..1, ∫ y in (0:ℝ)..1, (jac2 (quadMap P) x y).det) := by
  have hv : volume 2 2 4 P = some (triArea 2 P 0 1 2 + triArea 2 P 2 3 0) := by simp [volume]
  rw [hv, triArea2, triArea2, abs_of_nonneg h1, abs_of_nonneg h2]
  congr 1
  have hj : ∀ x y, (jac2 (quadMap P) x y).det
      = ((P 1 0 - P 0 0) * ((P 3 1 - P 0 1) + x * (P 2 1 - P 3 1 - P 1 1 + P 0 1))
          - (P 1 1 - P 0 1) * ((P 3 0 - P 0 0) + x * (P 2 0 - P 3 0 - P 1 0 + P 0 0)))
        + ((P 2 0 - P 3 0 - P 1 0 + P 0 0) * ((P 3 1 - P 0 1) + x * (P 2 1 - P 3 1 - P 1 1 + P 0 1))
          - (P 2 1 - P 3 1 - P 1 1 + P 0 1) * ((P 3 0 - P 0 0) + x * (P 2 0 - P 3 0 - P 1 0 + P 0 0))) * y := by
    intro x y
    have d1 : ∀ d, deriv (fun t => quadMap P t y d) x
        = (P 1 d - P 0 d) + y * (P 2 d - P 3 d - P 1 d + P 0 d) := by
      intro d
      refine deriv_lin (a := quadMap P 0 y d) (fun t => ?_) x
      simp only [quadMap]; ring
    have d2 : ∀ d, deriv (fun t => quadMap P x t d) y
        = (P 3 d - P 0 d) + x * (P 2 d - P 3 d - P 1 d + P 0 d) := by
      intro d
      refine deriv_lin (a := quadMap P x 0 d) (fun t => ?_) y
      simp only [quadMap]; ring
    simp only [jac2, d1, d2, Matrix.det_fin_two_of]
    ring
  simp only [hj, int_lin]
  have e : ∀ x : ℝ, ((P 1 0 - P 0 0) * ((P 3 1 - P 0 1) + x * (P 2 1 - P 3 1 - P 1 1 + P 0 1))
          - (P 1 1 - P 0 1) * ((P 3 0 - P 0 0) + x * (P 2 0 - P 3 0 - P 1 0 + P 0 0))) * 1
        + ((P 2 0 - P 3 0 - P 1 0 + P 0 0) * ((P 3 1 - P 0 1) + x * (P 2 1 - P 3 1 - P 1 1 + P 0 1))
          - (P 2 1 - P 3 1 - P 1 1 + P 0 1) * ((P 3 0 - P 0 0) + x * (P 2 0 - P 3 0 - P 1 0 + P 0 0)))
          * 1 ^ 2 / 2
      = ((P 1 0 - P 0 0) * (P 3 1 - P 0 1) - (P 1 1 - P 0 1) * (P 3 0 - P 0 0)
          + ((P 2 0 - P 3 0 - P 1 0 + P 0 0) * (P 3 1 - P 0 1)
            - (P 2 1 - P 3 1 - P 1 1 + P 0 1) * (P 3 0 - P 0 0)) / 2)
        + ((P 1 0 - P 0 0) * (P 2 1 - P 3 1 - P 1 1 + P 0 1)
          - (P 1 1 - P 0 1) * (P 2 0 - P 3 0 - P 1 0 + P 0 0)) * x := by
    intro x; ring
  simp only [e, int_lin, triSigned]
  ring

/-- A quadrilateral that is not convex at the vertex 1 (an arrow). -/
noncomputable def arrow (i d : ℕ) : ℝ :=
  if d = 0 then (if i = 1 then 1 / 4 else if i = 2 then 1 else 0)
  else if d = 1 then (if i = 1 then 1 / 4 else if i = 3 then 1 else 0) else 0

/-- Counterexample: for a quadrilateral that is not convex at the vertex 1 or 3 the area is wrong: 5/8
instead of 3/8. -/
theorem C54_quad_wrong : volume 2 2 4 arrow = some (5 / 8) ∧
    triSigned arrow 1 2 3 + triSigned arrow 3 0 1 = 3 / 8 ∧
    0 < triSigned arrow 1 2 3 ∧ 0 < triSigned arrow 3 0 1 := by
  have hv : volume 2 2 4 arrow = some (triArea 2 arrow 0 1 2 + triArea 2 arrow 2 3 0) := by simp [volume]
  rw [hv, triArea2, triArea2]
  refine ⟨?_, ?_, ?_, ?_⟩
  · congr 1
    simp only [triSigned, arrow]; norm_num [abs_of_neg, abs_of_pos]
  all_goals simp only [triSigned, arrow]; norm_num

/-! ### Quadrilateral faces -/

/-- The area of a triangle in a plane given by a point and two perpendicular unit vectors. -/
theorem triArea_plane (P : ℕ → ℕ → ℝ) (o u w : ℕ → ℝ) (Q : ℕ → ℕ → ℝ)
    (hu : dotV 3 u u = 1) (hw : dotV 3 w w = 1) (huw : dotV 3 u w = 0) (i j k : ℕ)
    (hP : ∀ n ∈ [i, j, k], ∀ d, P n d = o d + Q n 0 * u d + Q n 1 * w d) :
    triArea 3 P i j k = |triSigned Q i j k| := by
  have hi := hP i (by simp)
  have hj := hP j (by simp)
  have hk := hP k (by simp)
  simp only [dotV] at hu hw huw
  norm_num at hu hw huw
  have hn : ∀ a b : ℝ, a ^ 2 = b → 0 ≤ a → √b = a := by
    intro a b h h0; rw [← h]; exact Real.sqrt_sq h0
  simp only [triArea, cross, pad]
  norm_num
  simp only [hi, hj, hk]
  rw [hn (2 * |triSigned Q i j k|)]
  · ring
  · rw [mul_pow, sq_abs, triSigned]
    have key : (u 1 * w 2 - u 2 * w 1) ^ 2 + (u 2 * w 0 - u 0 * w 2) ^ 2 + (u 0 * w 1 - u 1 * w 0) ^ 2
        = 1 := by
      linear_combination (w 0 * w 0 + w 1 * w 1 + w 2 * w 2) * hu + hw
        - (u 0 * w 0 + u 1 * w 1 + u 2 * w 2) * huw
    linear_combination (-((Q j 0 - Q i 0) * (Q k 1 - Q i 1) - (Q j 1 - Q i 1) * (Q k 0 - Q i 0)) ^ 2) * key
  · positivity

/-- C54: the area of a convex plane quadrilateral face: the sum of the areas of the two triangles given by a
diagonal (any of the two). -/
theorem C54_quad_face (P : ℕ → ℕ → ℝ) (o u w : ℕ → ℝ) (Q : ℕ → ℕ → ℝ)
    (hu : dotV 3 u u = 1) (hw : dotV 3 w w = 1) (huw : dotV 3 u w = 0)
    (hP : ∀ n < 4, ∀ d, P n d = o d + Q n 0 * u d + Q n 1 * w d)
    (h1 : 0 ≤ triSigned Q 0 1 2) (h2 : 0 ≤ triSigned Q 1 2 3) (h3 : 0 ≤ triSigned Q 2 3 0)
    (h4 : 0 ≤ triSigned Q 3 0 1) :
    volume 2 3 4 P = some (triSigned Q 0 1 2 + triSigned Q 2 3 0) ∧
      triSigned Q 0 1 2 + triSigned Q 2 3 0 = triSigned Q 1 2 3 + triSigned Q 3 0 1 := by
  have hv : volume 2 3 4 P = some (1 / 2 * (triArea 3 P 0 1 2 + triArea 3 P 1 2 3 + triArea 3 P 2 3 0
        + triArea 3 P 3 0 1)) := by simp [volume]
  have hs : triSigned Q 0 1 2 + triSigned Q 2 3 0 = triSigned Q 1 2 3 + triSigned Q 3 0 1 := by
    simp only [triSigned]; ring
  refine ⟨?_, hs⟩
  rw [hv]
  congr 1
  rw [triArea_plane P o u w Q hu hw huw 0 1 2 (by intro n hn; apply hP; fin_cases hn <;> omega),
    triArea_plane P o u w Q hu hw huw 1 2 3 (by intro n hn; apply hP; fin_cases hn <;> omega),
    triArea_plane P o u w Q hu hw huw 2 3 0 (by intro n hn; apply hP; fin_cases hn <;> omega),
    triArea_plane P o u w Q hu hw huw 3 0 1 (by intro n hn; apply hP; fin_cases hn <;> omega),
    abs_of_nonneg h1, abs_of_nonneg h2, abs_of_nonneg h3, abs_of_nonneg h4]
  linarith

/-! ### Centroids -/

theorem centroid_sum (coors : ℕ → ℕ → ℝ) (verts : List ℕ) (d : ℕ) :
    centroid coors verts d = (verts.map fun v => coors v d).sum / verts.length := by
  have : ∀ (l : List ℕ) (a : ℝ), l.foldl (fun acc v => acc + coors v d) a
      = a + (l.map fun v => coors v d).sum := by
    intro l
    induction l with
    | nil => simp
    | cons v l ih => intro a; rw [List.foldl_cons, ih]; simp; ring
  rw [centroid, this]; simp

/-- C54: the centroid does not depend on the order of the vertices. -/
theorem C54_centroid_perm (coors : ℕ → ℕ → ℝ) {v w : List ℕ} (h : v.Perm w) (d : ℕ) :
    centroid coors v d = centroid coors w d := by
  rw [centroid_sum, centroid_sum, (h.map _).sum_eq, h.length_eq]

/-- C54: the centroid is in the box of the vertices; it is the unique point with zero sum of the
differences from the vertices. -/
theorem C54_centroid (coors : ℕ → ℕ → ℝ) (verts : List ℕ) (hne : verts ≠ []) (d : ℕ) :
    (∀ a, (∀ v ∈ verts, a ≤ coors v d) → a ≤ centroid coors verts d) ∧
      (∀ b, (∀ v ∈ verts, coors v d ≤ b) → centroid coors verts d ≤ b) ∧
      ∀ c, (verts.map fun v => coors v d - c).sum = 0 ↔ c = centroid coors verts d := by
  have hpos : (0 : ℝ) < verts.length := by exact_mod_cast List.length_pos_of_ne_nil hne
  have hlo : ∀ (l : List ℕ) (a : ℝ), (∀ v ∈ l, a ≤ coors v d) →
      a * l.length ≤ (l.map fun v => coors v d).sum := by
    intro l a
    induction l with
    | nil => simp
    | cons v l ih =>
      intro h
      have h1 := h v (by simp)
      have h2 := ih fun v' hv' => h v' (by simp [hv'])
      simp only [List.length_cons, Nat.cast_add, Nat.cast_one, List.map_cons, List.sum_cons]
      linarith
  have hhi : ∀ (l : List ℕ) (a : ℝ), (∀ v ∈ l, coors v d ≤ a) →
      (l.map fun v => coors v d).sum ≤ a * l.length := by
    intro l a
    induction l with
    | nil => simp
    | cons v l ih =>
      intro h
      have h1 := h v (by simp)
      have h2 := ih fun v' hv' => h v' (by simp [hv'])
      simp only [List.length_cons, Nat.cast_add, Nat.cast_one, List.map_cons, List.sum_cons]
      linarith
  have hsub : ∀ (l : List ℕ) (c : ℝ), (l.map fun v => coors v d - c).sum
      = (l.map fun v => coors v d).sum - c * l.length := by
    intro l c
    induction l with
    | nil => simp
    | cons v l ih =>
      simp only [List.length_cons, Nat.cast_add, Nat.cast_one, List.map_cons, List.sum_cons, ih]
      ring
  rw [centroid_sum]
  refine ⟨fun a ha => ?_, fun b hb => ?_, fun c => ?_⟩
  · rw [le_div_iff₀ hpos]; exact hlo verts a ha
  · rw [div_le_iff₀ hpos]; exact hhi verts b hb
  · rw [hsub, eq_div_iff hpos.ne', sub_eq_zero]
    exact eq_comm

/-! ### Normals -/

/-- C54: a normal is a unit vector perpendicular to the edges of a triangular face (or to the edge in 2D),
if the facet is not tiny. -/
theorem C54_normal (eps : ℝ) (h0 : 0 ≤ eps) (P : ℕ → ℕ → ℝ) (i j k : ℕ) (which : ℤ)
    (hbig : eps < √(dotV 3 (normalDir 3 which fun ic => P ([i, j, k].getD ic 0))
      (normalDir 3 which fun ic => P ([i, j, k].getD ic 0)))) :
    let n := facetNormal eps 3 which P [i, j, k]
    dotV 3 n n = 1 ∧ dotV 3 n (P j - P i) = 0 ∧ dotV 3 n (P k - P i) = 0 ∧ dotV 3 n (P k - P j) = 0 := by
  intro n
  have hn : n = fun d => normalDir 3 which (fun ic => P ([i, j, k].getD ic 0)) d
      / √(dotV 3 (normalDir 3 which fun ic => P ([i, j, k].getD ic 0))
        (normalDir 3 which fun ic => P ([i, j, k].getD ic 0))) := by
    funext d
    have : n d = normalizeV eps 3 (normalDir 3 which fun ic => P ([i, j, k].getD ic 0)) d := rfl
    rw [this, normalizeV]
    simp only []
    rw [if_pos hbig]
  have hpos : 0 < √(dotV 3 (normalDir 3 which fun ic => P ([i, j, k].getD ic 0))
      (normalDir 3 which fun ic => P ([i, j, k].getD ic 0))) := lt_of_le_of_lt h0 hbig
  have hsq := Real.sq_sqrt (Real.sqrt_pos.1 hpos).le
  generalize √(dotV 3 (normalDir 3 which fun ic => P ([i, j, k].getD ic 0))
      (normalDir 3 which fun ic => P ([i, j, k].getD ic 0))) = s at *
  rw [hn]
  refine ⟨?_, ?_, ?_, ?_⟩
  · generalize normalDir 3 which (fun ic => P ([i, j, k].getD ic 0)) = m at *
    simp only [dotV] at hsq ⊢
    norm_num at hsq ⊢
    field_simp
    linarith
  all_goals
    simp [dotV, normalDir, cross]
    field_simp
    ring

/-- C54: the same in 2D. -/
theorem C54_normal2 (eps : ℝ) (h0 : 0 ≤ eps) (P : ℕ → ℕ → ℝ) (i j : ℕ) (which : ℤ)
    (hbig : eps < √(dotV 2 (P j - P i) (P j - P i))) :
    let n := facetNormal eps 2 which P [i, j]
    dotV 2 n n = 1 ∧ dotV 2 n (P j - P i) = 0 := by
  intro n
  have hd : dotV 2 (normalDir 2 which fun ic => P ([i, j].getD ic 0))
      (normalDir 2 which fun ic => P ([i, j].getD ic 0)) = dotV 2 (P j - P i) (P j - P i) := by
    simp only [dotV, normalDir, Pi.sub_apply]; norm_num; ring
  have hn : n = fun d => normalDir 2 which (fun ic => P ([i, j].getD ic 0)) d
      / √(dotV 2 (P j - P i) (P j - P i)) := by
    funext d
    have : n d = normalizeV eps 2 (normalDir 2 which fun ic => P ([i, j].getD ic 0)) d := rfl
    rw [this, normalizeV]
    simp only [hd]
    rw [if_pos hbig]
  have hpos : 0 < √(dotV 2 (P j - P i) (P j - P i)) := lt_of_le_of_lt h0 hbig
  have hsq := Real.sq_sqrt (Real.sqrt_pos.1 hpos).le
  generalize √(dotV 2 (P j - P i) (P j - P i)) = s at *
  rw [hn]
  refine ⟨?_, ?_⟩
  · simp only [dotV, normalDir, Pi.sub_apply] at hsq ⊢
    norm_num at hsq ⊢
    field_simp
    linarith
  · simp only [dotV, normalDir, Pi.sub_apply]
    norm_num
    field_simp
    ring

/-- C54: a facet smaller than the absolute tolerance has a zero normal. -/
theorem C54_normal_tiny (eps : ℝ) (nc : ℕ) (P : ℕ → ℕ → ℝ) (ik : List ℕ) (which : ℤ)
    (hs : √(dotV nc (normalDir ik.length which fun ic => P (ik.getD ic 0))
      (normalDir ik.length which fun ic => P (ik.getD ic 0))) ≤ eps) (d : ℕ) :
    facetNormal eps nc which P ik d = 0 := by
  simp only [facetNormal, normalizeV]
  rw [if_neg (not_lt.2 hs)]

/-- C54: the normals of the faces of a tetrahedron point out of it: the product with the vector to the
vertex `o` not in the face is minus six times the volume. -/
theorem C54_outward_tet (P : ℕ → ℕ → ℝ) (which : ℤ) :
    ∀ f ∈ faces34, ∀ o < 4, o ∉ f →
      dotV 3 (normalDir f.length which fun ic => P (f.getD ic 0)) (P o - P (f.getD 0 0))
        = - (6 * tetVol P) := by
  have h : ∀ f ∈ faces34, ∀ o < 4, o ∉ f →
      (f, o) ∈ [([0, 2, 1], 3), ([0, 3, 2], 1), ([0, 1, 3], 2), ([1, 2, 3], 0)] := by decide
  intro f hf o ho hn
  have := h f hf o ho hn
  rw [tetVol_eq, det3_eq]
  fin_cases this <;>
    simp [dotV, normalDir, cross] <;> ring

/-- C54: the normals of the edges of a plane triangle point out of it. -/
theorem C54_outward_tri (P : ℕ → ℕ → ℝ) (which : ℤ) :
    ∀ f ∈ edges23, ∀ o < 3, o ∉ f →
      dotV 2 (normalDir f.length which fun ic => P (f.getD ic 0)) (P o - P (f.getD 0 0))
        = - (2 * triSigned P 0 1 2) := by
  have h : ∀ f ∈ edges23, ∀ o < 3, o ∉ f → (f, o) ∈ [([0, 1], 2), ([1, 2], 0), ([2, 0], 1)] := by decide
  intro f hf o ho hn
  have := h f hf o ho hn
  fin_cases this <;>
    simp only [dotV, normalDir, triSigned, Pi.sub_apply] <;> norm_num <;> ring

/-- C54: the normals of the edges of a plane quadrilateral point out of it: `e` is the previous vertex of
the cell. -/
theorem C54_outward_quad (P : ℕ → ℕ → ℝ) (which : ℤ) :
    ∀ i < 4, dotV 2 (normalDir 2 which fun ic => P ((edges24.getD i []).getD ic 0))
      (P ((i + 3) % 4) - P i) = - (2 * triSigned P i ((i + 1) % 4) ((i + 3) % 4)) := by
  intro i hi
  interval_cases i <;>
    simp only [dotV, normalDir, triSigned, edges24, Pi.sub_apply] <;> norm_num <;> ring

/-- The Jacobian of the trilinear mapping of a hexahedron at its vertex, `e` are the neighbour vertices. -/
def hexCorner (v : ℕ) : ℕ × ℕ × ℕ :=
  [(1, 3, 4), (2, 0, 5), (3, 1, 6), (0, 2, 7), (7, 5, 0), (4, 6, 1), (5, 7, 2), (6, 4, 3)].getD v (0, 0, 0)

/-- The corner Jacobians are those of the trilinear mapping. -/
theorem hexCorner_jac (P : ℕ → ℕ → ℝ) :
    ∀ v < 8, det3 (P (hexCorner v).1 - P v) (P (hexCorner v).2.1 - P v) (P (hexCorner v).2.2 - P v)
      = (jac3 (hexMap P) (if v ∈ [1, 2, 5, 6] then 1 else 0) (if v ∈ [2, 3, 6, 7] then 1 else 0)
        (if v ∈ [4, 5, 6, 7] then 1 else 0)).det := by
  intro v hv
  have d1 : ∀ x y z d, deriv (fun t => hexMap P t y z d) x = (1 - y) * (1 - z) * (P 1 d - P 0 d)
      + y * (1 - z) * (P 2 d - P 3 d) + (1 - y) * z * (P 5 d - P 4 d) + y * z * (P 6 d - P 7 d) := by
    intro x y z d
    refine deriv_lin (a := hexMap P 0 y z d) (fun t => ?_) x
    simp only [hexMap]; ring
  have d2 : ∀ x y z d, deriv (fun t => hexMap P x t z d) y = (1 - x) * (1 - z) * (P 3 d - P 0 d)
      + x * (1 - z) * (P 2 d - P 1 d) + (1 - x) * z * (P 7 d - P 4 d) + x * z * (P 6 d - P 5 d) := by
    intro x y z d
    refine deriv_lin (a := hexMap P x 0 z d) (fun t => ?_) y
    simp only [hexMap]; ring
  have d3 : ∀ x y z d, deriv (fun t => hexMap P x y t d) z = (1 - x) * (1 - y) * (P 4 d - P 0 d)
      + x * (1 - y) * (P 5 d - P 1 d) + x * y * (P 6 d - P 2 d) + (1 - x) * y * (P 7 d - P 3 d) := by
    intro x y z d
    refine deriv_lin (a := hexMap P x y 0 d) (fun t => ?_) z
    simp only [hexMap]; ring
  simp only [jac3, d1, d2, d3, Matrix.det_fin_three]
  interval_cases v <;> simp [hexCorner, det3_eq] <;> ring

/-- C54: the two normals of a quadrilateral face of a hexahedron point out of it: with the vector along the
third edge at the first (third) vertex of the face, the product is minus the Jacobian at that vertex. -/
theorem C54_outward_hex (P : ℕ → ℕ → ℝ) :
    ∀ f ∈ faces38, ∀ w : Fin 2, ∃ v e, v = f.getD (2 * w) 0 ∧ e ∉ f ∧
      e ∈ [(hexCorner v).1, (hexCorner v).2.1, (hexCorner v).2.2] ∧
      dotV 3 (normalDir f.length w fun ic => P (f.getD ic 0)) (P e - P v)
        = - det3 (P (hexCorner v).1 - P v) (P (hexCorner v).2.1 - P v) (P (hexCorner v).2.2 - P v) := by
  intro f hf w
  fin_cases hf <;> fin_cases w
  · exact ⟨0, 4, rfl, by decide, by decide, by
      simp [dotV, normalDir, cross, hexCorner, det3_eq]; ring⟩
  · exact ⟨2, 6, rfl, by decide, by decide, by
      simp [dotV, normalDir, cross, hexCorner, det3_eq]; ring⟩
  · exact ⟨0, 1, rfl, by decide, by decide, by
      simp [dotV, normalDir, cross, hexCorner, det3_eq]; ring⟩
  · exact ⟨7, 6, rfl, by decide, by decide, by
      simp [dotV, normalDir, cross, hexCorner, det3_eq]; ring⟩
  · exact ⟨0, 3, rfl, by decide, by decide, by
      simp [dotV, normalDir, cross, hexCorner, det3_eq]; ring⟩
  · exact ⟨5, 6, rfl, by decide, by decide, by
      simp [dotV, normalDir, cross, hexCorner, det3_eq]; ring⟩
  · exact ⟨4, 0, rfl, by decide, by decide, by
      simp [dotV, normalDir, cross, hexCorner, det3_eq]; ring⟩
  · exact ⟨6, 2, rfl, by decide, by decide, by
      simp [dotV, normalDir, cross, hexCorner, det3_eq]; ring⟩
  · exact ⟨1, 0, rfl, by decide, by decide, by
      simp [dotV, normalDir, cross, hexCorner, det3_eq]; ring⟩
  · exact ⟨6, 7, rfl, by decide, by decide, by
      simp [dotV, normalDir, cross, hexCorner, det3_eq]; ring⟩
  · exact ⟨3, 0, rfl, by decide, by decide, by
      simp [dotV, normalDir, cross, hexCorner, det3_eq]; ring⟩
  · exact ⟨6, 5, rfl, by decide, by decide, by
      simp [dotV, normalDir, cross, hexCorner, det3_eq]; ring⟩

/-- C54: the surface of a cell is closed: the area-weighted normals (`which` = -1) sum to zero. -/
theorem C54_closed (P : ℕ → ℕ → ℝ) (d : ℕ) (hd : d < 3) :
    (faces34.map fun f => normalDir f.length (-1) (fun ic => P (f.getD ic 0)) d).sum = 0 ∧
    (faces38.map fun f => normalDir f.length (-1) (fun ic => P (f.getD ic 0)) d).sum = 0 ∧
    (edges23.map fun f => normalDir f.length (-1) (fun ic => P (f.getD ic 0)) d).sum = 0 ∧
    (edges24.map fun f => normalDir f.length (-1) (fun ic => P (f.getD ic 0)) d).sum = 0 := by
  refine ⟨?_, ?_, ?_, ?_⟩ <;> interval_cases d <;>
    simp [faces34, faces38, edges23, edges24, normalDir, cross] <;> ring

end Verif.CMesh
