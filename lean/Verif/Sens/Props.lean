import Verif.Sens.Model
import Mathlib.LinearAlgebra.Matrix.NonsingularInverse
import Mathlib.LinearAlgebra.Matrix.Charpoly.Coeff
import Mathlib.Topology.Instances.Matrix
import Mathlib.Topology.Algebra.Polynomial
import Mathlib.Algebra.BigOperators.Fin
import Mathlib.Analysis.Calculus.Deriv.Slope
import Mathlib.Analysis.Calculus.Deriv.Mul
import Mathlib.Analysis.Calculus.Deriv.Add
import Mathlib.Tactic.Linarith
import Mathlib.Tactic.LinearCombination
import Mathlib.Tactic.FieldSimp
import Mathlib.Tactic.NormNum
import Mathlib.Tactic.FinCases

/-!
# C144: sensitivity terms are the derivatives of the terms with respect to the shape of the domain
-/

open Finset Matrix Filter Topology

namespace Verif.Sens

variable {n : Type} [Fintype n] [DecidableEq n]

/-! ## Specification: the terms in the moved domain -/

/-- The domain is moved by `x + tau V(x)`: the deformation gradient `d(x_l + tau V_l) / dx_q` in the row `l` and
the column `q`, with the mesh velocity gradient `G q l = dV_l / dx_q`. -/
def deform (G : Matrix n n ℝ) (tau : ℝ) : Matrix n n ℝ := Matrix.of fun l q => (if l = q then 1 else 0) + tau * G q l

/-- The gradient in the moved domain of a function carried along: `dp/dX_l = sum_q dp/dx_q dx_q/dX_l`. -/
noncomputable def movedGrad (G : Matrix n n ℝ) (tau : ℝ) (p : n → ℝ) (l : n) : ℝ :=
  ∑ q, p q * (deform G tau)⁻¹ q l

/-- The change of volume. -/
noncomputable def jac (G : Matrix n n ℝ) (tau : ℝ) : ℝ := (deform G tau).det

/-- The vector area element in the moved domain (Nanson): `J F^-T n`. -/
noncomputable def movedNormal (G : Matrix n n ℝ) (tau : ℝ) (normal : n → ℝ) (i : n) : ℝ :=
  jac G tau * ∑ j, (deform G tau)⁻¹ j i * normal j

/-! ## Derivatives of the kinematics -/

theorem deform_eq (G : Matrix n n ℝ) (tau : ℝ) : deform G tau = 1 + tau • Gᵀ := by
  ext i j
  simp [deform, Matrix.one_apply]

theorem deform_zero (G : Matrix n n ℝ) : deform G 0 = 1 := by rw [deform_eq]; simp

theorem hasDerivAt_of_factor {f g : ℝ → ℝ} (h : ∀ᶠ t in 𝓝 0, f t = f 0 + t * g t) (hg : ContinuousAt g 0) :
    HasDerivAt f (g 0) 0 := by
  rw [hasDerivAt_iff_tendsto_slope]
  have h1 : Tendsto g (𝓝[≠] 0) (𝓝 (g 0)) := hg.mono_left nhdsWithin_le_nhds
  refine h1.congr' ?_
  filter_upwards [h.filter_mono nhdsWithin_le_nhds, self_mem_nhdsWithin] with t ht hne
  have hne' : t ≠ 0 := hne
  rw [slope_def_field, ht, sub_zero]
  field_simp
  ring

theorem jac_deriv (G : Matrix n n ℝ) : HasDerivAt (jac G) G.trace 0 := by
  have h : ∀ t, jac G t = 1 + t * (Gᵀ.trace +
      (Matrix.det (1 + (Polynomial.X : Polynomial ℝ) • Gᵀ.map Polynomial.C)).divX.divX.eval t * t) := by
    intro t
    unfold jac
    rw [deform_eq, Matrix.det_one_add_smul]
    ring
  have h0 : jac G 0 = 1 := by unfold jac; rw [deform_zero, Matrix.det_one]
  have := hasDerivAt_of_factor (f := jac G) (g := fun t => Gᵀ.trace +
      (Matrix.det (1 + (Polynomial.X : Polynomial ℝ) • Gᵀ.map Polynomial.C)).divX.divX.eval t * t)
    (Eventually.of_forall fun t => by rw [h0]; exact h t)
    (by
      apply ContinuousAt.add continuousAt_const
      exact (Polynomial.continuous _).continuousAt.mul continuousAt_id)
  simpa using this

omit [Fintype n] in
theorem deform_continuous (G : Matrix n n ℝ) : Continuous (deform G) := by
  apply continuous_matrix
  intro i j
  simp only [deform, Matrix.of_apply]
  fun_prop

theorem inv_continuousAt (G : Matrix n n ℝ) : ContinuousAt (fun t => (deform G t)⁻¹) 0 := by
  have h1 : (fun t => (deform G t)⁻¹) = fun t => ((deform G t).det)⁻¹ • (deform G t).adjugate := by
    funext t
    rw [Matrix.inv_def, Ring.inverse_eq_inv']
  rw [h1]
  show ContinuousAt ((fun t => ((deform G t).det)⁻¹) • fun t => (deform G t).adjugate) 0
  apply ContinuousAt.smul
  · apply ContinuousAt.inv₀
    · exact ((deform_continuous G).matrix_det).continuousAt
    · rw [deform_zero, Matrix.det_one]; exact one_ne_zero
  · exact ((deform_continuous G).matrix_adjugate).continuousAt

theorem inv_eventually (G : Matrix n n ℝ) : ∀ᶠ t in 𝓝 0, (deform G t)⁻¹ = 1 - t • (Gᵀ * (deform G t)⁻¹) := by
  have hd : ∀ᶠ t in 𝓝 (0 : ℝ), (deform G t).det ≠ 0 := by
    apply ((deform_continuous G).matrix_det).continuousAt.eventually_ne
    rw [deform_zero, Matrix.det_one]
    exact one_ne_zero
  filter_upwards [hd] with t ht
  have h := Matrix.mul_nonsing_inv (deform G t) (isUnit_iff_ne_zero.2 ht)
  have h2 : deform G t * (deform G t)⁻¹ = (deform G t)⁻¹ + t • (Gᵀ * (deform G t)⁻¹) := by
    conv_lhs => rw [deform_eq]
    rw [add_mul, one_mul, smul_mul_assoc, deform_eq]
  rw [h2] at h
  exact eq_sub_of_add_eq h

theorem inv_deriv (G : Matrix n n ℝ) (q l : n) : HasDerivAt (fun t => (deform G t)⁻¹ q l) (-G l q) 0 := by
  have h0 : (deform G 0)⁻¹ = 1 := by rw [deform_zero]; exact inv_one
  have := hasDerivAt_of_factor (f := fun t => (deform G t)⁻¹ q l)
    (g := fun t => -(Gᵀ * (deform G t)⁻¹) q l)
    (by
      filter_upwards [inv_eventually G] with t ht
      conv_lhs => rw [ht]
      rw [h0]
      simp
      ring)
    (by
      apply ContinuousAt.neg
      have h1 := (inv_continuousAt G)
      have h2 : ContinuousAt (fun t => Gᵀ * (deform G t)⁻¹) 0 :=
        (continuous_const.matrix_mul (continuous_id (X := Matrix n n ℝ))).continuousAt.comp h1
      exact ((continuous_apply l).comp (continuous_apply q)).continuousAt.comp h2)
  rw [h0, mul_one] at this
  simpa using this

theorem movedGrad_zero (G : Matrix n n ℝ) (p : n → ℝ) (l : n) : movedGrad G 0 p l = p l := by
  unfold movedGrad
  rw [deform_zero, inv_one]
  simp [Matrix.one_apply]

theorem jac_zero (G : Matrix n n ℝ) : jac G 0 = 1 := by unfold jac; rw [deform_zero, Matrix.det_one]

theorem movedGrad_deriv (G : Matrix n n ℝ) (p : n → ℝ) (l : n) :
    HasDerivAt (fun t => movedGrad G t p l) (-∑ q, G l q * p q) 0 := by
  unfold movedGrad
  have := HasDerivAt.fun_sum (u := Finset.univ) fun q (_ : q ∈ Finset.univ) => (inv_deriv G q l).const_mul (p q)
  refine this.congr_deriv ?_
  rw [← Finset.sum_neg_distrib]
  exact Finset.sum_congr rfl fun q _ => by ring

/-- The derivative of a bilinear density times the change of volume. -/
theorem bilinear_deriv {A B : Type} [Fintype A] [Fintype B] (G : Matrix n n ℝ) (M : A → B → ℝ)
    (a : ℝ → A → ℝ) (b : ℝ → B → ℝ) (a' : A → ℝ) (b' : B → ℝ) (ha : ∀ x, HasDerivAt (fun t => a t x) (a' x) 0)
    (hb : ∀ y, HasDerivAt (fun t => b t y) (b' y) 0) :
    HasDerivAt (fun t => jac G t * ∑ x, ∑ y, M x y * a t x * b t y)
      (G.trace * (∑ x, ∑ y, M x y * a 0 x * b 0 y) +
        ∑ x, ∑ y, (M x y * a' x * b 0 y + M x y * a 0 x * b' y)) 0 := by
  have h1 : HasDerivAt (fun t => ∑ x, ∑ y, M x y * a t x * b t y)
      (∑ x, ∑ y, (M x y * a' x * b 0 y + M x y * a 0 x * b' y)) 0 := by
    refine HasDerivAt.fun_sum fun x _ => HasDerivAt.fun_sum fun y _ => ?_
    exact ((ha x).const_mul (M x y)).mul (hb y)
  have h2 := (jac_deriv G).mul h1
  refine h2.congr_deriv ?_
  rw [jac_zero, one_mul]

/-! ## The matrices of the terms -/

/-- The matrix built from slices is block diagonal, with the gradient in the blocks, for the numbering
`dim * i + j` of the components. -/
theorem C144_grad_op (dim : ℕ) (hd : dim = 2 ∨ dim = 3) (s : ℕ → ℕ → ℝ) (i j k l : ℕ) (hi : i < dim) (hj : j < dim)
    (hk : k < dim) (hl : l < dim) :
    gradOpFlat dim s (dim * i + j) (dim * k + l) = if i = k then s j l else 0 := by
  rcases hd with rfl | rfl
  · have hi' : i = 0 ∨ i = 1 := by omega
    have hk' : k = 0 ∨ k = 1 := by omega
    rcases hi' with rfl | rfl <;> rcases hk' with rfl | rfl <;>
      simp only [gradOpFlat] <;> split_ifs <;> first | rfl | omega | contradiction | (refine congrArg₂ s ?_ ?_ <;> omega)
  · have hi' : i = 0 ∨ i = 1 ∨ i = 2 := by omega
    have hk' : k = 0 ∨ k = 1 ∨ k = 2 := by omega
    rcases hi' with rfl | rfl | rfl <;> rcases hk' with rfl | rfl | rfl <;>
      simp only [gradOpFlat] <;> split_ifs <;> first | rfl | omega | contradiction | (refine congrArg₂ s ?_ ?_ <;> omega)

theorem gradOp_mul (D : Matrix A (n × n) ℝ) (G : Matrix n n ℝ) (x : A) (v : n → n → ℝ) :
    ∑ K : n × n, (D * gradOp G) x K * v K.1 K.2 = ∑ K : n × n, D x K * ∑ q, G K.2 q * v K.1 q := by
  simp only [Matrix.mul_apply, gradOp, Matrix.of_apply, Finset.sum_mul]
  rw [Finset.sum_comm]
  apply Finset.sum_congr rfl
  intro I _
  rw [Fintype.sum_prod_type, Finset.mul_sum]
  rw [Finset.sum_eq_single I.1]
  · exact Finset.sum_congr rfl fun q _ => by simp; ring
  · intro k _ hk
    exact Finset.sum_eq_zero fun q _ => by simp [Ne.symm hk]
  · simp

/-- Elasticity: the sensitivity term is the derivative of `int D grad v : grad u`, if the stiffness is symmetric. -/
theorem C144_elastic (D : Matrix (n × n) (n × n) ℝ) (hD : Dᵀ = D) (G : Matrix n n ℝ) (v u : n → n → ℝ) :
    HasDerivAt (fun t => jac G t * evalElastic D (fun i => movedGrad G t (v i)) (fun i => movedGrad G t (u i)))
      (evalElastic (sdElastic D G) v u) 0 := by
  have := bilinear_deriv G (fun I K => D I K) (fun t (I : n × n) => movedGrad G t (v I.1) I.2)
    (fun t (I : n × n) => movedGrad G t (u I.1) I.2) _ _ (fun I => movedGrad_deriv G (v I.1) I.2)
    (fun I => movedGrad_deriv G (u I.1) I.2)
  refine this.congr_deriv ?_
  simp only [movedGrad_zero]
  unfold evalElastic sdElastic
  simp only [Matrix.sub_apply, Matrix.smul_apply, Matrix.transpose_apply, smul_eq_mul, sub_mul,
    Finset.sum_sub_distrib, Finset.sum_add_distrib, Finset.mul_sum]
  have e1 : ∑ I : n × n, ∑ K : n × n, (D * gradOp G) I K * v I.1 I.2 * u K.1 K.2 =
      ∑ I : n × n, ∑ K : n × n, D I K * v I.1 I.2 * ∑ q, G K.2 q * u K.1 q := by
    apply Finset.sum_congr rfl
    intro I _
    have := gradOp_mul D G I u
    calc _ = v I.1 I.2 * ∑ K : n × n, (D * gradOp G) I K * u K.1 K.2 := by
          rw [Finset.mul_sum]; exact Finset.sum_congr rfl fun K _ => by ring
      _ = _ := by rw [this, Finset.mul_sum]; exact Finset.sum_congr rfl fun K _ => by ring
  have e2 : ∑ I : n × n, ∑ K : n × n, (D * gradOp G) K I * v I.1 I.2 * u K.1 K.2 =
      ∑ I : n × n, ∑ K : n × n, D I K * (∑ q, G I.2 q * v I.1 q) * u K.1 K.2 := by
    rw [Finset.sum_comm, Finset.sum_comm (f := fun (I K : n × n) => D I K * (∑ q, G I.2 q * v I.1 q) * u K.1 K.2)]
    apply Finset.sum_congr rfl
    intro K _
    have := gradOp_mul D G K v
    calc _ = (∑ I : n × n, (D * gradOp G) K I * v I.1 I.2) * u K.1 K.2 := by
          rw [Finset.sum_mul]
      _ = _ := by
          rw [this, Finset.sum_mul]
          refine Finset.sum_congr rfl fun I _ => ?_
          rw [show D K I = D I K from congrFun (congrFun hD I) K]
  rw [e1, e2]
  simp only [mul_neg, neg_mul, Finset.sum_neg_distrib]
  have e3 : ∑ I : n × n, ∑ K : n × n, G.trace * (D I K * v I.1 I.2 * u K.1 K.2) =
      ∑ I : n × n, ∑ K : n × n, G.trace * D I K * v I.1 I.2 * u K.1 K.2 :=
    Finset.sum_congr rfl fun I _ => Finset.sum_congr rfl fun K _ => by ring
  rw [e3]
  simp only [Finset.mul_sum]
  ring

/-- Diffusion: the derivative of `int K grad q . grad p`, if `K` is symmetric. -/
theorem C144_diffusion (K : Matrix n n ℝ) (hK : Kᵀ = K) (G : Matrix n n ℝ) (q p : n → ℝ) :
    HasDerivAt (fun t => jac G t * evalDiffusion K (movedGrad G t q) (movedGrad G t p))
      (evalDiffusion (sdDiffusion K G) q p) 0 := by
  have := bilinear_deriv G (fun i j => K i j) (fun t i => movedGrad G t q i)
    (fun t i => movedGrad G t p i) _ _ (fun i => movedGrad_deriv G q i) (fun i => movedGrad_deriv G p i)
  refine this.congr_deriv ?_
  simp only [movedGrad_zero]
  unfold evalDiffusion sdDiffusion
  simp only [Matrix.sub_apply, Matrix.smul_apply, Matrix.transpose_apply, smul_eq_mul, sub_mul,
    Finset.sum_sub_distrib, Finset.sum_add_distrib]
  have e1 : ∑ i, ∑ j, (K * G) i j * q i * p j = ∑ i, ∑ j, K i j * q i * ∑ l, G j l * p l := by
    apply Finset.sum_congr rfl
    intro i _
    simp only [Matrix.mul_apply, Finset.sum_mul, Finset.mul_sum]
    rw [Finset.sum_comm]
    exact Finset.sum_congr rfl fun l _ => Finset.sum_congr rfl fun j _ => by ring
  have e2 : ∑ i, ∑ j, (K * G) j i * q i * p j = ∑ i, ∑ j, K i j * (∑ l, G i l * q l) * p j := by
    rw [Finset.sum_comm, Finset.sum_comm (f := fun i j => K i j * (∑ l, G i l * q l) * p j)]
    apply Finset.sum_congr rfl
    intro j _
    simp only [Matrix.mul_apply, Finset.sum_mul, Finset.mul_sum]
    rw [Finset.sum_comm]
    refine Finset.sum_congr rfl fun l _ => Finset.sum_congr rfl fun i _ => ?_
    rw [show K j l = K l j from congrFun (congrFun hK l) j]
    ring
  have e3 : G.trace * ∑ i, ∑ j, K i j * q i * p j = ∑ i, ∑ j, G.trace * K i j * q i * p j := by
    rw [Finset.mul_sum]
    refine Finset.sum_congr rfl fun i _ => ?_
    rw [Finset.mul_sum]
    exact Finset.sum_congr rfl fun j _ => by ring
  rw [e1, e2, e3]
  simp only [mul_neg, neg_mul, Finset.sum_neg_distrib]
  ring

/-- For a conductivity that is not symmetric the diffusion sensitivity term is not the derivative. -/
theorem C144_diffusion_nonsymmetric : ∃ (K G : Matrix (Fin 2) (Fin 2) ℝ) (q p : Fin 2 → ℝ),
    ¬ HasDerivAt (fun t => jac G t * evalDiffusion K (movedGrad G t q) (movedGrad G t p))
      (evalDiffusion (sdDiffusion K G) q p) 0 := by
  refine ⟨!![0, 1; 0, 0], !![0, 0; 1, 0], ![1, 0], ![1, 0], fun h => ?_⟩
  have h2 := bilinear_deriv !![0, 0; 1, 0] (fun i j => (!![0, 1; 0, 0] : Matrix (Fin 2) (Fin 2) ℝ) i j)
    (fun t i => movedGrad !![0, 0; 1, 0] t ![1, 0] i) (fun t i => movedGrad !![0, 0; 1, 0] t ![1, 0] i) _ _
    (fun i => movedGrad_deriv _ _ i) (fun i => movedGrad_deriv _ _ i)
  have := h.unique h2
  simp only [movedGrad_zero] at this
  simp [evalDiffusion, sdDiffusion, Matrix.trace, Fin.sum_univ_two] at this

/-- Diffusion–viscosity: the derivative of `int nu grad v : grad u`. -/
theorem C144_div_grad (nu : ℝ) (G : Matrix n n ℝ) (v u : n → n → ℝ) :
    HasDerivAt (fun t => jac G t * evalElastic (nu • (1 : Matrix (n × n) (n × n) ℝ)) (fun i => movedGrad G t (v i))
        (fun i => movedGrad G t (u i)))
      (evalElastic (sdDivGrad nu G) v u) 0 := by
  have := C144_elastic (nu • (1 : Matrix (n × n) (n × n) ℝ)) (by simp) G v u
  refine this.congr_deriv ?_
  congr 1
  unfold sdElastic sdDivGrad
  rw [smul_mul_assoc, one_mul, Matrix.transpose_smul, smul_sub, smul_sub, smul_comm]

/-- Piezoelectric coupling: the derivative of `int g_kij dv_i/dx_j dp/dx_k`, with no condition. -/
theorem C144_piezo (g : Matrix n (n × n) ℝ) (G : Matrix n n ℝ) (p : n → ℝ) (v : n → n → ℝ) :
    HasDerivAt (fun t => jac G t * evalPiezo g (movedGrad G t p) (fun i => movedGrad G t (v i)))
      (evalPiezo (sdPiezo g G) p v) 0 := by
  have := bilinear_deriv G (fun k I => g k I) (fun t k => movedGrad G t p k)
    (fun t (I : n × n) => movedGrad G t (v I.1) I.2) _ _ (fun k => movedGrad_deriv G p k)
    (fun I => movedGrad_deriv G (v I.1) I.2)
  refine this.congr_deriv ?_
  simp only [movedGrad_zero]
  unfold evalPiezo sdPiezo
  simp only [Matrix.sub_apply, Matrix.smul_apply, smul_eq_mul, sub_mul,
    Finset.sum_sub_distrib, Finset.sum_add_distrib]
  have e1 : ∑ k, ∑ I : n × n, (g * gradOp G) k I * p k * v I.1 I.2 =
      ∑ k, ∑ I : n × n, g k I * p k * ∑ q, G I.2 q * v I.1 q := by
    apply Finset.sum_congr rfl
    intro k _
    have := gradOp_mul g G k v
    calc _ = p k * ∑ K : n × n, (g * gradOp G) k K * v K.1 K.2 := by
          rw [Finset.mul_sum]; exact Finset.sum_congr rfl fun K _ => by ring
      _ = _ := by rw [this, Finset.mul_sum]; exact Finset.sum_congr rfl fun K _ => by ring
  have e2 : ∑ k, ∑ I : n × n, (Gᵀ * g) k I * p k * v I.1 I.2 =
      ∑ k, ∑ I : n × n, g k I * (∑ q, G k q * p q) * v I.1 I.2 := by
    rw [Finset.sum_comm, Finset.sum_comm (f := fun k (I : n × n) => g k I * (∑ q, G k q * p q) * v I.1 I.2)]
    apply Finset.sum_congr rfl
    intro I _
    simp only [Matrix.mul_apply, Matrix.transpose_apply, Finset.sum_mul, Finset.mul_sum]
    rw [Finset.sum_comm]
    exact Finset.sum_congr rfl fun l _ => Finset.sum_congr rfl fun i _ => by ring
  have e3 : G.trace * ∑ k, ∑ I : n × n, g k I * p k * v I.1 I.2 =
      ∑ k, ∑ I : n × n, G.trace * g k I * p k * v I.1 I.2 := by
    rw [Finset.mul_sum]
    refine Finset.sum_congr rfl fun i _ => ?_
    rw [Finset.mul_sum]
    exact Finset.sum_congr rfl fun j _ => by ring
  rw [e1, e2, e3]
  simp only [mul_neg, neg_mul, Finset.sum_neg_distrib]
  ring

theorem trace_sum (c : ℝ) (G : Matrix n n ℝ) (f : n → n → ℝ) :
    ∑ i, ∑ j, sdStokes c G i j * f i j = c * (G.trace * ∑ i, f i i - ∑ i, ∑ j, G i j * f i j) := by
  have : ∀ i, ∑ j, sdStokes c G i j * f i j = c * (G.trace * f i i - ∑ j, G i j * f i j) := by
    intro i
    have : ∀ j, sdStokes c G i j * f i j = c * G.trace * (if i = j then f i j else 0) - c * (G i j * f i j) := by
      intro j
      simp only [sdStokes, Matrix.smul_apply, Matrix.sub_apply, Matrix.one_apply, smul_eq_mul]
      split_ifs <;> ring
    rw [Finset.sum_congr rfl fun j _ => this j, Finset.sum_sub_distrib, ← Finset.mul_sum, ← Finset.mul_sum]
    simp
    ring
  rw [Finset.sum_congr rfl fun i _ => this i, ← Finset.mul_sum, Finset.sum_sub_distrib, Finset.mul_sum]

/-- Stokes coupling: the derivative of `int c p div v`. -/
theorem C144_stokes (c : ℝ) (G : Matrix n n ℝ) (v : n → n → ℝ) (p : ℝ) :
    HasDerivAt (fun t => jac G t * (c * ∑ i, movedGrad G t (v i) i * p)) (evalStokes (sdStokes c G) v p) 0 := by
  have h1 : HasDerivAt (fun t => c * ∑ i, movedGrad G t (v i) i * p) (c * ∑ i, (-∑ q, G i q * v i q) * p) 0 :=
    (HasDerivAt.fun_sum fun i _ => (movedGrad_deriv G (v i) i).mul_const p).const_mul c
  have h2 := (jac_deriv G).mul h1
  refine h2.congr_deriv ?_
  simp only [movedGrad_zero, jac_zero, one_mul]
  unfold evalStokes
  simp only [mul_assoc]
  rw [trace_sum c G fun i j => v i j * p]
  simp only [neg_mul, Finset.sum_neg_distrib, Finset.sum_mul]
  simp only [mul_assoc]
  ring

/-- Vector dot gradient: the derivative of `int c v . grad p`. -/
theorem C144_v_dot_grad_s (c : ℝ) (G : Matrix n n ℝ) (v p : n → ℝ) :
    HasDerivAt (fun t => jac G t * (c * ∑ i, movedGrad G t p i * v i)) (evalVDotGrad (sdStokes c G) v p) 0 := by
  have h1 : HasDerivAt (fun t => c * ∑ i, movedGrad G t p i * v i) (c * ∑ i, (-∑ q, G i q * p q) * v i) 0 :=
    (HasDerivAt.fun_sum fun i _ => (movedGrad_deriv G p i).mul_const (v i)).const_mul c
  have h2 := (jac_deriv G).mul h1
  refine h2.congr_deriv ?_
  simp only [movedGrad_zero, jac_zero, one_mul]
  unfold evalVDotGrad
  simp only [mul_assoc]
  rw [trace_sum c G fun i j => v i * p j]
  simp only [neg_mul, Finset.sum_neg_distrib, Finset.sum_mul]
  have e1 : ∑ i, p i * v i = ∑ i, v i * p i := Finset.sum_congr rfl fun i _ => mul_comm _ _
  have e2 : ∑ i, ∑ q, G i q * p q * v i = ∑ i, ∑ q, G i q * (v i * p q) :=
    Finset.sum_congr rfl fun i _ => Finset.sum_congr rfl fun q _ => by ring
  rw [e1, e2]
  ring

/-- Dot products: the derivative of `int v . M u` (values are carried along). -/
theorem C144_dot (M G : Matrix n n ℝ) (v u : n → ℝ) :
    HasDerivAt (fun t => jac G t * ∑ i, ∑ j, M i j * v i * u j) (evalDot M G v u) 0 := by
  refine ((jac_deriv G).mul_const _).congr_deriv ?_
  unfold evalDot
  rw [Finset.mul_sum]
  refine Finset.sum_congr rfl fun i _ => ?_
  rw [Finset.mul_sum]
  exact Finset.sum_congr rfl fun j _ => by ring

/-- Traction: the derivative of `int v . sigma n` over the moved boundary. -/
theorem C144_traction (trac G : Matrix n n ℝ) (normal v : n → ℝ) :
    HasDerivAt (fun t => ∑ i, ∑ j, v i * trac i j * movedNormal G t normal j)
      (∑ i, sdTraction trac G normal i * v i) 0 := by
  have hn : ∀ j, HasDerivAt (fun t => movedNormal G t normal j)
      (G.trace * normal j - ∑ k, G j k * normal k) 0 := by
    intro j
    have h1 : HasDerivAt (fun t => ∑ k, (deform G t)⁻¹ k j * normal k) (∑ k, -G j k * normal k) 0 :=
      HasDerivAt.fun_sum fun k _ => (inv_deriv G k j).mul_const (normal k)
    have h2 := (jac_deriv G).mul h1
    refine h2.congr_deriv ?_
    rw [jac_zero, deform_zero, inv_one]
    simp [Matrix.one_apply, Finset.sum_neg_distrib]
    ring
  have := HasDerivAt.fun_sum (u := Finset.univ) fun i (_ : i ∈ Finset.univ) =>
    HasDerivAt.fun_sum (u := Finset.univ) fun j (_ : j ∈ Finset.univ) => (hn j).const_mul (v i * trac i j)
  refine this.congr_deriv ?_
  refine Finset.sum_congr rfl fun i _ => ?_
  simp only [sdTraction, Matrix.mulVec, dotProduct, Matrix.sub_apply, Matrix.smul_apply, smul_eq_mul, sub_mul,
    Finset.sum_sub_distrib, mul_sub]
  have e1 : ∑ j, (trac * G) i j * normal j * v i = ∑ j, v i * trac i j * ∑ k, G j k * normal k := by
    simp only [Matrix.mul_apply, Finset.sum_mul, Finset.mul_sum]
    rw [Finset.sum_comm]
    exact Finset.sum_congr rfl fun l _ => Finset.sum_congr rfl fun i _ => by ring
  rw [Finset.sum_mul, Finset.sum_mul, e1]
  congr 1
  exact Finset.sum_congr rfl fun j _ => by ring

/-- The integrals: if the densities in all quadrature points have their derivatives, the integral has the
integral of the derivatives. -/
theorem C144_integral {Q : Type} [Fintype Q] (wt : Q → ℝ) (f : Q → ℝ → ℝ) (f' : Q → ℝ)
    (h : ∀ q, HasDerivAt (f q) (f' q) 0) : HasDerivAt (fun t => ∑ q, wt q * f q t) (∑ q, wt q * f' q) 0 :=
  HasDerivAt.fun_sum fun q _ => (h q).const_mul (wt q)

/-- Symmetric storage: with the engineering strains the full form is the form of the symmetric storage. -/
theorem C144_sym2nonsym {S : Type} [Fintype S] [DecidableEq S] (tab : n × n → S) (D : Matrix S S ℝ) (v u : n → n → ℝ) :
    evalElastic (Matrix.of fun I K => D (tab I) (tab K)) v u =
      ∑ a, ∑ b, D a b * (∑ I with tab I = a, v I.1 I.2) * (∑ K with tab K = b, u K.1 K.2) := by
  simp only [evalElastic, Matrix.of_apply]
  have h1 : ∀ f : S → n × n → ℝ, ∑ I, f (tab I) I = ∑ a, ∑ I with tab I = a, f a I := by
    intro f
    rw [← Finset.sum_fiberwise Finset.univ tab]
    refine Finset.sum_congr rfl fun a _ => Finset.sum_congr rfl fun I hI => ?_
    rw [(Finset.mem_filter.1 hI).2]
  rw [h1 fun a I => ∑ K, D a (tab K) * v I.1 I.2 * u K.1 K.2]
  refine Finset.sum_congr rfl fun a _ => ?_
  have h2 : ∀ I : n × n, ∑ K, D a (tab K) * v I.1 I.2 * u K.1 K.2 =
      ∑ b, ∑ K with tab K = b, D a b * v I.1 I.2 * u K.1 K.2 := fun I =>
    h1 fun b K => D a b * v I.1 I.2 * u K.1 K.2
  rw [Finset.sum_congr rfl fun I _ => h2 I, Finset.sum_comm]
  refine Finset.sum_congr rfl fun b _ => ?_
  simp only [Finset.mul_sum, Finset.sum_mul]
  rw [Finset.sum_comm]

/-- The tables of symmetric storage: the position of `(i, j)` and `(j, i)` is the same, the normal components are
first. -/
theorem C144_tables :
    (∀ i < 2, ∀ j < 2, ∃ k < 3, (nonsymTab 3)[2 * i + j]? = some k ∧ (nonsymTab 3)[2 * j + i]? = some k ∧
      (i = j → k = i) ∧ (i ≠ j → k = 2)) ∧
    (∀ i < 3, ∀ j < 3, ∃ k < 6, (nonsymTab 6)[3 * i + j]? = some k ∧ (nonsymTab 6)[3 * j + i]? = some k ∧
      (i = j → k = i) ∧ (i ≠ j → k = i + j + 2)) := by
  constructor <;> decide

/-- A stretched square: the volume `1 + tau` has the sensitivity one. -/
example : HasDerivAt (jac (!![1, 0; 0, 0] : Matrix (Fin 2) (Fin 2) ℝ)) 1 0 := by
  have := jac_deriv (!![1, 0; 0, 0] : Matrix (Fin 2) (Fin 2) ℝ)
  simpa [Matrix.trace, Fin.sum_univ_two] using this

example : (1 : Matrix (Fin 2 × Fin 2) (Fin 2 × Fin 2) ℝ)ᵀ = 1 := Matrix.transpose_one

end Verif.Sens
