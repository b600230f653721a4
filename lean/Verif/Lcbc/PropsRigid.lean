import Verif.Lcbc.Rigid
import Verif.Lcbc.LemmasGlobal
import Mathlib.Tactic.FinCases
import Mathlib.Tactic.LinearCombination
import Mathlib.LinearAlgebra.Matrix.NonsingularInverse
import Mathlib.LinearAlgebra.Matrix.DotProduct
import Mathlib.Algebra.BigOperators.Fin

namespace Verif.Lcbc

open Matrix

variable {K : Type*}

/-! ## Specification: infinitesimal rigid motions -/

/-- The displacement at the point `x` of the infinitesimal rigid motion with the
translation `t` and the rotation vector `ω`: `t + ω × x`. -/
def rigidMotion3 [CommRing K] (t ω x : Fin 3 → K) : Fin 3 → K := t + crossProduct ω x

/-- The same in the plane, with the rotation angle `φ`: `t + φ (-x₁, x₀)`. -/
def rigidMotion2 [CommRing K] (t : Fin 2 → K) (φ : K) (x : Fin 2 → K) : Fin 2 → K :=
  t + φ • ![-x 1, x 0]

/-- The displacements `u` of the points `x` do not change, to the first order, any of the
distances of the points. -/
def KeepsDistances {dim : ℕ} [CommRing K] (x u : ℕ → Fin dim → K) (n : ℕ) : Prop :=
  ∀ a < n, ∀ b < n, (u a - u b) ⬝ᵥ (x a - x b) = 0

/-! ## Values -/

section
variable [CommRing K]

theorem getElem?_blocks {α β : Type*} (l : List α) (f : α → List β) (c : ℕ)
    (h : ∀ a ∈ l, (f a).length = c) (n k : ℕ) (hk : k < c) :
    (l.flatMap f)[c * n + k]? = l[n]?.bind fun a => (f a)[k]? := by
  induction l generalizing n with
  | nil => simp
  | cons a l ih =>
    rw [List.flatMap_cons]
    have ha : (f a).length = c := h a (by simp)
    cases n with
    | zero => rw [List.getElem?_append_left (by omega)]; simp
    | succ n =>
      rw [List.getElem?_append_right (by rw [ha, Nat.mul_succ]; omega), ha]
      have : c * (n + 1) + k - c = c * n + k := by rw [Nat.mul_succ]; omega
      rw [this, ih (fun b hb => h b (by simp [hb]))]
      simp

theorem length_blocks {α β : Type*} (l : List α) (f : α → List β) (c : ℕ)
    (h : ∀ a ∈ l, (f a).length = c) : (l.flatMap f).length = l.length * c := by
  induction l with
  | nil => simp
  | cons a l ih =>
    rw [List.flatMap_cons, List.length_append, h a (by simp), ih (fun b hb => h b (by simp [hb]))]
    simp [Nat.succ_mul, Nat.add_comm]

theorem rigidMtx_row {dim s : ℕ} (spin : (Fin dim → K) → Matrix (Fin dim) (Fin s) K)
    (xs : List (Fin dim → K)) (didx : List (Fin dim)) (n k : ℕ) (x : Fin dim → K) (d : Fin dim)
    (hx : xs[n]? = some x) (hd : didx[k]? = some d) :
    (rigidMtx spin xs didx)[didx.length * n + k]?
      = some (Fin.append (spin x d) (Pi.single d 1)) := by
  have hk : k < didx.length := (List.getElem?_eq_some_iff.1 hd).1
  have hn : n < xs.length := (List.getElem?_eq_some_iff.1 hx).1
  unfold rigidMtx rigidIndx
  rw [List.getElem?_map, getElem?_blocks _ _ didx.length (by simp) n k hk]
  simp only [List.getElem?_range hn, Option.bind_some, List.getElem?_map, hd, Option.map_some]
  rw [List.getD_eq_getElem?_getD, rigidFull, getElem?_blocks _ _ dim (by simp) n d.val d.isLt, hx]
  simp

/-- C71: in row `n * len(dofs) + k` of the rigid operator, i.e. for the DOF `dofs[k]` of
the node `n` (3D), the reduced DOFs `(ω, t)` give the displacement of the rigid motion. -/
theorem C71_rigid_values_3d (xs : List (Fin 3 → K)) (didx : List (Fin 3)) (t ω : Fin 3 → K)
    (n k : ℕ) (x : Fin 3 → K) (d : Fin 3) (hx : xs[n]? = some x) (hd : didx[k]? = some d) :
    (mulRows (rigidMtx spin3 xs didx) (Fin.append ω t))[didx.length * n + k]?
      = some (rigidMotion3 t ω x d) := by
  rw [mulRows, List.getElem?_map, rigidMtx_row spin3 xs didx n k x d hx hd, Option.map_some,
    Fin.sum_univ_add]
  simp only [Fin.append_left, Fin.append_right]
  congr 1
  simp only [rigidMotion3, crossProduct, LinearMap.mk₂_apply, Pi.add_apply]
  fin_cases d <;> simp [spin3, Fin.sum_univ_three, Pi.single_apply] <;> ring

/-- C71: the same in 2D with the reduced DOFs `(φ, t)`. -/
theorem C71_rigid_values_2d (xs : List (Fin 2 → K)) (didx : List (Fin 2)) (t : Fin 2 → K) (φ : K)
    (n k : ℕ) (x : Fin 2 → K) (d : Fin 2) (hx : xs[n]? = some x) (hd : didx[k]? = some d) :
    (mulRows (rigidMtx spin2 xs didx) (Fin.append (fun _ : Fin 1 => φ) t))[didx.length * n + k]?
      = some (rigidMotion2 t φ x d) := by
  rw [mulRows, List.getElem?_map, rigidMtx_row spin2 xs didx n k x d hx hd, Option.map_some,
    Fin.sum_univ_add]
  simp only [Fin.append_left, Fin.append_right]
  congr 1
  simp only [rigidMotion2, Pi.add_apply]
  fin_cases d <;> simp [spin2, Pi.single_apply] <;> ring

theorem rigidMtx_length {dim s : ℕ} (spin : (Fin dim → K) → Matrix (Fin dim) (Fin s) K)
    (xs : List (Fin dim → K)) (didx : List (Fin dim)) :
    (rigidMtx spin xs didx).length = xs.length * didx.length := by
  unfold rigidMtx rigidIndx
  rw [List.length_map, length_blocks _ _ didx.length (by simp)]
  simp

/-- The triples of a dense matrix represent the matrix. -/
theorem app_denseTrips {m : ℕ} (rows : List (Fin m → K)) (q : ℕ → K) (r : ℕ) (row : Fin m → K)
    (h : rows[r]? = some row) :
    app (denseTrips rows) q r = ∑ c, row c * q c := by
  obtain ⟨hr, e⟩ := List.getElem?_eq_some_iff.1 h
  unfold denseTrips
  rw [app_flatMap, sum_map_range_single _ r _ hr]
  · unfold app
    rw [List.map_map]
    have : rows.getD r 0 = row := by simp [List.getD_eq_getElem?_getD, h]
    rw [this, ← List.sum_ofFn, List.ofFn_eq_map]
    congr 1
    apply List.map_congr_left
    intro c _
    simp
  · intro j _ hne
    apply app_eq_zero
    intro t ht
    obtain ⟨c, _, rfl⟩ := List.mem_map.1 ht
    exact hne

/-- C71: `Rigid2Operator`: the dependent DOFs of the node `x` move rigidly with the
independent node `x̄`: `u = ū + r × (x - x̄)`. -/
theorem C71_rigid2_values_3d (xs : List (Fin 3 → K)) (xbar ubar r : Fin 3 → K)
    (n : ℕ) (x : Fin 3 → K) (i : Fin 3) (hx : xs[n]? = some x) :
    (mulRows (rigid2Rows spin3 xs xbar) (Fin.append ubar r))[3 * n + i.val]?
      = some (rigidMotion3 ubar r (x - xbar) i) := by
  unfold mulRows rigid2Rows
  rw [List.getElem?_map, getElem?_blocks _ _ 3 (by simp) n i.val i.isLt, hx]
  simp only [Option.bind_some, List.getElem?_map]
  rw [show (List.finRange 3)[i.val]? = some i by simp]
  simp only [Option.map_some]
  rw [Fin.sum_univ_add]
  simp only [Fin.append_left, Fin.append_right]
  congr 1
  simp only [rigidMotion3, crossProduct, LinearMap.mk₂_apply, Pi.add_apply]
  fin_cases i <;> simp [spin3, Fin.sum_univ_three, Pi.single_apply] <;> ring_nf

theorem finRange_getElem? {dim : ℕ} (i : Fin dim) : (List.finRange dim)[i.val]? = some i := by
  rw [List.getElem?_eq_getElem (by simp)]
  simp

/-- C71: `Rigid2Operator` in 2D. -/
theorem C71_rigid2_values_2d (xs : List (Fin 2 → K)) (xbar ubar : Fin 2 → K) (φ : K)
    (n : ℕ) (x : Fin 2 → K) (i : Fin 2) (hx : xs[n]? = some x) :
    (mulRows (rigid2Rows spin2 xs xbar) (Fin.append ubar (fun _ : Fin 1 => φ)))[2 * n + i.val]?
      = some (rigidMotion2 ubar φ (x - xbar) i) := by
  unfold mulRows rigid2Rows
  rw [List.getElem?_map, getElem?_blocks _ _ 2 (by simp) n i.val i.isLt, hx]
  simp only [Option.bind_some, List.getElem?_map]
  rw [finRange_getElem? i]
  simp only [Option.map_some]
  rw [Fin.sum_univ_add]
  simp only [Fin.append_left, Fin.append_right]
  congr 1
  simp only [rigidMotion2, Pi.add_apply]
  fin_cases i <;> simp [spin2, Pi.single_apply] <;> ring

/-- C71: without the rotation DOFs all the dependent nodes get the displacement of the
independent node. -/
theorem C71_rigid2_translation {dim : ℕ} (xs : List (Fin dim → K)) (ubar : Fin dim → K)
    (n : ℕ) (i : Fin dim) (hn : n < xs.length) :
    (mulRows (rigid2RowsTrans xs) ubar)[dim * n + i.val]? = some (ubar i) := by
  unfold mulRows rigid2RowsTrans
  rw [List.getElem?_map, getElem?_blocks _ _ dim (by simp) n i.val i.isLt]
  simp [hn, Pi.single_apply]

/-! ## Range: exactly the infinitesimal isometries -/

/-- A rigid motion keeps all the distances, whatever the points. -/
theorem C71_rigid_keeps_distances_3d (x : ℕ → Fin 3 → K) (n : ℕ) (t ω : Fin 3 → K) :
    KeepsDistances x (fun a => rigidMotion3 t ω (x a)) n := by
  intro a _ b _
  simp only [rigidMotion3, crossProduct, LinearMap.mk₂_apply, dotProduct, Fin.sum_univ_three,
    Pi.sub_apply, Pi.add_apply]
  simp
  ring

theorem C71_rigid_keeps_distances_2d (x : ℕ → Fin 2 → K) (n : ℕ) (t : Fin 2 → K) (φ : K) :
    KeepsDistances x (fun a => rigidMotion2 t φ (x a)) n := by
  intro a _ b _
  simp only [rigidMotion2, dotProduct, Fin.sum_univ_two, Pi.sub_apply, Pi.add_apply]
  simp
  ring

end

section
variable [Field K]

/-- The linear part of an infinitesimal isometry: if the differences `E` of `dim + 1` of the
points are independent, the displacement differences are `A (x - x₀)` with `A` skew. -/
theorem isometry_linear [NeZero (2 : K)] {dim : ℕ} (x u : ℕ → Fin dim → K) (n : ℕ)
    (h : KeepsDistances x u n) (o : ℕ) (ho : o < n) (p : Fin dim → ℕ) (hp : ∀ k, p k < n)
    (E : Matrix (Fin dim) (Fin dim) K) (hE : ∀ k, E k = x (p k) - x o) (hdet : E.det ≠ 0) :
    ∃ A : Matrix (Fin dim) (Fin dim) K, Aᵀ = -A ∧ ∀ a < n, u a - u o = A *ᵥ (x a - x o) := by
  have hu : IsUnit E.det := isUnit_iff_ne_zero.2 hdet
  let W : Matrix (Fin dim) (Fin dim) K := fun k => u (p k) - u o
  have key : ∀ a < n, ∀ b < n, (u a - u o) ⬝ᵥ (x b - x o) + (u b - u o) ⬝ᵥ (x a - x o) = 0 := by
    intro a ha b hb
    have h1 := h a ha o ho
    have h2 := h b hb o ho
    have h3 := h a ha b hb
    have e1 : u a - u b = (u a - u o) - (u b - u o) := by abel
    have e2 : x a - x b = (x a - x o) - (x b - x o) := by abel
    rw [e1, e2, sub_dotProduct, dotProduct_sub _ (x a - x o), dotProduct_sub _ (x a - x o), h1, h2] at h3
    linear_combination -h3
  have hskew : W * Eᵀ + E * Wᵀ = 0 := by
    ext k l
    have := key (p k) (hp k) (p l) (hp l)
    rw [← hE, ← hE] at this
    simp only [Matrix.add_apply, Matrix.mul_apply', Matrix.zero_apply]
    rw [dotProduct_comm (E k)]
    exact this
  refine ⟨(E⁻¹ * W)ᵀ, ?_, ?_⟩
  · have : E⁻¹ * (W * Eᵀ + E * Wᵀ) * Eᵀ⁻¹ = 0 := by rw [hskew]; simp
    rw [Matrix.mul_add, Matrix.add_mul] at this
    have huT : IsUnit Eᵀ.det := by rw [det_transpose]; exact hu
    rw [← Matrix.mul_assoc, Matrix.mul_assoc (E⁻¹ * W), Matrix.mul_nonsing_inv _ huT,
      Matrix.mul_one, ← Matrix.mul_assoc, Matrix.nonsing_inv_mul _ hu, Matrix.one_mul] at this
    rw [transpose_transpose, Matrix.transpose_mul, Matrix.transpose_nonsing_inv]
    exact eq_neg_of_add_eq_zero_left this
  · intro a ha
    have hw : E *ᵥ (u a - u o) = E *ᵥ ((E⁻¹ * W)ᵀ *ᵥ (x a - x o)) := by
      have h1 : E * (E⁻¹ * W)ᵀ = -W := by
        rw [Matrix.transpose_mul, Matrix.transpose_nonsing_inv]
        have huT : IsUnit Eᵀ.det := by rw [det_transpose]; exact hu
        rw [← Matrix.mul_assoc, show E * Wᵀ = -(W * Eᵀ) from eq_neg_of_add_eq_zero_right hskew, Matrix.neg_mul,
          Matrix.mul_assoc, Matrix.mul_nonsing_inv _ huT, Matrix.mul_one]
      rw [Matrix.mulVec_mulVec, h1]
      funext k
      have := key a ha (p k) (hp k)
      rw [← hE] at this
      simp only [Matrix.mulVec, Matrix.neg_apply]
      show E k ⬝ᵥ (u a - u o) = (-W) k ⬝ᵥ (x a - x o)
      rw [dotProduct_comm, show (-W) k = -(W k) from rfl, neg_dotProduct]
      exact eq_neg_of_add_eq_zero_left this
    have : E⁻¹ *ᵥ (E *ᵥ (u a - u o)) = E⁻¹ *ᵥ (E *ᵥ ((E⁻¹ * W)ᵀ *ᵥ (x a - x o))) := by rw [hw]
    rw [Matrix.mulVec_mulVec, Matrix.mulVec_mulVec, Matrix.nonsing_inv_mul _ hu,
      Matrix.one_mulVec, Matrix.one_mulVec] at this
    exact this

/-- C71: when four of the nodes are not coplanar, the rigid operator represents *all* the
displacements keeping the distances of the nodes (to the first order), and only them. -/
theorem C71_rigid_range_3d [NeZero (2 : K)] (x u : ℕ → Fin 3 → K) (n : ℕ) (o : ℕ) (ho : o < n)
    (p : Fin 3 → ℕ) (hp : ∀ k, p k < n)
    (hdet : (Matrix.of fun k => x (p k) - x o).det ≠ 0) :
    (∃ t ω : Fin 3 → K, ∀ a < n, u a = rigidMotion3 t ω (x a)) ↔ KeepsDistances x u n := by
  constructor
  · rintro ⟨t, ω, h⟩ a ha b hb
    rw [h a ha, h b hb]
    exact C71_rigid_keeps_distances_3d x n t ω a ha b hb
  · intro h
    obtain ⟨A, hA, hu⟩ := isometry_linear x u n h o ho p hp _ (fun k => rfl) hdet
    have sk : ∀ i j, A j i = -A i j := fun i j => by
      have := congrFun (congrFun hA i) j
      simpa using this
    have dg : ∀ i, A i i = 0 := fun i => by
      have h2 : (2 : K) * A i i = 0 := by linear_combination sk i i
      rcases mul_eq_zero.1 h2 with h3 | h3
      · exact absurd h3 (NeZero.ne 2)
      · exact h3
    refine ⟨u o - A *ᵥ x o, ![A 2 1, A 0 2, A 1 0], fun a ha => ?_⟩
    have h1 := hu a ha
    rw [Matrix.mulVec_sub] at h1
    have h2 : u a = (u o - A *ᵥ x o) + A *ᵥ x a := by
      have : u a = (u a - u o) + u o := by abel
      rw [this, h1]; abel
    rw [h2, rigidMotion3]
    congr 1
    have s1 := sk 0 1
    have s2 := sk 0 2
    have s3 := sk 1 2
    funext i
    fin_cases i
    · simp [crossProduct, Matrix.mulVec, dotProduct, Fin.sum_univ_three, dg, s1, s3]; ring
    · simp [crossProduct, Matrix.mulVec, dotProduct, Fin.sum_univ_three, dg, s1, s3]
    · simp [crossProduct, Matrix.mulVec, dotProduct, Fin.sum_univ_three, dg, s1, s2, s3]; ring

/-- C71: the same in 2D for three nodes not on a line. -/
theorem C71_rigid_range_2d [NeZero (2 : K)] (x u : ℕ → Fin 2 → K) (n : ℕ) (o : ℕ) (ho : o < n)
    (p : Fin 2 → ℕ) (hp : ∀ k, p k < n)
    (hdet : (Matrix.of fun k => x (p k) - x o).det ≠ 0) :
    (∃ (t : Fin 2 → K) (φ : K), ∀ a < n, u a = rigidMotion2 t φ (x a)) ↔
      KeepsDistances x u n := by
  constructor
  · rintro ⟨t, φ, h⟩ a ha b hb
    rw [h a ha, h b hb]
    exact C71_rigid_keeps_distances_2d x n t φ a ha b hb
  · intro h
    obtain ⟨A, hA, hu⟩ := isometry_linear x u n h o ho p hp _ (fun k => rfl) hdet
    have sk : ∀ i j, A j i = -A i j := fun i j => by
      have := congrFun (congrFun hA i) j
      simpa using this
    have dg : ∀ i, A i i = 0 := fun i => by
      have h2 : (2 : K) * A i i = 0 := by linear_combination sk i i
      rcases mul_eq_zero.1 h2 with h3 | h3
      · exact absurd h3 (NeZero.ne 2)
      · exact h3
    refine ⟨u o - A *ᵥ x o, A 1 0, fun a ha => ?_⟩
    have h1 := hu a ha
    rw [Matrix.mulVec_sub] at h1
    have h2 : u a = (u o - A *ᵥ x o) + A *ᵥ x a := by
      have : u a = (u a - u o) + u o := by abel
      rw [this, h1]; abel
    rw [h2, rigidMotion2]
    congr 1
    have s1 := sk 0 1
    funext i
    fin_cases i
    · simp [Matrix.mulVec, dotProduct, Fin.sum_univ_two, dg, s1]
    · simp [Matrix.mulVec, dotProduct, Fin.sum_univ_two, dg, s1]

/-- C71: the six reduced DOFs of the rigid operator are determined by the displacements
when three of the nodes are not on a line. -/
theorem C71_rigid_injective_3d (x0 x1 x2 t ω t' ω' : Fin 3 → K)
    (hn : crossProduct (x1 - x0) (x2 - x0) ≠ 0)
    (h0 : rigidMotion3 t ω x0 = rigidMotion3 t' ω' x0)
    (h1 : rigidMotion3 t ω x1 = rigidMotion3 t' ω' x1)
    (h2 : rigidMotion3 t ω x2 = rigidMotion3 t' ω' x2) : t = t' ∧ ω = ω' := by
  have hω : ω = ω' := by
    have c := fun i => congrFun h0 i
    have c1 := fun i => congrFun h1 i
    have c2 := fun i => congrFun h2 i
    simp only [rigidMotion3, crossProduct, LinearMap.mk₂_apply, Pi.add_apply] at c c1 c2
    have a0 := c 0; have a1 := c 1; have a2 := c 2
    have b0 := c1 0; have b1 := c1 1; have b2 := c1 2
    have d0 := c2 0; have d1 := c2 1; have d2 := c2 2
    simp at a0 a1 a2 b0 b1 b2 d0 d1 d2
    by_contra hne
    apply hn
    obtain ⟨i, hi⟩ : ∃ i, ω i - ω' i ≠ 0 := by
      by_contra hcon
      push Not at hcon
      exact hne (funext fun i => sub_eq_zero.1 (hcon i))
    have p12 : (ω 1 - ω' 1) * (x1 2 - x0 2) - (ω 2 - ω' 2) * (x1 1 - x0 1) = 0 := by
      linear_combination b0 - a0
    have p02 : (ω 0 - ω' 0) * (x1 2 - x0 2) - (ω 2 - ω' 2) * (x1 0 - x0 0) = 0 := by
      linear_combination a1 - b1
    have p01 : (ω 0 - ω' 0) * (x1 1 - x0 1) - (ω 1 - ω' 1) * (x1 0 - x0 0) = 0 := by
      linear_combination b2 - a2
    have q12 : (ω 1 - ω' 1) * (x2 2 - x0 2) - (ω 2 - ω' 2) * (x2 1 - x0 1) = 0 := by
      linear_combination d0 - a0
    have q02 : (ω 0 - ω' 0) * (x2 2 - x0 2) - (ω 2 - ω' 2) * (x2 0 - x0 0) = 0 := by
      linear_combination a1 - d1
    have q01 : (ω 0 - ω' 0) * (x2 1 - x0 1) - (ω 1 - ω' 1) * (x2 0 - x0 0) = 0 := by
      linear_combination d2 - a2
    funext l
    apply mul_left_cancel₀ hi
    simp only [crossProduct, LinearMap.mk₂_apply, Pi.zero_apply, mul_zero]
    fin_cases i <;> fin_cases l <;> simp only [Fin.zero_eta, Fin.mk_one, Fin.reduceFinMk,
      Matrix.cons_val_zero, Matrix.cons_val_one, Matrix.cons_val, Pi.sub_apply]
    · linear_combination (x2 2 - x0 2) * p01 - (x2 1 - x0 1) * p02 + (x1 0 - x0 0) * q12
    · linear_combination (x2 0 - x0 0) * p02 - (x1 0 - x0 0) * q02
    · linear_combination (x1 0 - x0 0) * q01 - (x2 0 - x0 0) * p01
    · linear_combination (x1 1 - x0 1) * q12 - (x2 1 - x0 1) * p12
    · linear_combination (x2 0 - x0 0) * p12 + (x2 2 - x0 2) * p01 - (x1 1 - x0 1) * q02
    · linear_combination (x1 1 - x0 1) * q01 - (x2 1 - x0 1) * p01
    · linear_combination (x1 2 - x0 2) * q12 - (x2 2 - x0 2) * p12
    · linear_combination (x2 2 - x0 2) * p02 - (x1 2 - x0 2) * q02
    · linear_combination (x1 2 - x0 2) * q01 - (x2 1 - x0 1) * p02 + (x2 0 - x0 0) * p12
  subst hω
  refine ⟨?_, rfl⟩
  simpa [rigidMotion3] using h0

/-- C71: the three reduced DOFs in 2D are determined by two different nodes. -/
theorem C71_rigid_injective_2d (x0 x1 t t' : Fin 2 → K) (φ φ' : K) (hn : x0 ≠ x1)
    (h0 : rigidMotion2 t φ x0 = rigidMotion2 t' φ' x0)
    (h1 : rigidMotion2 t φ x1 = rigidMotion2 t' φ' x1) : t = t' ∧ φ = φ' := by
  have hφ : φ = φ' := by
    have a0 := congrFun h0 0
    have a1 := congrFun h0 1
    have b0 := congrFun h1 0
    have b1 := congrFun h1 1
    simp [rigidMotion2] at a0 a1 b0 b1
    by_contra hne
    apply hn
    have hs : φ - φ' ≠ 0 := sub_ne_zero.2 hne
    funext i
    apply mul_left_cancel₀ hs
    fin_cases i
    · show (φ - φ') * x0 0 = (φ - φ') * x1 0
      linear_combination a1 - b1
    · show (φ - φ') * x0 1 = (φ - φ') * x1 1
      linear_combination b0 - a0
  subst hφ
  refine ⟨?_, rfl⟩
  exact add_right_cancel h0

/-! ## The screw and the nut -/

/-- C71: what `rigid_twist` does: the master (`half = -1/2`) and slave (`half = 1/2`) nodes
move by the rigid motion of the anchor plus, per unit screw angle, a rotation about the axis
through the anchor and a translation by `h (a₀ + a₁ + a₂)` in *each* coordinate. -/
theorem C71_twist_values (half h : K) (anchor axis : Fin 3 → K) (xs : List (Fin 3 → K))
    (uA oA : Fin 3 → K) (φ : K) (n : ℕ) (x : Fin 3 → K) (i : Fin 3) (hx : xs[n]? = some x) :
    (mulRows (twistRows half h anchor axis xs)
        (Fin.append (Fin.append uA oA) (fun _ : Fin 1 => φ)))[3 * n + i.val]?
      = some (rigidMotion3 uA oA (x - anchor) i
        + half * φ * (crossProduct axis (x - anchor) i + h * (axis 0 + axis 1 + axis 2))) := by
  unfold mulRows twistRows
  rw [List.getElem?_map, getElem?_blocks _ _ 3 (by simp) n i.val i.isLt, hx]
  simp only [Option.bind_some, List.getElem?_map]
  rw [show (List.finRange 3)[i.val]? = some i by simp]
  simp only [Option.map_some]
  rw [Fin.sum_univ_add, Fin.sum_univ_add]
  simp only [Fin.append_left, Fin.append_right]
  congr 1
  simp only [rigidMotion3, crossProduct, LinearMap.mk₂_apply, Pi.add_apply, twistCol]
  fin_cases i <;> simp [spin3, Fin.sum_univ_three, Pi.single_apply] <;> ring

/-- C71: both regions move as rigid bodies. -/
theorem C71_twist_rigid (half h : K) (anchor axis uA oA : Fin 3 → K) (φ : K) (x : Fin 3 → K) :
    (fun i => rigidMotion3 uA oA (x - anchor) i
        + half * φ * (crossProduct axis (x - anchor) i + h * (axis 0 + axis 1 + axis 2)))
      = rigidMotion3 (uA + (half * φ * h * (axis 0 + axis 1 + axis 2)) • (fun _ => 1)
          - crossProduct (oA + (half * φ) • axis) anchor) (oA + (half * φ) • axis) x := by
  funext i
  simp only [rigidMotion3, crossProduct, LinearMap.mk₂_apply, Pi.add_apply, Pi.sub_apply,
    Pi.smul_apply, smul_eq_mul, mul_one]
  fin_cases i <;> simp <;> ring

/-- C71: the documented screw motion `(R + h) a φ`, i.e. a rotation about the axis with an
advance of `h φ` *along the axis*, is obtained exactly when there is no thread, no
screw motion, or the axis has equal components with no sum (so it is zero): for every
nonzero axis over the rationals or reals it is not. -/
theorem C71_twist_documented_iff (half h : K) (axis r : Fin 3 → K) (φ : K) :
    (∀ i, half * φ * (crossProduct axis r i + h * (axis 0 + axis 1 + axis 2))
        = half * φ * (crossProduct axis r i + h * axis i)) ↔
      half * φ * h = 0 ∨ (∀ i, axis i = axis 0 + axis 1 + axis 2) := by
  constructor
  · intro hh
    by_cases h0 : half * φ * h = 0
    · exact Or.inl h0
    · right
      intro i
      apply mul_left_cancel₀ h0
      have := hh i
      linear_combination -this
  · rintro (h0 | h0) i
    · linear_combination (axis 0 + axis 1 + axis 2 - axis i) * h0
    · rw [h0 i]

/-- C71: hence with a nonzero thread and screw angle the documented motion is never
obtained for a nonzero axis. -/
theorem C71_twist_never_documented [CharZero K] (half h : K) (axis r : Fin 3 → K) (φ : K)
    (h0 : half * φ * h ≠ 0) (ha : axis ≠ 0) :
    ∃ i, half * φ * (crossProduct axis r i + h * (axis 0 + axis 1 + axis 2))
        ≠ half * φ * (crossProduct axis r i + h * axis i) := by
  by_contra hc
  push Not at hc
  rcases (C71_twist_documented_iff half h axis r φ).1 hc with h1 | h1
  · exact h0 h1
  · apply ha
    have e0 := h1 0
    have e1 := h1 1
    have e2 := h1 2
    have s : (2 : K) * (axis 0 + axis 1 + axis 2) = 0 := by linear_combination -e0 - e1 - e2
    have s' : axis 0 + axis 1 + axis 2 = 0 := by
      rcases mul_eq_zero.1 s with h2 | h2
      · exact absurd h2 two_ne_zero
      · exact h2
    funext i
    rw [h1 i, s']; rfl

end

end Verif.Lcbc
