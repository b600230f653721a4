/-
C93: barycentric coordinates, points in simplices, volumes and areas.
C94: circumcentres.
-/
import Verif.Geo.Model
import Verif.Quad.Spec
import Mathlib.LinearAlgebra.Matrix.ToLinearEquiv
import Mathlib.LinearAlgebra.Matrix.Adjugate
import Mathlib.Tactic.FieldSimp
import Mathlib.Tactic.Ring
import Mathlib.Tactic.Linarith

namespace Geo

theorem foldl_add_eq {α : Type} {M : Type} [AddCommMonoid M] (f : α → M) (l : List α) : ∀ acc : M,
    l.foldl (fun acc a => acc + f a) acc = acc + (l.map f).sum := by
  induction l with
  | nil => intro acc; simp
  | cons a l ih => intro acc; rw [List.foldl_cons, ih]; simp [add_assoc]

theorem barToSpace_eq {n d : ℕ} (bc : Fin n → ℝ) (v : Fin n → Vec d) :
    barToSpace bc v = ∑ i, bc i • v i := by
  unfold barToSpace
  rw [foldl_add_eq (fun iv => bc iv • v iv), zero_add, Finset.sum_list_map_count]
  simp [List.count_eq_one_of_mem (List.nodup_finRange n) (List.mem_finRange _), List.toFinset_finRange]

/-- The determinant of the barycentric system. -/
theorem baryMtx_det {d : ℕ} (v : Fin (d + 1) → Vec d) :
    (baryMtx v).det = (-1) ^ d * ((d.factorial : ℝ) * simplexVolume v) := by
  have hf : (d.factorial : ℝ) ≠ 0 := by exact_mod_cast d.factorial_ne_zero
  rw [simplexVolume, mul_div_cancel₀ _ hf]
  set B : Matrix (Fin (d + 1)) (Fin (d + 1)) ℝ :=
    Matrix.of fun i j => baryMtx v j i - (if i = 0 then 0 else 1) * baryMtx v j 0 with hB
  have h1 : (baryMtx v).transpose.det = B.det := by
    refine Matrix.det_eq_of_forall_row_eq_smul_add_const (fun i => if i = 0 then 0 else 1) 0 (by simp) ?_
    intro i j
    by_cases h : i = 0 <;> simp [hB, h]
  rw [← Matrix.det_transpose, h1, Matrix.det_succ_column B (Fin.last d), Finset.sum_eq_single 0]
  · have e1 : B 0 (Fin.last d) = 1 := by simp [hB, baryMtx]
    rw [e1, mul_one]
    congr 1
    · simp
    · rw [Matrix.det_apply, Matrix.det_apply]
      refine Finset.sum_congr rfl fun σ _ => ?_
      congr 1
      refine Finset.prod_congr rfl fun i _ => ?_
      simp [hB, baryMtx, Fin.succ_ne_zero]
  · intro i _ hi
    have e1 : B i (Fin.last d) = 0 := by simp [hB, baryMtx, hi]
    rw [e1]; ring
  · simp

theorem baryMtx_det_ne {d : ℕ} (v : Fin (d + 1) → Vec d) :
    (baryMtx v).det ≠ 0 ↔ simplexVolume v ≠ 0 := by
  have hf : (d.factorial : ℝ) ≠ 0 := by exact_mod_cast d.factorial_ne_zero
  rw [baryMtx_det]
  simp [hf]

theorem baryMtx_mulVec {d : ℕ} (v : Fin (d + 1) → Vec d) (bc : Fin (d + 1) → ℝ) (x : Vec d) :
    (baryMtx v).mulVec bc = baryRhs x ↔ (∑ i, bc i = 1 ∧ ∀ k, ∑ i, bc i * v i k = x k) := by
  constructor
  · intro h
    constructor
    · have := congrFun h (Fin.last d)
      simpa [Matrix.mulVec, dotProduct, baryMtx, baryRhs] using this
    · intro k
      have := congrFun h k.castSucc
      simp only [Matrix.mulVec, dotProduct, baryMtx, baryRhs, Matrix.of_apply, Fin.lastCases_castSucc] at this
      rw [← this]
      exact Finset.sum_congr rfl fun i _ => mul_comm _ _
  · rintro ⟨h1, h2⟩
    funext i
    refine Fin.lastCases ?_ (fun k => ?_) i
    · simpa [Matrix.mulVec, dotProduct, baryMtx, baryRhs] using h1
    · simp only [Matrix.mulVec, dotProduct, baryMtx, baryRhs, Matrix.of_apply, Fin.lastCases_castSucc]
      rw [← h2 k]
      exact Finset.sum_congr rfl fun i _ => mul_comm _ _

/-- **C93.**  For every simplex of nonzero volume, in every dimension, and every point, the computed
barycentric coordinates sum to one and reproduce the point; they are the only numbers that do. -/
theorem C93_barycentric {d : ℕ} (v : Fin (d + 1) → Vec d) (hv : simplexVolume v ≠ 0) (x : Vec d) :
    ∃ bc, barycentricCoors v x = some bc ∧ ∑ i, bc i = 1 ∧ (∑ i, bc i • v i) = x ∧
      ∀ lam : Fin (d + 1) → ℝ, ∑ i, lam i = 1 → (∑ i, lam i • v i) = x → lam = bc := by
  have hd := (baryMtx_det_ne v).2 hv
  have hu : IsUnit (baryMtx v).det := isUnit_iff_ne_zero.2 hd
  refine ⟨(baryMtx v)⁻¹.mulVec (baryRhs x), by simp [barycentricCoors, hd], ?_⟩
  have h1 : (baryMtx v).mulVec ((baryMtx v)⁻¹.mulVec (baryRhs x)) = baryRhs x := by
    rw [Matrix.mulVec_mulVec, Matrix.mul_nonsing_inv _ hu, Matrix.one_mulVec]
  obtain ⟨h2, h3⟩ := (baryMtx_mulVec v _ x).1 h1
  refine ⟨h2, ?_, fun lam hl hx => ?_⟩
  · funext k
    simpa [Finset.sum_apply] using h3 k
  · have : (baryMtx v).mulVec lam = baryRhs x := (baryMtx_mulVec v lam x).2 ⟨hl, fun k => by
      rw [← hx]; simp [Finset.sum_apply]⟩
    rw [← this, Matrix.mulVec_mulVec, Matrix.nonsing_inv_mul _ hu, Matrix.one_mulVec]

/-- **C93.**  They are the quotients of volumes: the simplex with the vertex replaced by the point to the
whole simplex. -/
theorem C93_volume_coordinates {d : ℕ} (v : Fin (d + 1) → Vec d) (hv : simplexVolume v ≠ 0) (x : Vec d) :
    barycentricCoors v x = some fun i => simplexVolume (Function.update v i x) / simplexVolume v := by
  have hd := (baryMtx_det_ne v).2 hv
  have hf : (d.factorial : ℝ) ≠ 0 := by exact_mod_cast d.factorial_ne_zero
  rw [barycentricCoors, if_neg hd]
  congr 1
  funext i
  have hcr : (baryMtx v)⁻¹.mulVec (baryRhs x) i = (baryMtx v).cramer (baryRhs x) i / (baryMtx v).det := by
    rw [Matrix.inv_def, Matrix.smul_mulVec, Pi.smul_apply, ← Matrix.cramer_eq_adjugate_mulVec,
      Ring.inverse_eq_inv', smul_eq_mul]
    ring
  have hup : (baryMtx v).updateCol i (baryRhs x) = baryMtx (Function.update v i x) := by
    ext a b
    rw [Matrix.updateCol_apply]
    by_cases h : b = i
    · subst h
      refine Fin.lastCases ?_ (fun k => ?_) a <;> simp [baryMtx, baryRhs]
    · refine Fin.lastCases ?_ (fun k => ?_) a <;> simp [baryMtx, h]
  rw [hcr, Matrix.cramer_apply, hup, baryMtx_det, baryMtx_det, mul_div_mul_left _ _ (by simp),
    mul_div_mul_left _ _ hf]

/-- **C93.**  Degenerate simplices are reported as errors. -/
theorem C93_degenerate {d : ℕ} (v : Fin (d + 1) → Vec d) (hv : simplexVolume v = 0) (x : Vec d) :
    barycentricCoors v x = none := by
  have : (baryMtx v).det = 0 := by
    by_contra h
    exact (baryMtx_det_ne v).1 h hv
  rw [barycentricCoors, if_pos this]

theorem foldl_and_eq {α : Type} (c : α → Bool) (l : List α) : ∀ acc : Bool,
    l.foldl (fun flag i => flag && c i) acc = (acc && l.all c) := by
  induction l with
  | nil => intro acc; simp
  | cons a l ih => intro acc; rw [List.foldl_cons, ih]; simp [Bool.and_assoc]

/-- **C93.**  A point is flagged if and only if its barycentric coordinates lie between `-eps` and
`1 + eps`; in particular, all points of the closed simplex are flagged. -/
theorem C93_points_in_simplex {d : ℕ} (v : Fin (d + 1) → Vec d) (hv : simplexVolume v ≠ 0) (eps : ℝ)
    (lam : Fin (d + 1) → ℝ) (hl : ∑ i, lam i = 1) :
    ∃ flag, pointInSimplex v (∑ i, lam i • v i) eps = some flag ∧
      (flag = true ↔ ∀ i, -eps < lam i ∧ lam i < 1 + eps) ∧
      (0 < eps → (∀ i, 0 ≤ lam i) → flag = true) := by
  obtain ⟨bc, h1, h2, h3, h4⟩ := C93_barycentric v hv (∑ i, lam i • v i)
  obtain rfl := h4 lam hl rfl
  have hiff : (List.finRange (d + 1)).foldl
      (fun flag i => flag && decide (lam i > -eps ∧ lam i < 1 + eps)) true = true ↔
      ∀ i, -eps < lam i ∧ lam i < 1 + eps := by
    rw [foldl_and_eq (fun i => decide (lam i > -eps ∧ lam i < 1 + eps)), Bool.true_and, List.all_eq_true]
    simp
  refine ⟨_, by rw [pointInSimplex, h1]; rfl, hiff, fun he hp => hiff.2 fun i => ⟨by linarith [hp i], ?_⟩⟩
  have : lam i ≤ ∑ j, lam j := Finset.single_le_sum (fun j _ => hp j) (Finset.mem_univ i)
  linarith

/-- **C93.**  The inverse mapping of a simplex: the reference point of `sum lam_i v_i` is
`sum lam_i ref_i`. -/
theorem C93_inverse_mapping {d : ℕ} (v ref : Fin (d + 1) → Vec d) (hv : simplexVolume v ≠ 0)
    (lam : Fin (d + 1) → ℝ) (hl : ∑ i, lam i = 1) :
    inverseSimplex v ref (∑ i, lam i • v i) = some (∑ i, lam i • ref i) := by
  obtain ⟨bc, h1, h2, h3, h4⟩ := C93_barycentric v hv (∑ i, lam i • v i)
  obtain rfl := h4 lam hl rfl
  rw [inverseSimplex, h1]
  simp only [Option.map_some]
  congr 1
  funext k
  simp [Finset.sum_apply]

/-- **C93.**  When the Newton iterations of the inverse mapping stop before the limit with a matrix that
could be inverted, the residual is below the tolerance. -/
theorem C93_mini_newton {d : ℕ} (f : Vec d → Vec d) (df : Vec d → Matrix (Fin d) (Fin d) ℝ)
    (inv : Matrix (Fin d) (Fin d) ℝ → Option (Matrix (Fin d) (Fin d) ℝ)) (eps : ℝ) (n : ℕ) (x0 : Vec d)
    (hinv : ∀ m, (inv m).isSome) :
    norm (f (miniNewton f df inv eps n x0)) < eps ∨
      ∃ xs : ℕ → Vec d, xs 0 = x0 ∧ xs n = miniNewton f df inv eps n x0 ∧
        ∀ k < n, ¬ norm (f (xs k)) < eps ∧
          ∃ m, inv (df (xs k)).transpose = some m ∧ xs (k + 1) = xs k - m.mulVec (f (xs k)) := by
  induction n generalizing x0 with
  | zero => exact Or.inr ⟨fun _ => x0, rfl, rfl, by simp⟩
  | succ n ih =>
    rw [miniNewton]
    by_cases h : norm (f x0) < eps
    · left; rw [if_pos h]; exact h
    · rw [if_neg h]
      obtain ⟨m, hm⟩ := Option.isSome_iff_exists.1 (hinv (df x0).transpose)
      rw [hm]
      simp only
      rcases ih (x0 - m.mulVec (f x0)) with h1 | ⟨xs, h1, h2, h3⟩
      · exact Or.inl h1
      · refine Or.inr ⟨fun k => if k = 0 then x0 else xs (k - 1), by simp, by simpa using h2, ?_⟩
        intro k hk
        rcases Nat.eq_zero_or_pos k with rfl | hk0
        · simp only [if_true]
          exact ⟨h, m, hm, by simpa using h1⟩
        · obtain ⟨g1, m', g2, g3⟩ := h3 (k - 1) (by omega)
          have hk1 : ¬ k = 0 := by omega
          simp only [hk1, if_false, Nat.add_eq_zero_iff, one_ne_zero, and_false, Nat.add_sub_cancel]
          rw [Nat.sub_add_cancel hk0] at g3
          exact ⟨g1, m', g2, g3⟩

/-- **C93.**  The volume is the determinant of the affine map times the volume of the reference simplex, the
iterated integral of one. -/
theorem C93_volume {d : ℕ} (v : Fin (d + 1) → Vec d) :
    simplexVolume v = Matrix.det (Matrix.of fun i j : Fin d => v i.succ j - v 0 j) *
      Quad.simplexInt d 1 (fun _ => 1) := by
  have h := Quad.simplexInt_sum d (Finset.univ : Finset (Fin 1)) (fun _ => 1)
    (fun _ => List.replicate d 0) 1 (by simp)
  simp only [Finset.univ_unique, Finset.sum_singleton, one_mul, one_pow, mul_one] at h
  have e1 : ∀ (n : ℕ) (l : List ℝ), Quad.mon (List.replicate n 0) l = 1 := by
    intro n
    induction n with
    | zero => intro l; rfl
    | succ n ih => intro l; rw [List.replicate_succ, Quad.mon, pow_zero, one_mul, ih]
  simp only [e1] at h
  rw [h, simplexVolume]
  simp [Quad.momSimplex, div_eq_mul_inv]

/-! ## Areas -/

theorem norm2_nonneg {d : ℕ} (x : Vec d) : 0 ≤ norm2 x := Finset.sum_nonneg fun _ _ => sq_nonneg _

theorem norm_nonneg {d : ℕ} (x : Vec d) : 0 ≤ norm x := Real.sqrt_nonneg _

theorem norm_sq {d : ℕ} (x : Vec d) : norm x ^ 2 = norm2 x := Real.sq_sqrt (norm2_nonneg x)

theorem norm2_eq_zero {d : ℕ} (x : Vec d) : norm2 x = 0 ↔ x = 0 := by
  constructor
  · intro h
    have := (Finset.sum_eq_zero_iff_of_nonneg fun i _ => sq_nonneg (x i)).1 h
    funext i
    simpa using this i (Finset.mem_univ i)
  · rintro rfl
    simp [norm2]

/-- Twice the signed area of a plane triangle. -/
def orient2 (a b c : Vec 2) : ℝ := (b 0 - a 0) * (c 1 - a 1) - (b 1 - a 1) * (c 0 - a 0)

theorem triArea_pad (a b c : Vec 2) : triArea (pad a) (pad b) (pad c) = |orient2 a b c| / 2 := by
  have : norm2 (cross (pad b - pad a) (pad c - pad a)) = orient2 a b c ^ 2 := by
    simp [norm2, cross, pad, Fin.sum_univ_three, orient2]
  rw [triArea, norm, this, Real.sqrt_sq_eq_abs]
  ring

/-- **C93.**  The area of a triangle: in the plane the absolute value of the volume, in space the square is
a quarter of the determinant of Gram. -/
theorem C93_triangle_area :
    (∀ a b c : Vec 2, triArea (pad a) (pad b) (pad c) = |simplexVolume ![a, b, c]|) ∧
    ∀ a b c : Vec 3, 0 ≤ triArea a b c ∧ triArea a b c ^ 2 =
      (dot (b - a) (b - a) * dot (c - a) (c - a) - dot (b - a) (c - a) ^ 2) / 4 := by
  constructor
  · intro a b c
    rw [triArea_pad, simplexVolume, Matrix.det_fin_two, abs_div]
    simp [orient2, Nat.factorial]
  · intro a b c
    refine ⟨mul_nonneg (by norm_num) (norm_nonneg _), ?_⟩
    rw [triArea, mul_pow, norm_sq]
    simp [norm2, cross, dot, Fin.sum_univ_three]
    ring

/-- **C93.**  The area of a plane quadrilateral whose diagonal splits it into triangles of the same
orientation (every convex one) is given by the shoelace formula, whatever the starting vertex. -/
theorem C93_quad_area (a b c d : Vec 2) (h : 0 ≤ orient2 a b c * orient2 a c d) :
    quadArea (pad a) (pad b) (pad c) (pad d) =
      |(a 0 * b 1 - b 0 * a 1) + (b 0 * c 1 - c 0 * b 1) + (c 0 * d 1 - d 0 * c 1) + (d 0 * a 1 - a 0 * d 1)| /
        2 := by
  rw [quadArea, triArea_pad, triArea_pad, ← add_div]
  congr 1
  have : |orient2 a b c| + |orient2 a c d| = |orient2 a b c + orient2 a c d| := by
    rw [eq_comm, abs_add_eq_add_abs_iff]
    rcases mul_nonneg_iff.1 h with ⟨h1, h2⟩ | ⟨h1, h2⟩
    · exact Or.inl ⟨h1, h2⟩
    · exact Or.inr ⟨h1, h2⟩
  rw [this]
  congr 1
  unfold orient2
  ring

/-! ## Circumcentres -/

theorem norm2_eq_dot {d : ℕ} (x : Vec d) : norm2 x = dot x x := by
  simp only [norm2, dot, pow_two]

theorem dot_comm {d : ℕ} (x y : Vec d) : dot x y = dot y x := by
  simp only [dot, mul_comm]

theorem norm2_sub {d : ℕ} (x y : Vec d) : norm2 (x - y) = dot x x - 2 * dot x y + dot y y := by
  simp only [norm2, dot, Pi.sub_apply, Finset.mul_sum, ← Finset.sum_sub_distrib, ← Finset.sum_add_distrib]
  exact Finset.sum_congr rfl fun i _ => by ring

theorem dot_add_left {d : ℕ} (x y z : Vec d) : dot (x + y) z = dot x z + dot y z := by
  simp only [dot, Pi.add_apply, add_mul, Finset.sum_add_distrib]

theorem dot_smul_left {d : ℕ} (a : ℝ) (x z : Vec d) : dot (a • x) z = a * dot x z := by
  simp only [dot, Pi.smul_apply, smul_eq_mul, mul_assoc, Finset.mul_sum]

theorem dot_sum_left {d n : ℕ} (a : Fin n → ℝ) (u : Fin n → Vec d) (z : Vec d) :
    dot (∑ i, a i • u i) z = ∑ i, a i * dot (u i) z := by
  simp only [dot, Finset.sum_apply, Pi.smul_apply, smul_eq_mul, Finset.sum_mul, Finset.mul_sum]
  rw [Finset.sum_comm]
  exact Finset.sum_congr rfl fun i _ => Finset.sum_congr rfl fun j _ => by ring

/-- The determinant of Gram of independent vectors is not zero. -/
theorem gram_det_ne {d n : ℕ} (u : Fin n → Vec d) (h : LinearIndependent ℝ u) :
    Matrix.det (Matrix.of fun i j => dot (u i) (u j)) ≠ 0 := by
  intro h0
  obtain ⟨a, ha, h1⟩ := Matrix.exists_mulVec_eq_zero_iff.2 h0
  apply ha
  have h2 : norm2 (∑ i, a i • u i) = 0 := by
    rw [norm2_eq_dot, dot_sum_left]
    refine Finset.sum_eq_zero fun i _ => ?_
    rw [dot_comm, dot_sum_left]
    have := congrFun h1 i
    simp only [Matrix.mulVec, dotProduct, Matrix.of_apply, Pi.zero_apply] at this
    rw [show ∑ j, a j * dot (u j) (u i) = ∑ j, dot (u i) (u j) * a j from
      Finset.sum_congr rfl fun j _ => by rw [dot_comm, mul_comm], this, mul_zero]
  funext i
  exact Fintype.linearIndependent_iff.1 h a ((norm2_eq_zero _).1 h2) i

/-- A point with the right products with the edges is equidistant. -/
theorem equidistant_of {d n : ℕ} (v : Fin (n + 1) → Vec d) (b : Fin (n + 1) → ℝ) (hb : ∑ i, b i = 1)
    (h : ∀ j : Fin n, 2 * ∑ i : Fin n, b i.succ * dot (v i.succ - v 0) (v j.succ - v 0) =
      dot (v j.succ - v 0) (v j.succ - v 0)) (i : Fin (n + 1)) :
    norm2 ((∑ i, b i • v i) - v i) = norm2 ((∑ i, b i • v i) - v 0) := by
  have hc : (∑ i, b i • v i) - v 0 = ∑ i : Fin n, b i.succ • (v i.succ - v 0) := by
    have : v 0 = (∑ i, b i) • v 0 := by rw [hb, one_smul]
    conv_lhs => rw [this, Finset.sum_smul, ← Finset.sum_sub_distrib, Fin.sum_univ_succ]
    simp [smul_sub]
  refine Fin.cases rfl (fun j => ?_) i
  rw [show (∑ i, b i • v i) - v j.succ = ((∑ i, b i • v i) - v 0) - (v j.succ - v 0) by abel, norm2_sub,
    norm2_eq_dot ((∑ i, b i • v i) - v 0), ← h j, hc,
    dot_sum_left (fun i : Fin n => b i.succ) (fun i : Fin n => v i.succ - v 0) (v j.succ - v 0)]
  ring

theorem normalize_sum {n : ℕ} (b : Fin n → ℝ) (h : ∑ i, b i ≠ 0) : ∑ i, normalize b i = 1 := by
  simp only [normalize, ← Finset.sum_div]
  exact div_self h

/-- **C94.**  The centre of an edge is equidistant. -/
theorem C94_edge {d : ℕ} (v : Fin 2 → Vec d) (i : Fin 2) :
    norm2 (edgeCentre v - v i) = norm2 (v 0 - v 1) / 4 := by
  rw [div_eq_mul_inv, norm2, norm2, Finset.sum_mul]
  refine Finset.sum_congr rfl fun k _ => ?_
  simp only [edgeCentre, Pi.sub_apply, Pi.smul_apply, Pi.add_apply, smul_eq_mul]
  fin_cases i <;> simp <;> ring

theorem tri_core {d : ℕ} (v : Fin 3 → Vec d)
    (hv : LinearIndependent ℝ fun i : Fin 2 => v i.succ - v 0) :
    ∑ i, normalize (triBar v) i = 1 ∧
    ∀ i, norm2 (triCentre v none - v i) = norm2 (triCentre v none - v 0) := by
  have hg := gram_det_ne _ hv
  rw [Matrix.det_fin_two] at hg
  simp only [Matrix.of_apply, Fin.succ_zero_eq_one, show (Fin.succ (1 : Fin 2)) = 2 from rfl] at hg
  rw [dot_comm (v 2 - v 0) (v 1 - v 0)] at hg
  have e1 : norm2 (v 1 - v 2) = dot (v 1 - v 0) (v 1 - v 0) - 2 * dot (v 1 - v 0) (v 2 - v 0) +
      dot (v 2 - v 0) (v 2 - v 0) := by
    rw [← norm2_sub]; congr 1; abel
  have e2 : norm2 (v 0 - v 2) = dot (v 2 - v 0) (v 2 - v 0) := by
    rw [← norm2_eq_dot, norm2, norm2]
    exact Finset.sum_congr rfl fun i _ => by simp only [Pi.sub_apply]; ring
  have e3 : norm2 (v 0 - v 1) = dot (v 1 - v 0) (v 1 - v 0) := by
    rw [← norm2_eq_dot, norm2, norm2]
    exact Finset.sum_congr rfl fun i _ => by simp only [Pi.sub_apply]; ring
  have hs : ∑ i, triBar v i = 4 * (dot (v 1 - v 0) (v 1 - v 0) * dot (v 2 - v 0) (v 2 - v 0) -
      dot (v 1 - v 0) (v 2 - v 0) * dot (v 1 - v 0) (v 2 - v 0)) := by
    rw [Fin.sum_univ_three]
    simp only [triBar, e1, e2, e3, Matrix.cons_val]
    ring
  have hs0 : ∑ i, triBar v i ≠ 0 := by rw [hs]; exact mul_ne_zero (by norm_num) hg
  have hn := normalize_sum _ hs0
  simp only [triCentre, barToSpace_eq]
  refine ⟨hn, fun i => equidistant_of v _ hn (fun j => ?_) i⟩
  simp only [normalize, hs, Fin.sum_univ_two, Fin.succ_zero_eq_one, show (Fin.succ (1 : Fin 2)) = 2 from rfl]
  simp only [triBar, e1, e2, e3, Matrix.cons_val]
  have hg4 := mul_ne_zero (show (4 : ℝ) ≠ 0 by norm_num) hg
  have c1 := dot_comm (v 2 - v 0) (v 1 - v 0)
  fin_cases j
  · simp only [Fin.zero_eta, Fin.isValue, Fin.succ_zero_eq_one, c1]
    rw [div_mul_eq_mul_div, div_mul_eq_mul_div, ← add_div, mul_div_assoc', div_eq_iff hg4]
    ring
  · simp only [Fin.mk_one, Fin.isValue, show (Fin.succ (1 : Fin 2)) = 2 from rfl]
    rw [div_mul_eq_mul_div, div_mul_eq_mul_div, ← add_div, mul_div_assoc', div_eq_iff hg4]
    ring

theorem tet_core {d : ℕ} (v : Fin 4 → Vec d)
    (hv : LinearIndependent ℝ fun i : Fin 3 => v i.succ - v 0) :
    ∑ i, normalize (tetBar v) i = 1 ∧
    ∀ i, norm2 (tetCentre v none - v i) = norm2 (tetCentre v none - v 0) := by
  have hg := gram_det_ne _ hv
  rw [Matrix.det_fin_three] at hg
  have s1 : (Fin.succ (1 : Fin 3)) = 2 := rfl
  have s2 : (Fin.succ (2 : Fin 3)) = 3 := rfl
  simp only [Matrix.of_apply, Fin.succ_zero_eq_one, s1, s2] at hg
  rw [dot_comm (v 2 - v 0) (v 1 - v 0), dot_comm (v 3 - v 0) (v 1 - v 0), dot_comm (v 3 - v 0) (v 2 - v 0)] at hg
  have e1 : norm2 (v 2 - v 1) = dot (v 1 - v 0) (v 1 - v 0) - 2 * dot (v 1 - v 0) (v 2 - v 0) +
      dot (v 2 - v 0) (v 2 - v 0) := by
    rw [← norm2_sub, norm2, norm2]
    exact Finset.sum_congr rfl fun i _ => by simp only [Pi.sub_apply]; ring
  have e2 : norm2 (v 3 - v 1) = dot (v 1 - v 0) (v 1 - v 0) - 2 * dot (v 1 - v 0) (v 3 - v 0) +
      dot (v 3 - v 0) (v 3 - v 0) := by
    rw [← norm2_sub, norm2, norm2]
    exact Finset.sum_congr rfl fun i _ => by simp only [Pi.sub_apply]; ring
  have e3 : norm2 (v 3 - v 2) = dot (v 2 - v 0) (v 2 - v 0) - 2 * dot (v 2 - v 0) (v 3 - v 0) +
      dot (v 3 - v 0) (v 3 - v 0) := by
    rw [← norm2_sub, norm2, norm2]
    exact Finset.sum_congr rfl fun i _ => by simp only [Pi.sub_apply]; ring
  have f1 := norm2_eq_dot (v 1 - v 0)
  have f2 := norm2_eq_dot (v 2 - v 0)
  have f3 := norm2_eq_dot (v 3 - v 0)
  have c1 := dot_comm (v 2 - v 0) (v 1 - v 0)
  have c2 := dot_comm (v 3 - v 0) (v 1 - v 0)
  have c3 := dot_comm (v 3 - v 0) (v 2 - v 0)
  generalize hA : dot (v 1 - v 0) (v 1 - v 0) = A at *
  generalize hB : dot (v 2 - v 0) (v 2 - v 0) = B at *
  generalize hC : dot (v 3 - v 0) (v 3 - v 0) = C at *
  generalize hP : dot (v 1 - v 0) (v 2 - v 0) = P at *
  generalize hQ : dot (v 1 - v 0) (v 3 - v 0) = Q at *
  generalize hR : dot (v 2 - v 0) (v 3 - v 0) = R at *
  have hs : ∑ i, tetBar v i = 8 * (A * B * C - A * R * R - P * P * C + P * R * Q + Q * P * R - Q * B * Q) := by
    rw [Fin.sum_univ_four]
    simp only [tetBar, e1, e2, e3, f1, f2, f3, Matrix.cons_val]
    ring
  have hs0 : ∑ i, tetBar v i ≠ 0 := by rw [hs]; exact mul_ne_zero (by norm_num) hg
  have hn := normalize_sum _ hs0
  simp only [tetCentre, barToSpace_eq]
  refine ⟨hn, fun i => equidistant_of v _ hn (fun j => ?_) i⟩
  have hg8 := mul_ne_zero (show (8 : ℝ) ≠ 0 by norm_num) hg
  simp only [normalize, hs, Fin.sum_univ_three, Fin.succ_zero_eq_one, s1, s2]
  simp only [tetBar, e1, e2, e3, f1, f2, f3, Matrix.cons_val]
  fin_cases j
  · simp only [Fin.zero_eta, Fin.isValue, Fin.succ_zero_eq_one, hA, c1, c2]
    rw [div_mul_eq_mul_div, div_mul_eq_mul_div, div_mul_eq_mul_div, ← add_div, ← add_div, mul_div_assoc',
      div_eq_iff hg8]
    ring
  · simp only [Fin.mk_one, Fin.isValue, s1, hB, hP, c3]
    rw [div_mul_eq_mul_div, div_mul_eq_mul_div, div_mul_eq_mul_div, ← add_div, ← add_div, mul_div_assoc',
      div_eq_iff hg8]
    ring
  · simp only [Fin.reduceFinMk, Fin.isValue, s2, hC, hQ, hR]
    rw [div_mul_eq_mul_div, div_mul_eq_mul_div, div_mul_eq_mul_div, ← add_div, ← add_div, mul_div_assoc',
      div_eq_iff hg8]
    ring

/-- Moving the barycentric coordinates. -/
theorem forceInside_spec {n : ℕ} (eps : ℝ) (b : Fin (n + 1) → ℝ) (hb : ∑ i, b i = 1) :
    let lim := min eps (9 / 10 * (1 / ((n + 1 : ℕ) : ℝ)))
    ∑ i, forceInside eps b i = 1 ∧ (∀ i, lim ≤ forceInside eps b i) ∧
    ((∀ i, lim ≤ b i) → forceInside eps b = b) ∧
    ((∃ i, b i < lim) → (∃ i, forceInside eps b i = lim) ∧
      ∃ t : ℝ, 0 < t ∧ t < 1 ∧ ∀ i, forceInside eps b i = (1 - t) * b i + t * (1 / ((n + 1 : ℕ) : ℝ))) := by
  intro lim
  set bc : ℝ := 1 / ((n + 1 : ℕ) : ℝ) with hbc
  have hn : (0 : ℝ) < ((n + 1 : ℕ) : ℝ) := by positivity
  have hbc0 : 0 < bc := by positivity
  have hlim : (if eps > 9 / 10 * bc then 9 / 10 * bc else eps) = lim := by
    split
    · rename_i h; exact (min_eq_right (le_of_lt h)).symm
    · rename_i h; exact (min_eq_left (not_lt.1 h)).symm
  have hlt : lim < bc := lt_of_le_of_lt (min_le_right _ _) (by linarith)
  obtain ⟨im, _, him⟩ := Finset.exists_mem_eq_inf' (s := (Finset.univ : Finset (Fin (n + 1))))
    Finset.univ_nonempty b
  have hmin : ∀ i, minOf b ≤ b i := fun i => Finset.inf'_le b (Finset.mem_univ i)
  have hmim : minOf b = b im := him
  by_cases hm : minOf b < lim
  · have hf : forceInside eps b = fun i => (1 - (lim - minOf b) / (bc - minOf b)) * b i +
        (lim - minOf b) / (bc - minOf b) * bc := by
      simp only [forceInside, ← hbc, hlim, if_pos hm]
    have hd : 0 < bc - minOf b := by linarith
    have ht0 : 0 < (lim - minOf b) / (bc - minOf b) := div_pos (by linarith) hd
    have ht1 : (lim - minOf b) / (bc - minOf b) < 1 := by rw [div_lt_one hd]; linarith
    have hval : (1 - (lim - minOf b) / (bc - minOf b)) * minOf b +
        (lim - minOf b) / (bc - minOf b) * bc = lim := by
      field_simp
      ring
    rw [hf]
    refine ⟨?_, fun i => ?_, fun h => ?_, fun _ => ⟨⟨im, ?_⟩, _, ht0, ht1, fun i => rfl⟩⟩
    · rw [Finset.sum_add_distrib, ← Finset.mul_sum, hb, Finset.sum_const, Finset.card_univ, Fintype.card_fin,
        nsmul_eq_mul, hbc]
      field_simp
      ring
    · have := mul_le_mul_of_nonneg_left (hmin i) (show 0 ≤ 1 - (lim - minOf b) / (bc - minOf b) by linarith)
      simp only
      linarith
    · have := h im
      rw [← hmim] at this
      linarith
    · simp only
      rw [← hmim]
      exact hval
  · have hf : forceInside eps b = b := by
      simp only [forceInside, ← hbc, hlim, if_neg hm]
    rw [hf]
    refine ⟨hb, fun i => le_trans (not_lt.1 hm) (hmin i), fun _ => rfl, fun ⟨i, hi⟩ => ?_⟩
    exact absurd (lt_of_le_of_lt (hmin i) hi) hm

/-- **C94.**  The computed centre of a triangle that is not degenerate lies in its plane and has the same
distance from the three vertices, in a space of any dimension. -/
theorem C94_triangle {d : ℕ} (v : Fin 3 → Vec d)
    (hv : LinearIndependent ℝ fun i : Fin 2 => v i.succ - v 0) :
    (∃ b : Fin 3 → ℝ, ∑ i, b i = 1 ∧ triCentre v none = ∑ i, b i • v i) ∧
    ∀ i, norm2 (triCentre v none - v i) = norm2 (triCentre v none - v 0) :=
  ⟨⟨_, (tri_core v hv).1, by simp only [triCentre, barToSpace_eq]⟩, (tri_core v hv).2⟩

/-- **C94.**  The computed centre of a tetrahedron that is not degenerate has the same distance from the four
vertices. -/
theorem C94_tetrahedron {d : ℕ} (v : Fin 4 → Vec d)
    (hv : LinearIndependent ℝ fun i : Fin 3 => v i.succ - v 0) :
    (∃ b : Fin 4 → ℝ, ∑ i, b i = 1 ∧ tetCentre v none = ∑ i, b i • v i) ∧
    ∀ i, norm2 (tetCentre v none - v i) = norm2 (tetCentre v none - v 0) :=
  ⟨⟨_, (tet_core v hv).1, by simp only [tetCentre, barToSpace_eq]⟩, (tet_core v hv).2⟩

/-- Barycentric coordinates are unique. -/
theorem bary_unique {d n : ℕ} (v : Fin (n + 1) → Vec d)
    (hv : LinearIndependent ℝ fun i : Fin n => v i.succ - v 0) (a b : Fin (n + 1) → ℝ) (ha : ∑ i, a i = 1)
    (hb : ∑ i, b i = 1) (h : ∑ i, a i • v i = ∑ i, b i • v i) : a = b := by
  have hc : ∀ c : Fin (n + 1) → ℝ, ∑ i, c i = 1 →
      (∑ i, c i • v i) - v 0 = ∑ i : Fin n, c i.succ • (v i.succ - v 0) := by
    intro c hc1
    have : v 0 = (∑ i, c i) • v 0 := by rw [hc1, one_smul]
    conv_lhs => rw [this, Finset.sum_smul, ← Finset.sum_sub_distrib, Fin.sum_univ_succ]
    simp [smul_sub]
  have h1 : ∑ i : Fin n, (a i.succ - b i.succ) • (v i.succ - v 0) = 0 := by
    simp only [sub_smul (a _) (b _), Finset.sum_sub_distrib]
    rw [← hc a ha, ← hc b hb, h, sub_self]
  have h2 := Fintype.linearIndependent_iff.1 hv _ h1
  rw [Fin.sum_univ_succ] at ha hb
  have h3 : ∑ i : Fin n, a i.succ = ∑ i : Fin n, b i.succ :=
    Finset.sum_congr rfl fun i _ => by linarith [h2 i]
  funext i
  refine Fin.cases ?_ (fun j => ?_) i
  · linarith
  · linarith [h2 j]

/-- What `force_inside_eps` has to give: `c` is the centre of the simplex, `lim` the tolerance. -/
def MovedInside {d n : ℕ} (v : Fin (n + 1) → Vec d) (c moved : Vec d) (lim : ℝ) : Prop :=
  (∃ b : Fin (n + 1) → ℝ, ∑ i, b i = 1 ∧ (∀ i, lim ≤ b i) ∧ moved = ∑ i, b i • v i) ∧
  ∀ b : Fin (n + 1) → ℝ, ∑ i, b i = 1 → c = ∑ i, b i • v i →
    ((∀ i, lim ≤ b i) → moved = c) ∧
    ((∃ i, b i < lim) → ∃ t : ℝ, 0 < t ∧ t < 1 ∧
      moved = (1 - t) • c + t • ((1 / ((n + 1 : ℕ) : ℝ)) • ∑ i, v i) ∧
      ∃ i, (1 - t) * b i + t * (1 / ((n + 1 : ℕ) : ℝ)) = lim)

theorem movedInside_of {d n : ℕ} (v : Fin (n + 1) → Vec d)
    (hv : LinearIndependent ℝ fun i : Fin n => v i.succ - v 0) (eps : ℝ) (b : Fin (n + 1) → ℝ)
    (hb : ∑ i, b i = 1) : MovedInside v (barToSpace b v) (barToSpace (forceInside eps b) v)
      (min eps (9 / 10 * (1 / ((n + 1 : ℕ) : ℝ)))) := by
  obtain ⟨h1, h2, h3, h4⟩ := forceInside_spec eps b hb
  refine ⟨⟨_, h1, h2, barToSpace_eq _ _⟩, fun b' hb' hc => ?_⟩
  rw [barToSpace_eq] at hc
  obtain rfl := bary_unique v hv b b' hb hb' hc
  refine ⟨fun h => by rw [h3 h], fun h => ?_⟩
  obtain ⟨⟨i, hi⟩, t, t0, t1, ht⟩ := h4 h
  refine ⟨t, t0, t1, ?_, i, by rw [← ht, hi]⟩
  rw [barToSpace_eq, barToSpace_eq, Finset.smul_sum, Finset.smul_sum, Finset.smul_sum,
    ← Finset.sum_add_distrib]
  refine Finset.sum_congr rfl fun i _ => ?_
  rw [ht i, smul_smul, smul_smul, ← add_smul]

/-- **C94.**  With `force_inside_eps`, the centres are convex combinations of the vertices with coefficients
not less than the tolerance (at most nine tenths of those of the barycentre); centres that are that far
inside are not moved, the others are moved towards the barycentre just as far as needed. -/
theorem C94_force_inside {d : ℕ} (eps : ℝ) :
    (∀ v : Fin 3 → Vec d, LinearIndependent ℝ (fun i : Fin 2 => v i.succ - v 0) →
      MovedInside v (triCentre v none) (triCentre v (some eps)) (min eps (3 / 10))) ∧
    ∀ v : Fin 4 → Vec d, LinearIndependent ℝ (fun i : Fin 3 => v i.succ - v 0) →
      MovedInside v (tetCentre v none) (tetCentre v (some eps)) (min eps (9 / 40)) := by
  constructor
  · intro v hv
    have := movedInside_of v hv eps _ (tri_core v hv).1
    rw [show (9 / 10 * (1 / ((2 + 1 : ℕ) : ℝ)) : ℝ) = 3 / 10 by norm_num] at this
    exact this
  · intro v hv
    have := movedInside_of v hv eps _ (tet_core v hv).1
    rw [show (9 / 10 * (1 / ((3 + 1 : ℕ) : ℝ)) : ℝ) = 9 / 40 by norm_num] at this
    exact this

end Geo
