import Mathlib.Algebra.Order.Chebyshev
import Mathlib.Algebra.BigOperators.Field
import Mathlib.Analysis.Calculus.LocalExtr.Basic
import Mathlib.Algebra.Order.BigOperators.Group.Finset
import Verif.Ct.Props

/-!
# Properties of the contact terms: bodies and tangents
-/

open Finset

namespace Verif.Ct

/-! ## C145: the bodies -/

/-- The normal of the plane is normalized. -/
theorem C145_plane_normal_unit (dim : ℕ) (normal : ℕ → ℝ) (h : 0 < ∑ j ∈ range dim, normal j ^ 2) :
    ∑ i ∈ range dim, unitNormal dim normal i ^ 2 = 1 := by
  simp only [unitNormal, div_pow, Real.sq_sqrt h.le]
  rw [← Finset.sum_div]
  exact div_self h.ne'

/-- The distance is the signed distance of the plane: the orthogonal projection of the point is in the plane, and no
point of the plane is nearer. -/
theorem C145_plane_distance (dim : ℕ) (anchor normal x : ℕ → ℝ) (hn : ∑ i ∈ range dim, normal i ^ 2 = 1) :
    planeDistance dim anchor normal (fun i => x i - planeDistance dim anchor normal x * normal i) = 0 ∧
      ∀ y, planeDistance dim anchor normal y = 0 →
        |planeDistance dim anchor normal x| ≤ √(∑ i ∈ range dim, (x i - y i) ^ 2) := by
  constructor
  · have : ∑ i ∈ range dim, (x i - planeDistance dim anchor normal x * normal i) * normal i =
        ∑ i ∈ range dim, x i * normal i - planeDistance dim anchor normal x * ∑ i ∈ range dim, normal i ^ 2 := by
      rw [Finset.mul_sum, ← Finset.sum_sub_distrib]
      exact Finset.sum_congr rfl fun i _ => by ring
    rw [planeDistance, this, hn]
    simp only [planeDistance]; ring
  · intro y hy
    have h1 : planeDistance dim anchor normal x = ∑ i ∈ range dim, (x i - y i) * normal i := by
      have : ∑ i ∈ range dim, (x i - y i) * normal i =
          ∑ i ∈ range dim, x i * normal i - ∑ i ∈ range dim, y i * normal i := by
        rw [← Finset.sum_sub_distrib]; exact Finset.sum_congr rfl fun i _ => by ring
      rw [this]
      simp only [planeDistance] at hy ⊢
      linarith
    have h2 := Finset.sum_mul_sq_le_sq_mul_sq (range dim) (fun i => x i - y i) normal
    rw [hn, mul_one] at h2
    rw [h1]
    exact Real.abs_le_sqrt h2

/-- Moving a point along the normal does not change whether it is in the polygon, when the rotation passed the
assertion of the constructor. -/
theorem C145_plane_projection (mtx : ℕ → ℕ → ℝ) (normal x : ℕ → ℝ) (t : ℝ) (polygon : List (ℝ × ℝ))
    (h0 : ∑ j ∈ range 3, mtx 0 j * normal j = 0) (h1 : ∑ j ∈ range 3, mtx 1 j * normal j = 0) :
    Geo.inPolygon polygon (points2d mtx fun i => x i + t * normal i) = Geo.inPolygon polygon (points2d mtx x) := by
  have e : ∀ r, ∑ j ∈ range 3, mtx r j * normal j = 0 →
      ∑ j ∈ range 3, mtx r j * (x j + t * normal j) = ∑ j ∈ range 3, mtx r j * x j := fun r h => by
    have : ∑ j ∈ range 3, mtx r j * (x j + t * normal j) =
        ∑ j ∈ range 3, mtx r j * x j + t * ∑ j ∈ range 3, mtx r j * normal j := by
      rw [Finset.mul_sum, ← Finset.sum_add_distrib]; exact Finset.sum_congr rfl fun i _ => by ring
    rw [this, h, mul_zero, add_zero]
  simp only [points2d, e 0 h0, e 1 h1]

theorem zip_map_fst {α β γ : Type} (l : List α) (f : α → β) (g : α → γ) (p : α → Bool) (h : ∀ x ∈ l, p x = true) :
    List.zipWith (fun (b : Bool) (r : β × β) => if b then r.1 else r.2) (l.map p) ((l.map f).zip (l.map f)) =
      l.map f := by
  induction l with
  | nil => rfl
  | cons a t ih =>
      simp only [List.map_cons, List.zip_cons_cons, List.zipWith_cons_cons]
      rw [ih fun x hx => h x (List.mem_cons_of_mem _ hx)]
      simp [h a List.mem_cons_self]

/-- The normals of points which are not in the centre. -/
theorem C145_sphere_normals (dim : ℕ) (centre : ℕ → ℝ) (pts : List (ℕ → ℝ))
    (h : ∀ x ∈ pts, 1e-8 < centreDist dim centre x) :
    sphereNormals dim centre pts = some (pts.map fun x => sphereNormal dim centre x) := by
  classical
  have hf : pts.filter (fun x => decide (centreDist dim centre x > 1e-8)) = pts :=
    List.filter_eq_self.2 fun x hx => by simpa using h x hx
  simp only [sphereNormals, hf, whereRows, List.length_map, if_true, Option.some.injEq]
  induction pts with
  | nil => rfl
  | cons a t ih =>
      have ht := ih (fun x hx => h x (List.mem_cons_of_mem _ hx))
        (List.filter_eq_self.2 fun x hx => by simpa using h x (List.mem_cons_of_mem _ hx))
      simp only [List.map_cons, List.zip_cons_cons, List.zipWith_cons_cons, ht]
      have ha := h a List.mem_cons_self
      simp [ha]

/-- The normals are unit vectors, and follow the increase of the distance. -/
theorem C145_sphere_normal_unit (dim : ℕ) (centre x : ℕ → ℝ) (h : 0 < centreDist dim centre x) :
    ∑ i ∈ range dim, sphereNormal dim centre x i ^ 2 = 1 := by
  simp only [sphereNormal, div_pow]
  rw [← Finset.sum_div]
  have hs : centreDist dim centre x ^ 2 = ∑ i ∈ range dim, (centre i - x i) ^ 2 :=
    Real.sq_sqrt (Finset.sum_nonneg fun i _ => sq_nonneg _)
  rw [← hs]
  exact div_self (by positivity)

/-- The protection against a zero division does not work: with two or more other points, a point in the centre is
an error. -/
theorem C145_sphere_centre_error (dim : ℕ) (centre p q : ℕ → ℝ) (hp : 1e-8 < centreDist dim centre p)
    (hq : 1e-8 < centreDist dim centre q) : sphereNormals dim centre [p, centre, q] = none := by
  have hc : centreDist dim centre centre = 0 := by simp [centreDist]
  have h0 : ¬ ((0 : ℝ) > 1e-8) := by norm_num
  have hp' : centreDist dim centre p > 1e-8 := hp
  have hq' : centreDist dim centre q > 1e-8 := hq
  simp only [sphereNormals, List.map_cons, List.map_nil, List.filter_cons, List.filter_nil, hc, h0, hp', hq',
    decide_true, decide_false, if_true, Bool.false_eq_true, if_false, whereRows, List.length_cons, List.length_nil]
  norm_num

/-- With one other point, the centre gets its `centre - x`, not zero. -/
theorem C145_sphere_centre_wrong (dim : ℕ) (centre p : ℕ → ℝ) (hp : 1e-8 < centreDist dim centre p) :
    sphereNormals dim centre [p, centre] = some [sphereNormal dim centre p, fun i => centre i - p i] := by
  have hc : centreDist dim centre centre = 0 := by simp [centreDist]
  have h0 : ¬ ((0 : ℝ) > 1e-8) := by norm_num
  have hp' : centreDist dim centre p > 1e-8 := hp
  simp only [sphereNormals, List.map_cons, List.map_nil, List.filter_cons, List.filter_nil, hc, h0, hp',
    decide_true, decide_false, if_true, Bool.false_eq_true, if_false, whereRows, List.length_cons, List.length_nil]
  norm_num

/-- A sphere with radius at least one: all the points with a documented non-zero force are in the mask. -/
theorem C145_sphere_mask (dim : ℕ) (centre x : ℕ → ℝ) (radius e k f0 : ℝ) (h : GoodPars k f0) (hr : 1 ≤ radius)
    (he : -epsPar k f0 ≤ e) (hf : docForce k f0 (sphereDistance dim centre radius x) ≠ 0) :
    sphereMask dim centre radius e x := by
  have hs : (centreDist dim centre x) ^ 2 = ∑ i ∈ range dim, (x i - centre i) ^ 2 := by
    rw [centreDist, Real.sq_sqrt (Finset.sum_nonneg fun i _ => sq_nonneg _)]
    exact Finset.sum_congr rfl fun i _ => by ring
  have hd0 : 0 ≤ centreDist dim centre x := Real.sqrt_nonneg _
  have hneg : epsPar k f0 ≤ 0 := by
    obtain ⟨hk, rfl | hf0⟩ := h
    · simp only [epsPar]; rw [if_neg (by norm_num)]
    · have : 0 < f0 := lt_of_lt_of_le (by norm_num) hf0
      simp only [epsPar, ge_iff_le, hf0, if_true]
      apply div_nonpos_of_nonpos_of_nonneg _ hk.le
      norm_num; exact this.le
  have hlt : epsPar k f0 < sphereDistance dim centre radius x := by
    by_contra hcon
    apply hf
    rw [← C145_force_law k f0 _ h]
    simp only [force, smoothF]
    rw [if_neg (fun h => hcon h.1), if_neg (not_lt.2 ((not_lt.1 hcon).trans hneg))]
  have he0 : 0 ≤ e := by linarith
  rw [sphereMask, ← hs, ← mul_pow]
  apply pow_le_pow_left₀ hd0
  simp only [sphereDistance] at hlt
  nlinarith

/-- A sphere with a small radius: the mask cuts a documented force. -/
theorem C145_sphere_mask_small : ∃ (centre x : ℕ → ℝ) (radius k f0 : ℝ), GoodPars k f0 ∧ 0 < radius ∧
    ¬ sphereMask 3 centre radius |epsPar k f0| x ∧ 0 < docForce k f0 (sphereDistance 3 centre radius x) := by
  have he : epsPar 2 1 = -1 := by simp only [epsPar]; norm_num
  refine ⟨fun _ => 0, fun i => if i = 0 then 1 / 2 else 0, 1 / 10, 2, 1, ⟨by norm_num, Or.inr (by norm_num)⟩,
    by norm_num, ?_, ?_⟩
  · rw [he]
    simp only [sphereMask, Finset.sum_range_succ, Finset.sum_range_zero]
    norm_num
  · have : centreDist 3 (fun _ => 0) (fun i => if i = 0 then 1 / 2 else 0) = 1 / 2 := by
      simp only [centreDist, Finset.sum_range_succ, Finset.sum_range_zero]
      have e : (0 : ℝ) + (0 - (if (0:ℕ) = 0 then (1:ℝ) / 2 else 0)) ^ 2 +
          (0 - (if (1:ℕ) = 0 then (1:ℝ) / 2 else 0)) ^ 2 +
          (0 - (if (2:ℕ) = 0 then (1:ℝ) / 2 else 0)) ^ 2 = (1 / 2) ^ 2 := by norm_num
      refine (congrArg Real.sqrt e).trans ?_
      exact Real.sqrt_sq (by norm_num)
    simp only [sphereDistance, this, docForce]
    norm_num

/-! ## C146: the tangents -/

theorem sum_flat (dim nep : ℕ) (f : ℕ → ℝ) :
    ∑ l ∈ range (dim * nep), f l = ∑ j ∈ range dim, ∑ b ∈ range nep, f (j * nep + b) := by
  induction dim with
  | zero => simp
  | succ d ih => rw [Nat.succ_mul, Finset.sum_range_add, ih, Finset.sum_range_succ]

theorem nbf_flat (nep : ℕ) (N normal : ℕ → ℝ) (j b : ℕ) (hb : b < nep) :
    nbf nep N normal (j * nep + b) = N b * normal j := by
  have h1 : (j * nep + b) % nep = b := by
    rw [Nat.mul_comm, Nat.mul_add_mod, Nat.mod_eq_of_lt hb]
  have h2 : (j * nep + b) / nep = j := by
    rw [Nat.mul_comm, Nat.mul_add_div (by omega), Nat.div_eq_of_lt hb, add_zero]
  rw [nbf, h1, h2]

/-- The product of the vector of the basis with a local vector is the value in the normal direction. -/
theorem nbf_sum (dim nep : ℕ) (N normal w : ℕ → ℝ) :
    ∑ l ∈ range (dim * nep), nbf nep N normal l * w l =
      ∑ j ∈ range dim, normal j * ∑ b ∈ range nep, N b * w (j * nep + b) := by
  rw [sum_flat]
  refine Finset.sum_congr rfl fun j _ => ?_
  rw [Finset.mul_sum]
  refine Finset.sum_congr rfl fun b hb => ?_
  rw [nbf_flat nep N normal j b (Finset.mem_range.1 hb)]; ring

theorem vb_flat (nep : ℕ) (N : ℕ → ℝ) (i j b : ℕ) (hb : b < nep) :
    vb nep N i (j * nep + b) = if i = j then N b else 0 := by
  simp only [vb]
  by_cases h : i = j
  · subst h
    rw [if_pos ⟨by omega, by rw [Nat.succ_mul]; omega⟩, if_pos rfl]
    congr 1; omega
  · rw [if_neg h, if_neg]
    rintro ⟨h1, h2⟩
    rcases Nat.lt_or_gt_of_ne h with h3 | h3
    · have := Nat.mul_le_mul_right nep (show i + 1 ≤ j from h3); omega
    · have := Nat.mul_le_mul_right nep (show j + 1 ≤ i from h3); rw [Nat.succ_mul] at this; omega

theorem eebf2_sum (dim nep : ℕ) (N w : ℕ → ℝ) (i a : ℕ) (hi : i < dim) (ha : a < nep) :
    ∑ l ∈ range (dim * nep), eebf2 dim nep N (i * nep + a) l * w l =
      N a * ∑ b ∈ range nep, N b * w (i * nep + b) := by
  rw [sum_flat]
  rw [Finset.sum_eq_single i]
  · rw [Finset.mul_sum]
    refine Finset.sum_congr rfl fun b hb => ?_
    have hb' := Finset.mem_range.1 hb
    simp only [eebf2]
    rw [Finset.sum_eq_single i]
    · rw [vb_flat nep N i i a ha, vb_flat nep N i i b hb']; simp; ring
    · intro j _ hj; rw [vb_flat nep N j i a ha]; simp [hj]
    · intro h; exact absurd (Finset.mem_range.2 hi) h
  · intro j _ hj
    refine Finset.sum_eq_zero fun b hb => ?_
    have hb' := Finset.mem_range.1 hb
    simp only [eebf2]
    rw [Finset.sum_eq_zero, zero_mul]
    intro m _
    rw [vb_flat nep N m i a ha, vb_flat nep N m j b hb']
    by_cases h1 : m = i
    · have h2 : ¬ m = j := fun h2 => hj (h2.symm.trans h1)
      simp [h2]
    · simp [h1]
  · intro h; exact absurd (Finset.mem_range.2 hi) h

theorem deformed_line (nep : ℕ) (X N u w : ℕ → ℝ) (t : ℝ) (i : ℕ) :
    deformed nep X N (fun l => u l + t * w l) i =
      deformed nep X N u i + t * ∑ b ∈ range nep, N b * w (i * nep + b) := by
  simp only [deformed]
  have : ∑ a ∈ range nep, N a * (u (i * nep + a) + t * w (i * nep + a)) =
      ∑ a ∈ range nep, N a * u (i * nep + a) + t * ∑ b ∈ range nep, N b * w (i * nep + b) := by
    rw [Finset.mul_sum, ← Finset.sum_add_distrib]; exact Finset.sum_congr rfl fun i _ => by ring
  rw [this]; ring

/-- The matrix of the plane term is the derivative of the vector in every direction. -/
theorem C146_plane_tangent (nq dim nep : ℕ) (wt : ℕ → ℝ) (X N : ℕ → ℕ → ℝ) (k f0 : ℕ → ℝ) (mask : ℕ → Prop)
    (anchor normal u w : ℕ → ℝ) (r : ℕ) (hp : ∀ q < nq, GoodPars (k q) (f0 q))
    (hc : ∀ q < nq, mask q → f0 q = 0 → planeDistance dim anchor normal (deformed nep (X q) (N q) u) ≠ 0) :
    HasDerivAt (fun t => planeVec nq dim nep wt X N k f0 mask anchor normal (fun l => u l + t * w l) r)
      (∑ l ∈ range (dim * nep), planeMat nq dim nep wt X N k f0 mask anchor normal u r l * w l) 0 := by
  classical
  have hval : ∑ l ∈ range (dim * nep), planeMat nq dim nep wt X N k f0 mask anchor normal u r l * w l =
      ∑ q ∈ range nq, wt q * ((if mask q then
        force (k q) (f0 q) (planeDistance dim anchor normal (deformed nep (X q) (N q) u)) true *
          (∑ j ∈ range dim, normal j * ∑ b ∈ range nep, N q b * w (j * nep + b)) else 0) *
        nbf nep (N q) normal r) := by
    simp only [planeMat, Finset.sum_mul]
    rw [Finset.sum_comm]
    refine Finset.sum_congr rfl fun q _ => ?_
    rw [← nbf_sum]
    by_cases hm : mask q
    · simp only [hm, if_true, Finset.mul_sum, Finset.sum_mul]
      exact Finset.sum_congr rfl fun l _ => by ring
    · simp [hm]
  rw [hval]
  simp only [planeVec]
  refine HasDerivAt.fun_sum fun q hq => ?_
  refine HasDerivAt.const_mul (wt q) (HasDerivAt.mul_const ?_ _)
  by_cases hm : mask q
  · simp only [hm, if_true]
    set x := deformed nep (X q) (N q) u with hx
    set s := ∑ j ∈ range dim, normal j * ∑ b ∈ range nep, N q b * w (j * nep + b) with hs
    have hline : ∀ t, planeDistance dim anchor normal (deformed nep (X q) (N q) fun l => u l + t * w l) =
        planeDistance dim anchor normal x + t * s := by
      intro t
      simp only [planeDistance, deformed_line, hs, ← hx]
      have : ∑ i ∈ range dim, (x i + t * ∑ b ∈ range nep, N q b * w (i * nep + b)) * normal i =
          ∑ i ∈ range dim, x i * normal i +
            t * ∑ j ∈ range dim, normal j * ∑ b ∈ range nep, N q b * w (j * nep + b) := by
        rw [Finset.mul_sum, ← Finset.sum_add_distrib]; exact Finset.sum_congr rfl fun i _ => by ring
      rw [this]; ring
    simp only [hline]
    have hq' := Finset.mem_range.1 hq
    have hF := C145_force_deriv (k q) (f0 q) (planeDistance dim anchor normal x) (hp q hq') (hc q hq' hm)
    have hl : HasDerivAt (fun t : ℝ => planeDistance dim anchor normal x + t * s) s 0 := by
      simpa using ((hasDerivAt_id (0 : ℝ)).mul_const s).const_add (planeDistance dim anchor normal x)
    have h0 : planeDistance dim anchor normal x + (0 : ℝ) * s = planeDistance dim anchor normal x := by ring
    exact HasDerivAt.comp_of_eq (0 : ℝ) hF hl h0.symm
  · simp only [hm, if_false]
    exact hasDerivAt_const _ _

/-- The force of a sphere in a moving point. -/
theorem sphere_deriv (dim : ℕ) (centre x v : ℕ → ℝ) (radius f f' : ℝ) (F : ℝ → ℝ)
    (hd : 0 < centreDist dim centre x) (hF : HasDerivAt F f' (sphereDistance dim centre radius x))
    (hf : F (sphereDistance dim centre radius x) = f) (i : ℕ) :
    HasDerivAt (fun t => F (sphereDistance dim centre radius fun j => x j + t * v j) *
        sphereNormal dim centre (fun j => x j + t * v j) i)
      (f' * sphereNormal dim centre x i * (∑ j ∈ range dim, sphereNormal dim centre x j * v j) -
        f / centreDist dim centre x *
          (v i - sphereNormal dim centre x i * ∑ j ∈ range dim, sphereNormal dim centre x j * v j)) 0 := by
  set D := centreDist dim centre x with hD
  set s := ∑ j ∈ range dim, sphereNormal dim centre x j * v j with hs
  have hS : ∀ j, HasDerivAt (fun t : ℝ => centre j - (x j + t * v j)) (-v j) 0 := fun j => by
    simpa using (((hasDerivAt_id (0 : ℝ)).mul_const (v j)).const_add (x j)).const_sub (centre j)
  have hsq : HasDerivAt (fun t : ℝ => ∑ j ∈ range dim, (centre j - (x j + t * v j)) ^ 2)
      (-2 * (D * s)) 0 := by
    have h1 : HasDerivAt (fun t : ℝ => ∑ j ∈ range dim, (centre j - (x j + t * v j)) ^ 2)
        (∑ j ∈ range dim, 2 * (centre j - x j) * -v j) 0 := by
      refine HasDerivAt.fun_sum fun j _ => ?_
      refine ((hS j).pow 2).congr_deriv ?_
      simp
    refine h1.congr_deriv ?_
    rw [hs, Finset.mul_sum, Finset.mul_sum]
    refine Finset.sum_congr rfl fun j _ => ?_
    simp only [sphereNormal, ← hD]
    field_simp
  have hdist : HasDerivAt (fun t : ℝ => centreDist dim centre fun j => x j + t * v j) (-s) 0 := by
    have hne : (∑ j ∈ range dim, (centre j - (x j + (0:ℝ) * v j)) ^ 2) ≠ 0 := by
      simp only [zero_mul, add_zero]
      intro h0
      rw [hD, centreDist, h0, Real.sqrt_zero] at hd
      exact lt_irrefl _ hd
    refine (hsq.sqrt hne).congr_deriv ?_
    have : √(∑ j ∈ range dim, (centre j - (x j + (0:ℝ) * v j)) ^ 2) = D := by
      simp only [zero_mul, add_zero, hD, centreDist]
    rw [this]
    field_simp
  have hx0 : (fun j => x j + (0:ℝ) * v j) = x := by funext j; ring
  have hnorm : HasDerivAt (fun t : ℝ => sphereNormal dim centre (fun j => x j + t * v j) i)
      (-(v i - sphereNormal dim centre x i * s) / D) 0 := by
    have := (hS i).div hdist (by rw [hx0]; exact hd.ne')
    refine this.congr_deriv ?_
    rw [hx0]
    simp only [sphereNormal, ← hD, zero_mul, add_zero]
    field_simp
    ring
  have hforce : HasDerivAt (fun t : ℝ => F (sphereDistance dim centre radius fun j => x j + t * v j)) (f' * s) 0 := by
    have h1 : HasDerivAt (fun t : ℝ => sphereDistance dim centre radius fun j => x j + t * v j) s 0 := by
      simpa [sphereDistance] using hdist.const_sub radius
    exact (show HasDerivAt F f' (sphereDistance dim centre radius fun j => x j + (0:ℝ) * v j) from
      hx0.symm ▸ hF).comp (0 : ℝ) h1
  refine (hforce.mul hnorm).congr_deriv ?_
  rw [hx0, hf]
  field_simp
  ring

/-- The contact points matter only. -/
theorem sphere_unmasked (nq dim nep : ℕ) (X N : ℕ → ℕ → ℝ) (k f0 : ℕ → ℝ) (centre : ℕ → ℝ) (radius : ℝ)
    (hp : ∀ q ≤ nq, GoodPars (k q) (f0 q)) (hr : 1 ≤ radius) (q : ℕ) (hq : q ≤ nq) (x : ℕ → ℝ)
    (hm : ¬ sphereMask dim centre radius (maskEps nq k f0) x) :
    force (k q) (f0 q) (sphereDistance dim centre radius x) false = 0 := by
  by_contra hne
  rw [C145_force_law _ _ _ (hp q hq)] at hne
  apply hm
  refine C145_sphere_mask dim centre x radius _ (k q) (f0 q) (hp q hq) hr ?_ hne
  have h1 : (range (nq + 1)).inf' (by simp) (fun q => epsPar (k q) (f0 q)) ≤ epsPar (k q) (f0 q) :=
    Finset.inf'_le _ (Finset.mem_range.2 (by omega))
  have h2 := neg_le_abs ((range (nq + 1)).inf' (by simp) fun q => epsPar (k q) (f0 q))
  rw [maskEps]; linarith

/-- The vector of the sphere term is the documented force, with the normals towards the centre. -/
theorem C146_sphere_vec (nq dim nep : ℕ) (wt : ℕ → ℝ) (X N : ℕ → ℕ → ℝ) (k f0 centre : ℕ → ℝ)
    (radius : ℝ) (u : ℕ → ℝ) (i a : ℕ) (ha : a < nep) (hp : ∀ q ≤ nq, GoodPars (k q) (f0 q)) (hr : 1 ≤ radius) :
    sphereVec nq dim nep wt X N k f0 centre radius u (i * nep + a) =
      ∑ q ∈ range (nq + 1), wt q * (N q a *
        (docForce (k q) (f0 q) (sphereDistance dim centre radius (deformed nep (X q) (N q) u)) *
          sphereNormal dim centre (deformed nep (X q) (N q) u) i)) := by
  classical
  simp only [sphereVec]
  refine Finset.sum_congr rfl fun q hq => ?_
  have hq' : q ≤ nq := by have := Finset.mem_range.1 hq; omega
  rw [← C145_force_law _ _ _ (hp q hq'), nbf_flat nep (N q) _ i a ha]
  split_ifs with hm
  · ring
  · rw [sphere_unmasked nq dim nep X N k f0 centre radius hp hr q hq' _ hm]; ring

/-- The vector of the plane term is the documented force in the direction of the normal. -/
theorem C146_plane_vec (nq dim nep : ℕ) (wt : ℕ → ℝ) (X N : ℕ → ℕ → ℝ) (k f0 : ℕ → ℝ) (anchor normal u : ℕ → ℝ)
    (i a : ℕ) (ha : a < nep) (hp : ∀ q < nq, GoodPars (k q) (f0 q)) :
    planeVec nq dim nep wt X N k f0 (fun _ => True) anchor normal u (i * nep + a) =
      ∑ q ∈ range nq, wt q * (N q a *
        (docForce (k q) (f0 q) (planeDistance dim anchor normal (deformed nep (X q) (N q) u)) * normal i)) := by
  simp only [planeVec, if_true]
  refine Finset.sum_congr rfl fun q hq => ?_
  rw [← C145_force_law _ _ _ (hp q (Finset.mem_range.1 hq)), nbf_flat nep (N q) _ i a ha]
  ring

/-- The matrix of the sphere term is the derivative of the vector in every direction, for a sphere with radius at
least one, when no quadrature point is in the centre, and, in the points with `f0 = 0`, none is on the surface. -/
theorem C146_sphere_tangent (nq dim nep : ℕ) (wt : ℕ → ℝ) (X N : ℕ → ℕ → ℝ) (k f0 centre : ℕ → ℝ)
    (radius : ℝ) (u w : ℕ → ℝ) (i a : ℕ) (hi : i < dim) (ha : a < nep) (hp : ∀ q ≤ nq, GoodPars (k q) (f0 q))
    (hr : 1 ≤ radius) (hc : ∀ q ≤ nq, 0 < centreDist dim centre (deformed nep (X q) (N q) u))
    (hs : ∀ q ≤ nq, f0 q = 0 → sphereDistance dim centre radius (deformed nep (X q) (N q) u) ≠ 0) :
    HasDerivAt (fun t => sphereVec nq dim nep wt X N k f0 centre radius (fun l => u l + t * w l) (i * nep + a))
      (∑ l ∈ range (dim * nep), sphereMat nq dim nep wt X N k f0 centre radius u (i * nep + a) l * w l) 0 := by
  classical
  have hfun : (fun t => sphereVec nq dim nep wt X N k f0 centre radius (fun l => u l + t * w l) (i * nep + a)) =
      fun t => ∑ q ∈ range (nq + 1), wt q * (N q a *
        (force (k q) (f0 q) (sphereDistance dim centre radius fun j => deformed nep (X q) (N q) u j +
            t * ∑ b ∈ range nep, N q b * w (j * nep + b)) false *
          sphereNormal dim centre (fun j => deformed nep (X q) (N q) u j +
            t * ∑ b ∈ range nep, N q b * w (j * nep + b)) i)) := by
    funext t
    rw [C146_sphere_vec nq dim nep wt X N k f0 centre radius _ i a ha hp hr]
    refine Finset.sum_congr rfl fun q hq => ?_
    have hq' : q ≤ nq := by have := Finset.mem_range.1 hq; omega
    have hl : deformed nep (X q) (N q) (fun l => u l + t * w l) = fun j => deformed nep (X q) (N q) u j +
            t * ∑ b ∈ range nep, N q b * w (j * nep + b) := funext fun j => deformed_line nep (X q) (N q) u w t j
    rw [hl, C145_force_law _ _ _ (hp q hq')]
  rw [hfun]
  have hval : ∑ l ∈ range (dim * nep), sphereMat nq dim nep wt X N k f0 centre radius u (i * nep + a) l * w l =
      ∑ q ∈ range (nq + 1), wt q * (N q a *
        (force (k q) (f0 q) (sphereDistance dim centre radius (deformed nep (X q) (N q) u)) true *
            sphereNormal dim centre (deformed nep (X q) (N q) u) i *
            (∑ j ∈ range dim, sphereNormal dim centre (deformed nep (X q) (N q) u) j *
              ∑ b ∈ range nep, N q b * w (j * nep + b)) -
          force (k q) (f0 q) (sphereDistance dim centre radius (deformed nep (X q) (N q) u)) false /
              centreDist dim centre (deformed nep (X q) (N q) u) *
            (∑ b ∈ range nep, N q b * w (i * nep + b) - sphereNormal dim centre (deformed nep (X q) (N q) u) i *
              ∑ j ∈ range dim, sphereNormal dim centre (deformed nep (X q) (N q) u) j *
                ∑ b ∈ range nep, N q b * w (j * nep + b)))) := by
    simp only [sphereMat, Finset.sum_mul]
    rw [Finset.sum_comm]
    refine Finset.sum_congr rfl fun q hq => ?_
    have hq' : q ≤ nq := by have := Finset.mem_range.1 hq; omega
    set x := deformed nep (X q) (N q) u
    set d := sphereDistance dim centre radius x with hd
    have hrd : radius - d = centreDist dim centre x := by rw [hd, sphereDistance]; ring
    by_cases hm : sphereMask dim centre radius (maskEps nq k f0) x
    · simp only [hm, if_true, nbf_flat nep (N q) _ i a ha, hrd]
      have e1 := nbf_sum dim nep (N q) (sphereNormal dim centre x) w
      have e2 := eebf2_sum dim nep (N q) w i a hi ha
      set T := force (k q) (f0 q) d true
      set P := force (k q) (f0 q) d false / centreDist dim centre x
      set n := sphereNormal dim centre x i
      have : ∑ l ∈ range (dim * nep), wt q * (T * (N q a * n * nbf nep (N q) (sphereNormal dim centre x) l) -
            P * (eebf2 dim nep (N q) (i * nep + a) l -
              N q a * n * nbf nep (N q) (sphereNormal dim centre x) l)) * w l =
          wt q * (T * (N q a * n * ∑ l ∈ range (dim * nep), nbf nep (N q) (sphereNormal dim centre x) l * w l) -
            P * ((∑ l ∈ range (dim * nep), eebf2 dim nep (N q) (i * nep + a) l * w l) -
              N q a * n * ∑ l ∈ range (dim * nep), nbf nep (N q) (sphereNormal dim centre x) l * w l)) := by
        simp only [Finset.mul_sum, ← Finset.sum_sub_distrib]
        exact Finset.sum_congr rfl fun l _ => by ring
      rw [this, e1, e2]
      ring
    · have h0 := sphere_unmasked nq dim nep X N k f0 centre radius hp hr q hq' x hm
      have h1 : force (k q) (f0 q) d true = 0 := by
        have hF := C145_force_deriv (k q) (f0 q) d (hp q hq') (hs q hq')
        have hmin : IsLocalMin (fun y => force (k q) (f0 q) y false) d :=
          Filter.Eventually.of_forall fun y => by
            simp only [← hd] at h0 ⊢
            rw [h0]; exact C145_force_nonneg _ _ _ (hp q hq')
        exact hmin.hasDerivAt_eq_zero hF
      simp only [hm, if_false, zero_mul, Finset.sum_const_zero]
      rw [h1, h0]; ring
  rw [hval]
  refine HasDerivAt.fun_sum fun q hq => ?_
  have hq' : q ≤ nq := by have := Finset.mem_range.1 hq; omega
  refine HasDerivAt.const_mul (wt q) (HasDerivAt.const_mul (N q a) ?_)
  exact sphere_deriv dim centre (deformed nep (X q) (N q) u)
    (fun j => ∑ b ∈ range nep, N q b * w (j * nep + b)) radius _ _ (fun y => force (k q) (f0 q) y false)
    (hc q hq') (C145_force_deriv (k q) (f0 q) _ (hp q hq') (hs q hq')) rfl i

/-! ## The hypotheses are met -/

example : GoodPars 2 1 ∧ GoodPars 3 0 := ⟨⟨by norm_num, Or.inr (by norm_num)⟩, ⟨by norm_num, Or.inl rfl⟩⟩

/-- A force is applied before the contact. -/
example : 0 < force 2 1 (-1 / 2) false := by
  rw [C145_force_law 2 1 _ ⟨by norm_num, Or.inr (by norm_num)⟩]
  norm_num [docForce]

/-- Two quadrature points, one outside and one inside of the sphere. -/
example : ∃ (X N : ℕ → ℕ → ℝ) (u : ℕ → ℝ), (∀ q ≤ 1, GoodPars 2 1) ∧ (1 : ℝ) ≤ 2 ∧
    (∀ q ≤ 1, 0 < centreDist 3 (fun _ => 0) (deformed 1 (X q) (N q) u)) ∧
    (∀ q ≤ 1, (1 : ℝ) = 0 → sphereDistance 3 (fun _ => 0) 2 (deformed 1 (X q) (N q) u) ≠ 0) ∧
    0 < docForce 2 1 (sphereDistance 3 (fun _ => 0) 2 (deformed 1 (X 0) (N 0) u)) := by
  have e : ∀ q : ℕ, centreDist 3 (fun _ => 0) (deformed 1 (fun i => if i = 0 then 1 + (q : ℝ) else 0) (fun _ => 1)
      (fun _ => 0)) = 1 + (q : ℝ) := by
    intro q
    have : ∑ i ∈ range 3, ((0 : ℝ) - deformed 1 (fun i => if i = 0 then 1 + (q : ℝ) else 0) (fun _ => 1)
      (fun _ => 0) i) ^ 2 = (1 + (q : ℝ)) ^ 2 := by
      simp [Finset.sum_range_succ, deformed]
    simp only [centreDist]
    rw [this, Real.sqrt_sq (by positivity)]
  refine ⟨fun q i => if i = 0 then 1 + (q : ℝ) else 0, fun _ _ => 1, fun _ => 0,
    fun _ _ => ⟨by norm_num, Or.inr (by norm_num)⟩, by norm_num, fun q _ => ?_, fun q _ h => absurd h one_ne_zero, ?_⟩
  · rw [e q]; positivity
  · simp only [sphereDistance]
    rw [e 0]; norm_num [docForce]

end Verif.Ct
