/-
Concrete cases that meet the hypotheses of the theorems on geometry (C93-C96).
-/
import Verif.Geo.Bodies
import Verif.Geo.Polygon

namespace Geo

/-- A triangle. -/
def exTri : Fin 3 → Vec 2 := ![![0, 0], ![4, 0], ![0, 2]]

theorem exTri_volume : simplexVolume exTri = 4 := by
  norm_num [simplexVolume, exTri, Matrix.det_fin_two, Nat.factorial]

/-- C93: a triangle with a nonzero volume; the point (1, 1) has the coordinates (1/4, 1/4, 1/2). -/
example : ∃ bc, barycentricCoors exTri ![1, 1] = some bc ∧ bc = ![1 / 4, 1 / 4, 1 / 2] := by
  obtain ⟨bc, h1, -, -, h4⟩ := C93_barycentric exTri (by rw [exTri_volume]; norm_num) ![1, 1]
  refine ⟨bc, h1, (h4 _ ?_ ?_).symm⟩
  · simp [Fin.sum_univ_three]; norm_num
  · funext k
    have e2 : ∀ a b c : ℝ, (![a, b, c] : Fin (2 + 1) → ℝ) 2 = c := fun _ _ _ => rfl
    rw [Finset.sum_apply, Fin.sum_univ_three]
    fin_cases k <;> simp only [exTri, Pi.smul_apply, smul_eq_mul, e2]
    · change (1 / 4 : ℝ) * 0 + 1 / 4 * 4 + 1 / 2 * 0 = 1; norm_num
    · change (1 / 4 : ℝ) * 0 + 1 / 4 * 0 + 1 / 2 * 2 = 1; norm_num

/-- C93: a degenerate triangle. -/
example : simplexVolume (![![0, 0], ![1, 1], ![2, 2]] : Fin 3 → Vec 2) = 0 := by
  simp [simplexVolume, Matrix.det_fin_two]

/-- C93: a convex quadrilateral meets the hypothesis of the area theorem. -/
example : 0 ≤ orient2 ![0, 0] ![2, 0] ![3, 2] * orient2 ![0, 0] ![3, 2] ![0, 1] := by
  norm_num [orient2]

/-- C94: the triangle is not degenerate. -/
example : LinearIndependent ℝ fun i : Fin 2 => exTri i.succ - exTri 0 := by
  have h0 : (fun i : Fin 2 => exTri i.succ - exTri 0) = ![exTri 1 - exTri 0, exTri 2 - exTri 0] := by
    funext i; fin_cases i <;> rfl
  rw [h0, LinearIndependent.pair_iff' (by
    intro h
    have := congrFun h 0
    simp [exTri] at this)]
  intro a h
  have := congrFun h 1
  simp [exTri] at this

/-- C94: its centre, the middle of the longest side. -/
example : triCentre exTri none = ![2, 1] := by
  funext k
  fin_cases k <;> simp [triCentre, barToSpace_eq, normalize, triBar, exTri, norm2, Fin.sum_univ_three,
    Fin.sum_univ_two] <;> norm_num

/-- A unit square, counterclockwise. -/
def exSquare : List (ℝ × ℝ) := [(0, 0), (1, 0), (1, 1), (0, 1)]

/-- C95: the square is strictly convex. -/
theorem exSquare_convex : StrictlyConvex exSquare := by
  constructor
  · simp [exSquare]
  · intro e he v hv
    simp only [exSquare, sides, List.getLast?, List.getLast, Option.toList, List.cons_append, List.nil_append,
      List.zip_cons_cons, List.zip_nil_right, List.mem_cons, List.not_mem_nil, or_false] at he hv
    rcases he with rfl | rfl | rfl | rfl <;> rcases hv with rfl | rfl | rfl | rfl <;> simp [orient]

/-- C95: the points of the open square are flagged, the points with a large coordinate are not. -/
example (x y : ℝ) (hx : 0 < x ∧ x < 1) (hy : 0 < y ∧ y < 1) : inPolygon exSquare (x, y) = true := by
  refine C95_convex_inside exSquare (by simp [exSquare]) exSquare_convex _ ?_
  intro e he
  simp only [exSquare, sides, List.getLast?, List.getLast, Option.toList, List.cons_append, List.nil_append,
    List.zip_cons_cons, List.zip_nil_right, List.mem_cons, List.not_mem_nil, or_false] at he
  rcases he with rfl | rfl | rfl | rfl <;> simp [orient] <;> linarith

/-- C95: the boundary belongs to the polygon on the left and at the bottom only. -/
example : inPolygon exSquare (0, 1 / 2) = true ∧ inPolygon exSquare (1, 1 / 2) = false ∧
    inPolygon exSquare (1 / 2, 0) = true ∧ inPolygon exSquare (1 / 2, 1) = false := by
  simp [inPolygon, exSquare, flips]
  norm_num

/-- C96: a vector near the third axis, for which the second auxiliary vector is used. -/
example : norm (cross (fun i => (![0, 0, 2] : Vec 3) i / norm ![0, 0, 2]) ![0, 0, 1]) < 1 / 10 := by
  simp [cross, norm, norm2, Fin.sum_univ_three]

example : (![0, 0, 2] : Vec 3) ≠ 0 := by
  intro h; have := congrFun h 2; simp at this

/-- C96: a unit axis. -/
theorem exAxis : IsUnit' (![0, 3 / 5, 4 / 5] : Vec 3) := by
  simp [IsUnit', Fin.sum_univ_three]; norm_num

/-- C96: a point with given coordinates with respect to the axis. -/
example : TubeCoors 0 ![0, 3 / 5, 4 / 5] ![2, 3, 4] 5 2 := by
  refine ⟨?_, by norm_num, ?_⟩
  · simp [Orth, Fin.sum_univ_three]; norm_num
  · simp [Fin.sum_univ_three]; norm_num

/-- C96: the ball, outside of two radii: the point at the distance 5 satisfies the documented condition and is
not returned. -/
example : coorsInBall [(![3, 4] : Vec 2)] 0 4 (some 1) false = [] ∧
    (4 : ℝ) ≤ √(∑ k, ((![3, 4] : Vec 2) k - (0 : Vec 2) k) ^ 2) := by
  refine ⟨(C96_ball_outside_two_radii _ _ _ _).2.1 (by norm_num), ?_⟩
  rw [Fin.sum_univ_two]
  refine Real.le_sqrt_of_sq_le ?_
  norm_num

/-- C96: the default tolerance and a normal in a general position. -/
example : (0 : ℝ) < 1 / 10 ^ 14 ∧ (1 : ℝ) / 10 ^ 14 ≤ 1 / 10 ^ 13 ∧
    ((1 : ℝ) / 10 ^ 14) ^ 2 * (∑ i, (![2, -1, 1] : Vec 3) i ^ 2) ≤
      (![2, -1, 1] : Vec 3) 0 ^ 2 + (![2, -1, 1] : Vec 3) 1 ^ 2 := by
  refine ⟨by norm_num, by norm_num, ?_⟩
  simp [Fin.sum_univ_three]
  norm_num

/-- C96: the normal against the axis `z`. -/
example : (![0, 0, -3] : Vec 3) 0 ^ 2 + (![0, 0, -3] : Vec 3) 1 ^ 2 = 0 ∧ (![0, 0, -3] : Vec 3) ≠ 0 := by
  refine ⟨by simp, fun h => ?_⟩
  have := congrFun h 2
  simp at this

/-- C96: one far point and the centre: the "normal" returned for the centre is the vector of the far point. -/
example : sphereNormals (0 : Vec 2) [![0, 0], ![3, 4]] = some [![-3, -4], ![-3 / 5, -4 / 5]] := by
  have h5 : √(∑ i, ((0 : Vec 2) i - (![3, 4] : Vec 2) i) ^ 2) = 5 := by
    rw [Fin.sum_univ_two, show ((0 : Vec 2) 0 - (![3, 4] : Vec 2) 0) ^ 2 + ((0 : Vec 2) 1 - (![3, 4] : Vec 2) 1) ^ 2 =
      5 ^ 2 by simp; norm_num]
    exact Real.sqrt_sq (by norm_num)
  have h0 : √(∑ i, ((0 : Vec 2) i - (![0, 0] : Vec 2) i) ^ 2) = 0 := by
    simp [Fin.sum_univ_two]
  have := (C96_sphere_normals_near (0 : Vec 2) [![0, 0], ![3, 4]] (by simp)
    ⟨![0, 0], by simp, by rw [h0]; norm_num⟩).2 [![0, 0]] ![3, 4] [] rfl (by rw [h5]; norm_num)
    (by simp only [List.append_nil, List.mem_singleton]; rintro y rfl; rw [h0]; norm_num)
  rw [this]
  simp only [List.map_cons, List.map_nil, List.cons_append, List.nil_append, h5]
  congr 2
  · funext k; fin_cases k <;> simp
  · congr 1
    funext k; fin_cases k <;> simp

end Geo
