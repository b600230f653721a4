import Verif.Iga.Boxes
import Verif.Iga.ControlMain

/-!
# Proofs: topology, box regions, facets
-/

namespace Iga

theorem mem_arange {stop step v : ℕ} (hs : 0 < step) :
    v ∈ arange stop step ↔ ∃ g, v = step * g ∧ v < stop := by
  unfold arange
  rw [List.mem_map]
  constructor
  · rintro ⟨g, hg, rfl⟩
    refine ⟨g, rfl, ?_⟩
    rw [List.mem_range, Nat.lt_div_iff_mul_lt hs] at hg
    rw [Nat.mul_comm]
    omega
  · rintro ⟨g, rfl, hv⟩
    refine ⟨g, ?_, rfl⟩
    rw [List.mem_range, Nat.lt_div_iff_mul_lt hs]
    rw [Nat.mul_comm] at hv
    omega

/-- With the shape `e * p + 1`: the multiples `0, p, …, e p`, scaled. -/
theorem mem_arange_grid {c e p v : ℕ} (hc : 0 < c) (hp : 0 < p) :
    v ∈ arange (c * (e * p + 1)) (c * p) ↔ ∃ g ≤ e, v = c * (p * g) := by
  rw [mem_arange (Nat.mul_pos hc hp)]
  constructor
  · rintro ⟨g, rfl, h⟩
    refine ⟨g, ?_, by ring⟩
    rw [Nat.mul_assoc] at h
    have h1 := Nat.lt_of_mul_lt_mul_left h
    by_contra hg
    have : p * (e + 1) ≤ p * g := Nat.mul_le_mul_left p (by omega)
    have h2 : p * (e + 1) = e * p + p := by ring
    omega
  · rintro ⟨g, hg, rfl⟩
    refine ⟨g, by ring, ?_⟩
    apply Nat.mul_lt_mul_of_pos_left _ hc
    have : p * g ≤ p * e := Nat.mul_le_mul_left p hg
    have h2 : p * e = e * p := by ring
    omega

theorem mem_arange_grid1 {e p v : ℕ} (hp : 0 < p) :
    v ∈ arange (e * p + 1) p ↔ ∃ g ≤ e, v = p * g := by
  have := mem_arange_grid (c := 1) (e := e) (p := p) (v := v) one_pos hp
  simpa using this

theorem mem_outerAdd {a b : List ℕ} {v : ℕ} : v ∈ outerAdd a b ↔ ∃ x ∈ a, ∃ y ∈ b, v = x + y := by
  unfold outerAdd
  simp only [List.mem_flatMap, List.mem_map]
  constructor
  · rintro ⟨y, hy, x, hx, rfl⟩; exact ⟨x, hx, y, hy, rfl⟩
  · rintro ⟨x, hx, y, hy, rfl⟩; exact ⟨y, hy, x, hx, rfl⟩

/-- The vertex with the coordinates `g` in the grid of the element corners (`0 ≤ g d ≤ e d`): its
number among all Bezier points. -/
def vertexNo (es ps gs : List ℕ) : ℕ :=
  ravel (List.zipWith (fun e p => e * p + 1) es ps) (List.zipWith (fun p g => p * g) ps gs)

/-- The side `s` of the grid in the direction with `e` elements. -/
def sideCoor (e s : ℕ) : ℕ := if s = 0 then 0 else e

/-- **C77.** Box regions in 3D: the region `xiDs` consists of exactly the element corners whose
coordinate in the direction `D` is the first (`s = 0`) or the last (`s = 1`) one, for all numbers of
elements and all positive degrees. -/
theorem C77_box_regions_3d (e0 e1 e2 p0 p1 p2 : ℕ) (h0 : 0 < p0) (h1 : 0 < p1) (h2 : 0 < p2)
    (D s : ℕ) (hD : D < 3) (hs : s < 2) (v : ℕ) :
    v ∈ boxes3 e0 e1 e2 p0 p1 p2 D s ↔
      ∃ g0 g1 g2, g0 ≤ e0 ∧ g1 ≤ e1 ∧ g2 ≤ e2 ∧
        [g0, g1, g2].getD D 0 = sideCoor ([e0, e1, e2].getD D 0) s ∧
        v = vertexNo [e0, e1, e2] [p0, p1, p2] [g0, g1, g2] := by
  have hv : ∀ g0 g1 g2, vertexNo [e0, e1, e2] [p0, p1, p2] [g0, g1, g2]
      = p2 * g2 + (e2 * p2 + 1) * (p1 * g1) + (e2 * p2 + 1) * (e1 * p1 + 1) * (p0 * g0) := by
    intro g0 g1 g2
    simp only [vertexNo, List.zipWith_cons_cons, List.zipWith_nil_left, ravel, List.prod_cons, List.prod_nil]
    ring
  have hp2 : 0 < e2 * p2 + 1 := by omega
  have hp12 : 0 < (e2 * p2 + 1) * (e1 * p1 + 1) := by positivity
  have a0 : ∀ v, v ∈ arange (e2 * p2 + 1) p2 ↔ ∃ g ≤ e2, v = p2 * g := fun v => mem_arange_grid1 h2
  have a1 : ∀ v, v ∈ arange ((e2 * p2 + 1) * (e1 * p1 + 1)) ((e2 * p2 + 1) * p1)
      ↔ ∃ g ≤ e1, v = (e2 * p2 + 1) * (p1 * g) := fun v => mem_arange_grid hp2 h1
  have a2 : ∀ v, v ∈ arange ((e2 * p2 + 1) * (e1 * p1 + 1) * (e0 * p0 + 1))
        ((e2 * p2 + 1) * (e1 * p1 + 1) * p0)
      ↔ ∃ g ≤ e0, v = (e2 * p2 + 1) * (e1 * p1 + 1) * (p0 * g) := fun v => mem_arange_grid hp12 h0
  simp only [hv]
  obtain rfl | rfl | rfl : D = 0 ∨ D = 1 ∨ D = 2 := by omega
  all_goals obtain rfl | rfl : s = 0 ∨ s = 1 := by omega
  all_goals
    simp only [boxes3, sideCoor, List.getD_cons_zero, List.getD_cons_succ, List.mem_map, mem_outerAdd,
      a0, a1, a2, if_true, one_ne_zero, if_false]
  · constructor
    · rintro ⟨x, ⟨g2, b2, rfl⟩, y, ⟨g1, b1, rfl⟩, rfl⟩
      exact ⟨0, g1, g2, by omega, b1, b2, rfl, by ring⟩
    · rintro ⟨g0, g1, g2, b0, b1, b2, rfl, rfl⟩
      exact ⟨_, ⟨g2, b2, rfl⟩, _, ⟨g1, b1, rfl⟩, by ring⟩
  · constructor
    · rintro ⟨_, ⟨x, ⟨g2, b2, rfl⟩, y, ⟨g1, b1, rfl⟩, rfl⟩, rfl⟩
      refine ⟨e0, g1, g2, le_rfl, b1, b2, rfl, ?_⟩
      rw [Nat.add_sub_cancel]; ring
    · rintro ⟨g0, g1, g2, b0, b1, b2, rfl, rfl⟩
      refine ⟨_, ⟨_, ⟨g2, b2, rfl⟩, _, ⟨g1, b1, rfl⟩, rfl⟩, ?_⟩
      rw [Nat.add_sub_cancel]; ring
  · constructor
    · rintro ⟨x, ⟨g2, b2, rfl⟩, y, ⟨g0, b0, rfl⟩, rfl⟩
      exact ⟨g0, 0, g2, b0, by omega, b2, rfl, by ring⟩
    · rintro ⟨g0, g1, g2, b0, b1, b2, rfl, rfl⟩
      exact ⟨_, ⟨g2, b2, rfl⟩, _, ⟨g0, b0, rfl⟩, by ring⟩
  · constructor
    · rintro ⟨_, ⟨x, ⟨g2, b2, rfl⟩, y, ⟨g0, b0, rfl⟩, rfl⟩, rfl⟩
      refine ⟨g0, e1, g2, b0, le_rfl, b2, rfl, ?_⟩
      rw [Nat.add_sub_cancel]; ring
    · rintro ⟨g0, g1, g2, b0, b1, b2, rfl, rfl⟩
      refine ⟨_, ⟨_, ⟨g2, b2, rfl⟩, _, ⟨g0, b0, rfl⟩, rfl⟩, ?_⟩
      rw [Nat.add_sub_cancel]; ring
  · constructor
    · rintro ⟨x, ⟨g1, b1, rfl⟩, y, ⟨g0, b0, rfl⟩, rfl⟩
      exact ⟨g0, g1, 0, b0, b1, by omega, rfl, by ring⟩
    · rintro ⟨g0, g1, g2, b0, b1, b2, rfl, rfl⟩
      exact ⟨_, ⟨g1, b1, rfl⟩, _, ⟨g0, b0, rfl⟩, by ring⟩
  · constructor
    · rintro ⟨_, ⟨x, ⟨g1, b1, rfl⟩, y, ⟨g0, b0, rfl⟩, rfl⟩, rfl⟩
      refine ⟨g0, g1, e2, b0, b1, le_rfl, rfl, ?_⟩
      rw [← Nat.add_assoc, Nat.add_sub_cancel]; ring
    · rintro ⟨g0, g1, g2, b0, b1, b2, rfl, rfl⟩
      refine ⟨_, ⟨_, ⟨g1, b1, rfl⟩, _, ⟨g0, b0, rfl⟩, rfl⟩, ?_⟩
      rw [← Nat.add_assoc, Nat.add_sub_cancel]; ring

/-- **C77.** Box regions in 2D. -/
theorem C77_box_regions_2d (e0 e1 p0 p1 : ℕ) (h0 : 0 < p0) (h1 : 0 < p1) (D s : ℕ) (hD : D < 2)
    (hs : s < 2) (v : ℕ) :
    v ∈ boxes2 e0 e1 p0 p1 D s ↔
      ∃ g0 g1, g0 ≤ e0 ∧ g1 ≤ e1 ∧ [g0, g1].getD D 0 = sideCoor ([e0, e1].getD D 0) s ∧
        v = vertexNo [e0, e1] [p0, p1] [g0, g1] := by
  have hv : ∀ g0 g1, vertexNo [e0, e1] [p0, p1] [g0, g1] = p1 * g1 + (e1 * p1 + 1) * (p0 * g0) := by
    intro g0 g1
    simp only [vertexNo, List.zipWith_cons_cons, List.zipWith_nil_left, ravel, List.prod_cons, List.prod_nil]
    ring
  have hp1 : 0 < e1 * p1 + 1 := by omega
  have a0 : ∀ v, v ∈ arange (e1 * p1 + 1) p1 ↔ ∃ g ≤ e1, v = p1 * g := fun v => mem_arange_grid1 h1
  have a1 : ∀ v, v ∈ arange ((e1 * p1 + 1) * (e0 * p0 + 1)) ((e1 * p1 + 1) * p0)
      ↔ ∃ g ≤ e0, v = (e1 * p1 + 1) * (p0 * g) := fun v => mem_arange_grid hp1 h0
  simp only [hv]
  obtain rfl | rfl : D = 0 ∨ D = 1 := by omega
  all_goals obtain rfl | rfl : s = 0 ∨ s = 1 := by omega
  all_goals
    simp only [boxes2, sideCoor, List.getD_cons_zero, List.getD_cons_succ, List.mem_map, a0, a1, if_true,
      one_ne_zero, if_false]
  · constructor
    · rintro ⟨g1, b1, rfl⟩
      exact ⟨0, g1, by omega, b1, rfl, by ring⟩
    · rintro ⟨g0, g1, b0, b1, rfl, rfl⟩
      exact ⟨g1, b1, by ring⟩
  · constructor
    · rintro ⟨_, ⟨g1, b1, rfl⟩, rfl⟩
      refine ⟨e0, g1, le_rfl, b1, rfl, ?_⟩
      rw [Nat.add_sub_cancel]; ring
    · rintro ⟨g0, g1, b0, b1, rfl, rfl⟩
      refine ⟨_, ⟨g1, b1, rfl⟩, ?_⟩
      rw [Nat.add_sub_cancel]; ring
  · constructor
    · rintro ⟨g0, b0, rfl⟩
      exact ⟨g0, 0, b0, by omega, rfl, by ring⟩
    · rintro ⟨g0, g1, b0, b1, rfl, rfl⟩
      exact ⟨g0, b0, by ring⟩
  · constructor
    · rintro ⟨_, ⟨g0, b0, rfl⟩, rfl⟩
      refine ⟨g0, e1, b0, le_rfl, rfl, ?_⟩
      rw [← Nat.add_assoc, Nat.add_sub_cancel]; ring
    · rintro ⟨g0, g1, b0, b1, rfl, rfl⟩
      refine ⟨_, ⟨g0, b0, rfl⟩, ?_⟩
      rw [← Nat.add_assoc, Nat.add_sub_cancel]; ring

/-- **C77.** Box regions in 1D. -/
theorem C77_box_regions_1d (e0 p0 : ℕ) (s v : ℕ) (hs : s < 2) :
    v ∈ boxes1 e0 p0 s ↔ v = vertexNo [e0] [p0] [sideCoor e0 s] := by
  obtain rfl | rfl : s = 0 ∨ s = 1 := by omega
  · simp [boxes1, vertexNo, ravel, sideCoor]
  · simp [boxes1, vertexNo, ravel, sideCoor, Nat.mul_comm]

/-! ### Topology -/

variable {K : Type*} [Field K] [LinearOrder K] [IsStrictOrderedRing K]

theorem bezIdx_corner (ds : List (Dir K)) (e c : List ℕ) (he : e.length = ds.length)
    (hc : c.length = ds.length) :
    bezIdx ds e (List.zipWith (fun p c => p * c) (ds.map Dir.p) c)
      = List.zipWith (fun p g => p * g) (ds.map Dir.p) (List.zipWith (· + ·) e c) := by
  induction ds generalizing e c with
  | nil => cases e <;> cases c <;> rfl
  | cons d ds ih =>
    rcases e with _ | ⟨e, es⟩
    · simp at he
    rcases c with _ | ⟨c, cs⟩
    · simp at hc
    simp only [List.map_cons, List.zipWith_cons_cons, bezIdx]
    rw [ih es cs (by simpa using he) (by simpa using hc)]
    congr 1
    ring

/-- The corners `0`, `1` in every direction, in the order of the vertices of a line, a quadrilateral and
a hexahedron. -/
def refCorners : ℕ → List (List ℕ)
  | 3 => [[0, 0, 0], [1, 0, 0], [1, 1, 0], [0, 1, 0], [0, 0, 1], [1, 0, 1], [1, 1, 1], [0, 1, 1]]
  | 2 => [[0, 0], [1, 0], [1, 1], [0, 1]]
  | 1 => [[0], [1]]
  | _ => []

theorem corners_eq (ps : List ℕ) (h : ps.length ≤ 3) :
    corners ps = (refCorners ps.length).map fun c => List.zipWith (fun p c => p * c) ps c := by
  match ps with
  | [] => rfl
  | [p0] => simp [corners, refCorners]
  | [p0, p1] => simp [corners, refCorners]
  | [p0, p1, p2] => simp [corners, refCorners]
  | _ :: _ :: _ :: _ :: _ => simp at h; omega

theorem refCorners_valid (n : ℕ) (c : List ℕ) (hc : c ∈ refCorners n) :
    c.length = n ∧ ∀ x ∈ c, x ≤ 1 := by
  unfold refCorners at hc
  split at hc <;> simp at hc
  all_goals rcases hc with h | h | h | h | h | h | h | h
  all_goals simp_all

theorem corner_valid (ds : List (Dir K)) (c : List ℕ) (hc : c.length = ds.length) (h1 : ∀ x ∈ c, x ≤ 1) :
    Valid (ds.map fun d => d.p + 1) (List.zipWith (fun p c => p * c) (ds.map Dir.p) c) := by
  induction ds generalizing c with
  | nil => cases c <;> exact List.Forall₂.nil
  | cons d ds ih =>
    rcases c with _ | ⟨c, cs⟩
    · simp at hc
    refine List.Forall₂.cons ?_ (ih cs (by simpa using hc) fun x hx => h1 x (List.mem_cons_of_mem _ hx))
    have := Nat.mul_le_mul_left d.p (h1 c (List.mem_cons_self ..))
    change d.p * c < d.p + 1
    omega

/-- **C77.** The topology of the Bezier mesh: the vertices of the element `e` are its grid corners
`e + c`, in the order of the vertices of the reference line, quadrilateral or hexahedron. -/
theorem C77_bezier_topology (ds : List (Dir K)) (h : ∀ d ∈ ds, Clamped d.knots d.p)
    (hdim : ds.length ≤ 3) (e : List ℕ) (he : Valid (ds.map Dir.nEl) e) :
    (bezierTopology (patchBconn ds) (ds.map Dir.p)).getD (elemIdx ds e) []
      = (refCorners ds.length).map fun c =>
          vertexNo (ds.map Dir.nEl) (ds.map Dir.p) (List.zipWith (· + ·) e c) := by
  have hlen : e.length = ds.length := by have := he.length_eq; simpa using this.symm
  have hC : ∃ g, patchBconn ds = (tp (ds.map Dir.nEl)).map g := ⟨_, rfl⟩
  obtain ⟨g, hg⟩ := hC
  have hrow : g e = (patchBconn ds).getD (elemIdx ds e) [] := by
    unfold elemIdx; rw [hg, getD_map_tp _ _ _ _ he]
  unfold bezierTopology
  rw [hg, List.map_map]
  unfold elemIdx
  rw [getD_map_tp _ _ _ _ he]
  simp only [Function.comp]
  rw [corners_eq _ (by simpa using hdim), List.length_map, List.map_map]
  refine List.map_congr_left fun c hc => ?_
  obtain ⟨c1, c2⟩ := refCorners_valid _ _ hc
  have b := C77_bezier_connectivity ds h e _ he (corner_valid ds c c1 c2)
  rw [bezIdx_corner ds e c hlen c1] at b
  unfold elemBconn locIdx at b
  simp only [Function.comp]
  rw [hrow, List.map_map, show ((fun x => x + 1) ∘ Dir.p : Dir K → ℕ) = fun d => d.p + 1 from rfl, b]
  unfold vertexNo bezShape
  congr 1
  rw [List.zipWith_map, List.zipWith_self]
  exact List.map_congr_left fun d _ => by rw [Nat.mul_comm]

/-! ### Facets -/

/-- **C77.** The faces of a 3D Bezier element: the face `k` consists of exactly the local functions whose
index along the perpendicular axis of the facet `k` is the first one (side 0) or the last one (side 1). -/
theorem C77_faces_3d (n0 n1 n2 : ℕ) (h0 : 0 < n0) (h1 : 0 < n1) (h2 : 0 < n2) (k : ℕ) (hk : k < 6) (v : ℕ) :
    v ∈ (faces3 n0 n1 n2).getD k [] ↔
      ∃ l, Valid [n0, n1, n2] l ∧ v = ravel [n0, n1, n2] l ∧
        l.getD (((facetAxes 3).getD k []).getLastD 0) 0
          = if (facetSides 3).getD k false
            then [n0, n1, n2].getD (((facetAxes 3).getD k []).getLastD 0) 0 - 1 else 0 := by
  have key : ∀ P : List ℕ → Prop, (∃ l, Valid [n0, n1, n2] l ∧ P l) ↔
      ∃ i j m, i < n0 ∧ j < n1 ∧ m < n2 ∧ P [i, j, m] := by
    intro P
    constructor
    · rintro ⟨l, hl, hP⟩
      rcases l with _ | ⟨i, _ | ⟨j, _ | ⟨m, _ | ⟨x, l⟩⟩⟩⟩ <;> simp [Valid] at hl
      exact ⟨i, j, m, hl.1, hl.2.1, hl.2.2, hP⟩
    · rintro ⟨i, j, m, hi, hj, hm, hP⟩
      exact ⟨[i, j, m], by simp [Valid, hi, hj, hm], hP⟩
  rw [key]
  obtain rfl | rfl | rfl | rfl | rfl | rfl : k = 0 ∨ k = 1 ∨ k = 2 ∨ k = 3 ∨ k = 4 ∨ k = 5 := by omega
  all_goals
    simp only [faces3, facetAxes, facetSides, List.getD_cons_zero, List.getD_cons_succ, List.getLastD,
      List.getLast, List.mem_flatMap, List.mem_map, List.mem_range, Bool.false_eq_true, if_false, if_true]
  · constructor
    · rintro ⟨i, hi, j, hj, rfl⟩; exact ⟨i, j, 0, hi, hj, h2, rfl, rfl⟩
    · rintro ⟨i, j, m, hi, hj, hm, rfl, rfl⟩; exact ⟨i, hi, j, hj, rfl⟩
  · constructor
    · rintro ⟨i, hi, j, hj, rfl⟩; exact ⟨0, i, j, h0, hi, hj, rfl, rfl⟩
    · rintro ⟨i, j, m, hi, hj, hm, rfl, rfl⟩; exact ⟨j, hj, m, hm, rfl⟩
  · constructor
    · rintro ⟨i, hi, j, hj, rfl⟩; exact ⟨i, 0, j, hi, h1, hj, rfl, rfl⟩
    · rintro ⟨i, j, m, hi, hj, hm, rfl, rfl⟩; exact ⟨i, hi, m, hm, rfl⟩
  · constructor
    · rintro ⟨i, hi, j, hj, rfl⟩; exact ⟨i, j, n2 - 1, hi, hj, by omega, rfl, rfl⟩
    · rintro ⟨i, j, m, hi, hj, hm, rfl, rfl⟩; exact ⟨i, hi, j, hj, rfl⟩
  · constructor
    · rintro ⟨i, hi, j, hj, rfl⟩; exact ⟨n0 - 1, i, j, by omega, hi, hj, rfl, rfl⟩
    · rintro ⟨i, j, m, hi, hj, hm, rfl, rfl⟩; exact ⟨j, hj, m, hm, rfl⟩
  · constructor
    · rintro ⟨i, hi, j, hj, rfl⟩; exact ⟨i, n1 - 1, j, hi, by omega, hj, rfl, rfl⟩
    · rintro ⟨i, j, m, hi, hj, hm, rfl, rfl⟩; exact ⟨i, hi, m, hm, rfl⟩

/-- **C77.** The edges of a 2D Bezier element, likewise. -/
theorem C77_edges_2d (n0 n1 : ℕ) (h0 : 0 < n0) (h1 : 0 < n1) (k : ℕ) (hk : k < 4) (v : ℕ) :
    v ∈ (edges2 n0 n1).getD k [] ↔
      ∃ l, Valid [n0, n1] l ∧ v = ravel [n0, n1] l ∧
        l.getD (((facetAxes 2).getD k []).getLastD 0) 0
          = if (facetSides 2).getD k false
            then [n0, n1].getD (((facetAxes 2).getD k []).getLastD 0) 0 - 1 else 0 := by
  have key : ∀ P : List ℕ → Prop, (∃ l, Valid [n0, n1] l ∧ P l) ↔
      ∃ i j, i < n0 ∧ j < n1 ∧ P [i, j] := by
    intro P
    constructor
    · rintro ⟨l, hl, hP⟩
      rcases l with _ | ⟨i, _ | ⟨j, _ | ⟨m, l⟩⟩⟩ <;> simp [Valid] at hl
      exact ⟨i, j, hl.1, hl.2, hP⟩
    · rintro ⟨i, j, hi, hj, hP⟩
      exact ⟨[i, j], by simp [Valid, hi, hj], hP⟩
  rw [key]
  obtain rfl | rfl | rfl | rfl : k = 0 ∨ k = 1 ∨ k = 2 ∨ k = 3 := by omega
  all_goals
    simp only [edges2, facetAxes, facetSides, List.getD_cons_zero, List.getD_cons_succ, List.getLastD,
      List.getLast, List.mem_map, List.mem_range, Bool.false_eq_true, if_false, if_true]
  · constructor
    · rintro ⟨i, hi, rfl⟩; exact ⟨i, 0, hi, h1, rfl, rfl⟩
    · rintro ⟨i, j, hi, hj, rfl, rfl⟩; exact ⟨i, hi, rfl⟩
  · constructor
    · rintro ⟨i, hi, rfl⟩; exact ⟨n0 - 1, i, by omega, hi, rfl, rfl⟩
    · rintro ⟨i, j, hi, hj, rfl, rfl⟩; exact ⟨j, hj, rfl⟩
  · constructor
    · rintro ⟨i, hi, rfl⟩; exact ⟨i, n1 - 1, hi, by omega, rfl, rfl⟩
    · rintro ⟨i, j, hi, hj, rfl, rfl⟩; exact ⟨i, hi, rfl⟩
  · constructor
    · rintro ⟨i, hi, rfl⟩; exact ⟨0, i, h0, hi, rfl, rfl⟩
    · rintro ⟨i, j, hi, hj, rfl, rfl⟩; exact ⟨j, hj, rfl⟩

/-- **C77.** The boundary quadrature points of the facet `k` lie on the facet `k`: the coordinate along
the perpendicular axis is the side, and the other coordinates are those of the surface point, each one
used once. -/
theorem C77_boundary_points (dim : ℕ) (hdim : dim = 2 ∨ dim = 3) (k : ℕ) (hk : k < (facetAxes dim).length)
    (coors : List K) (hc : coors.length + 1 = dim) (init : ℕ → K) :
    let axes := (facetAxes dim).getD k []
    let side := (facetSides dim).getD k false
    boundaryQp axes side coors init (axes.getLastD 0) = (if side then 1 else 0) ∧
    (∀ ic < coors.length, boundaryQp axes side coors init (axes.getD ic 0) = coors.getD ic 0) ∧
    axes.Perm (List.range dim) := by
  rcases hdim with rfl | rfl
  · have : k < 4 := hk
    rcases coors with _ | ⟨x, _ | ⟨y, cs⟩⟩ <;> simp at hc
    obtain rfl | rfl | rfl | rfl : k = 0 ∨ k = 1 ∨ k = 2 ∨ k = 3 := by omega
    all_goals
      refine ⟨by simp [boundaryQp, facetAxes], ?_, by simp only [facetAxes]; decide⟩
      intro ic hic
      obtain rfl : ic = 0 := by simpa using hic
      simp [boundaryQp, facetAxes, List.range_succ]
  · have : k < 6 := hk
    rcases coors with _ | ⟨x, _ | ⟨y, _ | ⟨z, cs⟩⟩⟩ <;> simp at hc
    obtain rfl | rfl | rfl | rfl | rfl | rfl : k = 0 ∨ k = 1 ∨ k = 2 ∨ k = 3 ∨ k = 4 ∨ k = 5 := by omega
    all_goals
      refine ⟨by simp [boundaryQp, facetAxes], ?_, by simp only [facetAxes]; decide⟩
      intro ic hic
      obtain rfl | rfl : ic = 0 ∨ ic = 1 := by simp at hic; omega
      all_goals simp [boundaryQp, facetAxes, List.range_succ]

/-! ### The ends of a clamped basis -/

theorem final_first {t : ℕ → K} {p a : ℕ} {C : Op K} (h : Span t a) (hp : p ≤ a) (F : Final t p a C)
    (hl : ∀ x, x < p → t (a - x) = t a) (i : ℕ) (hi : i ≤ p) : C i 0 = if i = 0 then 1 else 0 := by
  have r := F 0 (Nat.zero_le _) (fun l => if l = i then 1 else 0)
  simp only [mul_ite, mul_one, mul_zero] at r
  rw [Finset.sum_ite_eq' (Finset.range (p + 1)) i, if_pos (Finset.mem_range.2 (by omega)), Nat.sub_zero,
    List.replicate_zero, List.append_nil, ← leftKnots_const (u := t a) p hp hl] at r
  have d := polar_dual h 0 p (by omega) (fun l => if l = i then (1 : K) else 0)
  simp only [rightKnots, List.range_zero, List.map_nil, List.nil_append] at d
  rw [r, d]
  by_cases h0 : i = 0
  · simp [h0]
  · rw [if_neg h0, if_neg (fun e => h0 e.symm)]

theorem final_last {t : ℕ → K} {p a : ℕ} {C : Op K} (h : Span t a) (hp : p ≤ a) (F : Final t p a C)
    (hl : ∀ x, 1 ≤ x → x ≤ p → t (a + x) = t (a + 1)) (i : ℕ) (hi : i ≤ p) :
    C i p = if i = p then 1 else 0 := by
  have r := F p le_rfl (fun l => if l = i then 1 else 0)
  simp only [mul_ite, mul_one, mul_zero] at r
  rw [Finset.sum_ite_eq' (Finset.range (p + 1)) i, if_pos (Finset.mem_range.2 (by omega)), Nat.sub_self,
    List.replicate_zero, List.nil_append, ← rightKnots_const (u := t (a + 1)) p hl] at r
  have d := polar_dual h p 0 (by omega) (fun l => if l = i then (1 : K) else 0)
  simp only [leftKnots, List.range_zero, List.map_nil, List.append_nil] at d
  rw [r, d]
  by_cases h0 : i = p
  · simp [h0]
  · rw [if_neg h0, if_neg (fun e => h0 e.symm)]

theorem bern_at_zero (p k : ℕ) : (evalBernstein (0 : K) p).1 k = if k = 0 then 1 else 0 := by
  rw [C76_bernstein_values]
  rcases k with _ | k <;> simp

theorem bern_at_one (p k : ℕ) (hk : k ≤ p) : (evalBernstein (1 : K) p).1 k = if k = p then 1 else 0 := by
  rw [C76_bernstein_values]
  by_cases h : k = p
  · simp [h]
  · rw [if_neg h, sub_self, zero_pow (by omega), mul_zero]

/-- **C77.** On the two ends of a clamped direction only the end function is not zero: in the first
element at `ξ = 0` it is the first one, in the last element at `ξ = 1` the last one. -/
theorem C77_end_functions (d : Dir K) (h : Clamped d.knots d.p) (i : ℕ) (hi : i ≤ d.p) :
    (evalBasis1d d.p ((computeBezierExtraction1d d.knots d.p).getD 0 eye) 0).N i
      = (if i = 0 then 1 else 0) ∧
    (evalBasis1d d.p ((computeBezierExtraction1d d.knots d.p).getD (d.nEl - 1) eye) 1).N i
      = (if i = d.p then 1 else 0) := by
  have hlong := h.long
  have hmono := knotFn_mono h.sorted
  have hpos := nEl_pos d h
  have F := extraction_final d.knots d.p h
  have hs := spans_sorted d.knots d.p
  constructor
  · have F0 := forall₂_get F 0 hpos 0 eye
    have e0 : (spans d.knots d.p).getD 0 0 = d.p := by
      rw [spans_eq h]
      unfold spansFrom
      rw [show d.knots.length - d.p - 1 - d.p = (d.knots.length - d.p - 2 - d.p) + 1 by omega,
        List.range'_succ, List.filter_cons, if_pos (by simpa using h.firstLt)]
      rfl
    rw [e0] at F0
    have c := fun i hi => final_first ⟨hmono, h.firstLt⟩ le_rfl F0 (fun x hx => h.first _ (by omega)) i hi
    unfold evalBasis1d
    simp only [bern_at_zero, mul_ite, mul_one, mul_zero]
    rw [Finset.sum_ite_eq' (Finset.range (d.p + 1)) 0, if_pos (Finset.mem_range.2 (by omega)), c i hi]
  · have hn : d.nEl - 1 < d.nEl := by omega
    have F1 := forall₂_get F (d.nEl - 1) hn 0 eye
    have hm : d.knots.length - d.p - 2 ∈ spans d.knots d.p := by
      unfold spans
      rw [List.mem_filter, List.mem_range]
      refine ⟨by omega, ?_⟩
      simp only [decide_eq_true_eq]
      refine ⟨by omega, ?_⟩
      rw [show d.knots.length - d.p - 2 + 1 = d.knots.length - d.p - 1 by omega]
      exact h.lastLt
    have e1 : (spans d.knots d.p).getD (d.nEl - 1) 0 = d.knots.length - d.p - 2 := by
      obtain ⟨j, hj, ej⟩ := List.getElem_of_mem hm
      have hn' : d.nEl - 1 < (spans d.knots d.p).length := hn
      rw [List.getD_eq_getElem _ _ hn']
      have hle : j ≤ d.nEl - 1 := by unfold Dir.nEl at *; omega
      have hmem := mem_spans (List.getElem_mem hn')
      rcases Nat.eq_or_lt_of_le hle with e | e
      · subst e; exact ej
      · have := List.pairwise_iff_getElem.1 hs j _ hj hn' e
        omega
    rw [e1] at F1
    have hlt : knotFn d.knots (d.knots.length - d.p - 2) < knotFn d.knots (d.knots.length - d.p - 2 + 1) := by
      rw [show d.knots.length - d.p - 2 + 1 = d.knots.length - d.p - 1 by omega]
      exact h.lastLt
    have c := fun i hi => final_last ⟨hmono, hlt⟩ (by omega) F1 (fun x h1 h2 => by
      rw [h.last _ (by omega) (by omega), h.last (d.knots.length - d.p - 2 + 1) (by omega) (by omega)]) i hi
    unfold evalBasis1d
    simp only
    have : ∀ k ∈ Finset.range (d.p + 1),
        (computeBezierExtraction1d d.knots d.p).getD (d.nEl - 1) eye i k * (evalBernstein (1 : K) d.p).1 k
          = if k = d.p then (computeBezierExtraction1d d.knots d.p).getD (d.nEl - 1) eye i k else 0 := by
      intro k hk
      rw [bern_at_one d.p k (by have := Finset.mem_range.1 hk; omega)]
      simp
    rw [Finset.sum_congr rfl this, Finset.sum_ite_eq' (Finset.range (d.p + 1)) d.p,
      if_pos (Finset.mem_range.2 (by omega)), c i hi]

omit [LinearOrder K] [IsStrictOrderedRing K] in
theorem prodAt_zero (bs : List (Basis1d K)) (l : List ℕ) (D : ℕ) (hD : D < bs.length)
    (hl : l.length = bs.length) (b : Basis1d K) (h : (bs.getD D b).N (l.getD D 0) = 0) :
    prodAt (bs.map Basis1d.N) l = 0 := by
  induction bs generalizing l D with
  | nil => simp at hD
  | cons c bs ih =>
    rcases l with _ | ⟨i, l⟩
    · simp at hl
    simp only [List.map_cons, prodAt]
    cases D with
    | zero =>
      simp only [List.getD_cons_zero] at h
      rw [h, zero_mul]
    | succ D =>
      simp only [List.getD_cons_succ] at h
      rw [ih l D (by simpa using hD) (by simpa using hl) h, mul_zero]

omit [LinearOrder K] [IsStrictOrderedRing K] in
/-- **C77.** On a side of the patch — in the direction `D` only the end function `i0` is not zero — all
NURBS functions of the element whose index along `D` is not `i0`, i.e. those that are not on the facet
of the element, vanish: a field on the side is given by the DOFs of the facet alone. -/
theorem C77_facet_trace (bs : List (Basis1d K)) (W : ℕ → K) (D i0 : ℕ) (hD : D < bs.length) (b : Basis1d K)
    (hend : ∀ i ≤ (bs.getD D b).p, (bs.getD D b).N i = if i = i0 then 1 else 0) (l : List ℕ)
    (hl : Valid (shape bs) l) (hne : l.getD D 0 ≠ i0) :
    (evalR bs W).getD (ravel (shape bs) l) 0 = 0 := by
  have hlen : l.length = bs.length := by have := hl.length_eq; simpa [shape] using this.symm
  have hlD : l.getD D 0 ≤ (bs.getD D b).p := by
    have h1 : D < l.length := by omega
    have := (List.forall₂_iff_get.1 hl).2 D (by simpa [shape] using hD) h1
    rw [List.getD_eq_getElem _ _ h1, List.getD_eq_getElem _ _ hD]
    simp [shape] at this
    omega
  rw [List.getD_eq_getElem?_getD, evalR_get bs W l hl, Option.getD_some,
    prodAt_zero bs l D hD hlen b (by rw [hend _ hlD, if_neg hne])]
  simp

end Iga
