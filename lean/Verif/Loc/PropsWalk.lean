/-
The convex strategy: the walk from cell to cell.
-/
import Verif.Loc.PropsSimplex
import Mathlib.Logic.Relation

set_option linter.unusedSectionVars false

namespace Verif.Loc

open Finset Verif.Fem

variable {K : Type} [Field K] [LinearOrder K] [IsStrictOrderedRing K]

/-- Two cells share a facet. -/
def Adjacent (w : Walk K) (a b : ℕ) : Prop := ∃ i, w.neighbour a i = some b

/-- The walk ends in a cell reachable over the facets; the coordinates, the distance and the flags are those of this
cell. -/
theorem walk_sound (dim : ℕ) (qpEps : K) (w : Walk K) (xd : ℕ → XiDist K) (P : ℕ → K) (n cell imin : ℕ) (dmin : K)
    (s : Search K) (h : walkLoop dim qpEps w xd P n cell imin dmin = some s) :
    Relation.ReflTransGen (Adjacent w) cell s.imin ∧ s.xi = (xd s.imin).xi ∧ s.xiOk = (xd s.imin).ok ∧
      (s.ok = true ↔ Accepted qpEps (xd s.imin)) ∧ s.dmin = min (xd s.imin).dist dmin := by
  induction n generalizing cell imin with
  | zero => simp [walkLoop] at h
  | succ n ih =>
    have stop : ∀ s, some (Search.mk ((xd cell).ok && decide ((xd cell).dist < qpEps)) cell
        (min (xd cell).dist dmin) (xd cell).xi (xd cell).ok) = some s →
        Relation.ReflTransGen (Adjacent w) cell s.imin ∧ s.xi = (xd s.imin).xi ∧ s.xiOk = (xd s.imin).ok ∧
          (s.ok = true ↔ Accepted qpEps (xd s.imin)) ∧ s.dmin = min (xd s.imin).dist dmin := by
      intro s hs
      cases hs
      exact ⟨Relation.ReflTransGen.refl, rfl, rfl, by simp [Accepted], rfl⟩
    unfold walkLoop at h
    simp only at h
    split at h
    · exact stop s h
    · split at h
      · rename_i c hc
        obtain ⟨h1, h2⟩ := ih c _ h
        exact ⟨Relation.ReflTransGen.head ⟨_, hc⟩ h1, h2⟩
      · exact stop s h

/-- **C113.** When the convex strategy returns, the cell is reachable from the first one over the facets, the coordinates
are those in this cell, the status is 0 exactly when the cell is accepted and otherwise 4 when the Newton iteration in this
cell did not converge, 1 or 2 with extrapolation according to the distance of this cell, or 3. -/
theorem C113_convex_sound (sqrt : K → K) (extrapolate : Bool) (dim : ℕ) (qpEps closeLimit : K) (w : Walk K)
    (xd : ℕ → XiDist K) (P : ℕ → K) (cell0 : ℕ) (f : Found K)
    (h : findRefCoorsConvex sqrt extrapolate dim qpEps closeLimit w xd P cell0 = some f) :
    Relation.ReflTransGen (Adjacent w) cell0 f.cell ∧ f.xi = (xd f.cell).xi ∧
      (f.status = 0 ↔ Accepted qpEps (xd f.cell)) ∧
      (¬ Accepted qpEps (xd f.cell) → (xd f.cell).dist ≤ 10 ^ 10 →
        f.status = if (xd f.cell).ok = false then 4
          else if extrapolate then (if sqrt (xd f.cell).dist < closeLimit then 1 else 2) else 3) := by
  unfold findRefCoorsConvex at h
  rw [Option.map_eq_some_iff] at h
  obtain ⟨s, hs, rfl⟩ := h
  obtain ⟨h1, h2, h3, h4, h5⟩ := walk_sound dim qpEps w xd P _ _ _ _ s hs
  refine ⟨h1, h2, ?_, ?_⟩
  · rw [← h4]
    simp only [statusOf]
    cases s.ok with
    | true => simp
    | false =>
      simp only [Bool.false_eq_true, if_false, iff_false]
      split
      · decide
      · split
        · split <;> decide
        · decide
  · intro hna hd
    have hok : s.ok = false := by
      cases hs' : s.ok with
      | true => exact absurd (h4.1 hs') hna
      | false => rfl
    simp only [statusOf, hok, h3, h5, min_eq_left hd]
    simp only [Bool.false_eq_true, if_false]
    cases (xd s.imin).ok <;> simp

/-- **C113.** For simplices: when the status is 0, the point is the combination of the vertices of the returned cell with
the returned coordinates. -/
theorem C113_convex_simplex {dim : ℕ} (hd : dim = 1 ∨ dim = 2 ∨ dim = 3) {e : ℕ → ℕ → ℕ → K}
    (hN : ∀ c, NonDegenerate dim (e c)) (sqrt : K → K) (extrapolate : Bool) (qpEps closeLimit : K) (hq : qpEps ≤ 10 ^ 4)
    (w : Walk K) (P : ℕ → K) (cell0 : ℕ) (f : Found K)
    (h : findRefCoorsConvex sqrt extrapolate dim qpEps closeLimit w (fun c => xiDistSimplex dim P (e c)) P cell0 = some f)
    (h0 : f.status = 0) :
    ∃ l : ℕ → K, ∑ i ∈ range (dim + 1), l i = 1 ∧ (∀ r < dim, f.xi r = l (r + 1)) ∧
      (∀ r < dim, P r = ∑ i ∈ range (dim + 1), l i * e f.cell i r) ∧ ∀ i < dim + 1, l i < 0 → l i * l i < qpEps := by
  obtain ⟨_, h2, h3, _⟩ := C113_convex_sound _ _ _ _ _ _ _ _ _ _ h
  have ha := h3.1 h0
  refine ⟨simplexBc dim P (e f.cell), bc_sum hd (hN _) P, fun r hr => ?_,
    fun r hr => (C111_barycentric_point hd (hN _) P hr).symm, fun i hi hn => bc_of_accepted hd (hN _) hq ha hi hn⟩
  rw [← xi_bc hr]
  exact congrFun h2 r

/-! ### The cell of the point -/

theorem linePlane_inside {dim : ℕ} {c P p n : ℕ → K} {B q : K} (hq : 0 < q) (hB : B * q ≤ 1)
    (hc : ∑ r ∈ range dim, n r * (c r - p r) < 0) (hP : ∑ r ∈ range dim, n r * (P r - p r) ≤ 0)
    (hb : -∑ r ∈ range dim, n r * (P r - p r) ≤ B * -∑ r ∈ range dim, n r * (c r - p r))
    (hne : 1 / 10 ^ 10 ≤ ∑ r ∈ range dim, |P r - c r|) :
    1 ≤ linePlane dim c P p n ∨ linePlane dim c P p n < -q := by
  have e1 : ∀ r, P r + -1 * c r = P r - c r := fun r => by ring
  have e2 : ∀ r, c r + -1 * p r = c r - p r := fun r => by ring
  unfold linePlane
  simp only [foldl_add, zero_add, e1, e2]
  rw [if_neg (not_lt.2 hne)]
  set D := ∑ r ∈ range dim, n r * (c r - p r) with hD
  set X := ∑ r ∈ range dim, n r * (P r - p r) with hX
  have hdot : ∑ r ∈ range dim, n r * (P r - c r) = X - D := by
    rw [hD, hX, ← sum_sub_distrib]
    exact sum_congr rfl fun r _ => by ring
  rw [hdot]
  split
  · left; norm_num
  · rename_i h
    push Not at h
    have h' : (0 : K) < |X - D| := lt_trans (by positivity) h
    rcases lt_or_gt_of_ne (abs_pos.1 h') with hn | hp
    · right
      rw [div_lt_iff_of_neg hn]
      nlinarith [mul_le_mul_of_nonneg_right hb hq.le]
    · left
      rw [le_div_iff₀ hp]
      linarith

/-- **C113.** In a cell that contains the point, but not close to the centroid, the walk stops: no facet is crossed before
the point.  The normals are outer ones, the distances of the points of the cell from a facet are at most `B` times the
distance of the centroid. -/
theorem C113_stops_inside {dim : ℕ} {qpEps B : K} (hq : 0 < qpEps) (hB : B * qpEps ≤ 1) (w : Walk K) {P : ℕ → K} {cell : ℕ}
    (hc : ∀ i < w.nFacet cell, ∑ r ∈ range dim, w.normal cell i r * (w.centroid cell r - w.facetPoint cell i r) < 0)
    (hP : ∀ i < w.nFacet cell, ∑ r ∈ range dim, w.normal cell i r * (P r - w.facetPoint cell i r) ≤ 0)
    (hb : ∀ i < w.nFacet cell, -∑ r ∈ range dim, w.normal cell i r * (P r - w.facetPoint cell i r) ≤
      B * -∑ r ∈ range dim, w.normal cell i r * (w.centroid cell r - w.facetPoint cell i r))
    (hne : 1 / 10 ^ 10 ≤ ∑ r ∈ range dim, |P r - w.centroid cell r|) (imin : ℕ) :
    1 ≤ (exitFacet dim qpEps w P cell imin).2 := by
  unfold exitFacet
  have key : ∀ m ≤ w.nFacet cell, 1 ≤ ((List.range m).foldl (fun (s : ℕ × K) (ii : ℕ) =>
      let tt := linePlane dim (w.centroid cell) P (w.facetPoint cell ii) (w.normal cell ii)
      if -qpEps ≤ tt ∧ tt < s.2 + qpEps then (ii, tt) else s) (imin, 10 ^ 10)).2 := by
    intro m
    induction m with
    | zero => intro _; norm_num
    | succ m ih =>
      intro hm
      rw [List.range_succ, List.foldl_append]
      simp only [List.foldl_cons, List.foldl_nil]
      split
      · rename_i h
        rcases linePlane_inside hq hB (hc m hm) (hP m hm) (hb m hm) hne with h1 | h1
        · exact h1
        · exact absurd h.1 (not_le.2 h1)
      · exact ih (by omega)
  exact key _ le_rfl

theorem C113_found_inside {dim : ℕ} {qpEps B : K} (hq : 0 < qpEps) (hB : B * qpEps ≤ 1) (w : Walk K) (xd : ℕ → XiDist K)
    {P : ℕ → K} {cell : ℕ}
    (hc : ∀ i < w.nFacet cell, ∑ r ∈ range dim, w.normal cell i r * (w.centroid cell r - w.facetPoint cell i r) < 0)
    (hP : ∀ i < w.nFacet cell, ∑ r ∈ range dim, w.normal cell i r * (P r - w.facetPoint cell i r) ≤ 0)
    (hb : ∀ i < w.nFacet cell, -∑ r ∈ range dim, w.normal cell i r * (P r - w.facetPoint cell i r) ≤
      B * -∑ r ∈ range dim, w.normal cell i r * (w.centroid cell r - w.facetPoint cell i r))
    (hne : 1 / 10 ^ 10 ≤ ∑ r ∈ range dim, |P r - w.centroid cell r|) (sqrt : K → K) (extrapolate : Bool) (closeLimit : K)
    (ha : Accepted qpEps (xd cell)) :
    findRefCoorsConvex sqrt extrapolate dim qpEps closeLimit w xd P cell =
      some { cell := cell, status := 0, xi := (xd cell).xi } := by
  have h1 := C113_stops_inside hq hB w hc hP hb hne 0
  unfold findRefCoorsConvex
  show Option.map _ (walkLoop dim qpEps w xd P (10000 + 1) cell 0 (10 ^ 10)) = _
  rw [walkLoop.eq_2]
  simp only
  rw [if_pos (by linarith)]
  simp [statusOf, ha.1, ha.2]

/-- **C113, the exception.** The centroid of a cell (up to `10^-10`) is not found, when the last facet of the cell leads to
a cell `b` from which the walk returns: the intersections with all the facets are reported at 0, so that the walk leaves the
cell that contains the point, again and again, until the error. -/
theorem C113_centroid_lost {dim : ℕ} {qpEps : K} (hq0 : 0 < qpEps) (hq1 : qpEps < 1) (w : Walk K) (xd : ℕ → XiDist K)
    {P : ℕ → K} {a b m : ℕ} (hm : w.nFacet a = m + 1) (hP : ∑ r ∈ range dim, |P r - w.centroid a r| < 1 / 10 ^ 10)
    (hab : w.neighbour a m = some b)
    (hba : ∀ imin, (exitFacet dim qpEps w P b imin).2 < 1 - qpEps ∧
      w.neighbour b (exitFacet dim qpEps w P b imin).1 = some a) (n imin : ℕ) (dmin : K) :
    walkLoop dim qpEps w xd P n a imin dmin = none := by
  have e1 : ∀ r, P r + -1 * w.centroid a r = P r - w.centroid a r := fun r => by ring
  have ht : ∀ p nn, linePlane dim (w.centroid a) P p nn = 0 := fun p nn => by
    unfold linePlane
    simp only [foldl_add, zero_add, e1]
    rw [if_pos hP]
  have hex : ∀ k imin, (List.range (k + 1)).foldl (fun (s : ℕ × K) (ii : ℕ) =>
      let tt := linePlane dim (w.centroid a) P (w.facetPoint a ii) (w.normal a ii)
      if -qpEps ≤ tt ∧ tt < s.2 + qpEps then (ii, tt) else s) (imin, 10 ^ 10) = (k, 0) := by
    intro k imin
    simp only [ht]
    induction k with
    | zero =>
      simp only [List.range_succ, List.range_zero, List.nil_append, List.foldl_cons, List.foldl_nil]
      rw [if_pos ⟨by linarith, by positivity⟩]
    | succ k ih =>
      rw [List.range_succ, List.foldl_append, ih]
      simp only [List.foldl_cons, List.foldl_nil]
      rw [if_pos ⟨by linarith, by linarith⟩]
  have hea : ∀ imin, exitFacet dim qpEps w P a imin = (m, 0) := fun imin => by
    unfold exitFacet
    rw [hm]; exact hex m imin
  induction n using Nat.strong_induction_on generalizing imin with
  | _ n ih =>
    cases n with
    | zero => rfl
    | succ n =>
      unfold walkLoop
      simp only [hea]
      rw [if_neg (by linarith), hab]
      simp only
      cases n with
      | zero => rfl
      | succ n =>
        unfold walkLoop
        simp only
        obtain ⟨h1, h2⟩ := hba m
        rw [if_neg (not_le.2 h1), h2]
        simp only
        exact ih n (by omega) _

end Verif.Loc
