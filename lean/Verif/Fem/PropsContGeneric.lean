/-
The continuity of the functions given cell by cell on quadrilaterals and hexahedra, from the agreement in the common
vertices, on the common edges and on the common faces.
-/
import Verif.Fem.PropsContTensor

namespace Verif.Fem

open Finset

variable {K : Type} [Field K] [CharZero K]

/-- The local vertex `i` in the reference element. -/
def vPt (dim i d : ℕ) : K := (vertexMap dim i d : K)

/-- The point `s` of the segment of two local vertices. -/
def ePt (dim : ℕ) (l : List ℕ) (s : K) (d : ℕ) : K :=
  (1 - s) * vertexMap dim (l.getD 0 0) d + s * vertexMap dim (l.getD 1 0) d

/-- The point `s`, `t` of the quadrilateral of four local vertices. -/
def fPt (dim : ℕ) (l : List ℕ) (s t : K) (d : ℕ) : K :=
  (1 - s) * (1 - t) * vertexMap dim (l.getD 0 0) d + s * (1 - t) * vertexMap dim (l.getD 1 0) d
    + s * t * vertexMap dim (l.getD 2 0) d + (1 - s) * t * vertexMap dim (l.getD 3 0) d

/-- The place of a point of a hexahedron and the value of a function in it. -/
def HexForm (c : ℕ → ℕ) (H : K → K → K → K) (wt : ℕ → K) (val : K) : Prop :=
  (∃ i < 8, wt = w1 (c i) 1 ∧ val = H (vPt 3 i 0) (vPt 3 i 1) (vPt 3 i 2)) ∨
  (∃ e < 12, ∃ s, s ≠ 0 ∧ s ≠ 1 ∧
    wt = w2 (c ((gel38.edges.getD e []).getD 0 0)) (c ((gel38.edges.getD e []).getD 1 0)) (1 - s) s ∧
    val = H (ePt 3 (gel38.edges.getD e []) s 0) (ePt 3 (gel38.edges.getD e []) s 1) (ePt 3 (gel38.edges.getD e []) s 2)) ∨
  (∃ f < 6, ∃ s t, s ≠ 0 ∧ s ≠ 1 ∧ t ≠ 0 ∧ t ≠ 1 ∧
    wt = wQ (c ((gel38.faces.getD f []).getD 0 0)) (c ((gel38.faces.getD f []).getD 1 0))
      (c ((gel38.faces.getD f []).getD 2 0)) (c ((gel38.faces.getD f []).getD 3 0)) s t ∧
    val = H (fPt 3 (gel38.faces.getD f []) s t 0) (fPt 3 (gel38.faces.getD f []) s t 1)
      (fPt 3 (gel38.faces.getD f []) s t 2)) ∨
  ∀ v, wt v ≠ 0 ↔ ∃ i < 8, v = c i

set_option maxHeartbeats 2000000 in
theorem hexForm {c : ℕ → ℕ} (hc : ∀ i < 8, ∀ j < 8, c i = c j → i = j) (H : K → K → K → K) (s t r : K) :
    HexForm c H (wH c s t r) (H s t r) := by
  have inner : s ≠ 0 → s ≠ 1 → t ≠ 0 → t ≠ 1 → r ≠ 0 → r ≠ 1 → ∀ v, wH c s t r v ≠ 0 ↔ ∃ i < 8, v = c i := by
    intro s0 s1 t0 t1 r0 r1 v
    have a : 1 - s ≠ 0 := sub_ne_zero.2 (Ne.symm s1)
    have b : 1 - t ≠ 0 := sub_ne_zero.2 (Ne.symm t1)
    have d : 1 - r ≠ 0 := sub_ne_zero.2 (Ne.symm r1)
    constructor
    · intro h
      by_contra hcon
      push Not at hcon
      exact h (w8_out _ fun i hi => Ne.symm (hcon i hi))
    · rintro ⟨i, hi, rfl⟩
      rw [wH, w8_at hc _ hi]
      interval_cases i <;> simp [hexItem, s0, t0, r0, a, b, d]
  by_cases s0 : s = 0
  · subst s0
    by_cases t0 : t = 0
    · subst t0
      by_cases r0 : r = 0
      · subst r0
        exact .inl ⟨0, by decide, by funext v; simp [wH, w8, hexItem], by simp [vPt, vertexMap]⟩
      by_cases r1 : r = 1
      · subst r1
        exact .inl ⟨4, by decide, by funext v; simp [wH, w8, hexItem], by simp [vPt, vertexMap]⟩
      exact .inr (.inl ⟨8, by decide, r, r0, r1, by funext v; simp [wH, w8, hexItem, w2, gel38], by simp [ePt, vertexMap, gel38]⟩)
    by_cases t1 : t = 1
    · subst t1
      by_cases r0 : r = 0
      · subst r0
        exact .inl ⟨3, by decide, by funext v; simp [wH, w8, hexItem], by simp [vPt, vertexMap]⟩
      by_cases r1 : r = 1
      · subst r1
        exact .inl ⟨7, by decide, by funext v; simp [wH, w8, hexItem], by simp [vPt, vertexMap]⟩
      exact .inr (.inl ⟨11, by decide, r, r0, r1, by funext v; simp [wH, w8, hexItem, w2, gel38], by simp [ePt, vertexMap, gel38]⟩)
    by_cases r0 : r = 0
    · subst r0
      exact .inr (.inl ⟨3, by decide, (1 - t), sub_ne_zero.2 (Ne.symm t1), fun h => t0 (by linear_combination -h), by funext v; simp [wH, w8, hexItem, w2, gel38, add_comm], by simp [ePt, vertexMap, gel38]⟩)
    by_cases r1 : r = 1
    · subst r1
      exact .inr (.inl ⟨7, by decide, (1 - t), sub_ne_zero.2 (Ne.symm t1), fun h => t0 (by linear_combination -h), by funext v; simp [wH, w8, hexItem, w2, gel38, add_comm], by simp [ePt, vertexMap, gel38]⟩)
    exact .inr (.inr (.inl ⟨1, by decide, r, t, r0, r1, t0, t1, by funext v; simp [wH, w8, hexItem, wQ, w4, gel38]; try ring_nf, by simp [fPt, vertexMap, gel38]; try ring_nf⟩))
  by_cases s1 : s = 1
  · subst s1
    by_cases t0 : t = 0
    · subst t0
      by_cases r0 : r = 0
      · subst r0
        exact .inl ⟨1, by decide, by funext v; simp [wH, w8, hexItem], by simp [vPt, vertexMap]⟩
      by_cases r1 : r = 1
      · subst r1
        exact .inl ⟨5, by decide, by funext v; simp [wH, w8, hexItem], by simp [vPt, vertexMap]⟩
      exact .inr (.inl ⟨9, by decide, r, r0, r1, by funext v; simp [wH, w8, hexItem, w2, gel38], by simp [ePt, vertexMap, gel38]⟩)
    by_cases t1 : t = 1
    · subst t1
      by_cases r0 : r = 0
      · subst r0
        exact .inl ⟨2, by decide, by funext v; simp [wH, w8, hexItem], by simp [vPt, vertexMap]⟩
      by_cases r1 : r = 1
      · subst r1
        exact .inl ⟨6, by decide, by funext v; simp [wH, w8, hexItem], by simp [vPt, vertexMap]⟩
      exact .inr (.inl ⟨10, by decide, r, r0, r1, by funext v; simp [wH, w8, hexItem, w2, gel38], by simp [ePt, vertexMap, gel38]⟩)
    by_cases r0 : r = 0
    · subst r0
      exact .inr (.inl ⟨1, by decide, t, t0, t1, by funext v; simp [wH, w8, hexItem, w2, gel38], by simp [ePt, vertexMap, gel38]⟩)
    by_cases r1 : r = 1
    · subst r1
      exact .inr (.inl ⟨5, by decide, t, t0, t1, by funext v; simp [wH, w8, hexItem, w2, gel38], by simp [ePt, vertexMap, gel38]⟩)
    exact .inr (.inr (.inl ⟨4, by decide, t, r, t0, t1, r0, r1, by funext v; simp [wH, w8, hexItem, wQ, w4, gel38]; try ring_nf, by simp [fPt, vertexMap, gel38]; try ring_nf⟩))
  by_cases t0 : t = 0
  · subst t0
    by_cases r0 : r = 0
    · subst r0
      exact .inr (.inl ⟨0, by decide, s, s0, s1, by funext v; simp [wH, w8, hexItem, w2, gel38], by simp [ePt, vertexMap, gel38]⟩)
    by_cases r1 : r = 1
    · subst r1
      exact .inr (.inl ⟨4, by decide, s, s0, s1, by funext v; simp [wH, w8, hexItem, w2, gel38], by simp [ePt, vertexMap, gel38]⟩)
    exact .inr (.inr (.inl ⟨2, by decide, s, r, s0, s1, r0, r1, by funext v; simp [wH, w8, hexItem, wQ, w4, gel38]; try ring_nf, by simp [fPt, vertexMap, gel38]; try ring_nf⟩))
  by_cases t1 : t = 1
  · subst t1
    by_cases r0 : r = 0
    · subst r0
      exact .inr (.inl ⟨2, by decide, (1 - s), sub_ne_zero.2 (Ne.symm s1), fun h => s0 (by linear_combination -h), by funext v; simp [wH, w8, hexItem, w2, gel38, add_comm], by simp [ePt, vertexMap, gel38]⟩)
    by_cases r1 : r = 1
    · subst r1
      exact .inr (.inl ⟨6, by decide, (1 - s), sub_ne_zero.2 (Ne.symm s1), fun h => s0 (by linear_combination -h), by funext v; simp [wH, w8, hexItem, w2, gel38, add_comm], by simp [ePt, vertexMap, gel38]⟩)
    exact .inr (.inr (.inl ⟨5, by decide, r, s, r0, r1, s0, s1, by funext v; simp [wH, w8, hexItem, wQ, w4, gel38]; try ring_nf, by simp [fPt, vertexMap, gel38]; try ring_nf⟩))
  by_cases r0 : r = 0
  · subst r0
    exact .inr (.inr (.inl ⟨0, by decide, t, s, t0, t1, s0, s1, by funext v; simp [wH, w8, hexItem, wQ, w4, gel38]; try ring_nf, by simp [fPt, vertexMap, gel38]; try ring_nf⟩))
  by_cases r1 : r = 1
  · subst r1
    exact .inr (.inr (.inl ⟨3, by decide, s, t, s0, s1, t0, t1, by funext v; simp [wH, w8, hexItem, wQ, w4, gel38]; try ring_nf, by simp [fPt, vertexMap, gel38]; try ring_nf⟩))
  exact .inr (.inr (.inr (inner s0 s1 t0 t1 r0 r1)))

/-- The place of a point of a quadrilateral cell and the value of a function in it. -/
def QuadForm (c : ℕ → ℕ) (H : K → K → K) (wt : ℕ → K) (val : K) : Prop :=
  (∃ i < 4, wt = w1 (c i) 1 ∧ val = H (vPt 2 i 0) (vPt 2 i 1)) ∨
  (∃ e < 4, ∃ s, s ≠ 0 ∧ s ≠ 1 ∧
    wt = w2 (c ((gel24.edges.getD e []).getD 0 0)) (c ((gel24.edges.getD e []).getD 1 0)) (1 - s) s ∧
    val = H (ePt 2 (gel24.edges.getD e []) s 0) (ePt 2 (gel24.edges.getD e []) s 1)) ∨
  ∀ v, wt v ≠ 0 ↔ ∃ i < 4, v = c i

theorem quadForm {c : ℕ → ℕ} (hc : ∀ i < 4, ∀ j < 4, c i = c j → i = j) (H : K → K → K) (s t : K) :
    QuadForm c H (wQ (c 0) (c 1) (c 2) (c 3) s t) (H s t) := by
  have inner : s ≠ 0 → s ≠ 1 → t ≠ 0 → t ≠ 1 → ∀ v, wQ (c 0) (c 1) (c 2) (c 3) s t v ≠ 0 ↔ ∃ i < 4, v = c i := by
    intro s0 s1 t0 t1 v
    have nd : [c 0, c 1, c 2, c 3].Nodup := by
      have : ([0, 1, 2, 3].map c).Nodup := (by decide : [0, 1, 2, 3].Nodup).map_on fun x hx y hy e => by
        simp at hx hy
        exact hc x (by omega) y (by omega) e
      simpa using this
    rw [wQ_ne nd s0 s1 t0 t1]
    constructor
    · intro hv
      simp at hv
      rcases hv with rfl | rfl | rfl | rfl
      exacts [⟨0, by omega, rfl⟩, ⟨1, by omega, rfl⟩, ⟨2, by omega, rfl⟩, ⟨3, by omega, rfl⟩]
    · rintro ⟨i, hi, rfl⟩
      interval_cases i <;> simp
  by_cases s0 : s = 0
  · subst s0
    by_cases t0 : t = 0
    · subst t0
      exact .inl ⟨0, by decide, by funext v; simp [wQ, w4], by simp [vPt, vertexMap]⟩
    by_cases t1 : t = 1
    · subst t1
      exact .inl ⟨3, by decide, by funext v; simp [wQ, w4], by simp [vPt, vertexMap]⟩
    exact .inr (.inl ⟨3, by decide, (1 - t), sub_ne_zero.2 (Ne.symm t1), fun h => t0 (by linear_combination -h), by funext v; simp [wQ, w4, w2, gel24, add_comm], by simp [ePt, vertexMap, gel24]⟩)
  by_cases s1 : s = 1
  · subst s1
    by_cases t0 : t = 0
    · subst t0
      exact .inl ⟨1, by decide, by funext v; simp [wQ, w4], by simp [vPt, vertexMap]⟩
    by_cases t1 : t = 1
    · subst t1
      exact .inl ⟨2, by decide, by funext v; simp [wQ, w4], by simp [vPt, vertexMap]⟩
    exact .inr (.inl ⟨1, by decide, t, t0, t1, by funext v; simp [wQ, w4, w2, gel24], by simp [ePt, vertexMap, gel24]⟩)
  by_cases t0 : t = 0
  · subst t0
    exact .inr (.inl ⟨0, by decide, s, s0, s1, by funext v; simp [wQ, w4, w2, gel24], by simp [ePt, vertexMap, gel24]⟩)
  by_cases t1 : t = 1
  · subst t1
    exact .inr (.inl ⟨2, by decide, (1 - s), sub_ne_zero.2 (Ne.symm s1), fun h => s0 (by linear_combination -h), by funext v; simp [wQ, w4, w2, gel24, add_comm], by simp [ePt, vertexMap, gel24]⟩)
  exact .inr (.inr (inner s0 s1 t0 t1))

omit [CharZero K] in
theorem pair_points {p q p' q' : ℕ} (hd : p ≠ q) {s s' : K}
    (h : [p, q].Perm [p', q']) (hw : ∀ v, w2 p q (1 - s) s v = w2 p' q' (1 - s') s' v) :
    (p' = p ∧ q' = q ∧ s' = s) ∨ (p' = q ∧ q' = p ∧ s' = 1 - s) := by
  have ep := hw p
  have eq := hw q
  have : (p' = p ∧ q' = q) ∨ (p' = q ∧ q' = p) := by
    have h1 : p' ∈ [p, q] := h.symm.subset (by simp)
    have h2 : q' ∈ [p, q] := h.symm.subset (by simp)
    have hn : [p', q'].Nodup := h.nodup_iff.1 (by simp [hd])
    simp at h1 h2 hn
    rcases h1 with rfl | rfl <;> rcases h2 with rfl | rfl <;> simp_all
  rcases this with ⟨rfl, rfl⟩ | ⟨rfl, rfl⟩ <;>
    simp only [w2, w1, hd, Ne.symm hd, if_true, if_false, add_zero, zero_add] at ep eq
  · exact .inl ⟨rfl, rfl, eq.symm⟩
  · exact .inr ⟨rfl, rfl, ep.symm⟩

omit [CharZero K] in
theorem around_points {x y z w x' y' z' w' : ℕ} (hd : [x, y, z, w].Nodup) {s t s' t' : K}
    (h : [x', y', z', w'] ∈ around x y z w) (hw : ∀ v, wQ x y z w s t v = wQ x' y' z' w' s' t' v) :
    (x' = x ∧ y' = y ∧ z' = z ∧ w' = w ∧ s' = s ∧ t' = t) ∨
    (x' = y ∧ y' = z ∧ z' = w ∧ w' = x ∧ s' = t ∧ t' = 1 - s) ∨
    (x' = z ∧ y' = w ∧ z' = x ∧ w' = y ∧ s' = 1 - s ∧ t' = 1 - t) ∨
    (x' = w ∧ y' = x ∧ z' = y ∧ w' = z ∧ s' = 1 - t ∧ t' = s) ∨
    (x' = w ∧ y' = z ∧ z' = y ∧ w' = x ∧ s' = s ∧ t' = 1 - t) ∨
    (x' = z ∧ y' = y ∧ z' = x ∧ w' = w ∧ s' = 1 - t ∧ t' = 1 - s) ∨
    (x' = y ∧ y' = x ∧ z' = w ∧ w' = z ∧ s' = 1 - s ∧ t' = t) ∨
    (x' = x ∧ y' = w ∧ z' = z ∧ w' = y ∧ s' = t ∧ t' = s) := by
  simp only [List.nodup_cons, List.mem_cons, List.not_mem_nil, or_false, not_or] at hd
  obtain ⟨⟨h1, h2, h3⟩, ⟨h4, h5⟩, h6, -⟩ := hd
  have ex := hw x
  have ey := hw y
  have ez := hw z
  have ew := hw w
  simp only [around, List.mem_cons, List.cons.injEq, and_true, List.not_mem_nil, or_false] at h
  rcases h with ⟨rfl, rfl, rfl, rfl⟩ | ⟨rfl, rfl, rfl, rfl⟩ | ⟨rfl, rfl, rfl, rfl⟩ | ⟨rfl, rfl, rfl, rfl⟩ |
    ⟨rfl, rfl, rfl, rfl⟩ | ⟨rfl, rfl, rfl, rfl⟩ | ⟨rfl, rfl, rfl, rfl⟩ | ⟨rfl, rfl, rfl, rfl⟩ <;>
    simp only [wQ, w4, w1, h1, h2, h3, h4, h5, h6, Ne.symm h1, Ne.symm h2, Ne.symm h3, Ne.symm h4, Ne.symm h5,
      Ne.symm h6, if_true, if_false, add_zero, zero_add] at ex ey ez ew
  · exact .inl ⟨rfl, rfl, rfl, rfl, by linear_combination -ey - ez, by linear_combination -ez - ew⟩
  · exact .inr (.inl ⟨rfl, rfl, rfl, rfl, by linear_combination -ez - ew, by linear_combination -ew - ex⟩)
  · exact .inr (.inr (.inl ⟨rfl, rfl, rfl, rfl, by linear_combination -ew - ex, by linear_combination -ex - ey⟩))
  · exact .inr (.inr (.inr (.inl ⟨rfl, rfl, rfl, rfl, by linear_combination -ex - ey, by linear_combination -ey - ez⟩)))
  · exact .inr (.inr (.inr (.inr (.inl ⟨rfl, rfl, rfl, rfl, by linear_combination -ey - ez,
      by linear_combination -ex - ey⟩))))
  · exact .inr (.inr (.inr (.inr (.inr (.inl ⟨rfl, rfl, rfl, rfl, by linear_combination -ex - ey,
      by linear_combination -ew - ex⟩)))))
  · exact .inr (.inr (.inr (.inr (.inr (.inr (.inl ⟨rfl, rfl, rfl, rfl, by linear_combination -ew - ex,
      by linear_combination -ez - ew⟩))))))
  · exact .inr (.inr (.inr (.inr (.inr (.inr (.inr ⟨rfl, rfl, rfl, rfl, by linear_combination -ez - ew,
      by linear_combination -ey - ez⟩))))))

section
variable {d : FieldData}

/-- The vertices of the cell number `el`. -/
def cellV (d : FieldData) (el i : ℕ) : ℕ := d.conn (d.cells.getD el 0) i

theorem mem_cell {el : ℕ} (h : el < d.cells.length) : d.cells.getD el 0 ∈ d.cells := by
  rw [List.getD_eq_getElem _ _ h]; exact List.getElem_mem h

/-- The support of the weights. -/
theorem hexForm_supp {c : ℕ → ℕ} (hc : ∀ i < 8, ∀ j < 8, c i = c j → i = j) {H : K → K → K → K} {wt : ℕ → K} {val : K}
    (h : HexForm c H wt val) : ∃ L : List ℕ, L.Nodup ∧ (∀ v, wt v ≠ 0 ↔ v ∈ L) ∧
    ((L.length = 1 ∧ ∃ i < 8, L = [c i] ∧ val = H (vPt 3 i 0) (vPt 3 i 1) (vPt 3 i 2)) ∨
    (L.length = 2 ∧ ∃ e < 12, ∃ s, L = (gel38.edges.getD e []).map c ∧
      wt = w2 (c ((gel38.edges.getD e []).getD 0 0)) (c ((gel38.edges.getD e []).getD 1 0)) (1 - s) s ∧
      val = H (ePt 3 (gel38.edges.getD e []) s 0) (ePt 3 (gel38.edges.getD e []) s 1) (ePt 3 (gel38.edges.getD e []) s 2)) ∨
    (L.length = 4 ∧ ∃ f < 6, ∃ s t, L = (gel38.faces.getD f []).map c ∧
      wt = wQ (c ((gel38.faces.getD f []).getD 0 0)) (c ((gel38.faces.getD f []).getD 1 0))
        (c ((gel38.faces.getD f []).getD 2 0)) (c ((gel38.faces.getD f []).getD 3 0)) s t ∧
      val = H (fPt 3 (gel38.faces.getD f []) s t 0) (fPt 3 (gel38.faces.getD f []) s t 1)
        (fPt 3 (gel38.faces.getD f []) s t 2)) ∨
    (L.length = 8 ∧ ∀ v, v ∈ L ↔ ∃ i < 8, v = c i)) := by
  rcases h with ⟨i, hi, rfl, hv⟩ | ⟨e, he, s, s0, s1, rfl, hv⟩ | ⟨f, hf, s, t, s0, s1, t0, t1, rfl, hv⟩ | h
  · exact ⟨[c i], by simp, fun v => by simp [w1_ne], .inl ⟨rfl, i, hi, rfl, hv⟩⟩
  · obtain ⟨l2, nd, lt⟩ := gel38_edges e he
    have hn : ((gel38.edges.getD e []).map c).Nodup := nd.map_on fun x hx y hy e => hc x (lt x hx) y (lt y hy) e
    have hl : (gel38.edges.getD e []).map c =
        [c ((gel38.edges.getD e []).getD 0 0), c ((gel38.edges.getD e []).getD 1 0)] := by
      conv_lhs => rw [list_two l2]
      rfl
    refine ⟨_, hn, fun v => ?_, .inr (.inl ⟨by simpa using l2, e, he, s, rfl, rfl, hv⟩)⟩
    rw [hl] at hn ⊢
    exact w2_ne (List.pairwise_pair.1 hn) (sub_ne_zero.2 (Ne.symm s1)) s0
  · obtain ⟨l4, nd, lt⟩ := gel38_faces f hf
    have hn : ((gel38.faces.getD f []).map c).Nodup := nd.map_on fun x hx y hy e => hc x (lt x hx) y (lt y hy) e
    have hl : (gel38.faces.getD f []).map c =
        [c ((gel38.faces.getD f []).getD 0 0), c ((gel38.faces.getD f []).getD 1 0),
          c ((gel38.faces.getD f []).getD 2 0), c ((gel38.faces.getD f []).getD 3 0)] := by
      obtain ⟨a, b, c', d', h4⟩ := list_four l4
      rw [h4]
      rfl
    refine ⟨_, hn, fun v => ?_, .inr (.inr (.inl ⟨by simpa using l4, f, hf, s, t, rfl, rfl, hv⟩))⟩
    rw [hl] at hn ⊢
    exact wQ_ne hn s0 s1 t0 t1
  · have hn : ((List.range 8).map c).Nodup := List.nodup_range.map_on fun x hx y hy e =>
      hc x (List.mem_range.1 hx) y (List.mem_range.1 hy) e
    have hm : ∀ v, v ∈ (List.range 8).map c ↔ ∃ i < 8, v = c i := by
      intro v
      rw [List.mem_map]
      constructor
      · rintro ⟨i, hi, rfl⟩; exact ⟨i, List.mem_range.1 hi, rfl⟩
      · rintro ⟨i, hi, rfl⟩; exact ⟨i, List.mem_range.2 hi, rfl⟩
    exact ⟨_, hn, fun v => (h v).trans (hm v).symm, .inr (.inr (.inr ⟨by simp, hm⟩))⟩

/-- A function given in the cells of a hexahedral mesh is continuous, if the functions of any two cells agree in the
common vertices, edges and faces. -/
theorem continuous_hex (M : MeshOk gel38 d) (H : ℕ → K → K → K → K)
    (hV : ∀ el < d.cells.length, ∀ el' < d.cells.length, ∀ i < 8, ∀ i' < 8, cellV d el i = cellV d el' i' →
      H el (vPt 3 i 0) (vPt 3 i 1) (vPt 3 i 2) = H el' (vPt 3 i' 0) (vPt 3 i' 1) (vPt 3 i' 2))
    (hE : ∀ el < d.cells.length, ∀ el' < d.cells.length, ∀ e < 12, ∀ e' < 12,
      ((gel38.edges.getD e []).map (cellV d el)).Perm ((gel38.edges.getD e' []).map (cellV d el')) → ∀ s s' : K,
      (∀ v, w2 (cellV d el ((gel38.edges.getD e []).getD 0 0)) (cellV d el ((gel38.edges.getD e []).getD 1 0)) (1 - s) s v =
        w2 (cellV d el' ((gel38.edges.getD e' []).getD 0 0)) (cellV d el' ((gel38.edges.getD e' []).getD 1 0))
          (1 - s') s' v) →
      H el (ePt 3 (gel38.edges.getD e []) s 0) (ePt 3 (gel38.edges.getD e []) s 1) (ePt 3 (gel38.edges.getD e []) s 2) =
      H el' (ePt 3 (gel38.edges.getD e' []) s' 0) (ePt 3 (gel38.edges.getD e' []) s' 1)
        (ePt 3 (gel38.edges.getD e' []) s' 2))
    (hF : ∀ el < d.cells.length, ∀ el' < d.cells.length, ∀ f < 6, ∀ f' < 6,
      ((gel38.faces.getD f []).map (cellV d el)).Perm ((gel38.faces.getD f' []).map (cellV d el')) → ∀ s t s' t' : K,
      (∀ v, wQ (cellV d el ((gel38.faces.getD f []).getD 0 0)) (cellV d el ((gel38.faces.getD f []).getD 1 0))
          (cellV d el ((gel38.faces.getD f []).getD 2 0)) (cellV d el ((gel38.faces.getD f []).getD 3 0)) s t v =
        wQ (cellV d el' ((gel38.faces.getD f' []).getD 0 0)) (cellV d el' ((gel38.faces.getD f' []).getD 1 0))
          (cellV d el' ((gel38.faces.getD f' []).getD 2 0)) (cellV d el' ((gel38.faces.getD f' []).getD 3 0)) s' t' v) →
      H el (fPt 3 (gel38.faces.getD f []) s t 0) (fPt 3 (gel38.faces.getD f []) s t 1)
        (fPt 3 (gel38.faces.getD f []) s t 2) =
      H el' (fPt 3 (gel38.faces.getD f' []) s' t' 0) (fPt 3 (gel38.faces.getD f' []) s' t' 1)
        (fPt 3 (gel38.faces.getD f' []) s' t' 2))
    {el el' : ℕ} (hel : el < d.cells.length) (hel' : el' < d.cells.length) {s t r s' t' r' : K}
    (hw : ∀ v, wH (cellV d el) s t r v = wH (cellV d el') s' t' r' v) : H el s t r = H el' s' t' r' := by
  have hI : ∀ i < 8, ∀ j < 8, cellV d el i = cellV d el j → i = j := M.inj _ (mem_cell hel)
  have hI' : ∀ i < 8, ∀ j < 8, cellV d el' i = cellV d el' j → i = j := M.inj _ (mem_cell hel')
  obtain ⟨L, hL, hs, h⟩ := hexForm_supp hI (hexForm hI (H el) s t r)
  obtain ⟨L', hL', hs', h'⟩ := hexForm_supp hI' (hexForm hI' (H el') s' t' r')
  have hp : L.Perm L' := perm_of_mem hL hL' fun v => by rw [← hs v, ← hs' v, hw v]
  have hlen := hp.length_eq
  rcases h with ⟨l, i, hi, rfl, hv⟩ | ⟨l, e, he, σ, rfl, hwt, hv⟩ | ⟨l, f, hf, σ, τ, rfl, hwt, hv⟩ | ⟨l, hm⟩ <;>
    rcases h' with ⟨l', i', hi', rfl, hv'⟩ | ⟨l', e', he', σ', rfl, hwt', hv'⟩ | ⟨l', f', hf', σ', τ', rfl, hwt', hv'⟩ |
      ⟨l', hm'⟩ <;> first
    | (exfalso; omega)
    | skip
  · rw [hv, hv']
    exact hV _ hel _ hel' _ hi _ hi' (by simpa using hp)
  · rw [hv, hv']
    exact hE _ hel _ hel' _ he _ he' hp _ _ fun v => by rw [← congrFun hwt v, ← congrFun hwt' v, hw v]
  · rw [hv, hv']
    exact hF _ hel _ hel' _ hf _ hf' hp _ _ _ _ fun v => by rw [← congrFun hwt v, ← congrFun hwt' v, hw v]
  · have : el = el' := M.cell el hel el' hel' fun v => by
      show (∃ i < 8, v = cellV d el i) ↔ ∃ i < 8, v = cellV d el' i
      rw [← hm v, ← hm' v]
      exact hp.mem_iff
    subst this
    obtain ⟨h1, h2, h3⟩ := wH_inj hI hw
    rw [h1, h2, h3]

theorem quadForm_supp {c : ℕ → ℕ} (hc : ∀ i < 4, ∀ j < 4, c i = c j → i = j) {H : K → K → K} {wt : ℕ → K} {val : K}
    (h : QuadForm c H wt val) : ∃ L : List ℕ, L.Nodup ∧ (∀ v, wt v ≠ 0 ↔ v ∈ L) ∧
    ((L.length = 1 ∧ ∃ i < 4, L = [c i] ∧ val = H (vPt 2 i 0) (vPt 2 i 1)) ∨
    (L.length = 2 ∧ ∃ e < 4, ∃ s, L = (gel24.edges.getD e []).map c ∧
      wt = w2 (c ((gel24.edges.getD e []).getD 0 0)) (c ((gel24.edges.getD e []).getD 1 0)) (1 - s) s ∧
      val = H (ePt 2 (gel24.edges.getD e []) s 0) (ePt 2 (gel24.edges.getD e []) s 1)) ∨
    (L.length = 4 ∧ ∀ v, v ∈ L ↔ ∃ i < 4, v = c i)) := by
  rcases h with ⟨i, hi, rfl, hv⟩ | ⟨e, he, s, s0, s1, rfl, hv⟩ | h
  · exact ⟨[c i], by simp, fun v => by simp [w1_ne], .inl ⟨rfl, i, hi, rfl, hv⟩⟩
  · obtain ⟨l2, nd, lt⟩ := gel24_edges e he
    have hn : ((gel24.edges.getD e []).map c).Nodup := nd.map_on fun x hx y hy e => hc x (lt x hx) y (lt y hy) e
    have hl : (gel24.edges.getD e []).map c =
        [c ((gel24.edges.getD e []).getD 0 0), c ((gel24.edges.getD e []).getD 1 0)] := by
      conv_lhs => rw [list_two l2]
      rfl
    refine ⟨_, hn, fun v => ?_, .inr (.inl ⟨by simpa using l2, e, he, s, rfl, rfl, hv⟩)⟩
    rw [hl] at hn ⊢
    exact w2_ne (List.pairwise_pair.1 hn) (sub_ne_zero.2 (Ne.symm s1)) s0
  · have hn : ((List.range 4).map c).Nodup := List.nodup_range.map_on fun x hx y hy e =>
      hc x (List.mem_range.1 hx) y (List.mem_range.1 hy) e
    have hm : ∀ v, v ∈ (List.range 4).map c ↔ ∃ i < 4, v = c i := by
      intro v
      rw [List.mem_map]
      constructor
      · rintro ⟨i, hi, rfl⟩; exact ⟨i, List.mem_range.1 hi, rfl⟩
      · rintro ⟨i, hi, rfl⟩; exact ⟨i, List.mem_range.2 hi, rfl⟩
    exact ⟨_, hn, fun v => (h v).trans (hm v).symm, .inr (.inr ⟨by simp, hm⟩)⟩

/-- A function given in the cells of a quadrilateral mesh is continuous, if the functions of any two cells agree in
the common vertices and edges. -/
theorem continuous_quad (M : MeshOk gel24 d) (H : ℕ → K → K → K)
    (hV : ∀ el < d.cells.length, ∀ el' < d.cells.length, ∀ i < 4, ∀ i' < 4, cellV d el i = cellV d el' i' →
      H el (vPt 2 i 0) (vPt 2 i 1) = H el' (vPt 2 i' 0) (vPt 2 i' 1))
    (hE : ∀ el < d.cells.length, ∀ el' < d.cells.length, ∀ e < 4, ∀ e' < 4,
      ((gel24.edges.getD e []).map (cellV d el)).Perm ((gel24.edges.getD e' []).map (cellV d el')) → ∀ s s' : K,
      (∀ v, w2 (cellV d el ((gel24.edges.getD e []).getD 0 0)) (cellV d el ((gel24.edges.getD e []).getD 1 0)) (1 - s) s v =
        w2 (cellV d el' ((gel24.edges.getD e' []).getD 0 0)) (cellV d el' ((gel24.edges.getD e' []).getD 1 0))
          (1 - s') s' v) →
      H el (ePt 2 (gel24.edges.getD e []) s 0) (ePt 2 (gel24.edges.getD e []) s 1) =
      H el' (ePt 2 (gel24.edges.getD e' []) s' 0) (ePt 2 (gel24.edges.getD e' []) s' 1))
    {el el' : ℕ} (hel : el < d.cells.length) (hel' : el' < d.cells.length) {s t s' t' : K}
    (hw : ∀ v, wQ (cellV d el 0) (cellV d el 1) (cellV d el 2) (cellV d el 3) s t v =
      wQ (cellV d el' 0) (cellV d el' 1) (cellV d el' 2) (cellV d el' 3) s' t' v) : H el s t = H el' s' t' := by
  have hI : ∀ i < 4, ∀ j < 4, cellV d el i = cellV d el j → i = j := M.inj _ (mem_cell hel)
  have hI' : ∀ i < 4, ∀ j < 4, cellV d el' i = cellV d el' j → i = j := M.inj _ (mem_cell hel')
  obtain ⟨L, hL, hs, h⟩ := quadForm_supp hI (quadForm hI (H el) s t)
  obtain ⟨L', hL', hs', h'⟩ := quadForm_supp hI' (quadForm hI' (H el') s' t')
  have hp : L.Perm L' := perm_of_mem hL hL' fun v => by rw [← hs v, ← hs' v, hw v]
  have hlen := hp.length_eq
  rcases h with ⟨l, i, hi, rfl, hv⟩ | ⟨l, e, he, σ, rfl, hwt, hv⟩ | ⟨l, hm⟩ <;>
    rcases h' with ⟨l', i', hi', rfl, hv'⟩ | ⟨l', e', he', σ', rfl, hwt', hv'⟩ | ⟨l', hm'⟩ <;> first
    | (exfalso; omega)
    | skip
  · rw [hv, hv']
    exact hV _ hel _ hel' _ hi _ hi' (by simpa using hp)
  · rw [hv, hv']
    exact hE _ hel _ hel' _ he _ he' hp _ _ fun v => by rw [← congrFun hwt v, ← congrFun hwt' v, hw v]
  · have : el = el' := M.cell el hel el' hel' fun v => by
      show (∃ i < 4, v = cellV d el i) ↔ ∃ i < 4, v = cellV d el' i
      rw [← hm v, ← hm' v]
      exact hp.mem_iff
    subst this
    have nd : [cellV d el 0, cellV d el 1, cellV d el 2, cellV d el 3].Nodup := by
      have : ([0, 1, 2, 3].map (cellV d el)).Nodup := (by decide : [0, 1, 2, 3].Nodup).map_on fun x hx y hy e => by
        simp at hx hy
        exact hI x (by omega) y (by omega) e
      simpa using this
    simp only [List.nodup_cons, List.mem_cons, List.not_mem_nil, or_false, not_or] at nd
    obtain ⟨⟨h1, h2, h3⟩, ⟨h4, h5⟩, h6, -⟩ := nd
    have ex := hw (cellV d el 0)
    have ey := hw (cellV d el 1)
    have ez := hw (cellV d el 2)
    have ew := hw (cellV d el 3)
    simp only [wQ, w4, w1, h1, h2, h3, h4, h5, h6, Ne.symm h1, Ne.symm h2, Ne.symm h3, Ne.symm h4, Ne.symm h5,
      Ne.symm h6, if_true, if_false, add_zero, zero_add] at ex ey ez ew
    obtain rfl : s' = s := by linear_combination -ey - ez
    obtain rfl : t' = t := by linear_combination -ez - ew
    rfl

end


end Verif.Fem
