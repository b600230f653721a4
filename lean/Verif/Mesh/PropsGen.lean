/-
C66: block meshes.
-/
import Mathlib.Tactic.Linarith
import Mathlib.Tactic.FieldSimp
import Mathlib.Tactic.Ring
import Mathlib.Algebra.Order.Floor.Defs
import Mathlib.Algebra.Order.Archimedean.Basic
import Verif.Mesh.Gen
import Verif.Mesh.SpecGen

namespace Verif.Mesh

/-! ### Lists in the C order -/

theorem getElem?_flatMap_const {A B : Type} {n : ℕ} (f : A → List B) (L : List A)
    (h : ∀ a ∈ L, (f a).length = n) (i q : ℕ) (hq : q < n) :
    (L.flatMap f)[i * n + q]? = (L[i]?).bind fun a => (f a)[q]? := by
  induction L generalizing i with
  | nil => simp
  | cons l L ih =>
    rw [List.flatMap_cons]
    have hl := h l List.mem_cons_self
    cases i with
    | zero =>
      rw [Nat.zero_mul, Nat.zero_add, List.getElem?_append_left (by omega)]
      simp
    | succ i =>
      rw [List.getElem?_append_right (by rw [Nat.add_mul]; omega), hl]
      have : (i + 1) * n + q - n = i * n + q := by rw [Nat.add_mul]; omega
      rw [this, ih (fun l hl => h l (List.mem_cons_of_mem _ hl))]
      simp

theorem length_flatMap_const {A B : Type} {n : ℕ} (f : A → List B) (L : List A)
    (h : ∀ a ∈ L, (f a).length = n) : (L.flatMap f).length = L.length * n := by
  induction L with
  | nil => simp
  | cons l L ih =>
    rw [List.flatMap_cons, List.length_append, h l List.mem_cons_self,
      ih (fun a ha => h a (List.mem_cons_of_mem _ ha)), List.length_cons, Nat.add_mul, Nat.one_mul,
      Nat.add_comm]

/-- Items of a two-dimensional array. -/
theorem flat2_get {B : Type} (f : ℕ → ℕ → B) (m0 m1 i j : ℕ) (hi : i < m0) (hj : j < m1) :
    ((List.range m0).flatMap fun i => (List.range m1).map fun j => f i j)[i * m1 + j]? =
      some (f i j) := by
  rw [getElem?_flatMap_const (n := m1) _ _ (by simp) i j hj]
  simp [hi, hj]

theorem flat2_length {B : Type} (f : ℕ → ℕ → B) (m0 m1 : ℕ) :
    ((List.range m0).flatMap fun i => (List.range m1).map fun j => f i j).length = m0 * m1 := by
  rw [length_flatMap_const (n := m1) _ _ (by simp)]
  simp

/-- Items of a three-dimensional array. -/
theorem flat3_get {B : Type} (f : ℕ → ℕ → ℕ → B) (m0 m1 m2 i j k : ℕ) (hi : i < m0) (hj : j < m1)
    (hk : k < m2) :
    ((List.range m0).flatMap fun i => (List.range m1).flatMap fun j =>
      (List.range m2).map fun k => f i j k)[(i * m1 + j) * m2 + k]? = some (f i j k) := by
  have hlt : j * m2 + k < m1 * m2 := by
    have : (j + 1) * m2 ≤ m1 * m2 := Nat.mul_le_mul_right m2 hj
    rw [Nat.add_mul] at this
    omega
  have hidx : (i * m1 + j) * m2 + k = i * (m1 * m2) + (j * m2 + k) := by
    rw [Nat.add_mul, Nat.mul_assoc, Nat.add_assoc]
  rw [hidx, getElem?_flatMap_const (n := m1 * m2) _ _ (by
    intro a _
    rw [length_flatMap_const (n := m2) _ _ (by simp)]
    simp) i _ hlt]
  rw [List.getElem?_range hi, Option.bind_some]
  exact flat2_get (fun j k => f i j k) m1 m2 j k hj hk

theorem flat3_length {B : Type} (f : ℕ → ℕ → ℕ → B) (m0 m1 m2 : ℕ) :
    ((List.range m0).flatMap fun i => (List.range m1).flatMap fun j =>
      (List.range m2).map fun k => f i j k).length = m0 * m1 * m2 := by
  rw [length_flatMap_const (n := m1 * m2) _ _ (by intro a _; exact flat2_length _ m1 m2)]
  simp [Nat.mul_assoc]

theorem ofColumns_get {n e : ℕ} (he : e < n) (cols : List (List ℕ)) :
    (ofColumns n cols)[e]? = some (cols.map fun c => c.getD e 0) := by
  unfold ofColumns
  simp [he]

theorem lt_cells2 {m0 m1 i j : ℕ} (hi : i < m0) (hj : j < m1) : i * m1 + j < m0 * m1 := by
  have : (i + 1) * m1 ≤ m0 * m1 := Nat.mul_le_mul_right m1 hi
  rw [Nat.add_mul] at this
  omega

theorem lt_cells3 {m0 m1 m2 i j k : ℕ} (hi : i < m0) (hj : j < m1) (hk : k < m2) :
    (i * m1 + j) * m2 + k < m0 * m1 * m2 := lt_cells2 (lt_cells2 hi hj) hk

/-- The row of the cell `(i, j)`. -/
theorem tensorConn2_get {n0 n1 i j : ℕ} (hi : i + 1 < n0) (hj : j + 1 < n1) :
    (tensorConn2 n0 n1)[i * (n1 - 1) + j]? =
      some (quadRef.map fun r => (i + r.1) * n1 + (j + r.2)) := by
  have hi' : i < n0 - 1 := by omega
  have hj' : j < n1 - 1 := by omega
  unfold tensorConn2
  simp only
  rw [ofColumns_get (lt_cells2 hi' hj')]
  have hs : ∀ a b, (slice2 n1 (n0 - 1) (n1 - 1) a b).getD (i * (n1 - 1) + j) 0 =
      (i + a) * n1 + (j + b) := by
    intro a b
    unfold slice2
    rw [List.getD_eq_getElem?_getD, flat2_get (fun i j => (i + a) * n1 + (j + b)) _ _ i j hi' hj']
    rfl
  simp only [List.map_cons, List.map_nil, hs, quadRef]

/-- The row of the cell `(i, j, k)`. -/
theorem tensorConn3_get {n0 n1 n2 i j k : ℕ} (hi : i + 1 < n0) (hj : j + 1 < n1) (hk : k + 1 < n2) :
    (tensorConn3 n0 n1 n2)[(i * (n1 - 1) + j) * (n2 - 1) + k]? =
      some (hexRef.map fun r => ((i + r.1) * n1 + (j + r.2.1)) * n2 + (k + r.2.2)) := by
  have hi' : i < n0 - 1 := by omega
  have hj' : j < n1 - 1 := by omega
  have hk' : k < n2 - 1 := by omega
  unfold tensorConn3
  simp only
  rw [ofColumns_get (lt_cells3 hi' hj' hk')]
  have hs : ∀ a b c, (slice3 n1 n2 (n0 - 1) (n1 - 1) (n2 - 1) a b c).getD
      ((i * (n1 - 1) + j) * (n2 - 1) + k) 0 = ((i + a) * n1 + (j + b)) * n2 + (k + c) := by
    intro a b c
    unfold slice3
    rw [List.getD_eq_getElem?_getD,
      flat3_get (fun i j k => ((i + a) * n1 + (j + b)) * n2 + (k + c)) _ _ _ i j k hi' hj' hk']
    rfl
  simp only [List.map_cons, List.map_nil, hs, hexRef]

/-- Every cell number is the number of a cell of the grid. -/
theorem cell_of_lt2 {m0 m1 e : ℕ} (he : e < m0 * m1) :
    ∃ i j, i < m0 ∧ j < m1 ∧ e = i * m1 + j := by
  have h1 : 0 < m1 := by
    rcases Nat.eq_zero_or_pos m1 with h | h
    · subst h; simp at he
    · exact h
  refine ⟨e / m1, e % m1, ?_, Nat.mod_lt _ h1, (Nat.div_add_mod' e m1).symm⟩
  exact Nat.div_lt_of_lt_mul (by rwa [Nat.mul_comm] at he)

theorem cell_of_lt3 {m0 m1 m2 e : ℕ} (he : e < m0 * m1 * m2) :
    ∃ i j k, i < m0 ∧ j < m1 ∧ k < m2 ∧ e = (i * m1 + j) * m2 + k := by
  obtain ⟨a, k, ha, hk, rfl⟩ := cell_of_lt2 he
  obtain ⟨i, j, hi, hj, rfl⟩ := cell_of_lt2 ha
  exact ⟨i, j, k, hi, hj, hk, rfl⟩

/-! ### Coordinates -/

section

variable {K : Type} [Field K] [LinearOrder K] [IsStrictOrderedRing K]

omit [LinearOrder K] [IsStrictOrderedRing K] in
theorem axisCoor_eq [CharZero K] (d c : K) {n : ℕ} (hn : 2 ≤ n) (i : ℕ) :
    axisCoor d c n i = gridNode d c n i := by
  unfold axisCoor gridNode
  have h1 : ((n : K) - 1) ≠ 0 := by
    have : ((n : K)) ≠ ((1 : ℕ) : K) := by
      rw [Ne, Nat.cast_inj]; omega
    rw [Nat.cast_one] at this
    exact sub_ne_zero.2 this
  field_simp
  ring

theorem gridNode_lt {d c : K} (hd : 0 < d) {n : ℕ} (hn : 2 ≤ n) {i j : ℕ} :
    gridNode d c n i < gridNode d c n j ↔ i < j := by
  have h1 : (0 : K) < (n : K) - 1 := by
    have : ((1 : ℕ) : K) < (n : K) := Nat.cast_lt.2 (by omega)
    rw [Nat.cast_one] at this
    linarith
  have key : gridNode d c n j - gridNode d c n i = d * ((j : K) - i) / ((n : K) - 1) := by
    unfold gridNode
    field_simp
    ring
  rw [← sub_pos, key, div_pos_iff_of_pos_right h1, mul_pos_iff_of_pos_left hd, sub_pos, Nat.cast_lt]

theorem gridNode_inj {d c : K} (hd : 0 < d) {n : ℕ} (hn : 2 ≤ n) {i j : ℕ}
    (h : gridNode d c n i = gridNode d c n j) : i = j := by
  rcases Nat.lt_trichotomy i j with h1 | h1 | h1
  · exact absurd h (ne_of_lt ((gridNode_lt hd hn).2 h1))
  · exact h1
  · exact absurd h.symm (ne_of_lt ((gridNode_lt hd hn).2 h1))

theorem gridNode_ends (d c : K) {n : ℕ} (hn : 2 ≤ n) :
    gridNode d c n 0 = c - d / 2 ∧ gridNode d c n (n - 1) = c + d / 2 := by
  have h1 : (0 : K) < (n : K) - 1 := by
    have : ((1 : ℕ) : K) < (n : K) := Nat.cast_lt.2 (by omega)
    rw [Nat.cast_one] at this
    linarith
  unfold gridNode
  rw [Nat.cast_sub (by omega)]
  constructor
  · simp [h1.ne']
  · simp [h1.ne']

/-- Every point of the segment is between two neighbouring nodes. -/
theorem gridNode_cover {d c : K} {n : ℕ} (hn : 2 ≤ n) {x : K} (h0 : c - d / 2 ≤ x)
    (h1 : x ≤ c + d / 2) : ∃ i, i + 1 < n ∧ gridNode d c n i ≤ x ∧ x ≤ gridNode d c n (i + 1) := by
  obtain ⟨he0, he1⟩ := gridNode_ends d c hn
  have key : ∀ m, m + 1 ≤ n → x ≤ gridNode d c n m → m ≠ 0 →
      ∃ i, i + 1 < n ∧ gridNode d c n i ≤ x ∧ x ≤ gridNode d c n (i + 1) := by
    intro m
    induction m with
    | zero => intro _ _ h; exact absurd rfl h
    | succ m ih =>
      intro hm hx _
      by_cases hle : gridNode d c n m ≤ x
      · exact ⟨m, by omega, hle, hx⟩
      · push Not at hle
        rcases Nat.eq_zero_or_pos m with h | h
        · subst h
          rw [he0] at hle
          exact absurd h0 (not_le.2 hle)
        · exact ih (by omega) hle.le (by omega)
  exact key (n - 1) (by omega) (by rw [he1]; exact h1) (by omega)

/-- A point strictly between nodes determines the nodes. -/
theorem gridNode_unique {d c : K} (hd : 0 < d) {n : ℕ} (hn : 2 ≤ n) {x : K} {i j : ℕ}
    (hi : gridNode d c n i < x ∧ x < gridNode d c n (i + 1))
    (hj : gridNode d c n j < x ∧ x < gridNode d c n (j + 1)) : i = j := by
  have h1 : i < j + 1 := (gridNode_lt hd hn).1 (hi.1.trans hj.2)
  have h2 : j < i + 1 := (gridNode_lt hd hn).1 (hj.1.trans hi.2)
  omega

/-! ### The claims -/

/-- **Block mesh in 3D**: the numbers of vertices and cells; the cell `(i, j, k)` of the grid has its
vertex `v` in the corner of the grid box given by the reference element; the nodes of the grid divide
the block evenly. -/
theorem C66_block3 (d c : K × K × K) {n0 n1 n2 : ℕ} (h0 : 2 ≤ n0) (h1 : 2 ≤ n1) (h2 : 2 ≤ n2) :
    (blockCoors3 d c n0 n1 n2).length = n0 * n1 * n2 ∧
    (tensorConn3 n0 n1 n2).length = (n0 - 1) * (n1 - 1) * (n2 - 1) ∧
    ∀ i j k, i + 1 < n0 → j + 1 < n1 → k + 1 < n2 →
      ∃ row, (tensorConn3 n0 n1 n2)[(i * (n1 - 1) + j) * (n2 - 1) + k]? = some row ∧
        row.length = 8 ∧
        ∀ (v a b e : ℕ), hexRef[v]? = some (a, b, e) → ∃ p, row[v]? = some p ∧
          (blockCoors3 d c n0 n1 n2)[p]? =
            some (gridNode d.1 c.1 n0 (i + a), gridNode d.2.1 c.2.1 n1 (j + b),
              gridNode d.2.2 c.2.2 n2 (k + e)) := by
  refine ⟨flat3_length _ n0 n1 n2, by simp [tensorConn3, ofColumns], fun i j k hi hj hk => ?_⟩
  refine ⟨_, tensorConn3_get hi hj hk, rfl, fun v a b e hv => ?_⟩
  refine ⟨((i + a) * n1 + (j + b)) * n2 + (k + e), by rw [List.getElem?_map, hv]; rfl, ?_⟩
  have hb : a ≤ 1 ∧ b ≤ 1 ∧ e ≤ 1 := by
    have := List.mem_of_getElem? hv
    revert this
    simp only [hexRef, List.mem_cons, Prod.mk.injEq, List.not_mem_nil, or_false]
    omega
  unfold blockCoors3
  rw [flat3_get (fun i j k => (axisCoor d.1 c.1 n0 i, axisCoor d.2.1 c.2.1 n1 j,
    axisCoor d.2.2 c.2.2 n2 k)) n0 n1 n2 (i + a) (j + b) (k + e) (by omega) (by omega) (by omega)]
  rw [axisCoor_eq _ _ h0, axisCoor_eq _ _ h1, axisCoor_eq _ _ h2]

/-- **Block mesh in 2D.** -/
theorem C66_block2 (d c : K × K) {n0 n1 : ℕ} (h0 : 2 ≤ n0) (h1 : 2 ≤ n1) :
    (blockCoors2 d c n0 n1).length = n0 * n1 ∧
    (tensorConn2 n0 n1).length = (n0 - 1) * (n1 - 1) ∧
    ∀ i j, i + 1 < n0 → j + 1 < n1 →
      ∃ row, (tensorConn2 n0 n1)[i * (n1 - 1) + j]? = some row ∧
        row.length = 4 ∧
        ∀ (v a b : ℕ), quadRef[v]? = some (a, b) → ∃ p, row[v]? = some p ∧
          (blockCoors2 d c n0 n1)[p]? =
            some (gridNode d.1 c.1 n0 (i + a), gridNode d.2 c.2 n1 (j + b)) := by
  refine ⟨flat2_length _ n0 n1, by simp [tensorConn2, ofColumns], fun i j hi hj => ?_⟩
  refine ⟨_, tensorConn2_get hi hj, rfl, fun v a b hv => ?_⟩
  refine ⟨(i + a) * n1 + (j + b), by rw [List.getElem?_map, hv]; rfl, ?_⟩
  have hb : a ≤ 1 ∧ b ≤ 1 := by
    have := List.mem_of_getElem? hv
    revert this
    simp only [quadRef, List.mem_cons, Prod.mk.injEq, List.not_mem_nil, or_false]
    omega
  unfold blockCoors2
  rw [flat2_get (fun i j => (axisCoor d.1 c.1 n0 i, axisCoor d.2 c.2 n1 j))
    n0 n1 (i + a) (j + b) (by omega) (by omega)]
  rw [axisCoor_eq _ _ h0, axisCoor_eq _ _ h1]

/-- **Block mesh in 1D**: the cell `i` connects the nodes `i` and `i + 1`. -/
theorem C66_block1 (d c : K) {n0 : ℕ} (h0 : 2 ≤ n0) :
    (blockCoors1 d c n0).length = n0 ∧ (tensorConn1 n0).length = n0 - 1 ∧
    ∀ i, i + 1 < n0 → (tensorConn1 n0)[i]? = some [i, i + 1] ∧
      (blockCoors1 d c n0)[i]? = some (gridNode d c n0 i) ∧
      (blockCoors1 d c n0)[i + 1]? = some (gridNode d c n0 (i + 1)) := by
  refine ⟨by simp [blockCoors1], by simp [tensorConn1, ofColumns], fun i hi => ⟨?_, ?_, ?_⟩⟩
  · unfold tensorConn1
    have hi' : i < n0 - 1 := by omega
    rw [ofColumns_get hi']
    simp [slice1, hi']
  · have hi' : i < n0 := by omega
    simp [blockCoors1, hi', axisCoor_eq _ _ h0]
  · simp only [blockCoors1]
    rw [List.getElem?_map, List.getElem?_range hi, Option.map_some, axisCoor_eq _ _ h0]

/-- The box spanned by two points. -/
def Box (lo hi : K × K × K) (p : K × K × K) : Prop :=
  (lo.1 ≤ p.1 ∧ p.1 ≤ hi.1) ∧ (lo.2.1 ≤ p.2.1 ∧ p.2.1 ≤ hi.2.1) ∧ (lo.2.2 ≤ p.2.2 ∧ p.2.2 ≤ hi.2.2)

/-- The inside of the box. -/
def BoxInt (lo hi : K × K × K) (p : K × K × K) : Prop :=
  (lo.1 < p.1 ∧ p.1 < hi.1) ∧ (lo.2.1 < p.2.1 ∧ p.2.1 < hi.2.1) ∧ (lo.2.2 < p.2.2 ∧ p.2.2 < hi.2.2)

/-- The vertices 0 and 6 of a hexahedron of the mesh: the lower and upper corners. -/
def Corners (coors : List (K × K × K)) (conn : List (List ℕ)) (e : ℕ) (lo hi : K × K × K) : Prop :=
  ∃ row p q, conn[e]? = some row ∧ row[0]? = some p ∧ row[6]? = some q ∧ coors[p]? = some lo ∧
    coors[q]? = some hi

theorem corners3 (d c : K × K × K) {n0 n1 n2 : ℕ} (h0 : 2 ≤ n0) (h1 : 2 ≤ n1) (h2 : 2 ≤ n2)
    {i j k : ℕ} (hi : i + 1 < n0) (hj : j + 1 < n1) (hk : k + 1 < n2) (lo hiC : K × K × K) :
    Corners (blockCoors3 d c n0 n1 n2) (tensorConn3 n0 n1 n2) ((i * (n1 - 1) + j) * (n2 - 1) + k)
      lo hiC ↔
    lo = (gridNode d.1 c.1 n0 i, gridNode d.2.1 c.2.1 n1 j, gridNode d.2.2 c.2.2 n2 k) ∧
    hiC = (gridNode d.1 c.1 n0 (i + 1), gridNode d.2.1 c.2.1 n1 (j + 1),
      gridNode d.2.2 c.2.2 n2 (k + 1)) := by
  obtain ⟨-, -, hall⟩ := C66_block3 d c h0 h1 h2
  obtain ⟨row, hrow, -, hv⟩ := hall i j k hi hj hk
  obtain ⟨p0, hp0, hc0⟩ := hv 0 0 0 0 rfl
  obtain ⟨p6, hp6, hc6⟩ := hv 6 1 1 1 rfl
  constructor
  · rintro ⟨row', p, q, hr, hp, hq, hlo, hhi⟩
    rw [hrow] at hr
    injection hr with hr
    subst hr
    rw [hp0] at hp
    rw [hp6] at hq
    injection hp with hp
    injection hq with hq
    subst hp; subst hq
    rw [hc0] at hlo
    rw [hc6] at hhi
    injection hlo with hlo
    injection hhi with hhi
    exact ⟨hlo.symm, hhi.symm⟩
  · rintro ⟨rfl, rfl⟩
    exact ⟨row, p0, p6, hrow, hp0, hp6, hc0, hc6⟩

/-- **The cells of a block mesh tile the block**: every cell is a box in the block, every point of the
block is in a cell, and a point inside of a cell is in no other one.  **There are no double nodes.** -/
theorem C66_tiling3 (d c : K × K × K) (hd : 0 < d.1 ∧ 0 < d.2.1 ∧ 0 < d.2.2) {n0 n1 n2 : ℕ}
    (h0 : 2 ≤ n0) (h1 : 2 ≤ n1) (h2 : 2 ≤ n2) :
    (∀ p, Box (c.1 - d.1 / 2, c.2.1 - d.2.1 / 2, c.2.2 - d.2.2 / 2)
        (c.1 + d.1 / 2, c.2.1 + d.2.1 / 2, c.2.2 + d.2.2 / 2) p ↔
      ∃ e lo hi, Corners (blockCoors3 d c n0 n1 n2) (tensorConn3 n0 n1 n2) e lo hi ∧ Box lo hi p) ∧
    (∀ p e e' lo hi lo' hi',
      Corners (blockCoors3 d c n0 n1 n2) (tensorConn3 n0 n1 n2) e lo hi → BoxInt lo hi p →
      Corners (blockCoors3 d c n0 n1 n2) (tensorConn3 n0 n1 n2) e' lo' hi' → BoxInt lo' hi' p →
      e = e') ∧
    (blockCoors3 d c n0 n1 n2).Nodup := by
  have hcell : ∀ e lo hi, Corners (blockCoors3 d c n0 n1 n2) (tensorConn3 n0 n1 n2) e lo hi →
      ∃ i j k, i + 1 < n0 ∧ j + 1 < n1 ∧ k + 1 < n2 ∧ e = (i * (n1 - 1) + j) * (n2 - 1) + k ∧
        lo = (gridNode d.1 c.1 n0 i, gridNode d.2.1 c.2.1 n1 j, gridNode d.2.2 c.2.2 n2 k) ∧
        hi = (gridNode d.1 c.1 n0 (i + 1), gridNode d.2.1 c.2.1 n1 (j + 1),
          gridNode d.2.2 c.2.2 n2 (k + 1)) := by
    intro e lo hi hC
    obtain ⟨row, p, q, hr, -⟩ := id hC
    have he : e < (n0 - 1) * (n1 - 1) * (n2 - 1) := by
      have := (List.getElem?_eq_some_iff.1 hr).1
      rwa [(C66_block3 d c h0 h1 h2).2.1] at this
    obtain ⟨i, j, k, hi, hj, hk, rfl⟩ := cell_of_lt3 he
    have := (corners3 d c h0 h1 h2 (i := i) (j := j) (k := k) (by omega) (by omega) (by omega) lo _).1 hC
    exact ⟨i, j, k, by omega, by omega, by omega, rfl, this⟩
  have hmono : ∀ {d c : K}, 0 < d → ∀ {n : ℕ}, 2 ≤ n → ∀ i, i + 1 < n →
      c - d / 2 ≤ gridNode d c n i ∧ gridNode d c n (i + 1) ≤ c + d / 2 := by
    intro d c hd n hn i hi
    obtain ⟨he0, he1⟩ := gridNode_ends d c hn
    rw [← he0, ← he1]
    constructor
    · rcases Nat.eq_zero_or_pos i with h | h
      · rw [h]
      · exact ((gridNode_lt hd hn).2 h).le
    · rcases Nat.lt_or_ge (i + 1) (n - 1) with h | h
      · exact ((gridNode_lt hd hn).2 h).le
      · have : i + 1 = n - 1 := by omega
        rw [this]
  refine ⟨fun p => ⟨fun hb => ?_, ?_⟩, ?_, ?_⟩
  · obtain ⟨⟨a1, a2⟩, ⟨b1, b2⟩, ⟨e1, e2⟩⟩ := hb
    obtain ⟨i, hi, hi1, hi2⟩ := gridNode_cover h0 a1 a2
    obtain ⟨j, hj, hj1, hj2⟩ := gridNode_cover h1 b1 b2
    obtain ⟨k, hk, hk1, hk2⟩ := gridNode_cover h2 e1 e2
    exact ⟨_, _, _, (corners3 d c h0 h1 h2 hi hj hk _ _).2 ⟨rfl, rfl⟩, ⟨hi1, hi2⟩, ⟨hj1, hj2⟩,
      ⟨hk1, hk2⟩⟩
  · rintro ⟨e, lo, hi, hC, ⟨a1, a2⟩, ⟨b1, b2⟩, ⟨e1, e2⟩⟩
    obtain ⟨i, j, k, hi', hj, hk, -, rfl, rfl⟩ := hcell e lo hi hC
    have m0 := hmono (c := c.1) hd.1 h0 i hi'
    have m1 := hmono (c := c.2.1) hd.2.1 h1 j hj
    have m2 := hmono (c := c.2.2) hd.2.2 h2 k hk
    exact ⟨⟨m0.1.trans a1, a2.trans m0.2⟩, ⟨m1.1.trans b1, b2.trans m1.2⟩,
      ⟨m2.1.trans e1, e2.trans m2.2⟩⟩
  · intro p e e' lo hi lo' hi' hC hb hC' hb'
    obtain ⟨i, j, k, -, -, -, rfl, rfl, rfl⟩ := hcell e lo hi hC
    obtain ⟨i', j', k', -, -, -, rfl, rfl, rfl⟩ := hcell e' lo' hi' hC'
    rw [gridNode_unique hd.1 h0 hb.1 hb'.1, gridNode_unique hd.2.1 h1 hb.2.1 hb'.2.1,
      gridNode_unique hd.2.2 h2 hb.2.2 hb'.2.2]
  · rw [List.nodup_iff_injective_get]
    intro a b hab
    have hl := (C66_block3 d c h0 h1 h2).1
    obtain ⟨i, j, k, hi, hj, hk, ha⟩ := cell_of_lt3 (m0 := n0) (m1 := n1) (m2 := n2) (e := a)
      (by have := a.2; omega)
    obtain ⟨i', j', k', hi', hj', hk', hb⟩ := cell_of_lt3 (m0 := n0) (m1 := n1) (m2 := n2) (e := b)
      (by have := b.2; omega)
    have hga : ∀ x : Fin (blockCoors3 d c n0 n1 n2).length, ∀ i j k, i < n0 → j < n1 → k < n2 →
        (x : ℕ) = (i * n1 + j) * n2 + k → (blockCoors3 d c n0 n1 n2).get x =
          (gridNode d.1 c.1 n0 i, gridNode d.2.1 c.2.1 n1 j, gridNode d.2.2 c.2.2 n2 k) := by
      intro x i j k hi hj hk hx
      have : (blockCoors3 d c n0 n1 n2)[(x : ℕ)]? = some
          (gridNode d.1 c.1 n0 i, gridNode d.2.1 c.2.1 n1 j, gridNode d.2.2 c.2.2 n2 k) := by
        rw [hx]
        unfold blockCoors3
        rw [flat3_get (fun i j k => (axisCoor d.1 c.1 n0 i, axisCoor d.2.1 c.2.1 n1 j,
          axisCoor d.2.2 c.2.2 n2 k)) n0 n1 n2 i j k hi hj hk, axisCoor_eq _ _ h0,
          axisCoor_eq _ _ h1, axisCoor_eq _ _ h2]
      rw [List.getElem?_eq_getElem x.2] at this
      injection this
    rw [hga a i j k hi hj hk ha, hga b i' j' k' hi' hj' hk' hb] at hab
    simp only [Prod.mk.injEq] at hab
    apply Fin.ext
    rw [ha, hb, gridNode_inj hd.1 h0 hab.1, gridNode_inj hd.2.1 h1 hab.2.1,
      gridNode_inj hd.2.2 h2 hab.2.2]

/-- The rectangle spanned by two points. -/
def Rect (lo hi : K × K) (p : K × K) : Prop :=
  (lo.1 ≤ p.1 ∧ p.1 ≤ hi.1) ∧ (lo.2 ≤ p.2 ∧ p.2 ≤ hi.2)

/-- The inside of the rectangle. -/
def RectInt (lo hi : K × K) (p : K × K) : Prop :=
  (lo.1 < p.1 ∧ p.1 < hi.1) ∧ (lo.2 < p.2 ∧ p.2 < hi.2)

/-- The vertices 0 and 2 of a quadrilateral of the mesh: the lower and upper corners. -/
def Corners2 (coors : List (K × K)) (conn : List (List ℕ)) (e : ℕ) (lo hi : K × K) : Prop :=
  ∃ row p q, conn[e]? = some row ∧ row[0]? = some p ∧ row[2]? = some q ∧ coors[p]? = some lo ∧
    coors[q]? = some hi

theorem corners2 (d c : K × K) {n0 n1 : ℕ} (h0 : 2 ≤ n0) (h1 : 2 ≤ n1)
    {i j : ℕ} (hi : i + 1 < n0) (hj : j + 1 < n1) (lo hiC : K × K) :
    Corners2 (blockCoors2 d c n0 n1) (tensorConn2 n0 n1) (i * (n1 - 1) + j) lo hiC ↔
    lo = (gridNode d.1 c.1 n0 i, gridNode d.2 c.2 n1 j) ∧
    hiC = (gridNode d.1 c.1 n0 (i + 1), gridNode d.2 c.2 n1 (j + 1)) := by
  obtain ⟨-, -, hall⟩ := C66_block2 d c h0 h1
  obtain ⟨row, hrow, -, hv⟩ := hall i j hi hj
  obtain ⟨p0, hp0, hc0⟩ := hv 0 0 0 rfl
  obtain ⟨p2, hp2, hc2⟩ := hv 2 1 1 rfl
  constructor
  · rintro ⟨row', p, q, hr, hp, hq, hlo, hhi⟩
    rw [hrow] at hr
    injection hr with hr
    subst hr
    rw [hp0] at hp
    rw [hp2] at hq
    injection hp with hp
    injection hq with hq
    subst hp; subst hq
    rw [hc0] at hlo
    rw [hc2] at hhi
    injection hlo with hlo
    injection hhi with hhi
    exact ⟨hlo.symm, hhi.symm⟩
  · rintro ⟨rfl, rfl⟩
    exact ⟨row, p0, p2, hrow, hp0, hp2, hc0, hc2⟩

/-- **The cells of a 2D block mesh tile the block**, without double nodes. -/
theorem C66_tiling2 (d c : K × K) (hd : 0 < d.1 ∧ 0 < d.2) {n0 n1 : ℕ}
    (h0 : 2 ≤ n0) (h1 : 2 ≤ n1) :
    (∀ p, Rect (c.1 - d.1 / 2, c.2 - d.2 / 2) (c.1 + d.1 / 2, c.2 + d.2 / 2) p ↔
      ∃ e lo hi, Corners2 (blockCoors2 d c n0 n1) (tensorConn2 n0 n1) e lo hi ∧ Rect lo hi p) ∧
    (∀ p e e' lo hi lo' hi',
      Corners2 (blockCoors2 d c n0 n1) (tensorConn2 n0 n1) e lo hi → RectInt lo hi p →
      Corners2 (blockCoors2 d c n0 n1) (tensorConn2 n0 n1) e' lo' hi' → RectInt lo' hi' p →
      e = e') ∧
    (blockCoors2 d c n0 n1).Nodup := by
  have hcell : ∀ e lo hi, Corners2 (blockCoors2 d c n0 n1) (tensorConn2 n0 n1) e lo hi →
      ∃ i j, i + 1 < n0 ∧ j + 1 < n1 ∧ e = i * (n1 - 1) + j ∧
        lo = (gridNode d.1 c.1 n0 i, gridNode d.2 c.2 n1 j) ∧
        hi = (gridNode d.1 c.1 n0 (i + 1), gridNode d.2 c.2 n1 (j + 1)) := by
    intro e lo hi hC
    obtain ⟨row, p, q, hr, -⟩ := id hC
    have he : e < (n0 - 1) * (n1 - 1) := by
      have := (List.getElem?_eq_some_iff.1 hr).1
      rwa [(C66_block2 d c h0 h1).2.1] at this
    obtain ⟨i, j, hi, hj, rfl⟩ := cell_of_lt2 he
    have := (corners2 d c h0 h1 (i := i) (j := j) (by omega) (by omega) lo _).1 hC
    exact ⟨i, j, by omega, by omega, rfl, this⟩
  have hmono : ∀ {d c : K}, 0 < d → ∀ {n : ℕ}, 2 ≤ n → ∀ i, i + 1 < n →
      c - d / 2 ≤ gridNode d c n i ∧ gridNode d c n (i + 1) ≤ c + d / 2 := by
    intro d c hd n hn i hi
    obtain ⟨he0, he1⟩ := gridNode_ends d c hn
    rw [← he0, ← he1]
    constructor
    · rcases Nat.eq_zero_or_pos i with h | h
      · rw [h]
      · exact ((gridNode_lt hd hn).2 h).le
    · rcases Nat.lt_or_ge (i + 1) (n - 1) with h | h
      · exact ((gridNode_lt hd hn).2 h).le
      · have : i + 1 = n - 1 := by omega
        rw [this]
  refine ⟨fun p => ⟨fun hb => ?_, ?_⟩, ?_, ?_⟩
  · obtain ⟨⟨a1, a2⟩, ⟨b1, b2⟩⟩ := hb
    obtain ⟨i, hi, hi1, hi2⟩ := gridNode_cover h0 a1 a2
    obtain ⟨j, hj, hj1, hj2⟩ := gridNode_cover h1 b1 b2
    exact ⟨_, _, _, (corners2 d c h0 h1 hi hj _ _).2 ⟨rfl, rfl⟩, ⟨hi1, hi2⟩, ⟨hj1, hj2⟩⟩
  · rintro ⟨e, lo, hi, hC, ⟨a1, a2⟩, ⟨b1, b2⟩⟩
    obtain ⟨i, j, hi', hj, -, rfl, rfl⟩ := hcell e lo hi hC
    have m0 := hmono (c := c.1) hd.1 h0 i hi'
    have m1 := hmono (c := c.2) hd.2 h1 j hj
    exact ⟨⟨m0.1.trans a1, a2.trans m0.2⟩, ⟨m1.1.trans b1, b2.trans m1.2⟩⟩
  · intro p e e' lo hi lo' hi' hC hb hC' hb'
    obtain ⟨i, j, -, -, rfl, rfl, rfl⟩ := hcell e lo hi hC
    obtain ⟨i', j', -, -, rfl, rfl, rfl⟩ := hcell e' lo' hi' hC'
    rw [gridNode_unique hd.1 h0 hb.1 hb'.1, gridNode_unique hd.2 h1 hb.2 hb'.2]
  · rw [List.nodup_iff_injective_get]
    intro a b hab
    have hl := (C66_block2 d c h0 h1).1
    obtain ⟨i, j, hi, hj, ha⟩ := cell_of_lt2 (m0 := n0) (m1 := n1) (e := a)
      (by have := a.2; omega)
    obtain ⟨i', j', hi', hj', hb⟩ := cell_of_lt2 (m0 := n0) (m1 := n1) (e := b)
      (by have := b.2; omega)
    have hga : ∀ x : Fin (blockCoors2 d c n0 n1).length, ∀ i j, i < n0 → j < n1 →
        (x : ℕ) = i * n1 + j → (blockCoors2 d c n0 n1).get x =
          (gridNode d.1 c.1 n0 i, gridNode d.2 c.2 n1 j) := by
      intro x i j hi hj hx
      have : (blockCoors2 d c n0 n1)[(x : ℕ)]? = some
          (gridNode d.1 c.1 n0 i, gridNode d.2 c.2 n1 j) := by
        rw [hx]
        unfold blockCoors2
        rw [flat2_get (fun i j => (axisCoor d.1 c.1 n0 i, axisCoor d.2 c.2 n1 j)) n0 n1 i j hi hj,
          axisCoor_eq _ _ h0, axisCoor_eq _ _ h1]
      rw [List.getElem?_eq_getElem x.2] at this
      injection this
    rw [hga a i j hi hj ha, hga b i' j' hi' hj' hb] at hab
    simp only [Prod.mk.injEq] at hab
    apply Fin.ext
    rw [ha, hb, gridNode_inj hd.1 h0 hab.1, gridNode_inj hd.2 h1 hab.2]

end

end Verif.Mesh
