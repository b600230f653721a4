/-
The conformity of the numbering of the DOFs of the Lagrange tensor product elements.
-/
import Verif.Fem.PropsSimplex

namespace Verif.Fem

open Finset

/-! ### Rows -/

/-- The row of the vertex `i` of the element of the order one. -/
def bitRow (dim i k : ℕ) : ℕ := if k % 2 = 0 then 1 - vertexMap dim i (k / 2) else vertexMap dim i (k / 2)

/-- The vertex nodes of a tensor product element. -/
def tensorV (dim nV order : ℕ) : List Nod :=
  (List.range nV).map fun ii =>
    { nt := (0, ii)
      row := fun k =>
        let i := order * vertexMap dim ii (k / 2)
        if k % 2 = 0 then order - i else i }

theorem length_tensorV (dim nV order : ℕ) : (tensorV dim nV order).length = nV := by simp [tensorV]

theorem nt_tensorV (dim nV order : ℕ) : (tensorV dim nV order).map Nod.nt = (List.range nV).map fun i => (0, i) := by
  simp [tensorV]

theorem rowAt_tensorV {dim nV order i : ℕ} (hi : i < nV) :
    rowAt (tensorV dim nV order) i = fun k => order * bitRow dim i k := by
  rw [tensorV, rowAt_map _ _ _ (by simpa using hi) 0, List.getD_eq_getElem _ _ (by simpa using hi), List.getElem_range]
  funext k
  simp only [bitRow]
  split_ifs
  · rw [Nat.mul_sub, Nat.mul_one]
  · rfl

theorem tEdgeRow {nodes : List Nod} {dim nV o : ℕ} (ho : 1 ≤ o)
    (hn : ∀ i < nV, rowAt nodes i = fun k => o * bitRow dim i k) (nt : ℕ) (l : List ℕ) (e : ℕ)
    (h0 : l.getD 0 0 < nV) (h1 : l.getD 1 0 < nV) {j : ℕ} (hj : j < o - 1) :
    rowAt (edgeBlock nodes nt o l e) j = fun k =>
      (o - 1 - j) * bitRow dim (l.getD 0 0) k + (j + 1) * bitRow dim (l.getD 1 0) k := by
  rw [edgeBlock, rowAt_map _ _ _ (by simpa using hj) 0, List.getD_eq_getElem (List.range _) _ (by simpa using hj),
    List.getElem_range, hn _ h0, hn _ h1]
  funext k
  simp only
  rw [show o - (j + 1) = o - 1 - j by omega]
  rw [show (o - 1 - j) * (o * bitRow dim (l.getD 0 0) k) + (j + 1) * (o * bitRow dim (l.getD 1 0) k) =
    ((o - 1 - j) * bitRow dim (l.getD 0 0) k + (j + 1) * bitRow dim (l.getD 1 0) k) * o by ring,
    Nat.mul_div_cancel _ ho]

theorem tSqRow {nodes : List Nod} {dim nV o : ℕ} (ho : 1 ≤ o)
    (hn : ∀ i < nV, rowAt nodes i = fun k => o * bitRow dim i k) (nt : ℕ) (l : List ℕ) (e : ℕ)
    (h0 : l.getD 0 0 < nV) (h1 : l.getD 1 0 < nV) (h2 : l.getD 2 0 < nV) (h3 : l.getD 3 0 < nV) {j : ℕ}
    (hj : j < (sqL (o - 1)).length) :
    ∃ p, p = (sqL (o - 1)).getD j (0, 0) ∧ p.1 < o - 1 ∧ p.2 < o - 1 ∧
    rowAt (sqBlock nodes nt o l e) j = fun k =>
      ((o - 1 - p.2) * (o - 1 - p.1) * bitRow dim (l.getD 0 0) k + (p.2 + 1) * (o - 1 - p.1) * bitRow dim (l.getD 1 0) k
        + (p.2 + 1) * (p.1 + 1) * bitRow dim (l.getD 2 0) k + (o - 1 - p.2) * (p.1 + 1) * bitRow dim (l.getD 3 0) k)
        / o := by
  have hm := mem_sqL.1 (List.getElem_mem hj)
  refine ⟨_, rfl, ?_, ?_, ?_⟩
  · rw [List.getD_eq_getElem _ _ hj]; exact hm.1
  · rw [List.getD_eq_getElem _ _ hj]; exact hm.2
  rw [sqBlock, rowAt_map _ _ _ hj (0, 0), hn _ h0, hn _ h1, hn _ h2, hn _ h3]
  funext k
  simp only
  generalize (sqL (o - 1)).getD j (0, 0) = p
  rw [show o - (p.1 + 1) = o - 1 - p.1 by omega, show o - (p.2 + 1) = o - 1 - p.2 by omega]
  rw [show (o - 1 - p.2) * (o - 1 - p.1) * (o * bitRow dim (l.getD 0 0) k)
      + (o - 1 - p.1) * (p.2 + 1) * (o * bitRow dim (l.getD 1 0) k)
      + (p.2 + 1) * (p.1 + 1) * (o * bitRow dim (l.getD 2 0) k)
      + (p.1 + 1) * (o - 1 - p.2) * (o * bitRow dim (l.getD 3 0) k) =
    ((o - 1 - p.2) * (o - 1 - p.1) * bitRow dim (l.getD 0 0) k + (p.2 + 1) * (o - 1 - p.1) * bitRow dim (l.getD 1 0) k
        + (p.2 + 1) * (p.1 + 1) * bitRow dim (l.getD 2 0) k + (o - 1 - p.2) * (p.1 + 1) * bitRow dim (l.getD 3 0) k) * o
      by ring, pow_two, Nat.mul_div_mul_right _ _ ho]

theorem tensorLoc_eq (dim nV : ℕ) (conn row : ℕ → ℕ) (v : ℕ) : tensorLoc dim nV conn row v =
    pushW nV conn (fun i => ∏ d ∈ range dim, row (2 * d + vertexMap dim i d)) v := rfl

/-! ### `1_2` -/

theorem tensorNodes12 (o : ℕ) : tensorNodes gel12 o =
    tensorV 1 2 o ++ (List.range 0).flatMap (fun _ => []) ++ (List.range 0).flatMap (fun _ => []) ++
      edgeBlock (tensorV 1 2 o) 3 o [0, 1] 0 := by
  have : tensorNodes gel12 o = appendEdges (tensorV 1 2 o) 3 [[0, 1]] o := rfl
  rw [this, appendEdges_eq]
  simp

theorem tshape12 (o : ℕ) : HasShape gel12 (tensorNodes gel12 o) 0 0 (o - 1) where
  nts := by
    rw [tensorNodes12]
    exact nts_blocks _ 2 0 0 0 0 (o - 1) _ _ _ (nt_tensorV _ _ _) (by simp) (by simp) (nt_edgeBlock ..)
  hE := .inr rfl
  hF := .inr rfl

theorem trow12_vert {o i : ℕ} (hi : i < 2) : rowAt (tensorNodes gel12 o) i = fun k => o * bitRow 1 i k := by
  rw [tensorNodes12, rowAt_vert _ 2 0 0 _ _ _ (length_tensorV _ _ _) hi, rowAt_tensorV hi]

theorem trow12_bubble {o j : ℕ} (ho : 1 ≤ o) (hj : j < o - 1) :
    rowAt (tensorNodes gel12 o) (2 + 0 * 0 + 0 * 0 + j) = fun k =>
      (o - 1 - j) * bitRow 1 0 k + (j + 1) * bitRow 1 1 k := by
  rw [tensorNodes12, rowAt_bubble _ 2 0 0 0 0 _ _ _ (length_tensorV _ _ _) (by simp) (by simp),
    tEdgeRow (nV := 2) ho (fun i hi => rowAt_tensorV hi) _ _ _ (by simp) (by simp) hj]
  rfl

/-- The local weights of a vertex node. -/
theorem tensor_vert {dim nV : ℕ} (o : ℕ)
    (h : ∀ i < nV, ∀ i' < nV, (∏ d ∈ range dim, bitRow dim i (2 * d + vertexMap dim i' d)) = if i' = i then 1 else 0)
    {i : ℕ} (hi : i < nV) (conn : ℕ → ℕ) (v : ℕ) :
    tensorLoc dim nV conn (fun k => o * bitRow dim i k) v = if v = conn i then o ^ dim else 0 := by
  rw [tensorLoc_eq, ← pushW_single hi]
  refine pushW_congr fun i' hi' => ?_
  rw [Finset.prod_mul_distrib, h i hi i' hi', Finset.prod_const, Finset.card_range]
  split_ifs <;> simp

theorem tensor_edge {dim nV o a b j : ℕ} (s : ℕ) (row : ℕ → ℕ) (ha : a < nV) (hb : b < nV)
    (h : ∀ i < nV, (∏ d ∈ range dim, row (2 * d + vertexMap dim i d)) = s * edgeW o a b j i) (conn : ℕ → ℕ) (v : ℕ) :
    tensorLoc dim nV conn row v = s * edgeW o (conn a) (conn b) j v := by
  rw [tensorLoc_eq, pushW_congr h, pushW_mul, pushW_edge ha hb]

theorem tensor_sq {dim nV m a b c e : ℕ} {p : ℕ × ℕ} (s : ℕ) (row : ℕ → ℕ) (ha : a < nV) (hb : b < nV) (hc : c < nV)
    (he : e < nV) (h : ∀ i < nV, (∏ d ∈ range dim, row (2 * d + vertexMap dim i d)) = s * sqW m a b c e p i)
    (conn : ℕ → ℕ) (v : ℕ) :
    tensorLoc dim nV conn row v = s * sqW m (conn a) (conn b) (conn c) (conn e) p v := by
  rw [tensorLoc_eq, pushW_congr h, pushW_mul, pushW_sq ha hb hc he]

theorem tloc12_bubble {o j : ℕ} (hj : j < o - 1) (conn : ℕ → ℕ) (v : ℕ) :
    tensorLoc 1 2 conn (fun k => (o - 1 - j) * bitRow 1 0 k + (j + 1) * bitRow 1 1 k) v =
      pushW 2 conn (edgeW o 0 1 j) v := by
  rw [tensorLoc_eq]
  refine pushW_congr fun i hi => ?_
  interval_cases i <;> simp [vertexMap, bitRow, edgeW]

/-- The positions of the nodes of the element `1_2`. -/
def tlocated12 {o : ℕ} (ho : 1 ≤ o) :
    Located gel12 (tensorNodes gel12 o) o 0 0 (o - 1) (tensorLoc 1 2) where
  s0 := o ^ 1
  s1 := 1
  s2 := 1
  pos0 := Nat.pow_pos ho
  pos1 := one_pos
  pos2 := one_pos
  hne := .inr rfl
  lenF := 3
  lenF3 := .inl rfl
  hnf := .inr rfl
  hnV := by simp [gel12]
  edges := by simp [gel12]
  faces := by simp [gel12]
  vert := fun conn i v hi => by rw [trow12_vert hi, tensor_vert (dim := 1) (nV := 2) o (by decide) hi]
  edge := fun conn e j v he => by simp [gel12] at he
  face := fun conn e j v he => by simp [gel12] at he
  bubble := fun conn j v hj => by
    have hr : rowAt (tensorNodes gel12 o) (gel12.nV + gel12.edges.length * 0 + gel12.faces.length * 0 + j) = _ :=
      trow12_bubble ho hj
    rw [hr, tloc12_bubble hj]
    refine pushW_ne conn (fun i hi => ?_) v
    unfold edgeW
    interval_cases i <;> simp
    omega
  bubble_inj := fun conn j j' hj hj' hinj h => by
    have hr : rowAt (tensorNodes gel12 o) (gel12.nV + gel12.edges.length * 0 + gel12.faces.length * 0 + j) = _ :=
      trow12_bubble ho hj
    have hr' : rowAt (tensorNodes gel12 o) (gel12.nV + gel12.edges.length * 0 + gel12.faces.length * 0 + j') = _ :=
      trow12_bubble ho hj'
    have := h (conn 1)
    rw [hr, hr', tloc12_bubble hj, tloc12_bubble hj', pushW_at (nV := 2) hinj (by decide),
      pushW_at (nV := 2) hinj (by decide)] at this
    simpa [edgeW] using this

/-! ### `2_4` -/

theorem rowAt_appendEdges_t {dim nV o i nt : ℕ} {edges : List (List ℕ)} (hi : i < nV) :
    rowAt (appendEdges (tensorV dim nV o) nt edges o) i = fun k => o * bitRow dim i k := by
  rw [appendEdges_eq, rowAt_append_left (by rw [length_tensorV]; exact hi), rowAt_tensorV hi]

theorem tensorNodes24 (o : ℕ) : tensorNodes gel24 o =
    tensorV 2 4 o ++ (List.range 4).flatMap (fun e => edgeBlock (tensorV 2 4 o) 1 o (gel24.edges.getD e []) e)
      ++ (List.range 0).flatMap (fun _ => []) ++
      sqBlock (appendEdges (tensorV 2 4 o) 1 gel24.edges o) 3 o [0, 1, 2, 3] 0 := by
  have : tensorNodes gel24 o = appendTpFaces (appendEdges (tensorV 2 4 o) 1 gel24.edges o) 3 [[0, 1, 2, 3]] o := rfl
  rw [this, appendTpFaces_eq]
  conv_lhs => lhs; rw [appendEdges_eq]
  have h1 : gel24.edges.length = 4 := rfl
  rw [h1]
  simp

theorem tshape24 (o : ℕ) : HasShape gel24 (tensorNodes gel24 o) (o - 1) 0 (sqL (o - 1)).length where
  nts := by
    rw [tensorNodes24]
    exact nts_blocks _ 4 4 0 (o - 1) 0 _ _ _ _ (nt_tensorV _ _ _) (fun e _ => nt_edgeBlock ..) (by simp) (nt_sqBlock ..)
  hE := .inl (by decide)
  hF := .inr rfl

theorem trow24_vert {o i : ℕ} (hi : i < 4) : rowAt (tensorNodes gel24 o) i = fun k => o * bitRow 2 i k := by
  rw [tensorNodes24, rowAt_vert _ 4 4 0 _ _ _ (length_tensorV _ _ _) hi, rowAt_tensorV hi]

theorem gel24_edges : ∀ e < 4, (gel24.edges.getD e []).length = 2 ∧ (gel24.edges.getD e []).Nodup ∧
    ∀ i ∈ gel24.edges.getD e [], i < 4 := by decide

theorem trow24_edge {o e j : ℕ} (ho : 1 ≤ o) (he : e < 4) (hj : j < o - 1) :
    rowAt (tensorNodes gel24 o) (4 + e * (o - 1) + j) = fun k =>
      (o - 1 - j) * bitRow 2 ((gel24.edges.getD e []).getD 0 0) k
        + (j + 1) * bitRow 2 ((gel24.edges.getD e []).getD 1 0) k := by
  obtain ⟨a, -, b⟩ := gel24_edges e he
  rw [tensorNodes24, rowAt_edge _ 4 4 0 (o - 1) _ _ _ (length_tensorV _ _ _) (fun e _ => length_edgeBlock ..) he hj,
    tEdgeRow (nV := 4) ho (fun i hi => rowAt_tensorV hi) _ _ _ (getD_lt (by omega) b) (getD_lt (by omega) b) hj]

theorem tloc24_edge {o e j : ℕ} (he : e < 4) (hj : j < o - 1) (i : ℕ) (hi : i < 4) :
    (∏ d ∈ range 2, (fun k => (o - 1 - j) * bitRow 2 ((gel24.edges.getD e []).getD 0 0) k
        + (j + 1) * bitRow 2 ((gel24.edges.getD e []).getD 1 0) k) (2 * d + vertexMap 2 i d)) =
      o * edgeW o ((gel24.edges.getD e []).getD 0 0) ((gel24.edges.getD e []).getD 1 0) j i := by
  obtain ⟨c, rfl⟩ : ∃ c, o = c + 1 + j := ⟨o - 1 - j, by omega⟩
  have h1 : c + 1 + j - 1 - j = c := by omega
  simp only [edgeW, h1]
  interval_cases e <;> interval_cases i <;>
    simp [Finset.prod_range_succ, vertexMap, bitRow, gel24] <;> first | done | (left; ring) | ring

theorem trow24_bubble {o j : ℕ} (ho : 1 ≤ o) (hj : j < (sqL (o - 1)).length) :
    ∃ p, p = (sqL (o - 1)).getD j (0, 0) ∧ p.1 < o - 1 ∧ p.2 < o - 1 ∧
    rowAt (tensorNodes gel24 o) (4 + 4 * (o - 1) + 0 * 0 + j) = fun k =>
      ((o - 1 - p.2) * (o - 1 - p.1) * bitRow 2 0 k + (p.2 + 1) * (o - 1 - p.1) * bitRow 2 1 k
        + (p.2 + 1) * (p.1 + 1) * bitRow 2 2 k + (o - 1 - p.2) * (p.1 + 1) * bitRow 2 3 k) / o := by
  rw [tensorNodes24, rowAt_bubble _ 4 4 0 (o - 1) 0 _ _ _ (length_tensorV _ _ _) (fun e _ => length_edgeBlock ..)
    (by simp)]
  exact tSqRow (nV := 4) ho (fun i hi => rowAt_appendEdges_t hi) _ _ _ (by simp) (by simp) (by simp) (by simp) hj

theorem sq_div (o x y z w : ℕ) (ho : 1 ≤ o) (h1 : x + y = o) (h2 : z + w = o) :
    (x * z + y * z + y * w + x * w) / o = o ∧ (x * z + x * w) / o = x ∧ (y * z + y * w) / o = y ∧
      (x * z + y * z) / o = z ∧ (y * w + x * w) / o = w := by
  subst h2
  refine ⟨?_, ?_, ?_, ?_, ?_⟩
  · rw [show x * z + y * z + y * w + x * w = (x + y) * (z + w) by ring, h1, Nat.mul_div_cancel _ ho]
  · rw [← Nat.mul_add, Nat.mul_div_cancel _ ho]
  · rw [← Nat.mul_add, Nat.mul_div_cancel _ ho]
  · rw [← Nat.add_mul, h1, Nat.mul_comm, Nat.mul_div_cancel _ ho]
  · rw [← Nat.add_mul, Nat.add_comm y, h1, Nat.mul_comm, Nat.mul_div_cancel _ ho]

/-- The weights of the node of a quadrilateral with the weights `x`, `y` and `z`, `w` of its sides. -/
def quadW (x y z w a b c e v : ℕ) : ℕ :=
  (if v = a then x * z else 0) + (if v = b then y * z else 0) + (if v = c then y * w else 0)
    + if v = e then x * w else 0

/-- A row inside of a quadrilateral. -/
def quadRow (dim o x y z w a b c e k : ℕ) : ℕ :=
  (x * z * bitRow dim a k + y * z * bitRow dim b k + y * w * bitRow dim c k + x * w * bitRow dim e k) / o

theorem quad24 {o x y z w : ℕ} (ho : 1 ≤ o) (h1 : x + y = o) (h2 : z + w = o) (i : ℕ) (hi : i < 4) :
    (∏ d ∈ range 2, quadRow 2 o x y z w 0 1 2 3 (2 * d + vertexMap 2 i d)) = 1 * quadW x y z w 0 1 2 3 i := by
  obtain ⟨e0, e1, e2, e3, e4⟩ := sq_div o x y z w ho h1 h2
  interval_cases i <;> simp [Finset.prod_range_succ, vertexMap, bitRow, quadRow, quadW, e1, e2, e3, e4]

theorem tloc24_bubble {o j : ℕ} (ho : 1 ≤ o) (hj : j < (sqL (o - 1)).length) (conn : ℕ → ℕ) (v : ℕ) :
    tensorLoc 2 4 conn (rowAt (tensorNodes gel24 o) (4 + 4 * (o - 1) + 0 * 0 + j)) v =
      pushW 4 conn (sqW (o - 1) 0 1 2 3 ((sqL (o - 1)).getD j (0, 0))) v := by
  obtain ⟨p, hp, p1, p2, hr⟩ := trow24_bubble ho hj
  rw [hr, ← hp, tensorLoc_eq]
  refine pushW_congr fun i hi => ?_
  have := quad24 ho (show o - 1 - p.2 + (p.2 + 1) = o by omega) (show o - 1 - p.1 + (p.1 + 1) = o by omega) i hi
  rw [one_mul] at this
  exact this

theorem sqW_ne {m : ℕ} {p : ℕ × ℕ} (h1 : p.1 < m) (h2 : p.2 < m) (i : ℕ) (hi : i < 4) : sqW m 0 1 2 3 p i ≠ 0 := by
  have a : m - p.1 ≠ 0 := by omega
  have b : m - p.2 ≠ 0 := by omega
  interval_cases i <;> simp [sqW, a, b]

/-- The positions of the nodes of the element `2_4`. -/
def tlocated24 {o : ℕ} (ho : 1 ≤ o) :
    Located gel24 (tensorNodes gel24 o) o (o - 1) 0 (sqL (o - 1)).length (tensorLoc 2 4) where
  s0 := o ^ 2
  s1 := o
  s2 := 1
  pos0 := Nat.pow_pos ho
  pos1 := ho
  pos2 := one_pos
  hne := .inl rfl
  lenF := 3
  lenF3 := .inl rfl
  hnf := .inr rfl
  hnV := by simp [gel24]
  edges := gel24_edges
  faces := by simp [gel24]
  vert := fun conn i v hi => by rw [trow24_vert hi, tensor_vert (dim := 2) (nV := 4) o (by decide) hi]
  edge := fun conn e j v he hj => by
    obtain ⟨a, -, b⟩ := gel24_edges e he
    have hr : rowAt (tensorNodes gel24 o) (gel24.nV + e * (o - 1) + j) = _ := trow24_edge ho he hj
    rw [hr, tensor_edge _ _ (getD_lt (by omega) b) (getD_lt (by omega) b) (tloc24_edge he hj)]
  face := fun conn e j v he => by simp [gel24] at he
  bubble := fun conn j v hj => by
    have hr : tensorLoc 2 4 conn (rowAt (tensorNodes gel24 o) (gel24.nV + gel24.edges.length * (o - 1) +
      gel24.faces.length * 0 + j)) v = _ := tloc24_bubble ho hj conn v
    rw [hr]
    have := mem_sqL.1 (List.getElem_mem hj)
    rw [List.getD_eq_getElem _ _ hj]
    exact pushW_ne conn (fun i hi => sqW_ne this.1 this.2 i hi) v
  bubble_inj := fun conn j j' hj hj' hinj h => by
    have hr : ∀ v, tensorLoc 2 4 conn (rowAt (tensorNodes gel24 o) (gel24.nV + gel24.edges.length * (o - 1) +
      gel24.faces.length * 0 + j)) v = _ := tloc24_bubble ho hj conn
    have hr' : ∀ v, tensorLoc 2 4 conn (rowAt (tensorNodes gel24 o) (gel24.nV + gel24.edges.length * (o - 1) +
      gel24.faces.length * 0 + j')) v = _ := tloc24_bubble ho hj' conn
    have := mem_sqL.1 (List.getElem_mem hj)
    have h'' := mem_sqL.1 (List.getElem_mem hj')
    refine (List.Nodup.getElem_inj_iff (nodup_sqL _)).1 (sqW_inj (a := 0) (b := 1) (c := 2) (d := 3) (by decide) this h''
      fun v => ?_)
    by_cases hv : v < 4
    · have hh := h (conn v)
      rw [hr, hr', pushW_at (nV := 4) hinj hv, pushW_at (nV := 4) hinj hv, List.getD_eq_getElem _ _ hj,
        List.getD_eq_getElem _ _ hj'] at hh
      exact hh
    · simp only [sqW]
      rw [if_neg (by omega), if_neg (by omega), if_neg (by omega), if_neg (by omega), if_neg (by omega),
        if_neg (by omega), if_neg (by omega), if_neg (by omega)]

/-! ### `3_8` -/

/-- The order of the nodes inside a hexahedron. -/
def cubeL (m : ℕ) : List (ℕ × ℕ × ℕ) :=
  (List.range m).flatMap fun i1 => (List.range m).flatMap fun i2 => (List.range m).map fun i3 => (i1, i2, i3)

theorem mem_cubeL {m : ℕ} {p : ℕ × ℕ × ℕ} : p ∈ cubeL m ↔ p.1 < m ∧ p.2.1 < m ∧ p.2.2 < m := by
  obtain ⟨x, y, z⟩ := p
  simp only [cubeL, List.mem_flatMap, List.mem_range, List.mem_map, Prod.mk.injEq]
  constructor
  · rintro ⟨a, ha, b, hb, c, hc, rfl, rfl, rfl⟩; omega
  · intro h; exact ⟨x, by omega, y, by omega, z, by omega, rfl, rfl, rfl⟩

theorem nodup_cubeL (m : ℕ) : (cubeL m).Nodup := nodup_rows3 m _ _

/-- A row inside of a hexahedron. -/
def cubeRow (n : ℕ → ℕ → ℕ) (ao c1 c2 c3 c4 c5 c6 k : ℕ) : ℕ :=
  (c1 * c2 * c3 * n 0 k + c4 * c2 * c3 * n 1 k + c5 * c4 * c3 * n 2 k
          + c1 * c3 * c5 * n 3 k + c1 * c2 * c6 * n 4 k + c4 * c2 * c6 * n 5 k + c5 * c4 * c6 * n 6 k
          + c1 * c6 * c5 * n 7 k) / ao

/-- The nodes inside of a hexahedron. -/
def cubeBlock (nodes : List Nod) (o : ℕ) : List Nod :=
  (cubeL (o - 1)).map fun p =>
    { nt := (3, 0)
      row := cubeRow (rowAt nodes) (o ^ 3) (o - (p.2.2 + 1)) (o - (p.2.1 + 1)) (o - (p.1 + 1)) (p.2.2 + 1) (p.2.1 + 1)
        (p.1 + 1) }

theorem appendTpBubbles_eq (nodes : List Nod) (o : ℕ) : appendTpBubbles nodes 3 o = nodes ++ cubeBlock nodes o := by
  rw [appendTpBubbles]
  simp only
  congr 1
  rw [cubeBlock, cubeL, List.map_flatMap]
  refine List.flatMap_congr fun i _ => ?_
  rw [List.map_flatMap]
  refine List.flatMap_congr fun j _ => ?_
  rw [List.map_map]
  rfl

theorem tensorNodes38 (o : ℕ) : tensorNodes gel38 o =
    tensorV 3 8 o ++ (List.range 12).flatMap (fun e => edgeBlock (tensorV 3 8 o) 1 o (gel38.edges.getD e []) e)
      ++ (List.range 6).flatMap (fun f => sqBlock (appendEdges (tensorV 3 8 o) 1 gel38.edges o) 2 o
        (gel38.faces.getD f []) f) ++
      cubeBlock (appendTpFaces (appendEdges (tensorV 3 8 o) 1 gel38.edges o) 2 gel38.faces o) o := by
  have : tensorNodes gel38 o = appendTpBubbles (appendTpFaces (appendEdges (tensorV 3 8 o) 1 gel38.edges o) 2
    gel38.faces o) 3 o := rfl
  rw [this, appendTpBubbles_eq]
  conv_lhs => lhs; rw [appendTpFaces_eq]; lhs; rw [appendEdges_eq]
  rfl

theorem rowAt_appendTpFaces {nV o i : ℕ} {edges faces : List (List ℕ)} (hi : i < nV) :
    rowAt (appendTpFaces (appendEdges (tensorV 3 nV o) 1 edges o) 2 faces o) i = fun k => o * bitRow 3 i k := by
  rw [appendTpFaces_eq, rowAt_append_left, rowAt_appendEdges_t hi]
  rw [appendEdges_eq, List.length_append, length_tensorV]
  omega

theorem tshape38 (o : ℕ) : HasShape gel38 (tensorNodes gel38 o) (o - 1) (sqL (o - 1)).length (cubeL (o - 1)).length where
  nts := by
    rw [tensorNodes38]
    exact nts_blocks _ 8 12 6 (o - 1) _ _ _ _ _ (nt_tensorV _ _ _) (fun e _ => nt_edgeBlock ..)
      (fun e _ => nt_sqBlock ..) (map_nt_const _ _ _ fun _ => rfl)
  hE := .inl (by decide)
  hF := .inl (by decide)

theorem trow38_vert {o i : ℕ} (hi : i < 8) : rowAt (tensorNodes gel38 o) i = fun k => o * bitRow 3 i k := by
  rw [tensorNodes38, rowAt_vert _ 8 12 6 _ _ _ (length_tensorV _ _ _) hi, rowAt_tensorV hi]

theorem gel38_edges : ∀ e < 12, (gel38.edges.getD e []).length = 2 ∧ (gel38.edges.getD e []).Nodup ∧
    ∀ i ∈ gel38.edges.getD e [], i < 8 := by decide

theorem gel38_faces : ∀ e < 6, (gel38.faces.getD e []).length = 4 ∧ (gel38.faces.getD e []).Nodup ∧
    ∀ i ∈ gel38.faces.getD e [], i < 8 := by decide

theorem trow38_edge {o e j : ℕ} (ho : 1 ≤ o) (he : e < 12) (hj : j < o - 1) :
    rowAt (tensorNodes gel38 o) (8 + e * (o - 1) + j) = fun k =>
      (o - 1 - j) * bitRow 3 ((gel38.edges.getD e []).getD 0 0) k
        + (j + 1) * bitRow 3 ((gel38.edges.getD e []).getD 1 0) k := by
  obtain ⟨a, -, b⟩ := gel38_edges e he
  rw [tensorNodes38, rowAt_edge _ 8 12 6 (o - 1) _ _ _ (length_tensorV _ _ _) (fun e _ => length_edgeBlock ..) he hj,
    tEdgeRow (nV := 8) ho (fun i hi => rowAt_tensorV hi) _ _ _ (getD_lt (by omega) b) (getD_lt (by omega) b) hj]

set_option maxHeartbeats 2000000 in
theorem tloc38_edge {o e j : ℕ} (he : e < 12) (hj : j < o - 1) (i : ℕ) (hi : i < 8) :
    (∏ d ∈ range 3, (fun k => (o - 1 - j) * bitRow 3 ((gel38.edges.getD e []).getD 0 0) k
        + (j + 1) * bitRow 3 ((gel38.edges.getD e []).getD 1 0) k) (2 * d + vertexMap 3 i d)) =
      o ^ 2 * edgeW o ((gel38.edges.getD e []).getD 0 0) ((gel38.edges.getD e []).getD 1 0) j i := by
  obtain ⟨c, rfl⟩ : ∃ c, o = c + 1 + j := ⟨o - 1 - j, by omega⟩
  have h1 : c + 1 + j - 1 - j = c := by omega
  simp only [edgeW, h1]
  interval_cases e <;> interval_cases i <;>
    simp [Finset.prod_range_succ, vertexMap, bitRow, gel38] <;> first | done | (left; ring) | ring

set_option maxHeartbeats 2000000 in
theorem quad38 {o x y z w : ℕ} (ho : 1 ≤ o) (h1 : x + y = o) (h2 : z + w = o) (f : ℕ) (hf : f < 6) (i : ℕ) (hi : i < 8) :
    (∏ d ∈ range 3, quadRow 3 o x y z w ((gel38.faces.getD f []).getD 0 0) ((gel38.faces.getD f []).getD 1 0)
      ((gel38.faces.getD f []).getD 2 0) ((gel38.faces.getD f []).getD 3 0) (2 * d + vertexMap 3 i d)) =
    o * quadW x y z w ((gel38.faces.getD f []).getD 0 0) ((gel38.faces.getD f []).getD 1 0)
      ((gel38.faces.getD f []).getD 2 0) ((gel38.faces.getD f []).getD 3 0) i := by
  obtain ⟨e0, e1, e2, e3, e4⟩ := sq_div o x y z w ho h1 h2
  interval_cases f <;> interval_cases i <;>
    simp [Finset.prod_range_succ, vertexMap, bitRow, quadRow, quadW, gel38, e0, e1, e2, e3, e4] <;>
    first | done | ring

theorem trow38_face {o f j : ℕ} (ho : 1 ≤ o) (hf : f < 6) (hj : j < (sqL (o - 1)).length) :
    ∃ p, p = (sqL (o - 1)).getD j (0, 0) ∧ p.1 < o - 1 ∧ p.2 < o - 1 ∧
    rowAt (tensorNodes gel38 o) (8 + 12 * (o - 1) + f * (sqL (o - 1)).length + j) =
      quadRow 3 o (o - 1 - p.2) (p.2 + 1) (o - 1 - p.1) (p.1 + 1) ((gel38.faces.getD f []).getD 0 0)
      ((gel38.faces.getD f []).getD 1 0) ((gel38.faces.getD f []).getD 2 0) ((gel38.faces.getD f []).getD 3 0) := by
  obtain ⟨a, -, b⟩ := gel38_faces f hf
  rw [tensorNodes38, rowAt_face _ 8 12 6 (o - 1) _ _ _ _ (length_tensorV _ _ _) (fun e _ => length_edgeBlock ..)
    (fun e _ => length_sqBlock ..) hf hj]
  exact tSqRow (nV := 8) ho (fun i hi => rowAt_appendEdges_t hi) _ _ _ (getD_lt (by omega) b) (getD_lt (by omega) b)
    (getD_lt (by omega) b) (getD_lt (by omega) b) hj

theorem tloc38_face {o f j : ℕ} (ho : 1 ≤ o) (hf : f < 6) (hj : j < (sqL (o - 1)).length) (conn : ℕ → ℕ) (v : ℕ) :
    tensorLoc 3 8 conn (rowAt (tensorNodes gel38 o) (8 + 12 * (o - 1) + f * (sqL (o - 1)).length + j)) v =
      o * faceW o ((gel38.faces.getD f []).map conn) j v := by
  obtain ⟨a, -, b⟩ := gel38_faces f hf
  obtain ⟨p, hp, p1, p2, hr⟩ := trow38_face ho hf hj
  have := quad38 ho (show o - 1 - p.2 + (p.2 + 1) = o by omega) (show o - 1 - p.1 + (p.1 + 1) = o by omega) f hf
  rw [hr]
  rw [tensor_sq (m := o - 1) (p := p) o _ (getD_lt (by omega) b) (getD_lt (by omega) b) (getD_lt (by omega) b)
    (getD_lt (by omega) b) this, hp]
  obtain ⟨x, y, z, w, e⟩ := list_four a
  rw [e]
  rfl

/-- The weights of the node inside of a hexahedron. -/
def cubeW (c1 c2 c3 c4 c5 c6 v : ℕ) : ℕ :=
  [c1 * c2 * c3, c4 * c2 * c3, c4 * c5 * c3, c1 * c5 * c3, c1 * c2 * c6, c4 * c2 * c6, c4 * c5 * c6, c1 * c5 * c6].getD v 0

theorem cubeRow_items {o c1 c2 c3 c4 c5 c6 : ℕ} (ho : 1 ≤ o) (h1 : c1 + c4 = o) (h2 : c2 + c5 = o) (h3 : c3 + c6 = o) :
    let r := cubeRow (fun i k => o * bitRow 3 i k) (o ^ 3) c1 c2 c3 c4 c5 c6
    r 0 = c1 ∧ r 1 = c4 ∧ r 2 = c2 ∧ r 3 = c5 ∧ r 4 = c3 ∧ r 5 = c6 := by
  have ho3 : 0 < o ^ 3 := Nat.pow_pos ho
  have key : ∀ x s, s = x * ((c1 + c4) * (c2 + c5) * (c3 + c6)) → s / o ^ 3 = x := by
    intro x s hs
    rw [hs, h1, h2, h3, show o * o * o = o ^ 3 by ring, Nat.mul_div_cancel _ ho3]
  refine ⟨?_, ?_, ?_, ?_, ?_, ?_⟩
  · apply key
    simp [bitRow, vertexMap]
    rw [← h1]
    ring
  · apply key
    simp [bitRow, vertexMap]
    rw [← h1]
    ring
  · apply key
    simp [bitRow, vertexMap]
    rw [← h2]
    ring
  · apply key
    simp [bitRow, vertexMap]
    rw [← h2]
    ring
  · apply key
    simp [bitRow, vertexMap]
    rw [← h3]
    ring
  · apply key
    simp [bitRow, vertexMap]
    rw [← h3]
    ring

theorem cube38 {o c1 c2 c3 c4 c5 c6 : ℕ} (ho : 1 ≤ o) (h1 : c1 + c4 = o) (h2 : c2 + c5 = o) (h3 : c3 + c6 = o)
    (i : ℕ) (hi : i < 8) :
    (∏ d ∈ range 3, cubeRow (fun i k => o * bitRow 3 i k) (o ^ 3) c1 c2 c3 c4 c5 c6 (2 * d + vertexMap 3 i d)) =
      cubeW c1 c2 c3 c4 c5 c6 i := by
  obtain ⟨k0, k1, k2, k3, k4, k5⟩ := cubeRow_items ho h1 h2 h3
  interval_cases i <;> simp [Finset.prod_range_succ, vertexMap, cubeW, k0, k1, k2, k3, k4, k5]

theorem trow38_bubble {o j : ℕ} (hj : j < (cubeL (o - 1)).length) :
    ∃ p, p = (cubeL (o - 1)).getD j (0, 0, 0) ∧ p.1 < o - 1 ∧ p.2.1 < o - 1 ∧ p.2.2 < o - 1 ∧
    rowAt (tensorNodes gel38 o) (8 + 12 * (o - 1) + 6 * (sqL (o - 1)).length + j) =
      cubeRow (fun i k => o * bitRow 3 i k) (o ^ 3) (o - (p.2.2 + 1)) (o - (p.2.1 + 1)) (o - (p.1 + 1)) (p.2.2 + 1)
        (p.2.1 + 1) (p.1 + 1) := by
  have hm := mem_cubeL.1 (List.getElem_mem hj)
  refine ⟨_, rfl, ?_, ?_, ?_, ?_⟩
  · rw [List.getD_eq_getElem _ _ hj]; exact hm.1
  · rw [List.getD_eq_getElem _ _ hj]; exact hm.2.1
  · rw [List.getD_eq_getElem _ _ hj]; exact hm.2.2
  rw [tensorNodes38, rowAt_bubble _ 8 12 6 (o - 1) _ _ _ _ (length_tensorV _ _ _) (fun e _ => length_edgeBlock ..)
    (fun e _ => length_sqBlock ..), cubeBlock, rowAt_map _ _ _ hj (0, 0, 0)]
  funext k
  simp only [cubeRow]
  rw [rowAt_appendTpFaces (show 0 < 8 by omega), rowAt_appendTpFaces (show 1 < 8 by omega),
    rowAt_appendTpFaces (show 2 < 8 by omega), rowAt_appendTpFaces (show 3 < 8 by omega),
    rowAt_appendTpFaces (show 4 < 8 by omega), rowAt_appendTpFaces (show 5 < 8 by omega),
    rowAt_appendTpFaces (show 6 < 8 by omega), rowAt_appendTpFaces (show 7 < 8 by omega)]

theorem tloc38_bubble {o j : ℕ} (ho : 1 ≤ o) (hj : j < (cubeL (o - 1)).length) :
    ∃ p, p = (cubeL (o - 1)).getD j (0, 0, 0) ∧ p.1 < o - 1 ∧ p.2.1 < o - 1 ∧ p.2.2 < o - 1 ∧ ∀ (conn : ℕ → ℕ) (v : ℕ),
    tensorLoc 3 8 conn (rowAt (tensorNodes gel38 o) (8 + 12 * (o - 1) + 6 * (sqL (o - 1)).length + j)) v =
      pushW 8 conn (cubeW (o - (p.2.2 + 1)) (o - (p.2.1 + 1)) (o - (p.1 + 1)) (p.2.2 + 1) (p.2.1 + 1) (p.1 + 1)) v := by
  obtain ⟨p, hp, p1, p2, p3, hr⟩ := trow38_bubble hj
  refine ⟨p, hp, p1, p2, p3, fun conn v => ?_⟩
  rw [hr, tensorLoc_eq]
  exact pushW_congr fun i hi => cube38 ho (by omega) (by omega) (by omega) i hi

theorem cubeW_ne {c1 c2 c3 c4 c5 c6 : ℕ} (h1 : c1 ≠ 0) (h2 : c2 ≠ 0) (h3 : c3 ≠ 0) (h4 : c4 ≠ 0) (h5 : c5 ≠ 0)
    (h6 : c6 ≠ 0) (i : ℕ) (hi : i < 8) : cubeW c1 c2 c3 c4 c5 c6 i ≠ 0 := by
  interval_cases i <;> simp [cubeW, *]

theorem cubeW_inj {o c1 c2 c3 c4 c5 c6 d1 d2 d3 d4 d5 d6 : ℕ} (ho : 1 ≤ o) (h1 : c1 + c4 = o) (h2 : c2 + c5 = o)
    (h3 : c3 + c6 = o) (g1 : d1 + d4 = o) (g2 : d2 + d5 = o) (g3 : d3 + d6 = o)
    (h : ∀ i < 8, cubeW c1 c2 c3 c4 c5 c6 i = cubeW d1 d2 d3 d4 d5 d6 i) : c1 = d1 ∧ c2 = d2 ∧ c3 = d3 := by
  have e0 := h 0 (by omega); have e1 := h 1 (by omega); have e2 := h 2 (by omega); have e3 := h 3 (by omega)
  have e4 := h 4 (by omega); have e5 := h 5 (by omega); have e7 := h 7 (by omega)
  simp only [cubeW, List.getD_cons_zero, List.getD_cons_succ] at e0 e1 e2 e3 e4 e5 e7
  have ho2 : o * o ≠ 0 := by positivity
  refine ⟨?_, ?_, ?_⟩
  · refine Nat.eq_of_mul_eq_mul_left (Nat.pos_of_ne_zero ho2) ?_
    calc o * o * c1 = (c2 + c5) * (c3 + c6) * c1 := by rw [h2, h3]
      _ = c1 * c2 * c3 + c1 * c5 * c3 + c1 * c2 * c6 + c1 * c5 * c6 := by ring
      _ = d1 * d2 * d3 + d1 * d5 * d3 + d1 * d2 * d6 + d1 * d5 * d6 := by rw [e0, e3, e4, e7]
      _ = (d2 + d5) * (d3 + d6) * d1 := by ring
      _ = o * o * d1 := by rw [g2, g3]
  · refine Nat.eq_of_mul_eq_mul_left (Nat.pos_of_ne_zero ho2) ?_
    calc o * o * c2 = (c1 + c4) * (c3 + c6) * c2 := by rw [h1, h3]
      _ = c1 * c2 * c3 + c4 * c2 * c3 + c1 * c2 * c6 + c4 * c2 * c6 := by ring
      _ = d1 * d2 * d3 + d4 * d2 * d3 + d1 * d2 * d6 + d4 * d2 * d6 := by rw [e0, e1, e4, e5]
      _ = (d1 + d4) * (d3 + d6) * d2 := by ring
      _ = o * o * d2 := by rw [g1, g3]
  · refine Nat.eq_of_mul_eq_mul_left (Nat.pos_of_ne_zero ho2) ?_
    calc o * o * c3 = (c1 + c4) * (c2 + c5) * c3 := by rw [h1, h2]
      _ = c1 * c2 * c3 + c4 * c2 * c3 + c4 * c5 * c3 + c1 * c5 * c3 := by ring
      _ = d1 * d2 * d3 + d4 * d2 * d3 + d4 * d5 * d3 + d1 * d5 * d3 := by rw [e0, e1, e2, e3]
      _ = (d1 + d4) * (d2 + d5) * d3 := by ring
      _ = o * o * d3 := by rw [g1, g2]

/-- The positions of the nodes of the element `3_8`. -/
def tlocated38 {o : ℕ} (ho : 1 ≤ o) :
    Located gel38 (tensorNodes gel38 o) o (o - 1) (sqL (o - 1)).length (cubeL (o - 1)).length (tensorLoc 3 8) where
  s0 := o ^ 3
  s1 := o ^ 2
  s2 := o
  pos0 := Nat.pow_pos ho
  pos1 := Nat.pow_pos ho
  pos2 := ho
  hne := .inl rfl
  lenF := 4
  lenF3 := .inr rfl
  hnf := .inl rfl
  hnV := by simp [gel38]
  edges := gel38_edges
  faces := gel38_faces
  vert := fun conn i v hi => by rw [trow38_vert hi, tensor_vert (dim := 3) (nV := 8) o (by decide) hi]
  edge := fun conn e j v he hj => by
    obtain ⟨a, -, b⟩ := gel38_edges e he
    have hr : rowAt (tensorNodes gel38 o) (gel38.nV + e * (o - 1) + j) = _ := trow38_edge ho he hj
    rw [hr, tensor_edge _ _ (getD_lt (by omega) b) (getD_lt (by omega) b) (tloc38_edge he hj)]
  face := fun conn f j v hf hj => tloc38_face ho hf hj conn v
  bubble := fun conn j v hj => by
    obtain ⟨p, -, p1, p2, p3, hr⟩ := tloc38_bubble ho hj
    have hr : tensorLoc 3 8 conn (rowAt (tensorNodes gel38 o) (gel38.nV + gel38.edges.length * (o - 1) +
      gel38.faces.length * (sqL (o - 1)).length + j)) v = _ := hr conn v
    rw [hr]
    exact pushW_ne conn (fun i hi => cubeW_ne (by omega) (by omega) (by omega) (by omega) (by omega) (by omega) i hi) v
  bubble_inj := fun conn j j' hj hj' hinj h => by
    obtain ⟨p, hp, p1, p2, p3, hr⟩ := tloc38_bubble ho hj
    obtain ⟨p', hp', p1', p2', p3', hr'⟩ := tloc38_bubble ho hj'
    have hr : ∀ v, tensorLoc 3 8 conn (rowAt (tensorNodes gel38 o) (gel38.nV + gel38.edges.length * (o - 1) +
      gel38.faces.length * (sqL (o - 1)).length + j)) v = _ := hr conn
    have hr' : ∀ v, tensorLoc 3 8 conn (rowAt (tensorNodes gel38 o) (gel38.nV + gel38.edges.length * (o - 1) +
      gel38.faces.length * (sqL (o - 1)).length + j')) v = _ := hr' conn
    rw [List.getD_eq_getElem _ _ hj] at hp
    rw [List.getD_eq_getElem _ _ hj'] at hp'
    refine (List.Nodup.getElem_inj_iff (nodup_cubeL (o - 1)) (hi := hj) (hj := hj')).1 ?_
    rw [← hp, ← hp']
    obtain ⟨a, b, c⟩ := cubeW_inj (o := o) (c1 := o - (p.2.2 + 1)) (c2 := o - (p.2.1 + 1)) (c3 := o - (p.1 + 1))
      (c4 := p.2.2 + 1) (c5 := p.2.1 + 1) (c6 := p.1 + 1) (d1 := o - (p'.2.2 + 1)) (d2 := o - (p'.2.1 + 1))
      (d3 := o - (p'.1 + 1)) (d4 := p'.2.2 + 1) (d5 := p'.2.1 + 1) (d6 := p'.1 + 1) ho (by omega) (by omega) (by omega)
      (by omega) (by omega) (by omega) (fun i hi => by
        have hh := h (conn i)
        rw [hr, hr', pushW_at (nV := 8) hinj hi, pushW_at (nV := 8) hinj hi] at hh
        exact hh)
    refine Prod.ext ?_ (Prod.ext ?_ ?_) <;> omega

/-- **C55**: for a Lagrange field of any order on segments, quadrilaterals or hexahedra, two local nodes of two cells
have the same DOF iff they are in the same place. -/
theorem C55_conforming_tensor (g : Gel) (hg : g = gel12 ∨ g = gel24 ∨ g = gel38) (order : ℕ) (ho : 1 ≤ order)
    (d : FieldData) (M : MeshOk g d) (el el' k k' : ℕ) (hel : el < d.cells.length) (hel' : el' < d.cells.length)
    (hk : k < (tensorNodes g order).length) (hk' : k' < (tensorNodes g order).length) :
    (setupGlobalBasis g (tensorNodes g order) order d).1 (el, k) =
      (setupGlobalBasis g (tensorNodes g order) order d).1 (el', k') ↔
    ∀ v, tensorLoc g.dim g.nV (d.conn (d.cells.getD el 0)) (rowAt (tensorNodes g order) k) v =
      tensorLoc g.dim g.nV (d.conn (d.cells.getD el' 0)) (rowAt (tensorNodes g order) k') v := by
  rcases hg with rfl | rfl | rfl
  · rw [(tshape12 order).length] at hk hk'
    exact conforming (tlocated12 ho) M ((tshape12 order).econn order d) hel hel' hk hk'
  · rw [(tshape24 order).length] at hk hk'
    exact conforming (tlocated24 ho) M ((tshape24 order).econn order d) hel hel' hk hk'
  · rw [(tshape38 order).length] at hk hk'
    exact conforming (tlocated38 ho) M ((tshape38 order).econn order d) hel hel' hk hk'

end Verif.Fem
