/-
The hierarchical elements: the nodes, the connectivity and the orientations in closed form.
-/
import Verif.Poly.Lobatto
import Verif.Fem.PropsConform
import Mathlib.Tactic.IntervalCases

namespace Verif.Poly.Lob

open Verif.Fem
open Finset

/-! ### The nodes -/

theorem ik_length (o : ℕ) : (ik o).length = o - 1 := by simp [ik]

theorem ik_getElem? {o j : ℕ} (hj : j < o - 1) : (ik o)[j]? = some (j + 2) := by
  rw [ik, List.getElem?_range' hj]; simp; omega

theorem mesh2_length (o : ℕ) : (mesh2 o).length = (o - 1) ^ 2 := by
  rw [mesh2, List.length_flatMap]
  simp [ik_length, sq]

theorem mesh2_getElem? {o i j : ℕ} (hi : i < o - 1) (hj : j < o - 1) :
    (mesh2 o)[i * (o - 1) + j]? = some (i + 2, j + 2) := by
  have e : mesh2 o = (List.range (o - 1)).flatMap fun i => (ik o).map fun iy => (i + 2, iy) := by
    have : ik o = (List.range (o - 1)).map fun i => i + 2 := by
      rw [ik, List.range'_eq_map_range]
      exact List.map_congr_left fun a _ => by omega
    rw [mesh2]
    conv_lhs => arg 2; rw [this]
    rw [List.flatMap_map]
  rw [e, getElem?_blocks _ (o - 1) _ (fun i _ => by simp [ik_length]) i j hi hj, List.getElem?_map, ik_getElem? hj]
  rfl

theorem bubble_length (g : Gel) (o : ℕ) (hg : g.dim = 2 ∨ g.dim = 3) : (bubbleNodes g.dim o).length = (o - 1) ^ g.dim := by
  rw [bubbleNodes]
  rcases hg with h | h
  · simp [h, mesh2_length]
  · rw [h, if_neg (by omega), List.length_flatMap]
    simp [mesh2_length, ik_length]
    ring

/-- The elements: quadrilaterals and hexahedra. -/
def IsEl (g : Gel) : Prop := g = gel24 ∨ g = gel38

theorem IsEl.dim {g : Gel} (h : IsEl g) : g.dim = 2 ∨ g.dim = 3 := by rcases h with rfl | rfl <;> decide

/-- The numbers of the nodes of a face and of the bubble nodes. -/
def nf (g : Gel) (o : ℕ) : ℕ := if g.dim = 2 then 0 else (o - 1) ^ 2
def nb (g : Gel) (o : ℕ) : ℕ := (o - 1) ^ g.dim

theorem shape_eq {g : Gel} (hg : IsEl g) (o : ℕ) : HasShape g (nodes g o) (o - 1) (nf g o) (nb g o) where
  nts := by
    rw [nodes, shape, List.map_append, List.map_append, List.map_append]
    congr 1
    · congr 1
      · congr 1
        · rw [vertexNodes, List.map_map]; rfl
        · rw [List.map_flatMap]
          refine List.flatMap_congr fun e _ => ?_
          rw [edgeNodes, List.map_map, ← ik_length o]
          exact List.map_const' ..
      · rw [List.map_flatMap]
        refine List.flatMap_congr fun e he => ?_
        rcases hg with rfl | rfl
        · simp [gel24] at *
        · rw [faceNodes, List.map_map, nf, if_neg (by decide), ← mesh2_length o]
          exact List.map_const' ..
    · rw [nb, ← bubble_length g o hg.dim, ← List.map_const', bubbleNodes]
      split_ifs
      · rw [List.map_map, List.map_map]; rfl
      · rw [List.map_flatMap, List.map_flatMap]
        exact List.flatMap_congr fun a _ => by rw [List.map_map, List.map_map]; rfl
  hE := .inl (by rcases hg with rfl | rfl <;> decide)
  hF := by
    rcases hg with rfl | rfl
    · exact .inr rfl
    · exact .inl (by decide)

theorem rowAt_append_right (A B : List Nod) (k : ℕ) : rowAt (A ++ B) (A.length + k) = rowAt B k := by
  rw [rowAt, rowAt, List.getElem?_append_right (by omega), Nat.add_sub_cancel_left]

theorem rowAt_append_left {A : List Nod} (B : List Nod) {k : ℕ} (h : k < A.length) : rowAt (A ++ B) k = rowAt A k := by
  rw [rowAt, rowAt, List.getElem?_append_left h]

theorem rowAt_of {A : List Nod} {k : ℕ} {n : Nod} (h : A[k]? = some n) : rowAt A k = n.row := by rw [rowAt, h]; rfl

theorem vertexNodes_length (g : Gel) : (vertexNodes g).length = g.nV := by simp [vertexNodes]

/-- The row of a node of an edge. -/
def edgeRow (dim : ℕ) (edge : List ℕ) (k d : ℕ) : ℕ :=
  if vertexMap dim (edge.getD 0 0) d = vertexMap dim (edge.getD 1 0) d then vertexMap dim (edge.getD 0 0) d
  else if d = firstAxis dim (fun d => vertexMap dim (edge.getD 0 0) d ≠ vertexMap dim (edge.getD 1 0) d) then k else 0

theorem edges_length (g : Gel) (o : ℕ) :
    ((List.range g.edges.length).flatMap fun e => edgeNodes g.dim o e (g.edges.getD e [])).length =
      g.edges.length * (o - 1) := length_blocks _ _ _ fun i _ => by simp [edgeNodes, ik_length]

theorem faces_length {g : Gel} (hg : IsEl g) (o : ℕ) :
    ((List.range g.faces.length).flatMap fun e => faceNodes g.dim o e (g.faces.getD e [])).length =
      g.faces.length * nf g o := length_blocks _ _ _ fun i hi => by
  rcases hg with rfl | rfl
  · simp [gel24] at hi
  · rw [faceNodes, List.length_map, mesh2_length, nf, if_neg (by decide)]

theorem row_vertex (g : Gel) (o : ℕ) {i : ℕ} (hi : i < g.nV) : rowAt (nodes g o) i = vertexMap g.dim i := by
  have l := vertexNodes_length g
  rw [nodes, List.append_assoc, List.append_assoc, rowAt_append_left _ (by omega)]
  exact rowAt_of (n := ⟨(0, i), vertexMap g.dim i⟩) (by simp [vertexNodes, hi])

theorem row_edge (g : Gel) (o : ℕ) {e j : ℕ} (he : e < g.edges.length) (hj : j < o - 1) :
    rowAt (nodes g o) (g.nV + e * (o - 1) + j) = edgeRow g.dim (g.edges.getD e []) (j + 2) := by
  have l := vertexNodes_length g
  have l2 := edges_length g o
  have : e * (o - 1) + j < g.edges.length * (o - 1) := by
    calc e * (o - 1) + j < (e + 1) * (o - 1) := by rw [Nat.succ_mul]; omega
      _ ≤ _ := Nat.mul_le_mul_right _ he
  rw [nodes, List.append_assoc, List.append_assoc, Nat.add_assoc, ← l, rowAt_append_right, rowAt_append_left _ (by omega)]
  have h := getElem?_blocks g.edges.length (o - 1) (fun e => edgeNodes g.dim o e (g.edges.getD e []))
    (fun i _ => by simp [edgeNodes, ik_length]) e j he hj
  rw [edgeNodes, List.getElem?_map, ik_getElem? hj] at h
  exact rowAt_of h

theorem row_face {g : Gel} (hg : IsEl g) (o : ℕ) {f i j : ℕ} (hf : f < g.faces.length) (hi : i < o - 1) (hj : j < o - 1) :
    rowAt (nodes g o) (g.nV + g.edges.length * (o - 1) + f * nf g o + (i * (o - 1) + j)) =
      faceRow g.dim (g.faces.getD f []) (i + 2) (j + 2) := by
  have l := vertexNodes_length g
  have l2 := edges_length g o
  have l3 := faces_length hg o
  have hnf : nf g o = (o - 1) ^ 2 := by
    rcases hg with rfl | rfl
    · simp [gel24] at hf
    · rw [nf, if_neg (by decide)]
  have hm : i * (o - 1) + j < nf g o := by
    rw [hnf, sq]
    calc i * (o - 1) + j < (i + 1) * (o - 1) := by rw [Nat.succ_mul]; omega
      _ ≤ _ := Nat.mul_le_mul_right _ hi
  have : f * nf g o + (i * (o - 1) + j) < g.faces.length * nf g o := by
    calc f * nf g o + _ < (f + 1) * nf g o := by rw [Nat.succ_mul]; omega
      _ ≤ _ := Nat.mul_le_mul_right _ hf
  rw [nodes, rowAt_append_left _ (by rw [List.length_append, List.length_append]; omega), Nat.add_assoc, ← l, ← l2,
    ← List.length_append, rowAt_append_right]
  have h := getElem?_blocks g.faces.length (nf g o) (fun e => faceNodes g.dim o e (g.faces.getD e []))
    (fun i hi => by rw [faceNodes, List.length_map, mesh2_length, hnf]) f (i * (o - 1) + j) hf hm
  rw [faceNodes, List.getElem?_map, mesh2_getElem? hi hj] at h
  exact rowAt_of h

theorem row_sface {g : Gel} (hg : IsEl g) (o : ℕ) {f i j : ℕ} (hf : f < g.faces.length) (hi : i < o - 1) (hj : j < o - 1) :
    rowAt (sfnodes g o) (f * nf g o + (i * (o - 1) + j)) = faceRow g.dim (g.faces.getD f []) (j + 2) (i + 2) := by
  have hnf : nf g o = (o - 1) ^ 2 := by
    rcases hg with rfl | rfl
    · simp [gel24] at hf
    · rw [nf, if_neg (by decide)]
  have hm : i * (o - 1) + j < nf g o := by
    rw [hnf, sq]
    calc i * (o - 1) + j < (i + 1) * (o - 1) := by rw [Nat.succ_mul]; omega
      _ ≤ _ := Nat.mul_le_mul_right _ hi
  have h := getElem?_blocks g.faces.length (nf g o) (fun e => sfaceNodes g.dim o e (g.faces.getD e []))
    (fun i hi => by rw [sfaceNodes, List.length_map, mesh2_length, hnf]) f (i * (o - 1) + j) hf hm
  rw [sfaceNodes, List.getElem?_map, mesh2_getElem? hi hj] at h
  exact rowAt_of h

/-- The rows of the bubble nodes are at least two, and at most the order. -/
theorem row_bubble {g : Gel} (hg : IsEl g) (o : ℕ) {j : ℕ} (hj : j < nb g o) : ∀ d < g.dim,
    2 ≤ rowAt (nodes g o) (g.nV + g.edges.length * (o - 1) + g.faces.length * nf g o + j) d ∧
    rowAt (nodes g o) (g.nV + g.edges.length * (o - 1) + g.faces.length * nf g o + j) d ≤ o := by
  have l := vertexNodes_length g
  have l2 := edges_length g o
  have l3 := faces_length hg o
  rw [nodes, ← l, ← l2, ← l3, ← List.length_append, ← List.length_append, rowAt_append_right]
  have hl : j < (bubbleNodes g.dim o).length := by rw [bubble_length g o hg.dim]; exact hj
  have hmem : (bubbleNodes g.dim o)[j] ∈ bubbleNodes g.dim o := List.getElem_mem hl
  rw [rowAt_of (List.getElem?_eq_getElem hl)]
  generalize (bubbleNodes g.dim o)[j] = n at hmem
  have hik : ∀ a ∈ ik o, 2 ≤ a ∧ a ≤ o := fun a ha => by simp [ik] at ha; omega
  have hm2 : ∀ p ∈ mesh2 o, (2 ≤ p.1 ∧ p.1 ≤ o) ∧ 2 ≤ p.2 ∧ p.2 ≤ o := fun p hp => by
    simp only [mesh2, List.mem_flatMap, List.mem_map] at hp
    obtain ⟨a, ha, b, hb, rfl⟩ := hp
    exact ⟨hik a ha, hik b hb⟩
  intro d hd
  rw [bubbleNodes] at hmem
  split_ifs at hmem with h2
  · obtain ⟨p, hp, rfl⟩ := List.mem_map.1 hmem
    have := hm2 p hp
    rw [h2] at hd
    interval_cases d <;> simp <;> omega
  · obtain ⟨a, ha, hmem⟩ := List.mem_flatMap.1 hmem
    obtain ⟨p, hp, rfl⟩ := List.mem_map.1 hmem
    have := hm2 p hp
    have := hik a ha
    have h3 := hg.dim.resolve_left h2
    rw [h3] at hd
    interval_cases d <;> simp <;> omega

/-! ### The assignments -/

theorem scatter_at {β : Type} (start n m nEl : ℕ) (val : ℕ → ℕ → ℕ → β) (arr : ℕ × ℕ → β) (hn : 1 ≤ n) (el f j : ℕ)
    (hel : el < nEl) (hf : f < n) (hj : j < m) :
    scatter ((List.range n).map fun e => List.range' (start + e * m) m) nEl n val arr (el, start + f * m + j) =
      val el f j := by
  have hd : (((List.range n).map fun e => List.range' (start + e * m) m).headD []).length = m := by
    obtain ⟨n, rfl⟩ : ∃ k, n = k + 1 := ⟨n - 1, by omega⟩
    simp [List.range_succ_eq_map]
  have hg : ∀ f < n, ∀ j < m, (((List.range n).map fun e => List.range' (start + e * m) m).getD f []).getD j 0
      = start + f * m + j := by
    intro f hf j hj
    rw [desc_getD _ _ _ _ hf, List.getD_eq_getElem _ _ (by simpa using hj)]
    simp
  simp only [scatter, hd]
  have hmem : ∀ q : ℕ × ℕ × ℕ, q ∈ ((List.range nEl).flatMap fun el => (List.range n).flatMap fun f =>
      (List.range m).map fun j => (el, f, j)) ↔ q.1 < nEl ∧ q.2.1 < n ∧ q.2.2 < m := by
    rintro ⟨a, b, c⟩
    simp only [List.mem_flatMap, List.mem_range, List.mem_map, Prod.mk.injEq]
    constructor
    · rintro ⟨x, hx, y, hy, z, hz, rfl, rfl, rfl⟩; exact ⟨hx, hy, hz⟩
    · rintro ⟨hx, hy, hz⟩; exact ⟨a, hx, b, hy, c, hz, rfl, rfl, rfl⟩
  have := foldl_update_mem ((List.range nEl).flatMap fun el => (List.range n).flatMap fun f =>
      (List.range m).map fun j => (el, f, j))
    (fun q : ℕ × ℕ × ℕ => (q.1, (((List.range n).map fun e => List.range' (start + e * m) m).getD q.2.1 []).getD
      q.2.2 0))
    (fun q => val q.1 q.2.1 q.2.2) arr (el, f, j) ((hmem _).2 ⟨hel, hf, hj⟩) ?_
  · simp only [hg f hf j hj] at this
    exact this
  · intro b hb e
    have hb := (hmem b).1 hb
    rw [hg f hf j hj, hg _ hb.2.1 _ hb.2.2] at e
    obtain ⟨e1, e2⟩ := Prod.mk.inj e
    have e3 : b.2.1 * m + b.2.2 = f * m + j := by omega
    have e4 : b.2.1 = f := by
      have := congrArg (· / m) e3
      simp only [Nat.mul_comm _ m, Nat.mul_add_div (show 0 < m by omega), Nat.div_eq_of_lt hj,
        Nat.div_eq_of_lt hb.2.2] at this
      omega
    rw [e4] at e3
    ext
    · exact e1
    · exact e4
    · simp; omega

theorem scatter_other {β : Type} (start n m nEl : ℕ) (val : ℕ → ℕ → ℕ → β) (arr : ℕ × ℕ → β) (hn : 1 ≤ n) (el col : ℕ)
    (hcol : col < start ∨ start + n * m ≤ col) :
    scatter ((List.range n).map fun e => List.range' (start + e * m) m) nEl n val arr (el, col) = arr (el, col) := by
  have hd : (((List.range n).map fun e => List.range' (start + e * m) m).headD []).length = m := by
    obtain ⟨n, rfl⟩ : ∃ k, n = k + 1 := ⟨n - 1, by omega⟩
    simp [List.range_succ_eq_map]
  simp only [scatter, hd]
  refine foldl_update_notMem _ (fun q : ℕ × ℕ × ℕ => (q.1, (((List.range n).map fun e =>
    List.range' (start + e * m) m).getD q.2.1 []).getD q.2.2 0))
    (fun q => val q.1 q.2.1 q.2.2) arr (el, col) ?_
  rintro ⟨a, f, j⟩ hq e
  simp only [List.mem_flatMap, List.mem_range, List.mem_map, Prod.mk.injEq] at hq
  obtain ⟨x, hx, y, hf, z, hj, rfl, rfl, rfl⟩ := hq
  simp only at e
  rw [desc_getD _ _ _ _ hf, List.getD_eq_getElem _ _ (by simpa using hj)] at e
  have := (Prod.mk.inj e).2
  simp at this
  have h2 : y * m + z < n * m := by
    calc y * m + z < (y + 1) * m := by rw [Nat.succ_mul]; omega
      _ ≤ n * m := Nat.mul_le_mul_right _ hf
  omega

/-! ### The connectivity and the orientations -/

/-- The closed form. -/
structure Closed (g : Gel) (o : ℕ) (d : FieldData) : Prop where
  num : (setupGlobalBasis g o d).2.2 = d.verts.length + ((o - 1 : ℕ) : ℤ) * d.edges.length + nf g o * d.faces.length +
    nb g o * d.cells.length
  vert : ∀ el i, el < d.cells.length → i < g.nV →
    (setupGlobalBasis g o d).1 (el, i) = prepareRemap d.verts (d.conn (d.cells.getD el 0) i)
  edge : ∀ el e j, el < d.cells.length → e < g.edges.length → j < o - 1 →
    (setupGlobalBasis g o d).1 (el, g.nV + e * (o - 1) + j) =
      d.verts.length + (((o - 1 : ℕ) : ℤ) * prepareRemap d.edges (d.edgeId (d.cells.getD el 0) e) + j)
  face : ∀ el f j, el < d.cells.length → f < g.faces.length → j < nf g o →
    (setupGlobalBasis g o d).1 (el, g.nV + g.edges.length * (o - 1) + f * nf g o + j) =
      d.verts.length + ((o - 1 : ℕ) : ℤ) * d.edges.length +
        (nf g o * prepareRemap d.faces (d.faceId (d.cells.getD el 0) f) + j)
  bubble : ∀ el j, el < d.cells.length → j < nb g o →
    (setupGlobalBasis g o d).1 (el, g.nV + g.edges.length * (o - 1) + g.faces.length * nf g o + j) =
      d.verts.length + ((o - 1 : ℕ) : ℤ) * d.edges.length + nf g o * d.faces.length + (nb g o * el + j : ℕ)
  oriE : ∀ el e j, el < d.cells.length → e < g.edges.length → j < o - 1 →
    (setupGlobalBasis g o d).2.1 (el, g.nV + e * (o - 1) + j) =
      (if tpEdgeOri g.dim (g.edges.getD e []) then d.edgeOri (d.cells.getD el 0) e
        else 1 - d.edgeOri (d.cells.getD el 0) e) *
      (nodeOrder g.dim (rowAt (nodes g o) (g.nV + e * (o - 1) + j)) % 2)
  oriF : ∀ el f j, el < d.cells.length → f < g.faces.length → j < nf g o →
    (setupGlobalBasis g o d).2.1 (el, g.nV + g.edges.length * (o - 1) + f * nf g o + j) =
      maskOri (translate (d.faceOri (d.cells.getD el 0) f))
        ((faceAxesNodes g o (g.nV + g.edges.length * (o - 1) + f * nf g o + j - faceIndx0 g o)).1 % 2)
        ((faceAxesNodes g o (g.nV + g.edges.length * (o - 1) + f * nf g o + j - faceIndx0 g o)).2 % 2)

theorem desc_item (start n m f j : ℕ) (hf : f < n) (hj : j < m) :
    (((List.range n).map fun e => List.range' (start + e * m) m).getD f []).getD j 0 = start + f * m + j := by
  rw [desc_getD _ _ _ _ hf, List.getD_eq_getElem _ _ (by simpa using hj)]
  simp

theorem desc_head (start n m : ℕ) (hn : 1 ≤ n) :
    (((List.range n).map fun e => List.range' (start + e * m) m).headD []).length = m := by
  obtain ⟨n, rfl⟩ : ∃ k, n = k + 1 := ⟨n - 1, by omega⟩
  simp [List.range_succ_eq_map]

theorem scatter_at' {β : Type} (start n m nEl : ℕ) (val : ℕ → ℕ → ℕ → β) (arr : ℕ × ℕ → β) (hn : 1 ≤ n) {el f j c : ℕ}
    (hel : el < nEl) (hf : f < n) (hj : j < m) (hc : c = start + f * m + j) :
    scatter ((List.range n).map fun e => List.range' (start + e * m) m) nEl n val arr (el, c) = val el f j := by
  subst hc; exact scatter_at start n m nEl val arr hn el f j hel hf hj

theorem closed {g : Gel} (hg : IsEl g) (o : ℕ) (d : FieldData) : Closed g o d := by
  have H := shape_eq hg o
  obtain ⟨w1, w2, w3, w4, w5⟩ := describe_shape g.nV g.edges.length (o - 1) g.faces.length (nf g o) (nb g o)
  have hE1 : 2 ≤ g.edges.length := by rcases hg with rfl | rfl <;> decide
  have hb : ∀ e' < g.edges.length, ∀ j < o - 1, e' * (o - 1) + j < g.edges.length * (o - 1) := fun e' he j hj => by
    calc e' * (o - 1) + j < (e' + 1) * (o - 1) := by rw [Nat.succ_mul]; omega
      _ ≤ _ := Nat.mul_le_mul_right _ he
  have hb' : ∀ e' < g.faces.length, ∀ j < nf g o, e' * nf g o + j < g.faces.length * nf g o := fun e' he j hj => by
    calc e' * nf g o + j < (e' + 1) * nf g o := by rw [Nat.succ_mul]; omega
      _ ≤ _ := Nat.mul_le_mul_right _ he
  -- the phase of the edges
  obtain ⟨e, oe, ee, e1, e2, e3, e4, e5⟩ : ∃ (e : (ℕ × ℕ → ℤ) × ℤ) (oe : ℕ × ℕ → ℕ),
      edgePhase g o d (setupVertexDofs g d).2 (setupVertexDofs g d).1 (fun _ => 0) = (e, oe) ∧
      e.2 = ((o - 1 : ℕ) : ℤ) * d.edges.length ∧
      (∀ el f j, el < d.cells.length → f < g.edges.length → j < o - 1 → e.1 (el, g.nV + f * (o - 1) + j) =
        d.verts.length + (((o - 1 : ℕ) : ℤ) * prepareRemap d.edges (d.edgeId (d.cells.getD el 0) f) + j)) ∧
      (∀ el c, (c < g.nV ∨ g.nV + g.edges.length * (o - 1) ≤ c) → e.1 (el, c) = (setupVertexDofs g d).1 (el, c)) ∧
      (∀ el f j, el < d.cells.length → f < g.edges.length → j < o - 1 → oe (el, g.nV + f * (o - 1) + j) =
        (if tpEdgeOri g.dim (g.edges.getD f []) then d.edgeOri (d.cells.getD el 0) f
          else 1 - d.edgeOri (d.cells.getD el 0) f) *
        (nodeOrder g.dim (rowAt (nodes g o) (g.nV + f * (o - 1) + j)) % 2)) ∧
      ∀ el c, (c < g.nV ∨ g.nV + g.edges.length * (o - 1) ≤ c) → oe (el, c) = 0 := by
    rw [edgePhase, H.nts, w1]
    rcases Nat.eq_zero_or_pos (o - 1) with h0 | h0
    · rw [h0]
      refine ⟨((setupVertexDofs g d).1, 0), fun _ => 0, by simp only [Nat.mul_zero, List.range'_zero, describeFacets_nil], by simp, fun el f j _ _ hj => by omega,
        fun _ _ _ => rfl, fun el f j _ _ hj => by omega, fun _ _ _ => rfl⟩
    · rw [describeFacets_ok _ _ _ _ hE1 h0 w4]
      refine ⟨_, _, rfl, ?_, fun el f j h1 h2 h3 => ?_, fun el c hc => ?_, fun el f j h1 h2 h3 => ?_, fun el c hc => ?_⟩
      · simp only [facetDofs, desc_head _ _ _ (Nat.le_of_succ_le hE1)]
      · simp only [facetDofs, desc_head _ _ _ (Nat.le_of_succ_le hE1)]
        rw [scatter_at _ _ _ _ _ _ (Nat.le_of_succ_le hE1) _ _ _ h1 h2 h3]
        rfl
      · simp only [facetDofs, desc_head _ _ _ (Nat.le_of_succ_le hE1)]
        rw [scatter_other _ _ _ _ _ _ (Nat.le_of_succ_le hE1) _ _ hc]
      · simp only [edgeOris]
        rw [scatter_at _ _ _ _ _ _ (Nat.le_of_succ_le hE1) _ _ _ h1 h2 h3]
        rw [desc_item _ _ _ _ _ h2 h3]
      · simp only [edgeOris]
        rw [scatter_other _ _ _ _ _ _ (Nat.le_of_succ_le hE1) _ _ hc]
  -- the phase of the faces
  obtain ⟨f, of, fe, f1, f2, f3, f4, f5⟩ : ∃ (f : (ℕ × ℕ → ℤ) × ℤ) (of : ℕ × ℕ → ℕ),
      facePhase g o d ((setupVertexDofs g d).2 + e.2) e.1 oe = (f, of) ∧
      f.2 = nf g o * d.faces.length ∧
      (∀ el f' j, el < d.cells.length → f' < g.faces.length → j < nf g o →
        f.1 (el, g.nV + g.edges.length * (o - 1) + f' * nf g o + j) =
        (d.verts.length + e.2) + (nf g o * prepareRemap d.faces (d.faceId (d.cells.getD el 0) f') + j)) ∧
      (∀ el c, (c < g.nV + g.edges.length * (o - 1) ∨ g.nV + g.edges.length * (o - 1) + g.faces.length * nf g o ≤ c) →
        f.1 (el, c) = e.1 (el, c)) ∧
      (∀ el f' j, el < d.cells.length → f' < g.faces.length → j < nf g o →
        of (el, g.nV + g.edges.length * (o - 1) + f' * nf g o + j) =
        maskOri (translate (d.faceOri (d.cells.getD el 0) f'))
          ((faceAxesNodes g o (g.nV + g.edges.length * (o - 1) + f' * nf g o + j - faceIndx0 g o)).1 % 2)
          ((faceAxesNodes g o (g.nV + g.edges.length * (o - 1) + f' * nf g o + j - faceIndx0 g o)).2 % 2)) ∧
      ∀ el c, (c < g.nV + g.edges.length * (o - 1) ∨ g.nV + g.edges.length * (o - 1) + g.faces.length * nf g o ≤ c) →
        of (el, c) = oe (el, c) := by
    rw [facePhase, H.nts, w2]
    rcases Nat.eq_zero_or_pos (nf g o) with h0 | h0
    · rw [h0]
      refine ⟨(e.1, 0), oe, by simp only [Nat.mul_zero, List.range'_zero, describeFacets_nil], by simp, fun el f j _ _ hj => by omega,
        fun _ _ _ => rfl, fun el f j _ _ hj => by omega, fun _ _ _ => rfl⟩
    · have hF1 : 2 ≤ g.faces.length := H.hF.resolve_right h0.ne'
      rw [describeFacets_ok _ _ _ _ hF1 h0 w5]
      refine ⟨_, _, rfl, ?_, fun el f j h1 h2 h3 => ?_, fun el c hc => ?_, fun el f j h1 h2 h3 => ?_, fun el c hc => ?_⟩
      · simp only [facetDofs, desc_head _ _ _ (Nat.le_of_succ_le hF1)]
      · simp only [facetDofs, desc_head _ _ _ (Nat.le_of_succ_le hF1)]
        rw [scatter_at _ _ _ _ _ _ (Nat.le_of_succ_le hF1) _ _ _ h1 h2 h3]
        rfl
      · simp only [facetDofs, desc_head _ _ _ (Nat.le_of_succ_le hF1)]
        rw [scatter_other _ _ _ _ _ _ (Nat.le_of_succ_le hF1) _ _ hc]
      · simp only [faceOris]
        rw [scatter_at _ _ _ _ _ _ (Nat.le_of_succ_le hF1) _ _ _ h1 h2 h3]
        rw [desc_item _ _ _ _ _ h2 h3]
      · simp only [faceOris]
        rw [scatter_other _ _ _ _ _ _ (Nat.le_of_succ_le hF1) _ _ hc]
  have S : setupGlobalBasis g o d =
      ((setupBubbleDofs ((nodes g o).map Nod.nt) d ((setupVertexDofs g d).2 + e.2 + f.2) f.1).1, of,
        (setupVertexDofs g d).2 + e.2 + f.2 +
          (setupBubbleDofs ((nodes g o).map Nod.nt) d ((setupVertexDofs g d).2 + e.2 + f.2) f.1).2) := by
    rw [setupGlobalBasis]
    simp only [ee, fe]
  have base : ∀ off el col, col < g.nV + g.edges.length * (o - 1) + g.faces.length * nf g o →
      (setupBubbleDofs ((nodes g o).map Nod.nt) d off f.1).1 (el, col) = f.1 (el, col) := by
    intro off el col hc
    rw [setupBubbleDofs, H.nts, w3]
    generalize nb g o = nb
    cases nb with
    | zero => rfl
    | succ nb =>
      rw [List.range'_succ]
      simp only
      rw [if_neg (by omega)]
  have hv2 : (setupVertexDofs g d).2 = d.verts.length := rfl
  constructor
  · rw [S]
    simp only
    rw [e1, f1, hv2, setupBubbleDofs, H.nts, w3]
    generalize nb g o = nb
    cases nb with
    | zero => simp
    | succ nb =>
      rw [List.range'_succ]
      simp only [List.length_range']
      push_cast; ring
  · intro el i hel hi
    rw [S]
    simp only
    rw [base _ _ _ (by omega), f3 _ _ (Or.inl (by omega)), e3 _ _ (Or.inl hi)]
    simp only [setupVertexDofs]
    rw [if_pos hi]
  · intro el e' j hel he hj
    have := hb e' he j hj
    rw [S]
    simp only
    rw [base _ _ _ (by omega), f3 _ _ (Or.inl (by omega)), e2 _ _ _ hel he hj]
  · intro el e' j hel he hj
    have := hb' e' he j hj
    rw [S]
    simp only
    rw [base _ _ _ (by omega), f2 _ _ _ hel he hj, e1]
  · intro el j hel hj
    rw [S]
    simp only
    rw [setupBubbleDofs, H.nts, w3]
    obtain ⟨nb, hnb⟩ : ∃ k, nb g o = k + 1 := ⟨nb g o - 1, by omega⟩
    rw [hnb, List.range'_succ]
    simp only [List.length_range']
    rw [if_pos (by omega), e1, f1, hv2, Nat.add_sub_cancel_left, Nat.mul_comm]
  · intro el e' j hel he hj
    have := hb e' he j hj
    rw [S]
    simp only
    rw [f5 _ _ (Or.inl (by omega)), e4 _ _ _ hel he hj]
  · intro el f' j hel hf hj
    rw [S]
    exact f4 _ _ _ hel hf hj

/-- The first node of the faces. -/
theorem faceIndx0_eq {g : Gel} (hg : IsEl g) {o : ℕ} (h : 0 < g.faces.length * nf g o) :
    faceIndx0 g o = g.nV + g.edges.length * (o - 1) := by
  obtain ⟨-, w2, -, -, -⟩ := describe_shape g.nV g.edges.length (o - 1) g.faces.length (nf g o) (nb g o)
  rw [faceIndx0, (shape_eq hg o).nts, w2]
  obtain ⟨k, hk⟩ : ∃ k, g.faces.length * nf g o = k + 1 := ⟨_, (Nat.succ_pred_eq_of_pos h).symm⟩
  rw [hk, List.range'_succ]
  rfl

theorem axes38 : irun1 3 (gel38.faces.getD 0 []) ≠ irun2 3 (gel38.faces.getD 0 []) := by decide

/-- The indices of the nodes of the faces along the axes. -/
theorem faceAxesNodes_eq {o f i j : ℕ} (hf : f < 6) (hi : i < o - 1) (hj : j < o - 1) :
    faceAxesNodes gel38 o (8 + 12 * (o - 1) + f * nf gel38 o + (i * (o - 1) + j) - faceIndx0 gel38 o) =
      (i + 2, j + 2) := by
  have hnf : nf gel38 o = (o - 1) ^ 2 := by rw [nf, if_neg (by decide)]
  have hm : i * (o - 1) + j < (o - 1) ^ 2 := by
    rw [sq]
    calc i * (o - 1) + j < (i + 1) * (o - 1) := by rw [Nat.succ_mul]; omega
      _ ≤ _ := Nat.mul_le_mul_right _ hi
  have h0 : faceIndx0 gel38 o = 8 + 12 * (o - 1) := faceIndx0_eq (.inr rfl) (by rw [hnf]; exact Nat.mul_pos (by decide) (by omega))
  have e : (8 + 12 * (o - 1) + f * nf gel38 o + (i * (o - 1) + j) - faceIndx0 gel38 o) % (o - 1) ^ 2 = i * (o - 1) + j := by
    rw [h0, hnf, Nat.add_assoc, Nat.add_sub_cancel_left, Nat.add_comm, Nat.add_mul_mod_self_right, Nat.mod_eq_of_lt hm]
  rw [faceAxesNodes, e, h0]
  have r := row_face (g := gel38) (.inr rfl) o (f := 0) (by decide) hi hj
  rw [Nat.zero_mul, Nat.add_zero] at r
  have r' : rowAt (nodes gel38 o) (8 + 12 * (o - 1) + (i * (o - 1) + j)) = _ := r
  rw [r']
  show (faceRow 3 _ _ _ (irun1 3 _), faceRow 3 _ _ _ (irun2 3 _)) = _
  rw [faceRow, faceRow, if_neg axes38, if_pos rfl, if_pos rfl]

end Verif.Poly.Lob
