/-
The conformity of the numbering of the field DOFs, for abstract node positions.
-/
import Verif.Fem.PropsEconn

namespace Verif.Fem

open Verif.CMesh (oriKey)

/-- The node types of a reference element. -/
structure HasShape (g : Gel) (N : List Nod) (ne nf nb : ℕ) : Prop where
  nts : N.map Nod.nt = shape g.nV g.edges.length ne g.faces.length nf nb
  hE : 2 ≤ g.edges.length ∨ ne = 0
  hF : 2 ≤ g.faces.length ∨ nf = 0

section
variable {g : Gel} {N : List Nod} {ne nf nb : ℕ} (h : HasShape g N ne nf nb) (order : ℕ) (d : FieldData)
include h

theorem HasShape.edgePhase (econn : ℕ × ℕ → ℤ) (offset : ℤ) :
    let e := setupEdgeDofs g (N.map Nod.nt) order d offset econn
    e.2 = (ne : ℤ) * (d.edges.length : ℤ) ∧
    (∀ el e' j, el < d.cells.length → e' < g.edges.length → j < ne → e.1 (el, g.nV + e' * ne + j) =
      offset + (ne * prepareRemap d.edges (d.edgeId (d.cells.getD el 0) e') +
        permItem (g.edges.headD []).length order ne (d.edgeOri (d.cells.getD el 0) e') j)) ∧
    ∀ el col, (col < g.nV ∨ g.nV + g.edges.length * ne ≤ col) → e.1 (el, col) = econn (el, col) := by
  obtain ⟨h1, -, -, h4, -⟩ := describe_shape g.nV g.edges.length ne g.faces.length nf nb
  rw [setupEdgeDofs, h.nts, h1]
  rcases Nat.eq_zero_or_pos ne with h0 | h0
  · subst h0
    simp [describeFacets_nil]
  · have hE : 2 ≤ g.edges.length := h.hE.resolve_right h0.ne'
    rw [describeFacets_ok _ _ _ _ hE h0 h4]
    refine ⟨setupFacetDofs_num _ _ _ _ _ _ _ _ _ _ _ (Nat.le_of_succ_le hE), fun el e' j h1 h2 h3 =>
      setupFacetDofs_at _ _ _ _ _ _ _ _ _ _ _ (Nat.le_of_succ_le hE) _ _ _ h1 h2 h3, fun el col hc =>
      setupFacetDofs_other _ _ _ _ _ _ _ _ _ _ _ (Nat.le_of_succ_le hE) _ _ hc⟩

theorem HasShape.facePhase (econn : ℕ × ℕ → ℤ) (offset : ℤ) :
    let e := setupFaceDofs g (N.map Nod.nt) order d offset econn
    e.2 = (nf : ℤ) * (d.faces.length : ℤ) ∧
    (∀ el e' j, el < d.cells.length → e' < g.faces.length → j < nf →
      e.1 (el, g.nV + g.edges.length * ne + e' * nf + j) =
      offset + (nf * prepareRemap d.faces (d.faceId (d.cells.getD el 0) e') +
        permItem (g.faces.headD []).length order nf (d.faceOri (d.cells.getD el 0) e') j)) ∧
    ∀ el col, (col < g.nV + g.edges.length * ne ∨ g.nV + g.edges.length * ne + g.faces.length * nf ≤ col) →
      e.1 (el, col) = econn (el, col) := by
  obtain ⟨-, h1, -, -, h4⟩ := describe_shape g.nV g.edges.length ne g.faces.length nf nb
  rw [setupFaceDofs, h.nts, h1]
  rcases Nat.eq_zero_or_pos nf with h0 | h0
  · subst h0
    simp [describeFacets_nil]
  · have hE : 2 ≤ g.faces.length := h.hF.resolve_right h0.ne'
    rw [describeFacets_ok _ _ _ _ hE h0 h4]
    refine ⟨setupFacetDofs_num _ _ _ _ _ _ _ _ _ _ _ (Nat.le_of_succ_le hE), fun el e' j h1 h2 h3 =>
      setupFacetDofs_at _ _ _ _ _ _ _ _ _ _ _ (Nat.le_of_succ_le hE) _ _ _ h1 h2 h3, fun el col hc =>
      setupFacetDofs_other _ _ _ _ _ _ _ _ _ _ _ (Nat.le_of_succ_le hE) _ _ hc⟩

/-- The closed form of the connectivity. -/
structure Econn (g : Gel) (order ne nf nb : ℕ) (d : FieldData) (E : (ℕ × ℕ → ℤ) × ℤ) : Prop where
  num : E.2 = d.verts.length + ne * d.edges.length + nf * d.faces.length + nb * d.cells.length
  vert : ∀ el i, el < d.cells.length → i < g.nV →
    E.1 (el, i) = prepareRemap d.verts (d.conn (d.cells.getD el 0) i)
  edge : ∀ el e j, el < d.cells.length → e < g.edges.length → j < ne → E.1 (el, g.nV + e * ne + j) =
    d.verts.length + (ne * prepareRemap d.edges (d.edgeId (d.cells.getD el 0) e) +
        permItem (g.edges.headD []).length order ne (d.edgeOri (d.cells.getD el 0) e) j)
  face : ∀ el f j, el < d.cells.length → f < g.faces.length → j < nf →
      E.1 (el, g.nV + g.edges.length * ne + f * nf + j) =
      d.verts.length + ne * d.edges.length + (nf * prepareRemap d.faces (d.faceId (d.cells.getD el 0) f) +
        permItem (g.faces.headD []).length order nf (d.faceOri (d.cells.getD el 0) f) j)
  bubble : ∀ el j, el < d.cells.length → j < nb →
      E.1 (el, g.nV + g.edges.length * ne + g.faces.length * nf + j) =
      d.verts.length + ne * d.edges.length + nf * d.faces.length + (nb * el + j : ℕ)

theorem HasShape.econn : Econn g order ne nf nb d (setupGlobalBasis g N order d) := by
  obtain ⟨-, -, h3, -, -⟩ := describe_shape g.nV g.edges.length ne g.faces.length nf nb
  obtain ⟨e1, e2, e3⟩ := h.edgePhase order d (setupVertexDofs g d).1 (setupVertexDofs g d).2
  unfold setupGlobalBasis
  simp only
  generalize setupEdgeDofs g (N.map Nod.nt) order d (setupVertexDofs g d).2 (setupVertexDofs g d).1 = e at *
  obtain ⟨f1, f2, f3⟩ := h.facePhase order d e.1 ((setupVertexDofs g d).2 + e.2)
  generalize setupFaceDofs g (N.map Nod.nt) order d ((setupVertexDofs g d).2 + e.2) e.1 = f at *
  have hv2 : (setupVertexDofs g d).2 = d.verts.length := rfl
  simp only [hv2] at e2 f2 ⊢
  have hb : ∀ e' < g.edges.length, ∀ j < ne, e' * ne + j < g.edges.length * ne := fun e' he j hj => by
    calc e' * ne + j < (e' + 1) * ne := by rw [Nat.succ_mul]; omega
      _ ≤ _ := Nat.mul_le_mul_right _ he
  have hb' : ∀ e' < g.faces.length, ∀ j < nf, e' * nf + j < g.faces.length * nf := fun e' he j hj => by
    calc e' * nf + j < (e' + 1) * nf := by rw [Nat.succ_mul]; omega
      _ ≤ _ := Nat.mul_le_mul_right _ he
  have base : ∀ off el col, col < g.nV + g.edges.length * ne + g.faces.length * nf →
      (setupBubbleDofs (N.map Nod.nt) d off f.1).1 (el, col) = f.1 (el, col) := by
    intro off el col hc
    rw [setupBubbleDofs, h.nts, h3]
    cases nb with
    | zero => rfl
    | succ nb =>
      rw [List.range'_succ]
      simp only
      rw [if_neg (by omega)]
  constructor
  · simp only
    rw [e1, f1, setupBubbleDofs, h.nts, h3]
    cases nb with
    | zero => simp
    | succ nb =>
      rw [List.range'_succ]
      simp only [List.length_range']
      push_cast; ring
  · intro el i hel hi
    simp only
    rw [base _ _ _ (by omega), f3 _ _ (Or.inl (by omega)), e3 _ _ (Or.inl hi)]
    simp only [setupVertexDofs]
    rw [if_pos hi]
  · intro el e' j hel he hj
    have := hb e' he j hj
    simp only
    rw [base _ _ _ (by omega), f3 _ _ (Or.inl (by omega)), e2 _ _ _ hel he hj]
  · intro el e' j hel he hj
    have := hb' e' he j hj
    simp only
    rw [base _ _ _ (by omega), f2 _ _ _ hel he hj, e1]
  · intro el j hel hj
    obtain ⟨nb, rfl⟩ : ∃ k, nb = k + 1 := ⟨nb - 1, by omega⟩
    simp only
    rw [setupBubbleDofs, h.nts, h3, List.range'_succ]
    simp only [List.length_range']
    rw [if_pos (by omega), e1, f1, Nat.add_sub_cancel_left, Nat.mul_comm]

end

/-! ### Conformity -/

/-- The weights of the node `j` inside of a face. -/
def faceW (order : ℕ) (l : List ℕ) (j v : ℕ) : ℕ :=
  match l with
  | [a, b, c] => triW (order - 2) a b c ((triL (order - 2)).getD j (0, 0)) v
  | [a, b, c, d] => sqW (order - 1) a b c d ((sqL (order - 1)).getD j (0, 0)) v
  | _ => 0

/-- The number of the nodes inside of a face with `n` vertices. -/
def faceN (order n : ℕ) : ℕ :=
  if n = 3 then (triL (order - 2)).length else if n = 4 then (sqL (order - 1)).length else 0

/-- The same face: the same vertices, in the same cyclic order for the quadrilaterals. -/
def SameFace (l l' : List ℕ) : Prop :=
  l.Perm l' ∧ ∀ a b c d, l = [a, b, c, d] → l' ∈ around a b c d

/-- The regularity of the mesh of a field. -/
structure MeshOk (g : Gel) (d : FieldData) : Prop where
  verts_nodup : d.verts.Nodup
  edges_nodup : d.edges.Nodup
  faces_nodup : d.faces.Nodup
  verts : ∀ c ∈ d.cells, ∀ i < g.nV, d.conn c i ∈ d.verts
  edges : ∀ c ∈ d.cells, ∀ e < g.edges.length, d.edgeId c e ∈ d.edges
  faces : ∀ c ∈ d.cells, ∀ f < g.faces.length, d.faceId c f ∈ d.faces
  /-- the vertices of a cell are distinct -/
  inj : ∀ c ∈ d.cells, ∀ i < g.nV, ∀ i' < g.nV, d.conn c i = d.conn c i' → i = i'
  /-- cells with the same vertices are the same cell -/
  cell : ∀ el < d.cells.length, ∀ el' < d.cells.length,
    (∀ v, (∃ i < g.nV, v = d.conn (d.cells.getD el 0) i) ↔ ∃ i < g.nV, v = d.conn (d.cells.getD el' 0) i) → el = el'
  /-- the edges are numbered by their vertices -/
  edge_eq : ∀ c ∈ d.cells, ∀ c' ∈ d.cells, ∀ e < g.edges.length, ∀ e' < g.edges.length,
    (d.edgeId c e = d.edgeId c' e' ↔ ((g.edges.getD e []).map (d.conn c)).Perm ((g.edges.getD e' []).map (d.conn c')))
  /-- the faces are numbered by their vertices -/
  face_eq : ∀ c ∈ d.cells, ∀ c' ∈ d.cells, ∀ f < g.faces.length, ∀ f' < g.faces.length,
    (d.faceId c f = d.faceId c' f' ↔ ((g.faces.getD f []).map (d.conn c)).Perm ((g.faces.getD f' []).map (d.conn c')))
  /-- the two cells see the same sides of a quadrilateral face -/
  quad : ∀ c ∈ d.cells, ∀ c' ∈ d.cells, ∀ f < g.faces.length, ∀ f' < g.faces.length,
    d.faceId c f = d.faceId c' f' → ∀ x y z w, (g.faces.getD f []).map (d.conn c) = [x, y, z, w] →
      (g.faces.getD f' []).map (d.conn c') ∈ around x y z w
  edgeOri : ∀ c ∈ d.cells, ∀ e < g.edges.length, d.edgeOri c e = oriKey ((g.edges.getD e []).map (d.conn c))
  faceOri : ∀ c ∈ d.cells, ∀ f < g.faces.length, d.faceOri c f = oriKey ((g.faces.getD f []).map (d.conn c))

/-- The positions of the nodes: `loc conn row` are the weights of the mesh vertices at the node with the given
row, for the cell with the vertices `conn`. -/
structure Located (g : Gel) (N : List Nod) (order ne nf nb : ℕ) (loc : (ℕ → ℕ) → (ℕ → ℕ) → ℕ → ℕ) where
  s0 : ℕ
  s1 : ℕ
  s2 : ℕ
  pos0 : 0 < s0
  pos1 : 0 < s1
  pos2 : 0 < s2
  hne : ne = order - 1 ∨ ne = 0
  lenF : ℕ
  lenF3 : lenF = 3 ∨ lenF = 4
  hnf : nf = faceN order lenF ∨ nf = 0
  hnV : 2 ≤ g.nV ∧ (ne = 0 ∨ 3 ≤ g.nV) ∧ (nf = 0 ∨ lenF < g.nV)
  edges : ∀ e < g.edges.length, (g.edges.getD e []).length = 2 ∧ (g.edges.getD e []).Nodup ∧
    ∀ i ∈ g.edges.getD e [], i < g.nV
  faces : ∀ f < g.faces.length, (g.faces.getD f []).length = lenF ∧ (g.faces.getD f []).Nodup ∧
    ∀ i ∈ g.faces.getD f [], i < g.nV
  vert : ∀ conn i v, i < g.nV → loc conn (rowAt N i) v = if v = conn i then s0 else 0
  edge : ∀ conn e j v, e < g.edges.length → j < ne → loc conn (rowAt N (g.nV + e * ne + j)) v =
    s1 * edgeW order (conn ((g.edges.getD e []).getD 0 0)) (conn ((g.edges.getD e []).getD 1 0)) j v
  face : ∀ conn f j v, f < g.faces.length → j < nf →
    loc conn (rowAt N (g.nV + g.edges.length * ne + f * nf + j)) v = s2 * faceW order ((g.faces.getD f []).map conn) j v
  bubble : ∀ conn j v, j < nb →
    (loc conn (rowAt N (g.nV + g.edges.length * ne + g.faces.length * nf + j)) v ≠ 0 ↔ ∃ i < g.nV, v = conn i)
  bubble_inj : ∀ conn j j', j < nb → j' < nb → (∀ i < g.nV, ∀ i' < g.nV, conn i = conn i' → i = i') →
    (∀ v, loc conn (rowAt N (g.nV + g.edges.length * ne + g.faces.length * nf + j)) v =
      loc conn (rowAt N (g.nV + g.edges.length * ne + g.faces.length * nf + j')) v) → j = j'

theorem list_two {l : List ℕ} (h : l.length = 2) : l = [l.getD 0 0, l.getD 1 0] := by
  match l, h with
  | [a, b], _ => rfl

theorem list_three {l : List ℕ} (h : l.length = 3) : ∃ a b c, l = [a, b, c] := by
  match l, h with
  | [a, b, c], _ => exact ⟨a, b, c, rfl⟩

theorem list_four {l : List ℕ} (h : l.length = 4) : ∃ a b c d, l = [a, b, c, d] := by
  match l, h with
  | [a, b, c, d], _ => exact ⟨a, b, c, d, rfl⟩

theorem edge_item {order a b j : ℕ} (hj : j < order - 1) :
    permItem 2 order (order - 1) (oriKey [a, b]) j < order - 1 := by
  obtain ⟨q, eq, hl, hq⟩ := line_perm order a b
  rw [permItem, eq]
  simp only
  rw [List.getD_eq_getElem _ _ (by omega), hq]
  split_ifs <;> omega

theorem edge_item_same {order a b a' b' j j' : ℕ} (hab : a ≠ b) (hp : [a, b].Perm [a', b']) (hj : j < order - 1)
    (hj' : j' < order - 1) :
    permItem 2 order (order - 1) (oriKey [a, b]) j = permItem 2 order (order - 1) (oriKey [a', b']) j' ↔
      ∀ v, edgeW order a b j v = edgeW order a' b' j' v := by
  obtain ⟨q, eq, hl, hq⟩ := line_perm order a b
  obtain ⟨q', eq', hl', hq'⟩ := line_perm order a' b'
  rw [permItem, permItem, eq, eq']
  exact line_same hab hp eq eq' hj hj'

theorem length_sqL (m : ℕ) : (sqL m).length = m * m := length_blocks m m _ fun _ _ => by simp

theorem face_item {order n : ℕ} (hn : n = 3 ∨ n = 4) {l : List ℕ} (hl : l.length = n) (hd : l.Nodup) {j : ℕ}
    (hj : j < faceN order n) : permItem n order (faceN order n) (oriKey l) j < faceN order n := by
  rcases hn with rfl | rfl
  · obtain ⟨a, b, c, rfl⟩ := list_three hl
    simp only [List.nodup_cons, List.mem_cons, List.not_mem_nil, or_false, not_or, not_false_iff,
      List.nodup_nil, and_true] at hd
    obtain ⟨x, y, z, -, -, -, perm, e, -, h⟩ := tri_canon (order := order) hd.1.1 hd.1.2 hd.2
    obtain ⟨q, hq, e1, -⟩ := h j hj
    rw [permItem, e]
    simp only
    rw [e1]
    exact List.idxOf_lt_length_iff.2 hq
  · obtain ⟨a, b, c, d, rfl⟩ := list_four hl
    obtain ⟨x, y, z, w, -, -, -, -, -, perm, e, -, h⟩ := quad_canon (order := order) hd
    obtain ⟨q, hq, e1, -⟩ := h j hj
    rw [permItem, e]
    simp only
    rw [e1, faceN, if_neg (by omega), if_pos rfl, length_sqL]
    rw [mem_sqL] at hq
    calc q.1 * (order - 1) + q.2 < (q.1 + 1) * (order - 1) := by rw [Nat.succ_mul]; omega
      _ ≤ _ := Nat.mul_le_mul_right _ hq.1

theorem face_item_same {order n : ℕ} (hn : n = 3 ∨ n = 4) {l l' : List ℕ} (hl : l.length = n) (hd : l.Nodup)
    (hs : SameFace l l') {j j' : ℕ} (hj : j < faceN order n) (hj' : j' < faceN order n) :
    permItem n order (faceN order n) (oriKey l) j = permItem n order (faceN order n) (oriKey l') j' ↔
      ∀ v, faceW order l j v = faceW order l' j' v := by
  have hl' : l'.length = n := hs.1.length_eq ▸ hl
  have hd' : l'.Nodup := hs.1.nodup_iff.1 hd
  rcases hn with rfl | rfl
  · obtain ⟨a, b, c, rfl⟩ := list_three hl
    obtain ⟨a', b', c', rfl⟩ := list_three hl'
    simp only [List.nodup_cons, List.mem_cons, List.not_mem_nil, or_false, not_or, not_false_iff,
      List.nodup_nil, and_true] at hd hd'
    obtain ⟨x, y, z, -, -, -, perm, e, -, h⟩ := tri_canon (order := order) hd.1.1 hd.1.2 hd.2
    obtain ⟨x', y', z', -, -, -, perm', e', -, h'⟩ := tri_canon (order := order) hd'.1.1 hd'.1.2 hd'.2
    rw [permItem, permItem, e, e']
    have hj : j < (triL (order - 2)).length := hj
    have hj' : j' < (triL (order - 2)).length := hj'
    simp only [faceW]
    rw [List.getD_eq_getElem (triL _) _ hj, List.getD_eq_getElem (triL _) _ hj']
    exact tri_same hd.1.1 hd.1.2 hd.2 hs.1 e e' hj hj'
  · obtain ⟨a, b, c, d, rfl⟩ := list_four hl
    obtain ⟨a', b', c', d', rfl⟩ := list_four hl'
    obtain ⟨x, y, z, w, -, -, -, -, -, perm, e, -, h⟩ := quad_canon (order := order) hd
    obtain ⟨x', y', z', w', -, -, -, -, -, perm', e', -, h'⟩ := quad_canon (order := order) hd'
    rw [permItem, permItem, e, e']
    have hj : j < (sqL (order - 1)).length := hj
    have hj' : j' < (sqL (order - 1)).length := hj'
    simp only [faceW]
    rw [List.getD_eq_getElem (sqL _) _ hj, List.getD_eq_getElem (sqL _) _ hj']
    exact quad_same hd (hs.2 _ _ _ _ rfl) e e' hj hj'

theorem faceW_ne {order n : ℕ} (hn : n = 3 ∨ n = 4) {l : List ℕ} (hl : l.length = n) {j : ℕ}
    (hj : j < faceN order n) (v : ℕ) : faceW order l j v ≠ 0 ↔ v ∈ l := by
  rcases hn with rfl | rfl
  · obtain ⟨a, b, c, rfl⟩ := list_three hl
    have hj : j < (triL (order - 2)).length := hj
    have := mem_triL.1 (List.getElem_mem hj)
    simp only [faceW, triW, List.mem_cons, List.not_mem_nil, or_false]
    rw [List.getD_eq_getElem (triL _) _ hj]
    by_cases h1 : v = a <;> by_cases h2 : v = b <;> by_cases h3 : v = c <;> simp [h1, h2, h3] <;> omega
  · obtain ⟨a, b, c, d, rfl⟩ := list_four hl
    have hj : j < (sqL (order - 1)).length := hj
    have := mem_sqL.1 (List.getElem_mem hj)
    simp only [faceW, sqW, List.mem_cons, List.not_mem_nil, or_false]
    rw [List.getD_eq_getElem (sqL _) _ hj]
    have p1 : order - 1 - ((sqL (order - 1))[j]).1 ≠ 0 := by omega
    have p2 : order - 1 - ((sqL (order - 1))[j]).2 ≠ 0 := by omega
    by_cases h1 : v = a <;> by_cases h2 : v = b <;> by_cases h3 : v = c <;> by_cases h4 : v = d <;>
      simp [h1, h2, h3, h4, p1, p2]

/-- The entity of a column of the connectivity: its dimension and its local vertices. -/
inductive Col (g : Gel) (ne nf nb : ℕ) : ℕ → List ℕ → ℕ → Prop
  | vert (i : ℕ) : i < g.nV → Col g ne nf nb 0 [i] i
  | edge (e j : ℕ) : e < g.edges.length → j < ne → Col g ne nf nb 1 (g.edges.getD e []) (g.nV + e * ne + j)
  | face (f j : ℕ) : f < g.faces.length → j < nf →
    Col g ne nf nb 2 (g.faces.getD f []) (g.nV + g.edges.length * ne + f * nf + j)
  | bubble (j : ℕ) : j < nb →
    Col g ne nf nb 3 (List.range g.nV) (g.nV + g.edges.length * ne + g.faces.length * nf + j)

theorem block_split {n m k : ℕ} (h : k < n * m) : k / m < n ∧ k % m < m ∧ k = k / m * m + k % m := by
  have hm : 0 < m := by
    rcases Nat.eq_zero_or_pos m with h0 | h0
    · subst h0; simp at h
    · exact h0
  exact ⟨(Nat.div_lt_iff_lt_mul hm).2 h, Nat.mod_lt _ hm, (Nat.div_add_mod' k m).symm⟩

theorem Col.exists {g : Gel} {ne nf nb k : ℕ}
    (h : k < g.nV + g.edges.length * ne + g.faces.length * nf + nb) : ∃ κ L, Col g ne nf nb κ L k := by
  by_cases h0 : k < g.nV
  · exact ⟨_, _, .vert k h0⟩
  by_cases h1 : k < g.nV + g.edges.length * ne
  · obtain ⟨a, b, c⟩ := block_split (n := g.edges.length) (m := ne) (k := k - g.nV) (by omega)
    have := Col.edge (nf := nf) (nb := nb) _ _ a b
    rw [show g.nV + (k - g.nV) / ne * ne + (k - g.nV) % ne = k by omega] at this
    exact ⟨_, _, this⟩
  by_cases h2 : k < g.nV + g.edges.length * ne + g.faces.length * nf
  · obtain ⟨a, b, c⟩ := block_split (n := g.faces.length) (m := nf) (k := k - (g.nV + g.edges.length * ne)) (by omega)
    have := Col.face (ne := ne) (nb := nb) _ _ a b
    rw [show g.nV + g.edges.length * ne + (k - (g.nV + g.edges.length * ne)) / nf * nf +
      (k - (g.nV + g.edges.length * ne)) % nf = k by omega] at this
    exact ⟨_, _, this⟩
  · have := Col.bubble (g := g) (ne := ne) (nf := nf) (nb := nb)
      (k - (g.nV + g.edges.length * ne + g.faces.length * nf)) (by omega)
    rw [show g.nV + g.edges.length * ne + g.faces.length * nf +
      (k - (g.nV + g.edges.length * ne + g.faces.length * nf)) = k by omega] at this
    exact ⟨_, _, this⟩

/-- The first DOF of the entities of a dimension. -/
def lo (ne nf nb : ℕ) (d : FieldData) (κ : ℕ) : ℤ :=
  (if 0 < κ then d.verts.length else 0) + (if 1 < κ then (ne : ℤ) * d.edges.length else 0)
    + (if 2 < κ then (nf : ℤ) * d.faces.length else 0) + (if 3 < κ then (nb : ℤ) * d.cells.length else 0)

theorem block_range {m : ℕ} {r p n : ℤ} (h0 : 0 ≤ r) (h1 : r < n) (h2 : 0 ≤ p) (h3 : p < m) :
    0 ≤ m * r + p ∧ m * r + p < m * n := by
  refine ⟨by positivity, ?_⟩
  calc (m : ℤ) * r + p < m * (r + 1) := by linarith
    _ ≤ m * n := Int.mul_le_mul_of_nonneg_left (by omega) (by omega)

theorem block_eq {m : ℕ} {r p r' p' : ℤ} (h2 : 0 ≤ p) (h3 : p < m) (h2' : 0 ≤ p') (h3' : p' < m) :
    m * r + p = m * r' + p' ↔ r = r' ∧ p = p' := by
  refine ⟨fun h => ?_, fun h => by rw [h.1, h.2]⟩
  have hm : (m : ℤ) ≠ 0 := by omega
  have : r = r' := by
    have := congrArg (· / (m : ℤ)) h
    simp only [Int.mul_add_ediv_left _ _ hm, Int.ediv_eq_zero_of_lt h2 h3, Int.ediv_eq_zero_of_lt h2' h3'] at this
    omega
  exact ⟨this, by subst this; omega⟩

section
variable {g : Gel} {N : List Nod} {order ne nf nb : ℕ} {d : FieldData} {E : (ℕ × ℕ → ℤ) × ℤ}
  {loc : (ℕ → ℕ) → (ℕ → ℕ) → ℕ → ℕ}

theorem Located.headE (L : Located g N order ne nf nb loc) {e : ℕ} (he : e < g.edges.length) :
    (g.edges.headD []).length = 2 := by
  have := (L.edges 0 (by omega)).1
  cases h : g.edges with
  | nil => simp [h] at he
  | cons a t => simpa [h] using this

theorem Located.headF (L : Located g N order ne nf nb loc) {e : ℕ} (he : e < g.faces.length) :
    (g.faces.headD []).length = L.lenF := by
  have := (L.faces 0 (by omega)).1
  cases h : g.faces with
  | nil => simp [h] at he
  | cons a t => simpa [h] using this

theorem Col.len (L : Located g N order ne nf nb loc) {κ κ' k k' : ℕ} {l l' : List ℕ} (h : Col g ne nf nb κ l k)
    (h' : Col g ne nf nb κ' l' k') (e : l.length = l'.length) : κ = κ' := by
  obtain ⟨n1, n2, n3⟩ := L.hnV
  have := L.lenF3
  cases h with
  | vert i hi => cases h' with
    | vert => rfl
    | edge e' j he hj => have := (L.edges _ he).1; simp only [List.length_cons, List.length_nil, List.length_range] at e; omega
    | face e' j he hj => have := (L.faces _ he).1; simp only [List.length_cons, List.length_nil, List.length_range] at e; omega
    | bubble j hj => simp only [List.length_cons, List.length_nil, List.length_range] at e; omega
  | edge e₁ j₁ he₁ hj₁ => have := (L.edges _ he₁).1; cases h' with
    | vert => simp only [List.length_cons, List.length_nil, List.length_range] at e; omega
    | edge e' j he hj => rfl
    | face e' j he hj => have := (L.faces _ he).1; omega
    | bubble j hj => simp only [List.length_cons, List.length_nil, List.length_range] at e; omega
  | face e₁ j₁ he₁ hj₁ => have := (L.faces _ he₁).1; cases h' with
    | vert => simp only [List.length_cons, List.length_nil, List.length_range] at e; omega
    | edge e' j he hj => have := (L.edges _ he).1; omega
    | face e' j he hj => rfl
    | bubble j hj => simp only [List.length_cons, List.length_nil, List.length_range] at e; omega
  | bubble j₁ hj₁ => cases h' with
    | vert => simp only [List.length_cons, List.length_nil, List.length_range] at e; omega
    | edge e' j he hj => have := (L.edges _ he).1; simp only [List.length_cons, List.length_nil, List.length_range] at e; omega
    | face e' j he hj => have := (L.faces _ he).1; simp only [List.length_cons, List.length_nil, List.length_range] at e; omega
    | bubble j hj => rfl

theorem Col.lt (L : Located g N order ne nf nb loc) {κ k : ℕ} {l : List ℕ} (h : Col g ne nf nb κ l k) :
    l.Nodup ∧ ∀ i ∈ l, i < g.nV := by
  cases h with
  | vert i hi => simpa using hi
  | edge e j he hj => exact (L.edges _ he).2
  | face e j he hj => exact (L.faces _ he).2
  | bubble j hj => exact ⟨List.nodup_range, fun i hi => List.mem_range.1 hi⟩

theorem Col.supp (L : Located g N order ne nf nb loc) {κ k : ℕ} {l : List ℕ} (h : Col g ne nf nb κ l k)
    (conn : ℕ → ℕ) (v : ℕ) : loc conn (rowAt N k) v ≠ 0 ↔ v ∈ l.map conn := by
  cases h with
  | vert i hi =>
    rw [L.vert _ _ _ hi]
    have := L.pos0
    simp; omega
  | edge e j he hj =>
    rw [L.edge _ _ _ _ he hj, list_two (L.edges e he).1]
    have := L.pos1.ne'
    have := L.hne
    simp only [edgeW, List.getD_cons_zero, List.getD_cons_succ, List.map_cons, List.map_nil, List.mem_cons,
      List.not_mem_nil, or_false, ne_eq, Nat.mul_eq_zero, not_or]
    by_cases h1 : v = conn ((g.edges.getD e []).getD 0 0) <;>
      by_cases h2 : v = conn ((g.edges.getD e []).getD 1 0) <;> simp only [h1, h2, if_true, if_false] <;> simp <;> omega
  | face e j he hj =>
    rw [L.face _ _ _ _ he hj]
    have hnf := L.hnf.resolve_right (by omega)
    rw [← faceW_ne (order := order) L.lenF3 (by simpa using (L.faces e he).1) (hnf ▸ hj)]
    have := L.pos2.ne'
    simp [this]
  | bubble j hj =>
    rw [L.bubble _ _ _ hj]
    simp [eq_comm]

theorem mem_cells {el : ℕ} (h : el < d.cells.length) : d.cells.getD el 0 ∈ d.cells := by
  rw [List.getD_eq_getElem _ _ h]; exact List.getElem_mem h

theorem Col.perm (L : Located g N order ne nf nb loc) (M : MeshOk g d) {κ k κ' k' el el' : ℕ} {l l' : List ℕ}
    (h : Col g ne nf nb κ l k) (h' : Col g ne nf nb κ' l' k') (hel : el < d.cells.length) (hel' : el' < d.cells.length)
    (hloc : ∀ v, loc (d.conn (d.cells.getD el 0)) (rowAt N k) v = loc (d.conn (d.cells.getD el' 0)) (rowAt N k') v) :
    (l.map (d.conn (d.cells.getD el 0))).Perm (l'.map (d.conn (d.cells.getD el' 0))) := by
  obtain ⟨a, b⟩ := h.lt L
  obtain ⟨a', b'⟩ := h'.lt L
  rw [List.perm_ext_iff_of_nodup]
  · intro v
    rw [← h.supp L, ← h'.supp L, hloc v]
  · exact a.map_on fun x hx y hy e => M.inj _ (mem_cells hel) _ (b x hx) _ (b y hy) e
  · exact a'.map_on fun x hx y hy e => M.inj _ (mem_cells hel') _ (b' x hx) _ (b' y hy) e

theorem Col.range (L : Located g N order ne nf nb loc) (M : MeshOk g d) (h : Econn g order ne nf nb d E)
    {κ k el : ℕ} {l : List ℕ} (hc : Col g ne nf nb κ l k) (hel : el < d.cells.length) :
    lo ne nf nb d κ ≤ E.1 (el, k) ∧ E.1 (el, k) < lo ne nf nb d (κ + 1) := by
  cases hc with
  | vert i hi =>
    rw [h.vert _ _ hel hi]
    have := prepareRemap_mem M.verts_nodup (M.verts _ (mem_cells hel) _ hi)
    simpa [lo] using this
  | edge e j he hj =>
    rw [h.edge _ _ _ hel he hj, L.headE he, M.edgeOri _ (mem_cells hel) _ he]
    obtain ⟨a, b⟩ := prepareRemap_mem M.edges_nodup (M.edges _ (mem_cells hel) e he)
    have hne := L.hne.resolve_right (by omega)
    have hit : permItem 2 order ne (oriKey ((g.edges.getD e []).map (d.conn (d.cells.getD el 0)))) j < ne := by
      rw [list_two (l := (g.edges.getD e []).map _) (by simpa using (L.edges e he).1), hne]
      exact edge_item (hne ▸ hj)
    have := block_range a b (Int.natCast_nonneg _) (Int.ofNat_lt.2 hit)
    simp only [lo]
    simp
    constructor
    · exact this.1
    · exact this.2
  | face e j he hj =>
    rw [h.face _ _ _ hel he hj, L.headF he, M.faceOri _ (mem_cells hel) _ he]
    obtain ⟨a, b⟩ := prepareRemap_mem M.faces_nodup (M.faces _ (mem_cells hel) e he)
    have hnf := L.hnf.resolve_right (by omega)
    have hnd : ((g.faces.getD e []).map (d.conn (d.cells.getD el 0))).Nodup :=
      (L.faces e he).2.1.map_on fun x hx y hy e' => M.inj _ (mem_cells hel) _ ((L.faces e he).2.2 x hx) _
        ((L.faces e he).2.2 y hy) e'
    have := block_range a b (Int.natCast_nonneg _) (Int.ofNat_lt.2 (face_item (order := order) L.lenF3
      (by simpa using (L.faces e he).1) hnd (hnf ▸ hj)))
    rw [← hnf] at this
    simp only [lo]
    simp
    constructor
    · exact this.1
    · exact this.2
  | bubble j hj =>
    rw [h.bubble _ _ hel hj]
    have := block_range (m := nb) (Int.natCast_nonneg el) (Int.ofNat_lt.2 hel) (Int.natCast_nonneg j) (Int.ofNat_lt.2 hj)
    simp only [lo]
    simp
    exact ⟨by positivity, this.2⟩

theorem lo_mono {κ κ' : ℕ} (h : κ ≤ κ') : lo ne nf nb d κ ≤ lo ne nf nb d κ' := by
  unfold lo
  have h1 : (0 : ℤ) ≤ d.verts.length := by positivity
  have h2 : (0 : ℤ) ≤ ne * d.edges.length := by positivity
  have h3 : (0 : ℤ) ≤ nf * d.faces.length := by positivity
  have h4 : (0 : ℤ) ≤ nb * d.cells.length := by positivity
  refine add_le_add (add_le_add (add_le_add ?_ ?_) ?_) ?_ <;> split_ifs <;> omega

theorem Col.kind (L : Located g N order ne nf nb loc) (M : MeshOk g d) (h : Econn g order ne nf nb d E)
    {κ k el κ' k' el' : ℕ} {l l' : List ℕ} (hc : Col g ne nf nb κ l k) (hel : el < d.cells.length)
    (hc' : Col g ne nf nb κ' l' k') (hel' : el' < d.cells.length) (e : E.1 (el, k) = E.1 (el', k')) : κ = κ' := by
  have h1 := hc.range L M h hel
  have h2 := hc'.range L M h hel'
  rcases lt_trichotomy κ κ' with h3 | h3 | h3
  · have := lo_mono (ne := ne) (nf := nf) (nb := nb) (d := d) (show κ + 1 ≤ κ' from h3)
    omega
  · exact h3
  · have := lo_mono (ne := ne) (nf := nf) (nb := nb) (d := d) (show κ' + 1 ≤ κ from h3)
    omega

/-- Two local nodes of two cells have the same DOF iff they are in the same place. -/
theorem conforming (L : Located g N order ne nf nb loc) (M : MeshOk g d) (h : Econn g order ne nf nb d E)
    {el el' k k' : ℕ} (hel : el < d.cells.length) (hel' : el' < d.cells.length)
    (hk : k < g.nV + g.edges.length * ne + g.faces.length * nf + nb)
    (hk' : k' < g.nV + g.edges.length * ne + g.faces.length * nf + nb) :
    E.1 (el, k) = E.1 (el', k') ↔
      ∀ v, loc (d.conn (d.cells.getD el 0)) (rowAt N k) v = loc (d.conn (d.cells.getD el' 0)) (rowAt N k') v := by
  obtain ⟨κ, l, hc⟩ := Col.exists hk
  obtain ⟨κ', l', hc'⟩ := Col.exists hk'
  by_cases hκ : κ = κ'
  swap
  · refine ⟨fun e => absurd (hc.kind L M h hel hc' hel' e) hκ, fun e => ?_⟩
    have := hc.perm L M hc' hel hel' e
    exact absurd (hc.len L hc' (by simpa using this.length_eq)) hκ
  subst hκ
  have m := mem_cells hel
  have m' := mem_cells hel'
  have hP := hc.perm L M hc' hel hel'
  cases hc with
  | vert i hi => cases hc' with
    | vert i' hi' =>
      rw [h.vert _ _ hel hi, h.vert _ _ hel' hi', prepareRemap_inj M.verts_nodup (M.verts _ m _ hi) (M.verts _ m' _ hi')]
      refine ⟨fun e v => ?_, fun e => ?_⟩
      · rw [L.vert _ _ _ hi, L.vert _ _ _ hi', e]
      · have := (hP e).mem_iff (a := d.conn (d.cells.getD el 0) k)
        simpa using this
  | edge e j he hj => cases hc' with
    | edge e' j' he' hj' =>
      rw [h.edge _ _ _ hel he hj, h.edge _ _ _ hel' he' hj', L.headE he, M.edgeOri _ m _ he,
        M.edgeOri _ m' _ he', add_right_inj]
      have hne := L.hne.resolve_right (by omega)
      obtain ⟨a1, a2, a3⟩ := L.edges e he
      obtain ⟨b1, b2, b3⟩ := L.edges e' he'
      have hn : ((g.edges.getD e []).map (d.conn (d.cells.getD el 0))).Nodup :=
        a2.map_on fun x hx y hy e' => M.inj _ m _ (a3 x hx) _ (a3 y hy) e'
      have pe := M.edge_eq _ m _ m' e he e' he'
      have l1 : (g.edges.getD e []).map (d.conn (d.cells.getD el 0)) =
          [d.conn (d.cells.getD el 0) ((g.edges.getD e []).getD 0 0),
            d.conn (d.cells.getD el 0) ((g.edges.getD e []).getD 1 0)] := by
        conv_lhs => rw [list_two a1]
        rfl
      have l2 : (g.edges.getD e' []).map (d.conn (d.cells.getD el' 0)) =
          [d.conn (d.cells.getD el' 0) ((g.edges.getD e' []).getD 0 0),
            d.conn (d.cells.getD el' 0) ((g.edges.getD e' []).getD 1 0)] := by
        conv_lhs => rw [list_two b1]
        rfl
      rw [l1] at pe hn hP
      rw [l2] at pe hP
      rw [l1, l2]
      have i1 := edge_item (order := order) (a := d.conn (d.cells.getD el 0) ((g.edges.getD e []).getD 0 0))
        (b := d.conn (d.cells.getD el 0) ((g.edges.getD e []).getD 1 0)) (hne ▸ hj)
      have i2 := edge_item (order := order) (a := d.conn (d.cells.getD el' 0) ((g.edges.getD e' []).getD 0 0))
        (b := d.conn (d.cells.getD el' 0) ((g.edges.getD e' []).getD 1 0)) (hne ▸ hj')
      rw [← hne] at i1 i2
      rw [block_eq (Int.natCast_nonneg _) (Int.ofNat_lt.2 i1) (Int.natCast_nonneg _) (Int.ofNat_lt.2 i2),
        prepareRemap_inj M.edges_nodup (M.edges _ m _ he) (M.edges _ m' _ he'), pe, Nat.cast_inj]
      have hW : (∀ v, loc (d.conn (d.cells.getD el 0)) (rowAt N (g.nV + e * ne + j)) v =
          loc (d.conn (d.cells.getD el' 0)) (rowAt N (g.nV + e' * ne + j')) v) ↔
          ∀ v, edgeW order (d.conn (d.cells.getD el 0) ((g.edges.getD e []).getD 0 0))
            (d.conn (d.cells.getD el 0) ((g.edges.getD e []).getD 1 0)) j v =
            edgeW order (d.conn (d.cells.getD el' 0) ((g.edges.getD e' []).getD 0 0))
            (d.conn (d.cells.getD el' 0) ((g.edges.getD e' []).getD 1 0)) j' v := by
        refine forall_congr' fun v => ?_
        rw [L.edge _ _ _ _ he hj, L.edge _ _ _ _ he' hj', Nat.mul_right_inj L.pos1.ne']
      have hab := List.pairwise_pair.1 hn
      constructor
      · rintro ⟨p, q⟩
        rw [hW]
        rw [hne] at q
        exact (edge_item_same hab p (hne ▸ hj) (hne ▸ hj')).1 q
      · intro q
        have p := hP q
        refine ⟨p, ?_⟩
        rw [hne]
        exact (edge_item_same hab p (hne ▸ hj) (hne ▸ hj')).2 (hW.1 q)
  | face e j he hj => cases hc' with
    | face e' j' he' hj' =>
      rw [h.face _ _ _ hel he hj, h.face _ _ _ hel' he' hj', L.headF he, M.faceOri _ m _ he,
        M.faceOri _ m' _ he', add_right_inj]
      have hnf := L.hnf.resolve_right (by omega)
      obtain ⟨a1, a2, a3⟩ := L.faces e he
      obtain ⟨b1, b2, b3⟩ := L.faces e' he'
      have hn : ((g.faces.getD e []).map (d.conn (d.cells.getD el 0))).Nodup :=
        a2.map_on fun x hx y hy e' => M.inj _ m _ (a3 x hx) _ (a3 y hy) e'
      have hn' : ((g.faces.getD e' []).map (d.conn (d.cells.getD el' 0))).Nodup :=
        b2.map_on fun x hx y hy e' => M.inj _ m' _ (b3 x hx) _ (b3 y hy) e'
      have pe := M.face_eq _ m _ m' e he e' he'
      have i1 := face_item (order := order) L.lenF3 (by simpa using a1) hn (hnf ▸ hj)
      have i2 := face_item (order := order) L.lenF3 (by simpa using b1) hn' (hnf ▸ hj')
      have hQ := fun p => M.quad _ m _ m' e he e' he' p
      rw [← hnf] at i1 i2
      rw [block_eq (Int.natCast_nonneg _) (Int.ofNat_lt.2 i1) (Int.natCast_nonneg _) (Int.ofNat_lt.2 i2),
        prepareRemap_inj M.faces_nodup (M.faces _ m _ he) (M.faces _ m' _ he'), pe, Nat.cast_inj]
      have hW : (∀ v, loc (d.conn (d.cells.getD el 0)) (rowAt N (g.nV + g.edges.length * ne + e * nf + j)) v =
          loc (d.conn (d.cells.getD el' 0)) (rowAt N (g.nV + g.edges.length * ne + e' * nf + j')) v) ↔
          ∀ v, faceW order ((g.faces.getD e []).map (d.conn (d.cells.getD el 0))) j v =
            faceW order ((g.faces.getD e' []).map (d.conn (d.cells.getD el' 0))) j' v := by
        refine forall_congr' fun v => ?_
        rw [L.face _ _ _ _ he hj, L.face _ _ _ _ he' hj', Nat.mul_right_inj L.pos2.ne']
      have same := fun p => face_item_same (order := order) L.lenF3 (by simpa using a1) hn
        ⟨p, hQ (pe.2 p)⟩ (hnf ▸ hj) (hnf ▸ hj')
      rw [← hnf] at same
      constructor
      · rintro ⟨p, q⟩
        rw [hW]
        exact (same p).1 q
      · intro q
        have p := hP q
        exact ⟨p, (same p).2 (hW.1 q)⟩
  | bubble j hj => cases hc' with
    | bubble j' hj' =>
      rw [h.bubble _ _ hel hj, h.bubble _ _ hel' hj', add_right_inj, Nat.cast_add, Nat.cast_add, Nat.cast_mul,
        Nat.cast_mul, block_eq (Int.natCast_nonneg _) (Int.ofNat_lt.2 hj) (Int.natCast_nonneg _) (Int.ofNat_lt.2 hj'),
        Nat.cast_inj, Nat.cast_inj]
      constructor
      · rintro ⟨rfl, rfl⟩ v; rfl
      · intro e
        have : el = el' := by
          refine M.cell _ hel _ hel' fun v => ?_
          rw [← L.bubble _ j v hj, ← L.bubble _ j' v hj', e v]
        subst this
        exact ⟨rfl, L.bubble_inj _ _ _ hj hj' (M.inj _ m) e⟩

end

end Verif.Fem
