/-
C102, C103: the fields with the hierarchical elements.
-/
import Verif.Poly.LobContProps

namespace Verif.Poly.Lob

open Verif.Fem Verif.CMesh
open Finset

variable {d : FieldData}

theorem cellValue_congr (g : Gel) (o : ℕ) (u : ℤ → ℝ) (el : ℕ) {x x' : ℕ → ℝ} (h : ∀ k < g.dim, x k = x' k) :
    cellValue g o d u el x = cellValue g o d u el x' := by
  have ev : ∀ row, evalTP g.dim row 0 1 x = evalTP g.dim row 0 1 x' := fun row =>
    prod_congr rfl fun k hk => by rw [h k (mem_range.1 hk)]
  simp only [cellValue, fieldValue, orientedVal, ev]

/-- The point of three coordinates. -/
def pt3 (s t r : ℝ) (i : ℕ) : ℝ := if i = 0 then s else if i = 1 then t else r

theorem bd_ePt {e : ℕ} (he : e < 12) (s : ℝ) : ∃ k < 3, ePt 3 (gel38.edges.getD e []) s k = 0 ∨ ePt 3 (gel38.edges.getD e []) s k = 1 := by
  interval_cases e
  all_goals first
    | (refine ⟨0, by decide, ?_⟩; simp [ePt, vertexMap, gel38]; done)
    | (refine ⟨1, by decide, ?_⟩; simp [ePt, vertexMap, gel38]; done)

theorem bd_fPt {f : ℕ} (hf : f < 6) (s t : ℝ) :
    ∃ k < 3, fPt 3 (gel38.faces.getD f []) s t k = 0 ∨ fPt 3 (gel38.faces.getD f []) s t k = 1 := by
  refine ⟨[2, 0, 1, 2, 0, 1].getD f 0, ?_, ?_⟩ <;> interval_cases f
  any_goals (simp; done)
  any_goals (left; simp [fPt, vertexMap, gel38]; done)
  all_goals (right; simp [fPt, vertexMap, gel38]; ring)

theorem bd_vPt {i : ℕ} (hi : i < 8) : (vPt 3 i 0 : ℝ) = 0 ∨ (vPt 3 i 0 : ℝ) = 1 := by
  interval_cases i <;> simp [vPt, vertexMap]

theorem bd2_ePt {e : ℕ} (he : e < 4) (s : ℝ) : ∃ k < 2, ePt 2 (gel24.edges.getD e []) s k = 0 ∨ ePt 2 (gel24.edges.getD e []) s k = 1 := by
  interval_cases e
  all_goals first
    | (refine ⟨0, by decide, ?_⟩; simp [ePt, vertexMap, gel24]; done)
    | (refine ⟨1, by decide, ?_⟩; simp [ePt, vertexMap, gel24]; done)

theorem bd2_vPt {i : ℕ} (hi : i < 4) : (vPt 2 i 0 : ℝ) = 0 ∨ (vPt 2 i 0 : ℝ) = 1 := by
  interval_cases i <;> simp [vPt, vertexMap]

/-- **C103**: a function of a hierarchical field of an order up to ten is continuous: the values from two cells in a common
point are the same. -/
theorem C103_lobatto_continuous (g : Gel) (hg : g = gel24 ∨ g = gel38) (o : ℕ) (ho : 1 ≤ o ∧ o ≤ 10) (d : FieldData)
    (M : MeshOk g d) (u : ℤ → ℝ) (el el' : ℕ) (hel : el < d.cells.length) (hel' : el' < d.cells.length) (x x' : ℕ → ℝ)
    (hw : ∀ v, meshWeight g.nV (d.conn (d.cells.getD el 0))
        (tensorWeight g.dim fun i j => if j = 0 then 1 - x i else x i) v =
      meshWeight g.nV (d.conn (d.cells.getD el' 0)) (tensorWeight g.dim fun i j => if j = 0 then 1 - x' i else x' i) v) :
    fieldValue (setupGlobalBasis g o d).1 u (fun k => orientedVal g o ((setupGlobalBasis g o d).2.1 (el, k)) k x)
        (nNod g.dim o) el =
      fieldValue (setupGlobalBasis g o d).1 u (fun k => orientedVal g o ((setupGlobalBasis g o d).2.1 (el', k)) k x')
        (nNod g.dim o) el' := by
  show cellValue g o d u el x = cellValue g o d u el' x'
  obtain ⟨W, hW, hW'⟩ := exists_W M (fun e he => (edge_facts hg e he).1)
    (fun id (j : ℕ) => u (d.verts.length + (((o - 1 : ℕ) : ℤ) * prepareRemap d.edges id + (j : ℕ))))
  have e0 : ∀ p q, edgeFun (o - 1) (W p q) p q 0 = 0 := fun p q => edgeFun_zero _ _ _ _
  have e1 : ∀ p q, edgeFun (o - 1) (W p q) p q 1 = 0 := fun p q => edgeFun_one _ _ _ _
  rcases hg with rfl | rfl
  · have wt : ∀ (c : ℕ → ℕ) (x : ℕ → ℝ),
        meshWeight 4 c (tensorWeight 2 fun i j => if j = 0 then 1 - x i else x i) =
          wQ (c 0) (c 1) (c 2) (c 3) (x 0) (x 1) := by
      intro c x
      funext v
      simp [meshWeight, tensorWeight, sum_range_succ, prod_range_succ, vertexMap, wQ, w4, w1]
    have pt : ∀ y : ℕ → ℝ, ∀ k < gel24.dim, (fun i => if i = 0 then y 0 else y 1) k = y k := by
      intro y k hk
      have hk : k < 2 := hk
      interval_cases k <;> simp
    have val : ∀ el < d.cells.length, ∀ y : ℕ → ℝ, (∃ k < 2, y k = 0 ∨ y k = 1) → cellValue gel24 o d u el y = _ :=
      fun el hel y hy => quad_value ho.1 M u hel hW hW' y hy
    have hs : ∀ el < d.cells.length, ∀ a < 4, ∀ b < 4, a ≠ b → ∀ s,
        edgeFun (o - 1) (W (cellV d el b) (cellV d el a)) (cellV d el b) (cellV d el a) (1 - s) =
          edgeFun (o - 1) (W (cellV d el a) (cellV d el b)) (cellV d el a) (cellV d el b) s :=
      fun el hel a ha b hb hab s => edgeFun_pair hW (fun h => hab (M.inj _ (mem_cell hel) a ha b hb h)) s
    have key := continuous_quad M (fun el s t => cellValue gel24 o d u el fun i => if i = 0 then s else t)
      (fun el hel el' hel' i hi i' hi' e => by
        rw [cellValue_congr gel24 o u el (pt (vPt 2 i)), cellValue_congr gel24 o u el' (pt (vPt 2 i')),
          val el hel _ ⟨0, by decide, bd2_vPt hi⟩, val el' hel' _ ⟨0, by decide, bd2_vPt hi'⟩,
          quad_vert (fun a b => e0 _ _) (fun a b => e1 _ _) hi, quad_vert (fun a b => e0 _ _) (fun a b => e1 _ _) hi', e])
      (fun el hel el' hel' e he e' he' hp s s' hw => by
        obtain ⟨l1, n1, b1⟩ := gel24_edges e he
        obtain ⟨l2, n2, b2⟩ := gel24_edges e' he'
        rw [Ser.pair_map l1, Ser.pair_map l2] at hp
        have hn : ((gel24.edges.getD e []).map (cellV d el)).Nodup :=
          n1.map_on fun x hx y hy e => M.inj _ (mem_cell hel) x (b1 x hx) y (b1 y hy) e
        rw [Ser.pair_map l1] at hn
        rw [cellValue_congr gel24 o u el (pt (ePt 2 _ s)), cellValue_congr gel24 o u el' (pt (ePt 2 _ s')),
          val el hel _ (bd2_ePt he s), val el' hel' _ (bd2_ePt he' s'),
          quad_edge (fun a b => e0 _ _) (fun a b => e1 _ _) (hs el hel) he,
          quad_edge (fun a b => e0 _ _) (fun a b => e1 _ _) (hs el' hel') he']
        exact gE_pair (fun v => u (prepareRemap d.verts v)) hW (List.pairwise_pair.1 hn) hp hw)
      hel hel' (s := x 0) (t := x 1) (s' := x' 0) (t' := x' 1)
      (fun v => by
        have h1 := congrFun (wt (cellV d el) x) v
        have h2 := congrFun (wt (cellV d el') x') v
        rw [← h1, ← h2]
        exact hw v)
    rw [cellValue_congr gel24 o u el (pt x), cellValue_congr gel24 o u el' (pt x')] at key
    exact key
  · have wt : ∀ (c : ℕ → ℕ) (x : ℕ → ℝ),
        meshWeight 8 c (tensorWeight 3 fun i j => if j = 0 then 1 - x i else x i) = wH c (x 0) (x 1) (x 2) := by
      intro c x
      refine (hex_weight c (fun i j => if j = 0 then 1 - x i else x i) fun i hi => ?_).trans ?_
      · simp
      · simp
    have pt : ∀ y : ℕ → ℝ, ∀ k < gel38.dim, (fun i => if i = 0 then y 0 else if i = 1 then y 1 else y 2) k = y k := by
      intro y k hk
      have hk : k < 3 := hk
      interval_cases k <;> simp
    have val : ∀ el < d.cells.length, ∀ y : ℕ → ℝ, (∃ k < 3, y k = 0 ∨ y k = 1) → cellValue gel38 o d u el y = _ :=
      fun el hel y hy => hex_value ho.1 M u hel hW hW' y hy
    have hs : ∀ el < d.cells.length, ∀ a < 8, ∀ b < 8, a ≠ b → ∀ s,
        edgeFun (o - 1) (W (cellV d el b) (cellV d el a)) (cellV d el b) (cellV d el a) (1 - s) =
          edgeFun (o - 1) (W (cellV d el a) (cellV d el b)) (cellV d el a) (cellV d el b) s :=
      fun el hel a ha b hb hab s => edgeFun_pair hW (fun h => hab (M.inj _ (mem_cell hel) a ha b hb h)) s
    have key := continuous_hex M
      (fun el s t r => cellValue gel38 o d u el fun i => if i = 0 then s else if i = 1 then t else r)
      (fun el hel el' hel' i hi i' hi' e => by
        rw [cellValue_congr gel38 o u el (pt (vPt 3 i)), cellValue_congr gel38 o u el' (pt (vPt 3 i')),
          val el hel _ ⟨0, by decide, bd_vPt hi⟩, val el' hel' _ ⟨0, by decide, bd_vPt hi'⟩,
          hex_vert (fun a b => e0 _ _) (fun a b => e1 _ _) (fun f s => (faceFun_ends _ _ _ s).1)
            (fun f s => (faceFun_ends _ _ _ s).2.1) hi,
          hex_vert (fun a b => e0 _ _) (fun a b => e1 _ _) (fun f s => (faceFun_ends _ _ _ s).1)
            (fun f s => (faceFun_ends _ _ _ s).2.1) hi', e])
      (fun el hel el' hel' e he e' he' hp s s' hw => by
        obtain ⟨l1, n1, b1⟩ := gel38_edges e he
        obtain ⟨l2, n2, b2⟩ := gel38_edges e' he'
        rw [Ser.pair_map l1, Ser.pair_map l2] at hp
        have hn : ((gel38.edges.getD e []).map (cellV d el)).Nodup :=
          n1.map_on fun x hx y hy e => M.inj _ (mem_cell hel) x (b1 x hx) y (b1 y hy) e
        rw [Ser.pair_map l1] at hn
        rw [cellValue_congr gel38 o u el (pt (ePt 3 _ s)), cellValue_congr gel38 o u el' (pt (ePt 3 _ s')),
          val el hel _ (bd_ePt he s), val el' hel' _ (bd_ePt he' s'),
          hex_edge (fun a b => e0 _ _) (fun a b => e1 _ _) (fun f s => (faceFun_ends _ _ _ s).1)
            (fun f s => (faceFun_ends _ _ _ s).2.1) (fun f s => (faceFun_ends _ _ _ s).2.2.1)
            (fun f s => (faceFun_ends _ _ _ s).2.2.2) (hs el hel) he,
          hex_edge (fun a b => e0 _ _) (fun a b => e1 _ _) (fun f s => (faceFun_ends _ _ _ s).1)
            (fun f s => (faceFun_ends _ _ _ s).2.1) (fun f s => (faceFun_ends _ _ _ s).2.2.1)
            (fun f s => (faceFun_ends _ _ _ s).2.2.2) (hs el' hel') he']
        exact gE_pair (fun v => u (prepareRemap d.verts v)) hW (List.pairwise_pair.1 hn) hp hw)
      (fun el hel el' hel' f hf f' hf' hp s t s' t' hw => by
        obtain ⟨l1, n1, b1⟩ := gel38_faces f hf
        obtain ⟨l2, n2, b2⟩ := gel38_faces f' hf'
        have hn : ((gel38.faces.getD f []).map (cellV d el)).Nodup :=
          n1.map_on fun x hx y hy e => M.inj _ (mem_cell hel) x (b1 x hx) y (b1 y hy) e
        have hid := (M.face_eq _ (mem_cell hel) _ (mem_cell hel') f hf f' hf').2 hp
        have hq := M.quad _ (mem_cell hel) _ (mem_cell hel') f hf f' hf' hid _ _ _ _ (Ser.quad_map l1 (cellV d el))
        have hq' : (gel38.faces.getD f' []).map (cellV d el') ∈ _ := hq
        rw [Ser.quad_map l2] at hq'
        rw [Ser.quad_map l1] at hn
        rw [cellValue_congr gel38 o u el (pt (fPt 3 _ s t)), cellValue_congr gel38 o u el' (pt (fPt 3 _ s' t')),
          val el hel _ (bd_fPt hf s t), val el' hel' _ (bd_fPt hf' s' t'),
          hex_face (fun a b => e0 _ _) (fun a b => e1 _ _) (fun f s => (faceFun_ends _ _ _ s).1)
            (fun f s => (faceFun_ends _ _ _ s).2.1) (fun f s => (faceFun_ends _ _ _ s).2.2.1)
            (fun f s => (faceFun_ends _ _ _ s).2.2.2) hf,
          hex_face (fun a b => e0 _ _) (fun a b => e1 _ _) (fun f s => (faceFun_ends _ _ _ s).1)
            (fun f s => (faceFun_ends _ _ _ s).2.1) (fun f s => (faceFun_ends _ _ _ s).2.2.1)
            (fun f s => (faceFun_ends _ _ _ s).2.2.2) hf',
          Ser.quad_map l1, Ser.quad_map l2]
        have hfw : faceW o d u el' f' = faceW o d u el f := by
          funext j
          rw [faceW, faceW, hid]
        rw [hfw]
        exact gQ_around (fun v => u (prepareRemap d.verts v)) hW (faceW o d u el f) hn hq' hw)
      hel hel' (s := x 0) (t := x 1) (r := x 2) (s' := x' 0) (t' := x' 1) (r' := x' 2)
      (fun v => by
        have h1 := congrFun (wt (cellV d el) x) v
        have h2 := congrFun (wt (cellV d el') x') v
        rw [← h1, ← h2]
        exact hw v)
    rw [cellValue_congr gel38 o u el (pt x), cellValue_congr gel38 o u el' (pt x')] at key
    exact key

/-! ### The nodes -/

theorem mem_ik {o k : ℕ} : k ∈ ik o ↔ 2 ≤ k ∧ k ≤ o := by simp [ik]; omega

theorem mem_mesh2 {o : ℕ} {p : ℕ × ℕ} : p ∈ mesh2 o ↔ (2 ≤ p.1 ∧ p.1 ≤ o) ∧ 2 ≤ p.2 ∧ p.2 ≤ o := by
  obtain ⟨a, b⟩ := p
  simp only [mesh2, List.mem_flatMap, List.mem_map, mem_ik, Prod.mk.injEq]
  constructor
  · rintro ⟨x, hx, y, hy, rfl, rfl⟩; exact ⟨hx, hy⟩
  · rintro ⟨hx, hy⟩; exact ⟨a, hx, b, hy, rfl, rfl⟩

theorem nodes_length {g : Gel} (hg : IsEl g) {o : ℕ} (ho : 1 ≤ o) : (nodes g o).length = nNod g.dim o := by
  rw [nNod_eq hg ho, nodes, List.length_append, List.length_append, List.length_append, vertexNodes_length, edges_length,
    faces_length hg, bubble_length g o hg.dim]
  rfl

theorem mem_vertex {g : Gel} {o i : ℕ} (hi : i < g.nV) : (⟨(0, i), vertexMap g.dim i⟩ : Nod) ∈ nodes g o := by
  refine List.mem_append_left _ (List.mem_append_left _ (List.mem_append_left _ ?_))
  exact List.mem_map.2 ⟨i, List.mem_range.2 hi, rfl⟩

theorem mem_edge {g : Gel} {o e k : ℕ} (he : e < g.edges.length) (hk : 2 ≤ k ∧ k ≤ o) :
    ∃ n ∈ nodes g o, n.row = edgeRow g.dim (g.edges.getD e []) k := by
  refine ⟨⟨(1, e), edgeRow g.dim (g.edges.getD e []) k⟩,
    List.mem_append_left _ (List.mem_append_left _ (List.mem_append_right _ ?_)), rfl⟩
  exact List.mem_flatMap.2 ⟨e, List.mem_range.2 he, List.mem_map.2 ⟨k, mem_ik.2 hk, rfl⟩⟩

theorem mem_face {g : Gel} {o f a b : ℕ} (hf : f < g.faces.length) (ha : 2 ≤ a ∧ a ≤ o) (hb : 2 ≤ b ∧ b ≤ o) :
    ∃ n ∈ nodes g o, n.row = faceRow g.dim (g.faces.getD f []) a b := by
  refine ⟨⟨(2, f), faceRow g.dim (g.faces.getD f []) a b⟩, List.mem_append_left _ (List.mem_append_right _ ?_), rfl⟩
  exact List.mem_flatMap.2 ⟨f, List.mem_range.2 hf, List.mem_map.2 ⟨(a, b), mem_mesh2.2 ⟨ha, hb⟩, rfl⟩⟩

theorem mem_bubble2 {o a b : ℕ} (ha : 2 ≤ a ∧ a ≤ o) (hb : 2 ≤ b ∧ b ≤ o) :
    ∃ n ∈ nodes gel24 o, n.row 0 = a ∧ n.row 1 = b := by
  refine ⟨⟨(3, 0), fun d => if d = 0 then a else if d = 1 then b else 0⟩, List.mem_append_right _ ?_, rfl, rfl⟩
  rw [bubbleNodes, if_pos (by decide)]
  exact List.mem_map.2 ⟨(a, b), mem_mesh2.2 ⟨ha, hb⟩, rfl⟩

theorem mem_bubble3 {o a b c : ℕ} (ha : 2 ≤ a ∧ a ≤ o) (hb : 2 ≤ b ∧ b ≤ o) (hc : 2 ≤ c ∧ c ≤ o) :
    ∃ n ∈ nodes gel38 o, n.row 0 = a ∧ n.row 1 = b ∧ n.row 2 = c := by
  refine ⟨⟨(3, 0), fun d => if d = 0 then a else if d = 1 then b else if d = 2 then c else 0⟩,
    List.mem_append_right _ ?_, rfl, rfl, rfl⟩
  rw [bubbleNodes, if_neg (by decide)]
  exact List.mem_flatMap.2 ⟨a, mem_ik.2 ha, List.mem_map.2 ⟨(b, c), mem_mesh2.2 ⟨hb, hc⟩, rfl⟩⟩

theorem exists_node2 {o a b : ℕ} (ha : a ≤ o) (hb : b ≤ o) : ∃ n ∈ nodes gel24 o, n.row 0 = a ∧ n.row 1 = b := by
  have v : ∀ i < 4, ∃ n ∈ nodes gel24 o, n.row 0 = vertexMap 2 i 0 ∧ n.row 1 = vertexMap 2 i 1 := fun i hi =>
    ⟨_, mem_vertex (g := gel24) hi, rfl, rfl⟩
  have e : ∀ e < 4, ∀ k, 2 ≤ k ∧ k ≤ o → ∃ n ∈ nodes gel24 o, n.row 0 = edgeRow 2 (gel24.edges.getD e []) k 0 ∧
      n.row 1 = edgeRow 2 (gel24.edges.getD e []) k 1 := fun e he k hk => by
    obtain ⟨n, h1, h2⟩ := mem_edge (g := gel24) (o := o) he hk
    exact ⟨n, h1, by rw [h2]; rfl, by rw [h2]; rfl⟩
  rcases Nat.lt_or_ge a 2 with h1 | h1 <;> rcases Nat.lt_or_ge b 2 with h2 | h2
  · interval_cases a <;> interval_cases b
    · exact v 0 (by decide)
    · exact v 3 (by decide)
    · exact v 1 (by decide)
    · exact v 2 (by decide)
  · interval_cases a
    · exact e 3 (by decide) b ⟨h2, hb⟩
    · exact e 1 (by decide) b ⟨h2, hb⟩
  · interval_cases b
    · exact e 0 (by decide) a ⟨h1, ha⟩
    · exact e 2 (by decide) a ⟨h1, ha⟩
  · exact mem_bubble2 ⟨h1, ha⟩ ⟨h2, hb⟩

theorem exists_node3 {o a b c : ℕ} (ha : a ≤ o) (hb : b ≤ o) (hc : c ≤ o) :
    ∃ n ∈ nodes gel38 o, n.row 0 = a ∧ n.row 1 = b ∧ n.row 2 = c := by
  have v : ∀ i < 8, ∃ n ∈ nodes gel38 o, n.row 0 = vertexMap 3 i 0 ∧ n.row 1 = vertexMap 3 i 1 ∧ n.row 2 = vertexMap 3 i 2 :=
    fun i hi => ⟨_, mem_vertex (g := gel38) hi, rfl, rfl, rfl⟩
  have e : ∀ e < 12, ∀ k, 2 ≤ k ∧ k ≤ o → ∃ n ∈ nodes gel38 o, n.row 0 = edgeRow 3 (gel38.edges.getD e []) k 0 ∧
      n.row 1 = edgeRow 3 (gel38.edges.getD e []) k 1 ∧ n.row 2 = edgeRow 3 (gel38.edges.getD e []) k 2 := fun e he k hk => by
    obtain ⟨n, h1, h2⟩ := mem_edge (g := gel38) (o := o) he hk
    exact ⟨n, h1, by rw [h2]; rfl, by rw [h2]; rfl, by rw [h2]; rfl⟩
  have f : ∀ f < 6, ∀ p q, 2 ≤ p ∧ p ≤ o → 2 ≤ q ∧ q ≤ o → ∃ n ∈ nodes gel38 o,
      n.row 0 = faceRow 3 (gel38.faces.getD f []) p q 0 ∧
      n.row 1 = faceRow 3 (gel38.faces.getD f []) p q 1 ∧ n.row 2 = faceRow 3 (gel38.faces.getD f []) p q 2 :=
    fun f hf p q hp hq => by
      obtain ⟨n, h1, h2⟩ := mem_face (g := gel38) (o := o) hf hp hq
      exact ⟨n, h1, by rw [h2]; rfl, by rw [h2]; rfl, by rw [h2]; rfl⟩
  rcases Nat.lt_or_ge a 2 with h1 | h1 <;> rcases Nat.lt_or_ge b 2 with h2 | h2 <;> rcases Nat.lt_or_ge c 2 with h3 | h3
  · interval_cases a <;> interval_cases b <;> interval_cases c
    · exact v 0 (by decide)
    · exact v 4 (by decide)
    · exact v 3 (by decide)
    · exact v 7 (by decide)
    · exact v 1 (by decide)
    · exact v 5 (by decide)
    · exact v 2 (by decide)
    · exact v 6 (by decide)
  · interval_cases a <;> interval_cases b
    · exact e 8 (by decide) c ⟨h3, hc⟩
    · exact e 11 (by decide) c ⟨h3, hc⟩
    · exact e 9 (by decide) c ⟨h3, hc⟩
    · exact e 10 (by decide) c ⟨h3, hc⟩
  · interval_cases a <;> interval_cases c
    · exact e 3 (by decide) b ⟨h2, hb⟩
    · exact e 7 (by decide) b ⟨h2, hb⟩
    · exact e 1 (by decide) b ⟨h2, hb⟩
    · exact e 5 (by decide) b ⟨h2, hb⟩
  · interval_cases a
    · exact f 1 (by decide) c b ⟨h3, hc⟩ ⟨h2, hb⟩
    · exact f 4 (by decide) b c ⟨h2, hb⟩ ⟨h3, hc⟩
  · interval_cases b <;> interval_cases c
    · exact e 0 (by decide) a ⟨h1, ha⟩
    · exact e 4 (by decide) a ⟨h1, ha⟩
    · exact e 2 (by decide) a ⟨h1, ha⟩
    · exact e 6 (by decide) a ⟨h1, ha⟩
  · interval_cases b
    · exact f 2 (by decide) a c ⟨h1, ha⟩ ⟨h3, hc⟩
    · exact f 5 (by decide) c a ⟨h3, hc⟩ ⟨h1, ha⟩
  · interval_cases c
    · exact f 0 (by decide) b a ⟨h2, hb⟩ ⟨h1, ha⟩
    · exact f 3 (by decide) a b ⟨h1, ha⟩ ⟨h2, hb⟩
  · exact mem_bubble3 ⟨h1, ha⟩ ⟨h2, hb⟩ ⟨h3, hc⟩

theorem exists_row {g : Gel} (hg : IsEl g) {o : ℕ} (ho : 1 ≤ o) (m : ℕ → ℕ) (hm : ∀ d < g.dim, m d ≤ o) :
    ∃ k < nNod g.dim o, ∀ d < g.dim, rowAt (nodes g o) k d = m d := by
  have key : ∃ n ∈ nodes g o, ∀ d < g.dim, n.row d = m d := by
    rcases hg with rfl | rfl
    · obtain ⟨n, h, h1, h2⟩ := exists_node2 (hm 0 (by decide)) (hm 1 (by decide))
      refine ⟨n, h, fun d hd => ?_⟩
      have hd : d < 2 := hd
      interval_cases d <;> assumption
    · obtain ⟨n, h, h1, h2, h3⟩ := exists_node3 (hm 0 (by decide)) (hm 1 (by decide)) (hm 2 (by decide))
      refine ⟨n, h, fun d hd => ?_⟩
      have hd : d < 3 := hd
      interval_cases d <;> assumption
  obtain ⟨n, hn, h⟩ := key
  obtain ⟨k, hk, e⟩ := List.getElem_of_mem hn
  refine ⟨k, by rw [← nodes_length hg ho]; exact hk, fun d hd => ?_⟩
  rw [rowAt_of (List.getElem?_eq_getElem hk), e, h d hd]

theorem node_bij {g : Gel} (hg : IsEl g) {o : ℕ} (ho : 1 ≤ o) :
    Function.Bijective (fun (k : Fin (nNod g.dim o)) (d : Fin g.dim) => Fin.ofNat (o + 1) (rowAt (nodes g o) k d)) := by
  rw [Fintype.bijective_iff_surjective_and_card]
  constructor
  · intro m
    obtain ⟨k, hk, h⟩ := exists_row hg ho (fun d => if hd : d < g.dim then (m ⟨d, hd⟩ : ℕ) else 0) (fun d hd => by
      rw [dif_pos hd]; have := (m ⟨d, hd⟩).isLt; omega)
    refine ⟨⟨k, hk⟩, ?_⟩
    funext d
    simp only
    rw [h d d.isLt, dif_pos d.isLt]
    ext
    simp [Fin.ofNat]
    have := (m d).isLt
    omega
  · rw [Fintype.card_fin, Fintype.card_fun, Fintype.card_fin, Fintype.card_fin, nNod]

/-- **C102**: the nodes of the element are the multi-indices with the items up to the order, each of them once. -/
theorem C102_lobatto_nodes (g : Gel) (hg : g = gel24 ∨ g = gel38) (o : ℕ) (ho : 1 ≤ o) :
    (nodes g o).length = (o + 1) ^ g.dim ∧ (∀ k < (o + 1) ^ g.dim, ∀ d < g.dim, rowAt (nodes g o) k d ≤ o) ∧
    ∀ m : ℕ → ℕ, (∀ d < g.dim, m d ≤ o) → ∃! k, k < (o + 1) ^ g.dim ∧ ∀ d < g.dim, rowAt (nodes g o) k d = m d := by
  have B := node_bij hg ho
  have inj : ∀ k < nNod g.dim o, ∀ k' < nNod g.dim o,
      (∀ d < g.dim, rowAt (nodes g o) k d % (o + 1) = rowAt (nodes g o) k' d % (o + 1)) → k = k' := by
    intro k hk k' hk' h
    have := @B.1 ⟨k, hk⟩ ⟨k', hk'⟩ (by
      funext d
      ext
      exact h d d.isLt)
    simpa using this
  refine ⟨nodes_length hg ho, ?_, ?_⟩
  · -- the node of the remainders of the row is the node itself
    intro k hk d hd
    obtain ⟨k', hk', h⟩ := exists_row hg ho (fun d => rowAt (nodes g o) k d % (o + 1)) (fun d _ => by
      have := Nat.mod_lt (rowAt (nodes g o) k d) (show 0 < o + 1 by omega); omega)
    have e : k = k' := inj k hk k' hk' fun d hd => by rw [h d hd, Nat.mod_mod]
    subst e
    rw [h d hd]
    have := Nat.mod_lt (rowAt (nodes g o) k d) (show 0 < o + 1 by omega)
    omega
  · intro m hm
    obtain ⟨k, hk, h⟩ := exists_row hg ho m hm
    refine ⟨k, ⟨hk, h⟩, fun k' h' => ?_⟩
    exact inj k' h'.1 k hk fun d hd => by rw [h d hd, h'.2 d hd]

/-- **C102**: the functions of the element of an order up to ten span the polynomials of the degrees up to the order in
each coordinate. -/
theorem C102_lobatto_reproduces (g : Gel) (hg : g = gel24 ∨ g = gel38) (o : ℕ) (ho : 1 ≤ o ∧ o ≤ 10) (n : ℕ → ℕ)
    (hn : ∀ d < g.dim, n d ≤ o) : ∃ a : ℕ → ℝ, ∀ x : ℕ → ℝ,
      ∏ d ∈ range g.dim, x d ^ n d = ∑ k ∈ range (nNod g.dim o), a k * evalTP g.dim (rowAt (nodes g o) k) 0 1 x := by
  have one : ∀ m ≤ o, ∃ a : ℕ → ℝ, ∀ x : ℝ, x ^ m = ∑ k ∈ range (o + 1), a k * ell k x := by
    intro m hm
    obtain ⟨a, ha⟩ := C101_lobatto_complete o ho ((Polynomial.C (1 / 2 : ℝ) * (1 + Polynomial.X)) ^ m) (by
      refine (Polynomial.natDegree_pow_le).trans ?_
      have : (Polynomial.C (1 / 2 : ℝ) * (1 + Polynomial.X)).natDegree ≤ 1 := by
        refine (Polynomial.natDegree_C_mul_le _ _).trans ?_
        refine (Polynomial.natDegree_add_le _ _).trans ?_
        simp
      calc m * _ ≤ m * 1 := Nat.mul_le_mul_left _ this
        _ ≤ o := by omega)
    refine ⟨a, fun x => ?_⟩
    have := ha (xi 0 1 x)
    rw [xi01] at this
    simp only [Polynomial.eval_pow, Polynomial.eval_mul, Polynomial.eval_C, Polynomial.eval_add, Polynomial.eval_one,
      Polynomial.eval_X] at this
    rw [show (1 / 2 : ℝ) * (1 + (2 * x - 1)) = x by ring] at this
    rw [this]
    exact sum_congr rfl fun k _ => by rw [ell, xi01]
  choose! A hA using one
  have B := node_bij hg ho.1
  have bd := (C102_lobatto_nodes g hg o ho.1).2.1
  refine ⟨fun k => ∏ d ∈ range g.dim, A (n d) (rowAt (nodes g o) k d), fun x => ?_⟩
  calc ∏ d ∈ range g.dim, x d ^ n d = ∏ d : Fin g.dim, ∑ k : Fin (o + 1), A (n d) k * ell k (x d) := by
        rw [← Fin.prod_univ_eq_prod_range (fun d => x d ^ n d)]
        refine prod_congr rfl fun d _ => ?_
        rw [hA (n d) (hn d d.isLt), ← Fin.sum_univ_eq_sum_range (fun k => A (n d) k * ell k (x d))]
    _ = ∑ p : Fin g.dim → Fin (o + 1), ∏ d : Fin g.dim, A (n d) (p d) * ell (p d) (x d) := by
        rw [prod_univ_sum]
        simp
    _ = ∑ k : Fin (nNod g.dim o), ∏ d : Fin g.dim, A (n d) (rowAt (nodes g o) k d) * ell (rowAt (nodes g o) k d) (x d) := by
        rw [← B.sum_comp]
        refine sum_congr rfl fun k _ => prod_congr rfl fun d _ => ?_
        have : ((Fin.ofNat (o + 1) (rowAt (nodes g o) k d) : Fin (o + 1)) : ℕ) = rowAt (nodes g o) k d :=
          Nat.mod_eq_of_lt (by have := bd k k.isLt d d.isLt; omega)
        rw [this]
    _ = _ := by
        rw [← Fin.sum_univ_eq_sum_range (fun k => (∏ d ∈ range g.dim, A (n d) (rowAt (nodes g o) k d)) *
          evalTP g.dim (rowAt (nodes g o) k) 0 1 x)]
        refine sum_congr rfl fun k _ => ?_
        rw [evalTP01, ← prod_mul_distrib, ← Fin.prod_univ_eq_prod_range
          (fun d => A (n d) (rowAt (nodes g o) k d) * ell (rowAt (nodes g o) k d) (x d))]

/-! ### The numbering -/

/-- The nodes of a cell: the vertices, the nodes of the edges, of the faces and the bubble nodes. -/
inductive Ent
  | vert (i : ℕ)
  | edge (e j : ℕ)
  | face (f j : ℕ)
  | bubble (j : ℕ)

/-- The items are in the ranges. -/
def Ent.Ok (g : Gel) (o : ℕ) : Ent → Prop
  | vert i => i < g.nV
  | edge e j => e < g.edges.length ∧ j < o - 1
  | face f j => f < g.faces.length ∧ j < (o - 1) ^ 2
  | bubble j => j < (o - 1) ^ g.dim

/-- The number of the node in the cell. -/
def Ent.node (g : Gel) (o : ℕ) : Ent → ℕ
  | vert i => i
  | edge e j => g.nV + e * (o - 1) + j
  | face f j => g.nV + g.edges.length * (o - 1) + f * (o - 1) ^ 2 + j
  | bubble j => g.nV + g.edges.length * (o - 1) + g.faces.length * (o - 1) ^ 2 + j

/-- The same function seen from two cells: the same vertex; the same function of the same edge or face, that is of the
same set of vertices; the same bubble function of the same cell. -/
def Ent.Same (g : Gel) (d : FieldData) (el el' : ℕ) : Ent → Ent → Prop
  | vert i, vert i' => d.conn (d.cells.getD el 0) i = d.conn (d.cells.getD el' 0) i'
  | edge e j, edge e' j' => j = j' ∧
      ((g.edges.getD e []).map (d.conn (d.cells.getD el 0))).Perm ((g.edges.getD e' []).map (d.conn (d.cells.getD el' 0)))
  | face f j, face f' j' => j = j' ∧
      ((g.faces.getD f []).map (d.conn (d.cells.getD el 0))).Perm ((g.faces.getD f' []).map (d.conn (d.cells.getD el' 0)))
  | bubble j, bubble j' => j = j' ∧ el = el'
  | _, _ => False

theorem block_eq {n : ℕ} {a b : ℤ} {j j' : ℕ} (hj : j < n) (hj' : j' < n) :
    (n : ℤ) * a + j = n * b + j' ↔ j = j' ∧ a = b := by
  constructor
  · intro h
    have hab : a = b := by
      rcases lt_trichotomy a b with h1 | h1 | h1
      · exfalso
        have : (n : ℤ) * (a + 1) ≤ n * b := mul_le_mul_of_nonneg_left (by omega) (by omega)
        rw [mul_add] at this; omega
      · exact h1
      · exfalso
        have : (n : ℤ) * (b + 1) ≤ n * a := mul_le_mul_of_nonneg_left (by omega) (by omega)
        rw [mul_add] at this; omega
    subst hab
    exact ⟨by omega, rfl⟩
  · rintro ⟨rfl, rfl⟩; rfl

theorem block_bound {n j m : ℕ} {a : ℤ} (h0 : 0 ≤ a) (h1 : a < m) (hj : j < n) :
    0 ≤ (n : ℤ) * a + j ∧ (n : ℤ) * a + j < n * m := by
  have h2 : (n : ℤ) * (a + 1) ≤ n * m := mul_le_mul_of_nonneg_left (by omega) (by omega)
  have h3 : 0 ≤ (n : ℤ) * a := mul_nonneg (by omega) h0
  rw [mul_add] at h2
  exact ⟨by omega, by omega⟩

/-- **C103**: the DOFs of a hierarchical field: two nodes of two cells have the same DOF if and only if they are the same
function; the numbers of the DOFs are less than their count, which is the sum over the vertices, edges, faces and
cells. -/
theorem C103_lobatto_numbering (g : Gel) (hg : g = gel24 ∨ g = gel38) (o : ℕ) (d : FieldData) (M : MeshOk g d) :
    (setupGlobalBasis g o d).2.2 = d.verts.length + ((o - 1 : ℕ) : ℤ) * d.edges.length +
      (if g.dim = 2 then 0 else ((o - 1 : ℕ) : ℤ) ^ 2 * d.faces.length) + ((o - 1 : ℕ) : ℤ) ^ g.dim * d.cells.length ∧
    (∀ el < d.cells.length, ∀ n : Ent, n.Ok g o → 0 ≤ (setupGlobalBasis g o d).1 (el, n.node g o) ∧
      (setupGlobalBasis g o d).1 (el, n.node g o) < (setupGlobalBasis g o d).2.2) ∧
    ∀ el < d.cells.length, ∀ el' < d.cells.length, ∀ n n' : Ent, n.Ok g o → n'.Ok g o →
      ((setupGlobalBasis g o d).1 (el, n.node g o) = (setupGlobalBasis g o d).1 (el', n'.node g o) ↔ n.Same g d el el' n') := by
  have C := closed hg o d
  have hnf : 0 < g.faces.length → nf g o = (o - 1) ^ 2 := fun h => by
    rcases hg with rfl | rfl
    · exact absurd h (by decide)
    · rw [nf, if_neg (by decide)]
  have hnf' : g.faces.length * (o - 1) ^ 2 = g.faces.length * nf g o := by
    rcases Nat.eq_zero_or_pos g.faces.length with h | h
    · rw [h, Nat.zero_mul, Nat.zero_mul]
    · rw [hnf h]
  -- the DOFs of the kinds
  have V : ∀ el < d.cells.length, ∀ i, (Ent.vert i).Ok g o → ∃ a : ℤ, (setupGlobalBasis g o d).1 (el, (Ent.vert i).node g o) = a ∧
      a = prepareRemap d.verts (d.conn (d.cells.getD el 0) i) ∧ 0 ≤ a ∧ a < d.verts.length := fun el hel i hi =>
    ⟨_, C.vert el i hel hi, rfl, prepareRemap_mem M.verts_nodup (M.verts _ (mem_cell hel) i hi)⟩
  have E : ∀ el < d.cells.length, ∀ e j, (Ent.edge e j).Ok g o → ∃ a : ℤ,
      (setupGlobalBasis g o d).1 (el, (Ent.edge e j).node g o) = d.verts.length + a ∧
      a = ((o - 1 : ℕ) : ℤ) * prepareRemap d.edges (d.edgeId (d.cells.getD el 0) e) + j ∧ 0 ≤ a ∧
      a < ((o - 1 : ℕ) : ℤ) * d.edges.length := fun el hel e j h => by
    obtain ⟨b1, b2⟩ := prepareRemap_mem M.edges_nodup (M.edges _ (mem_cell hel) e h.1)
    exact ⟨_, C.edge el e j hel h.1 h.2, rfl, block_bound b1 b2 h.2⟩
  have F : ∀ el < d.cells.length, ∀ f j, (Ent.face f j).Ok g o → ∃ a : ℤ,
      (setupGlobalBasis g o d).1 (el, (Ent.face f j).node g o) = d.verts.length + ((o - 1 : ℕ) : ℤ) * d.edges.length + a ∧
      a = (((o - 1) ^ 2 : ℕ) : ℤ) * prepareRemap d.faces (d.faceId (d.cells.getD el 0) f) + j ∧ 0 ≤ a ∧
      a < (nf g o : ℤ) * d.faces.length := fun el hel f j h => by
    obtain ⟨b1, b2⟩ := prepareRemap_mem M.faces_nodup (M.faces _ (mem_cell hel) f h.1)
    have hn := hnf (by have := h.1; omega)
    have c := C.face el f j hel h.1 (by rw [hn]; exact h.2)
    rw [hn] at c ⊢
    exact ⟨_, c, rfl, block_bound b1 b2 h.2⟩
  have Bu : ∀ el < d.cells.length, ∀ j, (Ent.bubble j).Ok g o → ∃ a : ℤ,
      (setupGlobalBasis g o d).1 (el, (Ent.bubble j).node g o) =
        d.verts.length + ((o - 1 : ℕ) : ℤ) * d.edges.length + (nf g o : ℤ) * d.faces.length + a ∧
      a = (nb g o : ℤ) * (el : ℤ) + j ∧ 0 ≤ a ∧ a < (nb g o : ℤ) * d.cells.length := fun el hel j h => by
    have c := C.bubble el j hel h
    rw [← hnf'] at c
    refine ⟨((nb g o * el + j : ℕ) : ℤ), c, by push_cast; ring, ?_⟩
    push_cast
    exact block_bound (by omega) (by exact_mod_cast hel) h
  have num := C.num
  refine ⟨?_, ?_, ?_⟩
  · rw [num]
    rcases hg with rfl | rfl
    · simp [nf, nb, gel24]
    · simp [nf, nb, gel38]
  · have p1 : 0 ≤ ((o - 1 : ℕ) : ℤ) * d.edges.length := by positivity
    have p2 : 0 ≤ (nf g o : ℤ) * d.faces.length := by positivity
    have p3 : 0 ≤ (nb g o : ℤ) * d.cells.length := by positivity
    intro el hel n hn
    rcases n with i | ⟨e, j⟩ | ⟨f, j⟩ | j
    · obtain ⟨a, h1, -, h3, h4⟩ := V el hel i hn
      rw [h1, num]; omega
    · obtain ⟨a, h1, -, h3, h4⟩ := E el hel e j hn
      rw [h1, num]; omega
    · obtain ⟨a, h1, -, h3, h4⟩ := F el hel f j hn
      rw [h1, num]; omega
    · obtain ⟨a, h1, -, h3, h4⟩ := Bu el hel j hn
      rw [h1, num]; omega
  · have p1 : 0 ≤ ((o - 1 : ℕ) : ℤ) * d.edges.length := by positivity
    have p2 : 0 ≤ (nf g o : ℤ) * d.faces.length := by positivity
    intro el hel el' hel' n n' hn hn'
    rcases n with i | ⟨e, j⟩ | ⟨f, j⟩ | j
    · obtain ⟨a, h1, h2, h3, h4⟩ := V el hel i hn
      rcases n' with i' | ⟨e', j'⟩ | ⟨f', j'⟩ | j'
      · obtain ⟨a', g1, g2, g3, g4⟩ := V el' hel' i' hn'
        rw [h1, g1, h2, g2]
        exact prepareRemap_inj M.verts_nodup (M.verts _ (mem_cell hel) i hn) (M.verts _ (mem_cell hel') i' hn')
      · obtain ⟨a', g1, g2, g3, g4⟩ := E el' hel' e' j' hn'
        rw [h1, g1]; exact iff_of_false (by omega) id
      · obtain ⟨a', g1, g2, g3, g4⟩ := F el' hel' f' j' hn'
        rw [h1, g1]; exact iff_of_false (by omega) id
      · obtain ⟨a', g1, g2, g3, g4⟩ := Bu el' hel' j' hn'
        rw [h1, g1]; exact iff_of_false (by omega) id
    · obtain ⟨a, h1, h2, h3, h4⟩ := E el hel e j hn
      rcases n' with i' | ⟨e', j'⟩ | ⟨f', j'⟩ | j'
      · obtain ⟨a', g1, g2, g3, g4⟩ := V el' hel' i' hn'
        rw [h1, g1]; exact iff_of_false (by omega) id
      · obtain ⟨a', g1, g2, g3, g4⟩ := E el' hel' e' j' hn'
        rw [h1, g1, add_right_inj, h2, g2, block_eq hn.2 hn'.2,
          prepareRemap_inj M.edges_nodup (M.edges _ (mem_cell hel) e hn.1) (M.edges _ (mem_cell hel') e' hn'.1),
          M.edge_eq _ (mem_cell hel) _ (mem_cell hel') e hn.1 e' hn'.1]
        exact Iff.rfl
      · obtain ⟨a', g1, g2, g3, g4⟩ := F el' hel' f' j' hn'
        rw [h1, g1]; exact iff_of_false (by omega) id
      · obtain ⟨a', g1, g2, g3, g4⟩ := Bu el' hel' j' hn'
        rw [h1, g1]; exact iff_of_false (by omega) id
    · obtain ⟨a, h1, h2, h3, h4⟩ := F el hel f j hn
      rcases n' with i' | ⟨e', j'⟩ | ⟨f', j'⟩ | j'
      · obtain ⟨a', g1, g2, g3, g4⟩ := V el' hel' i' hn'
        rw [h1, g1]; exact iff_of_false (by omega) id
      · obtain ⟨a', g1, g2, g3, g4⟩ := E el' hel' e' j' hn'
        rw [h1, g1]; exact iff_of_false (by omega) id
      · obtain ⟨a', g1, g2, g3, g4⟩ := F el' hel' f' j' hn'
        rw [h1, g1, add_right_inj, h2, g2, block_eq hn.2 hn'.2,
          prepareRemap_inj M.faces_nodup (M.faces _ (mem_cell hel) f hn.1) (M.faces _ (mem_cell hel') f' hn'.1),
          M.face_eq _ (mem_cell hel) _ (mem_cell hel') f hn.1 f' hn'.1]
        exact Iff.rfl
      · obtain ⟨a', g1, g2, g3, g4⟩ := Bu el' hel' j' hn'
        rw [h1, g1]; exact iff_of_false (by omega) id
    · obtain ⟨a, h1, h2, h3, h4⟩ := Bu el hel j hn
      rcases n' with i' | ⟨e', j'⟩ | ⟨f', j'⟩ | j'
      · obtain ⟨a', g1, g2, g3, g4⟩ := V el' hel' i' hn'
        rw [h1, g1]; exact iff_of_false (by omega) id
      · obtain ⟨a', g1, g2, g3, g4⟩ := E el' hel' e' j' hn'
        rw [h1, g1]; exact iff_of_false (by omega) id
      · obtain ⟨a', g1, g2, g3, g4⟩ := F el' hel' f' j' hn'
        rw [h1, g1]; exact iff_of_false (by omega) id
      · obtain ⟨a', g1, g2, g3, g4⟩ := Bu el' hel' j' hn'
        rw [h1, g1, add_right_inj, h2, g2, block_eq (show j < nb g o from hn) hn', Nat.cast_inj]
        exact Iff.rfl

end Verif.Poly.Lob
