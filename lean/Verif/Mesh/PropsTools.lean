/-
C70: selections of cells, removing of unused vertices, merging of nodes.
-/
import Mathlib.Data.List.Sort
import Mathlib.Logic.Relation
import Verif.Mesh.PropsMerge
import Verif.Mesh.PropsTile
import Verif.Mesh.Tools

namespace Verif.Mesh

section

variable {V : Type} [Zero V]

/-- Cells of all the kinds with their groups. -/
def Block.cells (b : Block) : List (List ℕ × ℕ) := b.conn.zip b.mats

/-- Cells are rows of `nv` valid vertices, with groups. -/
structure MeshOk (m : KMesh V) : Prop where
  vg : m.vgroups.length = m.coors.length
  mats : ∀ b ∈ m.blocks, b.mats.length = b.conn.length
  rows : ∀ b ∈ m.blocks, ∀ row ∈ b.conn, row.length = b.nv ∧ ∀ v ∈ row, v < m.coors.length

/-- The vertices are renumbered by `N`. -/
def Block.renumber (N : ℕ → ℕ) (b : Block) : Block := { b with conn := b.conn.map fun row => row.map N }

theorem mem_uniqueNat {l : List ℕ} {v : ℕ} : v ∈ uniqueNat l ↔ v ∈ l := by
  unfold uniqueNat
  rw [List.mem_filter, List.mem_range, decide_eq_true_eq]
  exact ⟨fun h => h.2, fun h => ⟨Nat.lt_succ_of_le (le_foldr_max h), h⟩⟩

theorem uniqueNat_sorted (l : List ℕ) : (uniqueNat l).Pairwise (· < ·) :=
  List.Pairwise.filter _ List.pairwise_lt_range

theorem idxOf_lt_of_sorted {l : List ℕ} (h : l.Pairwise (· < ·)) {v w : ℕ} (hv : v ∈ l) (hw : w ∈ l) (hvw : v < w) :
    l.idxOf v < l.idxOf w := by
  have h1 := List.idxOf_lt_length_iff.2 hv
  have h2 := List.idxOf_lt_length_iff.2 hw
  by_contra hn
  rcases Nat.lt_or_ge (l.idxOf w) (l.idxOf v) with hlt | hge
  · have := List.pairwise_iff_getElem.1 h _ _ h2 h1 hlt
    rw [List.getElem_idxOf, List.getElem_idxOf] at this
    omega
  · have e : l.idxOf v = l.idxOf w := by omega
    have := (List.idxOf_inj hv).1 e
    omega

theorem mem_usedVertices {bs : List Block} {v : ℕ} :
    v ∈ usedVertices bs ↔ ∃ b ∈ bs, ∃ row ∈ b.conn, v ∈ row := by
  simp [usedVertices, List.mem_flatMap, List.mem_flatten]

/-- A selection of nodes: `N` are the new numbers of the nodes that meet `P`. -/
structure Restricts (m r : KMesh V) (P : ℕ → Prop) (N : ℕ → ℕ) : Prop where
  node : ∀ v < m.coors.length, P v → r.coors[N v]? = m.coors[v]? ∧ r.vgroups[N v]? = m.vgroups[v]?
  mono : ∀ v < m.coors.length, ∀ w < m.coors.length, P v → P w → v < w → N v < N w
  onto : ∀ k < r.coors.length, ∃ v < m.coors.length, P v ∧ N v = k

/-- **Unused vertices are removed**: the others keep coordinates, groups and order, the cells are the
same. -/
theorem C70_cell_vertices_only {m : KMesh V} (h : MeshOk m) :
    ∃ N, Restricts m (cellVerticesOnly m) (fun v => ∃ b ∈ m.blocks, ∃ row ∈ b.conn, v ∈ row) N ∧
      (cellVerticesOnly m).blocks = m.blocks.map (Block.renumber N) := by
  refine ⟨fun v => (uniqueNat (usedVertices m.blocks)).idxOf v, ⟨?_, ?_, ?_⟩, rfl⟩
  · intro v hv hP
    have hm : v ∈ uniqueNat (usedVertices m.blocks) := mem_uniqueNat.2 (mem_usedVertices.2 hP)
    have hl := List.idxOf_lt_length_iff.2 hm
    have hv' : v < m.vgroups.length := by rw [h.vg]; exact hv
    simp only [cellVerticesOnly, List.getElem?_map, List.getElem?_eq_getElem hl, List.getElem_idxOf,
      Option.map_some, List.getD_eq_getElem?_getD, List.getElem?_eq_getElem hv, List.getElem?_eq_getElem hv',
      Option.getD_some, and_self]
  · intro v hv w hw hP hQ hlt
    exact idxOf_lt_of_sorted (uniqueNat_sorted _) (mem_uniqueNat.2 (mem_usedVertices.2 hP))
      (mem_uniqueNat.2 (mem_usedVertices.2 hQ)) hlt
  · intro k hk
    simp only [cellVerticesOnly, List.length_map] at hk
    have hm := List.getElem_mem hk
    have hP := mem_usedVertices.1 (mem_uniqueNat.1 hm)
    obtain ⟨b, hb, row, hr, hv⟩ := hP
    refine ⟨_, (h.rows b hb row hr).2 _ hv, ⟨b, hb, row, hr, hv⟩, ?_⟩
    exact List.Nodup.idxOf_getElem ((uniqueNat_sorted _).imp ne_of_lt) _ _

/-! ### Groups -/

/-- The meaning of the argument `value`. -/
def Selected : GroupValue → ℕ → Prop
  | .one v, g => g = v
  | .many vs, g => g ∈ vs
  | .range a b, g => a ≤ g ∧ g ≤ b

theorem sel_iff (value : GroupValue) (g : ℕ) : value.sel g = true ↔ Selected value g := by
  cases value <;> simp [GroupValue.sel, Selected]

theorem byMask_map {A B : Type} (a : List A) (b : List B) (f : B → Bool) (h : a.length = b.length) :
    byMask a (b.map f) = ((a.zip b).filter fun p => f p.2).map Prod.fst := by
  induction a generalizing b with
  | nil => simp [byMask]
  | cons x a ih =>
    cases b with
    | nil => simp at h
    | cons y b =>
      have := ih b (by simpa using h)
      unfold byMask at this ⊢
      simp only [List.map_cons, List.zip_cons_cons, List.filter_cons]
      cases f y <;> simp [this]

theorem byMask_zip {A B : Type} (a : List A) (b : List B) (mask : List Bool) :
    (byMask a mask).zip (byMask b mask) = byMask (a.zip b) mask := by
  induction a generalizing b mask with
  | nil => simp [byMask]
  | cons x a ih =>
    cases b with
    | nil => cases mask <;> simp [byMask]
    | cons y b =>
      cases mask with
      | nil => simp [byMask]
      | cons c mask =>
        have := ih b mask
        unfold byMask at this ⊢
        simp only [List.zip_cons_cons, List.filter_cons]
        cases c <;> simp [this]

theorem byMask_self {A : Type} (a : List A) (f : A → Bool) : byMask a (a.map f) = a.filter f := by
  induction a with
  | nil => simp [byMask]
  | cons x a ih =>
    unfold byMask at ih ⊢
    simp only [List.map_cons, List.zip_cons_cons, List.filter_cons]
    cases f x <;> simp [ih]

theorem map_of_zip_snd {A B : Type} (a : List A) (b : List B) (f : B → Bool) (h : a.length = b.length) :
    b.map f = (a.zip b).map fun p => f p.2 := by
  induction a generalizing b with
  | nil => cases b with
    | nil => rfl
    | cons => simp at h
  | cons x a ih =>
    cases b with
    | nil => simp at h
    | cons y b => simp [ih b (by simpa using h)]

theorem map_of_zip_fst {A B : Type} (a : List A) (b : List B) (f : A → Bool) (h : a.length = b.length) :
    a.map f = (a.zip b).map fun p => f p.1 := by
  induction a generalizing b with
  | nil => rfl
  | cons x a ih =>
    cases b with
    | nil => simp at h
    | cons y b => simp [ih b (by simpa using h)]

theorem mask_pos {A : Type} (a : List A) (f : A → Bool) :
    ((a.map f).filter id).length > 0 ↔ a.filter f ≠ [] := by
  rw [List.filter_map, List.length_map, gt_iff_lt, List.length_pos_iff]
  rfl

/-- The kinds and cells of a mesh, with the cells selected by `P`; kinds without cells are left out. -/
def selectCells (P : List ℕ × ℕ → Bool) (bs : List Block) : List (ℕ × ℕ × List (List ℕ × ℕ)) :=
  (bs.map fun b => (b.dim, b.nv, b.cells.filter P)).filter fun x => decide (x.2.2 ≠ [])

/-- **Extraction by groups of cells**: exactly the cells of the selected groups are kept. -/
theorem C70_by_cgroup {m : KMesh V} (h : MeshOk m) (value : GroupValue) :
    (meshByCgroup value m).coors = m.coors ∧ (meshByCgroup value m).vgroups = m.vgroups ∧
    ∃ P : List ℕ × ℕ → Bool, (∀ c, P c = true ↔ Selected value c.2) ∧
      (meshByCgroup value m).blocks.map (fun b => (b.dim, b.nv, b.cells)) = selectCells P m.blocks := by
  refine ⟨rfl, rfl, fun c => value.sel c.2, fun c => sel_iff _ _, ?_⟩
  have hm := h.mats
  simp only [meshByCgroup, selectCells]
  generalize m.blocks = bs at hm
  induction bs with
  | nil => rfl
  | cons b bs ih =>
    have ih := ih fun b hb => hm b (List.mem_cons_of_mem _ hb)
    have hl := hm b List.mem_cons_self
    have e := map_of_zip_snd b.conn b.mats value.sel hl.symm
    rw [List.filterMap_cons, List.map_cons, List.filter_cons]
    have key : (byMask b.conn (b.mats.map value.sel)).zip (byMask b.mats (b.mats.map value.sel)) =
        b.cells.filter fun c => value.sel c.2 := by
      rw [byMask_zip, e, byMask_self]; rfl
    have hmask : ((b.mats.map value.sel).filter id).length > 0 ↔ (b.cells.filter fun c => value.sel c.2) ≠ [] := by
      rw [e, mask_pos]; rfl
    by_cases hc : ((b.mats.map value.sel).filter id).length > 0
    · have hd : decide ((b.cells.filter fun c => value.sel c.2) ≠ []) = true := decide_eq_true (hmask.1 hc)
      simp only [hc, if_true, List.map_cons, ih, hd]
      congr 1
      exact Prod.ext rfl (Prod.ext rfl key)
    · have hd : decide ((b.cells.filter fun c => value.sel c.2) ≠ []) = false :=
        decide_eq_false fun hh => hc (hmask.2 hh)
      simp only [hc, if_false, ih, hd]
      simp

theorem selRemap_nonneg (vidxs : List Bool) (v : ℕ) : 0 ≤ selRemap vidxs v ↔ vidxs.getD v false = true := by
  unfold selRemap
  split
  · next h => exact ⟨fun _ => h, fun _ => by positivity⟩
  · next h => exact ⟨fun hh => absurd hh (by decide), fun hh => absurd hh h⟩

theorem byMask_get {A : Type} (a : List A) (mask : List Bool) (h : a.length = mask.length) {v : ℕ}
    (hv : mask.getD v false = true) : (byMask a mask)[((mask.take v).filter id).length]? = a[v]? := by
  induction a generalizing mask v with
  | nil =>
    cases mask with
    | nil => simp at hv
    | cons => simp at h
  | cons x a ih =>
    cases mask with
    | nil => simp at h
    | cons c mask =>
      cases v with
      | zero =>
        have : c = true := by simpa using hv
        subst this
        simp [byMask]
      | succ v =>
        have := ih mask (by simpa using h) (v := v) (by simpa using hv)
        unfold byMask at this ⊢
        simp only [List.zip_cons_cons, List.filter_cons, List.take_succ_cons]
        cases c <;> simp [this]

theorem byMask_length {A : Type} (a : List A) (mask : List Bool) (h : a.length = mask.length) :
    (byMask a mask).length = (mask.filter id).length := by
  induction a generalizing mask with
  | nil => cases mask with
    | nil => rfl
    | cons => simp at h
  | cons x a ih =>
    cases mask with
    | nil => simp at h
    | cons c mask =>
      have := ih mask (by simpa using h)
      unfold byMask at this ⊢
      simp only [List.zip_cons_cons, List.filter_cons]
      cases c <;> simp_all

theorem mask_onto (mask : List Bool) {k : ℕ} (hk : k < (mask.filter id).length) :
    ∃ v < mask.length, mask.getD v false = true ∧ ((mask.take v).filter id).length = k := by
  induction mask generalizing k with
  | nil => simp at hk
  | cons c mask ih =>
    cases c with
    | true =>
      cases k with
      | zero => exact ⟨0, by simp, by simp, by simp⟩
      | succ k =>
        obtain ⟨v, h1, h2, h3⟩ := ih (k := k) (by simpa using hk)
        exact ⟨v + 1, by simpa using h1, by simpa using h2, by simpa using h3⟩
    | false =>
      obtain ⟨v, h1, h2, h3⟩ := ih (k := k) (by simpa using hk)
      exact ⟨v + 1, by simpa using h1, by simpa using h2, by simpa using h3⟩

theorem mask_mono (mask : List Bool) {v w : ℕ} (hv : mask.getD v false = true) (hvw : v < w) :
    ((mask.take v).filter id).length < ((mask.take w).filter id).length := by
  induction mask generalizing v w with
  | nil => simp at hv
  | cons c mask ih =>
    obtain ⟨w, rfl⟩ : ∃ w', w = w' + 1 := ⟨w - 1, by omega⟩
    cases v with
    | zero =>
      have : c = true := by simpa using hv
      subst this
      simp
    | succ v =>
      have := ih (v := v) (w := w) (by simpa using hv) (by omega)
      cases c <;> simpa using this

/-- **Extraction by groups of vertices**: exactly the vertices of the selected groups are kept, in the
same order, and exactly the cells with all the vertices selected, renumbered. -/
theorem C70_by_ngroup {m : KMesh V} (h : MeshOk m) (value : GroupValue) :
    ∃ (N : ℕ → ℕ) (P : List ℕ × ℕ → Bool),
      Restricts m (meshByNgroup value m) (fun v => Selected value (m.vgroups.getD v 0)) N ∧
      (∀ b ∈ m.blocks, ∀ c ∈ b.cells, P c = true ↔ ∀ v ∈ c.1, Selected value (m.vgroups.getD v 0)) ∧
      (meshByNgroup value m).blocks.map (fun b => (b.dim, b.nv, b.cells)) =
        (selectCells P m.blocks).map fun x => (x.1, x.2.1, x.2.2.map fun c => (c.1.map N, c.2)) := by
  have hsel : ∀ v < m.coors.length, (m.vgroups.map value.sel).getD v false = true ↔
      Selected value (m.vgroups.getD v 0) := by
    intro v hv
    have hv' : v < m.vgroups.length := by rw [h.vg]; exact hv
    rw [List.getD_eq_getElem?_getD, List.getElem?_map, List.getD_eq_getElem?_getD, List.getElem?_eq_getElem hv']
    exact sel_iff _ _
  have hlen : m.coors.length = (m.vgroups.map value.sel).length := by rw [List.length_map, h.vg]
  have hN : ∀ v < m.coors.length, Selected value (m.vgroups.getD v 0) →
      (selRemap (m.vgroups.map value.sel) v).toNat = (((m.vgroups.map value.sel).take v).filter id).length := by
    intro v hv hs
    unfold selRemap
    rw [if_pos ((hsel v hv).2 hs)]
    simp
  refine ⟨fun v => (selRemap (m.vgroups.map value.sel) v).toNat,
    fun c => c.1.all fun v => (m.vgroups.map value.sel).getD v false, ⟨?_, ?_, ?_⟩, ?_, ?_⟩
  · intro v hv hs
    simp only [hN v hv hs]
    exact ⟨byMask_get _ _ hlen ((hsel v hv).2 hs), byMask_get _ _ (by simp) ((hsel v hv).2 hs)⟩
  · intro v hv w hw hs ht hlt
    simp only [hN v hv hs, hN w hw ht]
    exact mask_mono _ ((hsel v hv).2 hs) hlt
  · intro k hk
    have hk' : k < (((m.vgroups.map value.sel)).filter id).length := by
      have : (meshByNgroup value m).coors = byMask m.coors (m.vgroups.map value.sel) := rfl
      rw [this, byMask_length _ _ hlen] at hk
      exact hk
    obtain ⟨v, h1, h2, h3⟩ := mask_onto _ hk'
    have hv : v < m.coors.length := by rw [hlen]; exact h1
    exact ⟨v, hv, (hsel v hv).1 h2, (hN v hv ((hsel v hv).1 h2)).trans h3⟩
  · intro b hb c hc
    have hr := h.rows b hb c.1 (List.of_mem_zip hc).1
    simp only [List.all_eq_true]
    constructor
    · intro hh v hv; exact (hsel v (hr.2 v hv)).1 (hh v hv)
    · intro hh v hv; exact (hsel v (hr.2 v hv)).2 (hh v hv)
  · have hm := h.mats
    have hrow := h.rows
    simp only [meshByNgroup, selectCells]
    generalize m.vgroups.map value.sel = vidxs
    generalize m.blocks = bs at hm hrow
    induction bs with
    | nil => rfl
    | cons b bs ih =>
      have ih := ih (fun b hb => hm b (List.mem_cons_of_mem _ hb)) (fun b hb => hrow b (List.mem_cons_of_mem _ hb))
      have hl := hm b List.mem_cons_self
      have hrb := hrow b List.mem_cons_self
      have emask : (b.conn.map fun row => (row.filter fun v => decide (0 ≤ selRemap vidxs v)).length == b.nv) =
          b.conn.map fun row => row.all fun v => vidxs.getD v false := by
        refine List.map_congr_left fun row hr => ?_
        have hrl := (hrb row hr).1
        rw [Bool.eq_iff_iff, beq_iff_eq, ← hrl, List.length_filter_eq_length_iff, List.all_eq_true]
        simp only [decide_eq_true_eq, selRemap_nonneg]
      have e2 := map_of_zip_fst b.conn b.mats (fun row => row.all fun v => vidxs.getD v false) hl.symm
      rw [List.filterMap_cons, List.map_cons, List.filter_cons]
      simp only [emask]
      have key : ((byMask b.conn (b.conn.map fun row => row.all fun v => vidxs.getD v false)).map
          fun row => row.map fun v => (selRemap vidxs v).toNat).zip
          (byMask b.mats (b.conn.map fun row => row.all fun v => vidxs.getD v false)) =
          (b.cells.filter fun c => c.1.all fun v => vidxs.getD v false).map
            fun c => (c.1.map fun v => (selRemap vidxs v).toNat, c.2) := by
        rw [List.zip_map_left, byMask_zip, e2, byMask_self]
        rfl
      have hmask : ((b.conn.map fun row => row.all fun v => vidxs.getD v false).filter id).length > 0 ↔
          (b.cells.filter fun c => c.1.all fun v => vidxs.getD v false) ≠ [] := by
        rw [e2, mask_pos]; rfl
      by_cases hc : ((b.conn.map fun row => row.all fun v => vidxs.getD v false).filter id).length > 0
      · have hd : decide ((b.cells.filter fun c => c.1.all fun v => vidxs.getD v false) ≠ []) = true :=
          decide_eq_true (hmask.1 hc)
        simp only [hc, if_true, List.map_cons, ih, hd]
        congr 1
        exact Prod.ext rfl (Prod.ext rfl key)
      · have hd : decide ((b.cells.filter fun c => c.1.all fun v => vidxs.getD v false) ≠ []) = false :=
          decide_eq_false fun hh => hc (hmask.2 hh)
        simp only [hc, if_false, ih, hd]
        simp

end

/-! ### Merging of nodes -/

section

variable {d : ℕ} {K : Type} [Field K] [LinearOrder K]

/-- Points connected by a chain of points, neighbours in the chain at most `eps` apart. -/
def NearChain (eps : K) (x : List (Fin d → K)) : ℕ → ℕ → Prop :=
  Relation.EqvGen fun i j => ∃ a b, x[i]? = some a ∧ x[j]? = some b ∧ Near eps a b

/-- The result of `scipy.sparse.csgraph.connected_components()` of the graph with the edges `Q` and `n`
nodes: labels of components, all the numbers from zero are used. -/
structure IsComponents (n : ℕ) (Q : List (ℕ × ℕ)) (labels : List ℕ) : Prop where
  len : labels.length = n
  same : ∀ (i j a b : ℕ), labels[i]? = some a → labels[j]? = some b →
    (a = b ↔ Relation.EqvGen (fun i j => (i, j) ∈ Q) i j)
  dense : ∀ a ∈ labels, ∀ c < a, c ∈ labels

/-- What merging of nodes is: `M` are the new numbers. -/
structure NodesMerged (eps : K) (m r : KMesh (Fin d → K)) (M : ℕ → ℕ) : Prop where
  blocks : r.blocks = m.blocks.map (Block.renumber M)
  same : ∀ v < m.coors.length, ∀ w < m.coors.length, M v = M w ↔ NearChain eps m.coors v w
  /-- The node has the coordinates and the group of the first of the merged nodes. -/
  node : ∀ v < m.coors.length, (∀ w < v, M w ≠ M v) → r.coors[M v]? = m.coors[v]? ∧ r.vgroups[M v]? = m.vgroups[v]?
  onto : ∀ k < r.coors.length, ∃ v < m.coors.length, M v = k
  /-- No double nodes are left. -/
  sep : Sep eps r.coors

theorem uniqueNat_of_dense {l : List ℕ} (hne : l ≠ []) (hd : ∀ a ∈ l, ∀ c < a, c ∈ l) :
    uniqueNat l = List.range (l.foldr max 0 + 1) := by
  unfold uniqueNat
  rw [List.filter_eq_self]
  intro c hc
  rw [decide_eq_true_eq]
  have hmax : l.foldr max 0 ∈ l := by
    clear hd hc
    induction l with
    | nil => exact absurd rfl hne
    | cons a l ih =>
      simp only [List.foldr_cons]
      by_cases hl : l = []
      · subst hl; simp
      · rcases le_total a (l.foldr max 0) with h | h
        · rw [max_eq_right h]; exact List.mem_cons_of_mem _ (ih hl)
        · rw [max_eq_left h]; exact List.mem_cons_self
  rcases Nat.lt_or_ge c (l.foldr max 0) with h | h
  · exact hd _ hmax c h
  · have : c = l.foldr max 0 := by have := List.mem_range.1 hc; omega
    rw [this]; exact hmax

variable [IsStrictOrderedRing K]

theorem eqvGen_iff {eps : K} {x : List (Fin d → K)} {Q : List (ℕ × ℕ)} (hQ : IsPairs eps x Q) {i j : ℕ} :
    Relation.EqvGen (fun i j => (i, j) ∈ Q) i j ↔ NearChain eps x i j := by
  constructor
  · intro h
    induction h with
    | rel a b h => exact .rel _ _ ((hQ.mem a b).1 h).2
    | refl a => exact .refl _
    | symm a b _ ih => exact .symm _ _ ih
    | trans a b c _ _ ih1 ih2 => exact .trans _ _ _ ih1 ih2
  · intro h
    unfold NearChain at h
    induction h with
    | rel a b h =>
      rcases lt_trichotomy a b with hlt | rfl | hlt
      · exact .rel _ _ ((hQ.mem a b).2 ⟨hlt, h⟩)
      · exact .refl _
      · obtain ⟨p, q, h1, h2, h3⟩ := h
        exact .symm _ _ (.rel _ _ ((hQ.mem b a).2 ⟨hlt, q, p, h2, h1, near_comm.1 h3⟩))
    | refl a => exact .refl _
    | symm a b _ ih => exact .symm _ _ ih
    | trans a b c _ _ ih1 ih2 => exact .trans _ _ _ ih1 ih2

/-- **Merging of nodes.**  Whatever the order of the pairs and the labels are, the nodes connected by
chains of near nodes are merged, and no two nodes of the result are near. -/
theorem C70_merge_nodes {eps : K} {m : KMesh (Fin d → K)} (h : MeshOk m) {Q : List (ℕ × ℕ)} {labels : List ℕ}
    (hQ : IsPairs eps m.coors Q) (hL : IsComponents m.coors.length Q labels) :
    ∃ M, NodesMerged eps m (mergeNodes (uniqueCoorMap Q labels) m) M := by
  by_cases hq : Q.length > 0
  · have hlab : ∀ v < m.coors.length, labels[v]? = some (labels.getD v 0) := by
      intro v hv
      rw [← hL.len] at hv
      rw [List.getD_eq_getElem?_getD, List.getElem?_eq_getElem hv, Option.getD_some]
    have hne : labels ≠ [] := by
      rintro rfl
      obtain ⟨p, hp⟩ := List.exists_mem_of_length_pos hq
      obtain ⟨-, a, b, h1, -⟩ := (hQ.mem p.1 p.2).1 hp
      have := (List.getElem?_eq_some_iff.1 h1).1
      have := hL.len
      simp at this
      omega
    have hun := uniqueNat_of_dense hne hL.dense
    set r := mergeNodes (uniqueCoorMap Q labels) m with hr
    have hr' : r = mergeNodes (some labels) m := by rw [hr]; unfold uniqueCoorMap; rw [if_pos hq]
    have hmem : ∀ c, c < labels.foldr max 0 + 1 ↔ c ∈ labels := by
      intro c
      rw [← mem_uniqueNat (l := labels), hun, List.mem_range]
    have hcl : r.coors.length = labels.foldr max 0 + 1 := by
      rw [hr']; simp [mergeNodes, hun]
    have hget : ∀ c, c ∈ labels → labels.idxOf c < m.coors.length ∧
        r.coors[c]? = m.coors[labels.idxOf c]? ∧ r.vgroups[c]? = m.vgroups[labels.idxOf c]? := by
      intro c hc
      have hi : labels.idxOf c < m.coors.length := by
        rw [← hL.len]; exact List.idxOf_lt_length_iff.2 hc
      have hi' : labels.idxOf c < m.vgroups.length := by rw [h.vg]; exact hi
      refine ⟨hi, ?_, ?_⟩
      · rw [hr']
        simp only [mergeNodes, hun, List.map_map, List.getElem?_map, List.getElem?_range ((hmem c).2 hc),
          Option.map_some, Function.comp_apply, List.getD_eq_getElem?_getD, List.getElem?_eq_getElem hi,
          Option.getD_some]
      · rw [hr']
        simp only [mergeNodes, hun, List.map_map, List.getElem?_map, List.getElem?_range ((hmem c).2 hc),
          Option.map_some, Function.comp_apply, List.getD_eq_getElem?_getD, List.getElem?_eq_getElem hi',
          Option.getD_some]
    have hsame : ∀ v < m.coors.length, ∀ w < m.coors.length,
        labels.getD v 0 = labels.getD w 0 ↔ NearChain eps m.coors v w := by
      intro v hv w hw
      rw [hL.same v w _ _ (hlab v hv) (hlab w hw), eqvGen_iff hQ]
    refine ⟨fun v => labels.getD v 0, ?_, hsame, ?_, ?_, ?_⟩
    · rw [hr']; rfl
    · intro v hv hfirst
      have hc := List.mem_of_getElem? (hlab v hv)
      have hidx : labels.idxOf (labels.getD v 0) = v := by
        have hvl : v < labels.length := by rw [hL.len]; exact hv
        have h1 := List.idxOf_lt_length_iff.2 hc
        rcases lt_trichotomy (labels.idxOf (labels.getD v 0)) v with hlt | he | hgt
        · exfalso
          apply hfirst _ hlt
          rw [List.getD_eq_getElem?_getD (i := labels.idxOf _), List.getElem?_eq_getElem h1, List.getElem_idxOf,
            Option.getD_some]
        · exact he
        · exfalso
          have := List.not_of_lt_findIdx (p := (· == labels.getD v 0)) (xs := labels) hgt
          have e : labels[v] = labels.getD v 0 := by
            rw [List.getD_eq_getElem?_getD, List.getElem?_eq_getElem hvl]; rfl
          rw [beq_eq_false_iff_ne] at this
          exact this e
      obtain ⟨-, h2, h3⟩ := hget _ hc
      rw [hidx] at h2 h3
      exact ⟨h2, h3⟩
    · intro k hk
      rw [hcl] at hk
      obtain ⟨v, hv⟩ := List.getElem?_of_mem ((hmem k).1 hk)
      refine ⟨v, ?_, ?_⟩
      · rw [← hL.len]; exact (List.getElem?_eq_some_iff.1 hv).1
      · show labels.getD v 0 = k
        rw [List.getD_eq_getElem?_getD, hv]; rfl
    · intro i j a b hij ha hb hnear
      have hi := (hmem i).1 (by rw [← hcl]; exact (List.getElem?_eq_some_iff.1 ha).1)
      have hj := (hmem j).1 (by rw [← hcl]; exact (List.getElem?_eq_some_iff.1 hb).1)
      obtain ⟨i1, i2, -⟩ := hget i hi
      obtain ⟨j1, j2, -⟩ := hget j hj
      rw [i2] at ha
      rw [j2] at hb
      have := (hsame _ i1 _ j1).2 (.rel _ _ ⟨a, b, ha, hb, hnear⟩)
      have e : ∀ c ∈ labels, labels.getD (labels.idxOf c) 0 = c := by
        intro c hc
        rw [List.getD_eq_getElem?_getD, List.getElem?_eq_getElem (List.idxOf_lt_length_iff.2 hc), List.getElem_idxOf]
        rfl
      rw [e i hi, e j hj] at this
      exact hij this
  · have hQ0 : Q = [] := List.length_eq_zero_iff.1 (by omega)
    have hr : mergeNodes (uniqueCoorMap Q labels) m = m := by
      unfold uniqueCoorMap; rw [if_neg hq]; rfl
    rw [hr]
    have hrel : ∀ v w, NearChain eps m.coors v w → v = w := by
      intro v w hc
      rw [← eqvGen_iff hQ, hQ0] at hc
      induction hc with
      | rel a b h => simp at h
      | refl => rfl
      | symm _ _ _ ih => exact ih.symm
      | trans _ _ _ _ _ ih1 ih2 => exact ih1.trans ih2
    refine ⟨fun v => v, ?_, ?_, fun v _ _ => ⟨rfl, rfl⟩, fun k hk => ⟨k, hk, rfl⟩, ?_⟩
    · have : Block.renumber (fun v => v) = id := by
        funext b; simp [Block.renumber]
      rw [this, List.map_id]
    · intro v _ w _
      exact ⟨fun e => by rw [show v = w from e]; exact .refl _, hrel v w⟩
    · intro i j a b hij ha hb hnear
      exact hij (hrel i j (.rel _ _ ⟨a, b, ha, hb, hnear⟩))

/-- If near nodes are the same points, the coordinates are kept exactly. -/
theorem C70_merge_exact {eps : K} {m r : KMesh (Fin d → K)} {M : ℕ → ℕ} (h : NodesMerged eps m r M)
    (hex : ∀ (i j : ℕ) (a b : Fin d → K), m.coors[i]? = some a → m.coors[j]? = some b → Near eps a b → a = b)
    (v : ℕ) (hv : v < m.coors.length) : r.coors[M v]? = m.coors[v]? := by
  have hchain : ∀ i j, NearChain eps m.coors i j → m.coors[i]? = m.coors[j]? := by
    intro i j hc
    unfold NearChain at hc
    induction hc with
    | rel a b h =>
      obtain ⟨p, q, h1, h2, h3⟩ := h
      rw [h1, h2, hex a b p q h1 h2 h3]
    | refl => rfl
    | symm _ _ _ ih => exact ih.symm
    | trans _ _ _ _ _ ih1 ih2 => exact ih1.trans ih2
  classical
  have hex' : ∃ w, w < m.coors.length ∧ M w = M v := ⟨v, hv, rfl⟩
  obtain ⟨h1, h2⟩ := Nat.find_spec hex'
  have h3 : ∀ w < Nat.find hex', M w ≠ M (Nat.find hex') := by
    intro w hw he
    exact Nat.find_min hex' hw ⟨by omega, by rw [he, h2]⟩
  have := (h.node _ h1 h3).1
  rw [h2] at this
  rw [this]
  exact hchain _ _ ((h.same _ h1 v hv).1 h2)

end

end Verif.Mesh
