/-
C53 (continued): facet indices of regions.
-/
import Verif.CMesh.PropsQuery

namespace Verif.CMesh

theorem scanl_getD (l : List ℕ) : ∀ (a k : ℕ), k ≤ l.length →
    (l.scanl (· + ·) a).getD k 0 = a + (l.take k).sum := by
  induction l with
  | nil => intro a k hk; obtain rfl : k = 0 := by simpa using hk
           simp
  | cons x l ih =>
    intro a k hk
    cases k with
    | zero => simp
    | succ k =>
      rw [List.scanl_cons]
      simp only [List.getD_cons_succ, List.take_succ_cons, List.sum_cons]
      rw [ih _ _ (by simpa using hk)]
      omega

theorem foldl_max_eq (l : List ℕ) (n : ℕ) (h : ∀ x ∈ l, x ≤ n) (hn : n ∈ l) : l.foldl max 0 = n := by
  have h1 : ∀ (l : List ℕ) a, a ≤ l.foldl max a ∧ ∀ x ∈ l, x ≤ l.foldl max a := by
    intro l
    induction l with
    | nil => intro a; simp
    | cons y l ih =>
      intro a
      rw [List.foldl_cons]
      obtain ⟨k1, k2⟩ := ih (max a y)
      refine ⟨le_trans (le_max_left _ _) k1, ?_⟩
      rintro x hx
      rcases List.mem_cons.1 hx with rfl | hx
      · exact le_trans (le_max_right _ _) k1
      · exact k2 x hx
  have h2 : ∀ (l : List ℕ) a, a ≤ n → (∀ x ∈ l, x ≤ n) → l.foldl max a ≤ n := by
    intro l
    induction l with
    | nil => intro a ha _; exact ha
    | cons y l ih =>
      intro a ha hl
      rw [List.foldl_cons]
      exact ih _ (max_le ha (hl y (by simp))) (fun x hx => hl x (by simp [hx]))
  exact le_antisymm (h2 l 0 (Nat.zero_le _) h) ((h1 l 0).2 n hn)

theorem zip_flatMap {α β γ : Type} (ks : List α) (f : α → List β) (g : α → List γ)
    (h : ∀ k ∈ ks, (f k).length = (g k).length) :
    (ks.flatMap f).zip (ks.flatMap g) = ks.flatMap fun k => (f k).zip (g k) := by
  induction ks with
  | nil => rfl
  | cons k ks ih =>
    simp only [List.flatMap_cons]
    rw [List.zip_append (h k (by simp)), ih fun k' hk' => h k' (by simp [hk'])]

theorem filter_block {β : Type} (n k : ℕ) (hk : k < n) (B : ℕ → List β) (p : β → Bool) :
    (((List.range n).flatMap fun k' => (B k').map fun b => (k', b)).filter
      fun q => q.1 == k && p q.2) = ((B k).filter p).map fun b => (k, b) := by
  rw [List.filter_flatMap]
  have : ∀ k', ((B k').map fun b => (k', b)).filter (fun q => q.1 == k && p q.2)
      = if k' = k then ((B k).filter p).map fun b => (k, b) else [] := by
    intro k'
    rw [List.filter_map]
    split
    · rename_i h; subst h
      congr 1
      apply List.filter_congr
      intro b _
      simp
    · rename_i h
      simp only [List.map_eq_nil_iff, List.filter_eq_nil_iff]
      intro b _
      simp [h]
  simp only [this]
  have hsplit : List.range n = List.range k ++ k :: List.range' (k + 1) (n - (k + 1)) := by
    rw [List.range_eq_range', List.range_eq_range']
    have h1 : n = k + (1 + (n - (k + 1))) := by omega
    conv_lhs => rw [h1]
    rw [← List.range'_append, ← List.range'_append]
    simp
  rw [hsplit, List.flatMap_append, List.flatMap_cons, if_pos rfl]
  have e1 : (List.range k).flatMap (fun k' => if k' = k then ((B k).filter p).map fun b => (k, b) else [])
      = [] := by
    rw [List.flatMap_eq_nil_iff]
    intro x hx
    have := List.mem_range.1 hx
    rw [if_neg (by omega)]
  have e2 : (List.range' (k + 1) (n - (k + 1))).flatMap
      (fun k' => if k' = k then ((B k).filter p).map fun b => (k, b) else []) = [] := by
    rw [List.flatMap_eq_nil_iff]
    intro x hx
    have := List.mem_range'_1.1 hx
    rw [if_neg (by omega)]
  rw [e1, e2]
  simp

/-- The filter of `get_facet_indices()` keeps for each facet its cells in the parent region. -/
theorem parentFilter_spec {c : Conn} (hwf : c.WF) (facets pcells : List ℕ) (hne : facets ≠ [])
    (hlt : ∀ f ∈ facets, f < c.num) (hcell : ∀ f ∈ facets, c.row f ≠ []) :
    let q := parentFilter facets.length pcells (getIncident c facets).1 (getIncident c facets).2
    let R := fun f => (c.row f).filter fun k => pcells.contains k
    q.1 = facets.flatMap R ∧
      ∀ k ≤ facets.length, q.2.getD k 0 = ((facets.take k).flatMap R).length := by
  obtain ⟨e1, e2⟩ := C53_incident hwf facets hne hlt
  intro q R
  have hq1 : q.1 = facets.flatMap R := by
    simp only [q, parentFilter, e1, List.filter_flatMap]
    rfl
  refine ⟨hq1, ?_⟩
  -- The positions.
  have hoff : ∀ k ≤ facets.length, (getIncident c facets).2.getD k 0
      = ((facets.take k).flatMap c.row).length := by
    intro k hk
    rw [e2, List.getD_eq_getElem?_getD, List.getElem?_map, List.getElem?_range (by omega)]
    rfl
  have hgetD : ∀ k (hk : k < facets.length), facets.getD k 0 = facets[k] := by
    intro k hk
    rw [List.getD_eq_getElem?_getD, List.getElem?_eq_getElem hk]
    rfl
  have hpos : (List.range facets.length).flatMap (fun k => List.replicate
      ((getIncident c facets).2.getD (k + 1) 0 - (getIncident c facets).2.getD k 0) k)
      = (List.range facets.length).flatMap fun k =>
        List.replicate (c.row (facets.getD k 0)).length k := by
    apply List.flatMap_congr
    intro k hk
    have hk' := List.mem_range.1 hk
    have := (flatMap_slice c.row facets k hk').1
    simp only at this
    rw [hoff k hk'.le, hoff (k + 1) hk', this, hgetD k hk']
  have hip : (getIncident c facets).1.map (fun k => pcells.contains k)
      = (List.range facets.length).flatMap fun k =>
        (c.row (facets.getD k 0)).map fun j => pcells.contains j := by
    rw [e1, List.map_flatMap, flatMap_range_getD]
  have hnb : (((List.range facets.length).flatMap fun k =>
      List.replicate (c.row (facets.getD k 0)).length k).map (· + 1)).foldl max 0 = facets.length := by
    apply foldl_max_eq
    · intro x hx
      obtain ⟨y, hy, rfl⟩ := List.mem_map.1 hx
      obtain ⟨k, hk, hy⟩ := List.mem_flatMap.1 hy
      have := List.mem_range.1 hk
      have := (List.mem_replicate.1 hy).2
      omega
    · have hpos := List.length_pos_of_ne_nil hne
      refine List.mem_map.2 ⟨facets.length - 1, ?_, by omega⟩
      refine List.mem_flatMap.2 ⟨facets.length - 1, List.mem_range.2 (by omega), ?_⟩
      rw [List.mem_replicate]
      refine ⟨?_, rfl⟩
      rw [hgetD _ (by omega)]
      have := hcell _ (List.getElem_mem (by omega : facets.length - 1 < facets.length))
      exact (List.length_pos_of_ne_nil this).ne'
  have hzip : ((List.range facets.length).flatMap fun k =>
        List.replicate (c.row (facets.getD k 0)).length k).zip
        ((List.range facets.length).flatMap fun k =>
          (c.row (facets.getD k 0)).map fun j => pcells.contains j)
      = (List.range facets.length).flatMap fun k =>
        ((c.row (facets.getD k 0)).map fun j => pcells.contains j).map fun b => (k, b) := by
    rw [zip_flatMap _ _ _ (by simp)]
    apply List.flatMap_congr
    intro k _
    generalize c.row (facets.getD k 0) = r
    clear_value R q
    clear * -
    induction r with
    | nil => rfl
    | cons x r ih =>
      rw [List.length_cons, List.replicate_succ, List.map_cons, List.zip_cons_cons, ih, List.map_cons]
  have hcounts : q.2 = cumsum0 ((List.range facets.length).map fun k => (R (facets.getD k 0)).length) := by
    simp only [q, parentFilter, hpos, hip, hnb, hzip]
    congr 1
    apply List.map_congr_left
    intro k hk
    have := filter_block facets.length k (List.mem_range.1 hk)
      (fun k => (c.row (facets.getD k 0)).map fun j => pcells.contains j) (fun b => b)
    rw [this, List.length_map, List.filter_map, List.length_map]
    rfl
  intro k hk
  rw [hcounts, cumsum0, scanl_getD _ _ _ (by simpa using hk), Nat.zero_add, ← List.map_take,
    List.take_range, min_eq_left hk, List.length_flatMap]
  congr 1
  apply List.ext_getElem
  · simp [hk]
  · intro i h1 h2
    simp only [List.length_map, List.length_range] at h1
    simp only [List.getElem_map, List.getElem_range, List.getElem_take]
    rw [hgetD i (by omega)]

/-- Specification: the cells of the facet `f`, restricted to the parent region. -/
def cellsOf (c : Conn) (parent : Option (List ℕ)) (f : ℕ) : List ℕ :=
  match parent with
  | none => c.row f
  | some p => (c.row f).filter fun k => p.contains k

/-- C53: `get_facet_indices()` lists, for each facet of the region in order and for each of its cells (in
the parent region, if any), the cell and the local index of the facet in the cell. -/
theorem C53_facet_indices {cfc ccf : Conn} (h1 : cfc.WF) (h2 : ccf.WF) (facets : List ℕ)
    (parent : Option (List ℕ)) (hlt : ∀ f ∈ facets, f < cfc.num)
    (hcell : ∀ f ∈ facets, cfc.row f ≠ [])
    (hmut : ∀ f ∈ facets, ∀ k ∈ cfc.row f, k < ccf.num ∧ f ∈ ccf.row k)
    (hne : ∃ f ∈ facets, cellsOf cfc parent f ≠ []) :
    ∃ fis, facetIndices cfc ccf facets parent = some fis ∧
      List.Forall₂ (fun p q => q.1 = p.2 ∧ IsLocalId ccf p.1 q.1 q.2)
        (facets.flatMap fun f => (cellsOf cfc parent f).map fun k => (f, k)) fis := by
  obtain ⟨f0, hf0, hr0⟩ := hne
  have hne' : facets ≠ [] := List.ne_nil_of_mem hf0
  -- The cells and offsets after the filter.
  have key : ∀ (cells offs : List ℕ), cells = facets.flatMap (cellsOf cfc parent) →
      (∀ k ≤ facets.length, offs.getD k 0 = ((facets.take k).flatMap (cellsOf cfc parent)).length) →
      ∃ fis, ((getLocalIds ccf facets cells offs).map fun ii => cells.zip ii) = some fis ∧
        List.Forall₂ (fun p q => q.1 = p.2 ∧ IsLocalId ccf p.1 q.1 q.2)
          (facets.flatMap fun f => (cellsOf cfc parent f).map fun k => (f, k)) fis := by
    intro cells offs hc ho
    subst hc
    obtain ⟨ids, e, hf⟩ := getLocalIds_spec h2 (cellsOf cfc parent) facets offs ho
      (by
        intro f hf k hk
        apply hmut f hf k
        unfold cellsOf at hk
        split at hk
        · exact hk
        · exact (List.mem_filter.1 hk).1)
      (by
        intro h
        exact hr0 (List.flatMap_eq_nil_iff.1 h f0 hf0))
    rw [e]
    refine ⟨_, rfl, ?_⟩
    have hsnd : facets.flatMap (cellsOf cfc parent)
        = (facets.flatMap fun f => (cellsOf cfc parent f).map fun k => (f, k)).map Prod.snd := by
      rw [List.map_flatMap]
      apply List.flatMap_congr
      intro f _
      simp [Function.comp_def]
    rw [hsnd]
    clear hsnd e ho
    generalize (facets.flatMap fun f => (cellsOf cfc parent f).map fun k => (f, k)) = L at hf ⊢
    induction hf with
    | nil => exact .nil
    | cons h _ ih => exact .cons ⟨rfl, h⟩ ih
  unfold facetIndices
  cases parent with
  | none =>
    obtain ⟨e1, e2⟩ := C53_incident h1 facets hne' hlt
    refine key _ _ e1 ?_
    intro k hk
    rw [e2, List.getD_eq_getElem?_getD, List.getElem?_map, List.getElem?_range (by omega)]
    rfl
  | some pcells =>
    obtain ⟨e1, e2⟩ := parentFilter_spec h1 facets pcells hne' hlt hcell
    exact key _ _ e1 e2

/-- C53: the cells given by `get_cells(true_cells_only=False)` are consistent with
`get_facet_indices()`. -/
theorem C53_cells_consistent {cfc ccf : Conn} (h1 : cfc.WF) (h2 : ccf.WF) (facets : List ℕ)
    (parent : Option (List ℕ)) (hlt : ∀ f ∈ facets, f < cfc.num)
    (hcell : ∀ f ∈ facets, cfc.row f ≠ [])
    (hmut : ∀ f ∈ facets, ∀ k ∈ cfc.row f, k < ccf.num ∧ f ∈ ccf.row k)
    (hne : ∃ f ∈ facets, cellsOf cfc parent f ≠ []) :
    (facetIndices cfc ccf facets parent).map (·.map Prod.fst)
      = some (regionFacetCells cfc facets parent) := by
  obtain ⟨fis, e, hf⟩ := C53_facet_indices h1 h2 facets parent hlt hcell hmut hne
  obtain ⟨f0, hf0, -⟩ := hne
  rw [e, Option.map_some]
  congr 1
  have hrc : regionFacetCells cfc facets parent
      = (facets.flatMap fun f => (cellsOf cfc parent f).map fun k => (f, k)).map Prod.snd := by
    unfold regionFacetCells
    rw [(C53_incident h1 facets (List.ne_nil_of_mem hf0) hlt).1, List.map_flatMap]
    cases parent with
    | none =>
      apply List.flatMap_congr
      intro f _
      simp [Function.comp_def, cellsOf]
    | some p =>
      simp only [List.filter_flatMap]
      apply List.flatMap_congr
      intro f _
      simp [Function.comp_def, cellsOf]
  rw [hrc]
  clear hrc e
  generalize (facets.flatMap fun f => (cellsOf cfc parent f).map fun k => (f, k)) = L at hf ⊢
  induction hf with
  | nil => rfl
  | cons h _ ih => rw [List.map_cons, List.map_cons, h.1, ih]

/-- Counterexample: `get_facet_indices()` fails for a non-empty region with no facet in a cell of the
parent region. -/
theorem C53_outside_parent {cfc ccf : Conn} (h1 : cfc.WF) (facets pcells : List ℕ) (hne : facets ≠ [])
    (hlt : ∀ f ∈ facets, f < cfc.num) (hcell : ∀ f ∈ facets, cfc.row f ≠ [])
    (hout : ∀ f ∈ facets, ∀ k ∈ cfc.row f, k ∉ pcells) :
    facetIndices cfc ccf facets (some pcells) = none := by
  obtain ⟨e1, -⟩ := parentFilter_spec h1 facets pcells hne hlt hcell
  have : facets.flatMap (fun f => (cfc.row f).filter fun k => pcells.contains k) = [] := by
    rw [List.flatMap_eq_nil_iff]
    intro f hf
    rw [List.filter_eq_nil_iff]
    intro k hk
    simpa using hout f hf k hk
  unfold facetIndices
  simp only
  rw [e1, this]
  simp [getLocalIds, hne]

/-! ### Cell indices -/

theorem searchGo_spec (a : List ℕ) (v : ℕ) (hs : a.SortedLT) (n : ℕ) : ∀ lo hi, lo ≤ hi → hi ≤ a.length →
    hi - lo ≤ n → (∀ i, (h : i < a.length) → i < lo → a[i] < v) →
    (∀ i, (h : i < a.length) → hi ≤ i → v ≤ a[i]) →
    searchGo a v n lo hi ≤ a.length ∧
      (∀ i, (h : i < a.length) → i < searchGo a v n lo hi → a[i] < v) ∧
      ∀ i, (h : i < a.length) → searchGo a v n lo hi ≤ i → v ≤ a[i] := by
  have hmono : ∀ i j, (hi : i < a.length) → (hj : j < a.length) → i ≤ j → a[i] ≤ a[j] := by
    intro i j hi hj hij
    rcases Nat.lt_or_eq_of_le hij with h | rfl
    · exact (List.pairwise_iff_getElem.1 hs.pairwise i j hi hj h).le
    · exact le_rfl
  induction n with
  | zero =>
    intro lo hi h1 h2 h3 h4 h5
    obtain rfl : lo = hi := by omega
    exact ⟨h2, h4, h5⟩
  | succ n ih =>
    intro lo hi h1 h2 h3 h4 h5
    unfold searchGo
    by_cases hlt : lo < hi
    · rw [if_pos hlt]
      simp only
      have hm : (lo + hi) / 2 < a.length := by omega
      rw [List.getD_eq_getElem?_getD, List.getElem?_eq_getElem hm, Option.getD_some]
      by_cases hc : a[(lo + hi) / 2] < v
      · rw [if_pos hc]
        exact ih _ _ (by omega) h2 (by omega)
          (fun i h h' => lt_of_le_of_lt (hmono i _ h hm (by omega)) hc) h5
      · rw [if_neg hc]
        exact ih _ _ (by omega) (by omega) (by omega) h4
          (fun i h h' => le_trans (not_lt.1 hc) (hmono _ i hm h h'))
    · rw [if_neg hlt]
      obtain rfl : lo = hi := by omega
      exact ⟨h2, h4, h5⟩

/-- C53: for a region with true cells (a sorted array without repetitions), `get_cell_indices()`
returns the positions of the cells, and fails iff a cell is not in the region. -/
theorem C53_cell_indices (fcells cells : List ℕ) (hs : fcells.SortedLT) :
    (∀ iis, cellIndices fcells cells = some iis →
      List.Forall₂ (fun c i => fcells[i]? = some c) cells iis) ∧
    ((cellIndices fcells cells).isSome ↔ ∀ c ∈ cells, c ∈ fcells) := by
  have hpos : ∀ c ∈ fcells, fcells[searchsorted fcells c]? = some c := by
    intro c hc
    obtain ⟨j, hj, e⟩ := List.getElem_of_mem hc
    obtain ⟨k1, k2, k3⟩ := searchGo_spec fcells c hs fcells.length 0 fcells.length (Nat.zero_le _) le_rfl
      (by omega) (by intros; omega) (by intros; omega)
    change searchsorted fcells c ≤ _ at k1
    change ∀ i, (h : i < fcells.length) → i < searchsorted fcells c → _ at k2
    change ∀ i, (h : i < fcells.length) → searchsorted fcells c ≤ i → _ at k3
    have hle : searchsorted fcells c ≤ j := by
      by_contra h
      have := k2 j hj (by omega)
      omega
    have hlt : searchsorted fcells c < fcells.length := by omega
    have h1 := k3 _ hlt le_rfl
    rw [List.getElem?_eq_getElem hlt]
    rcases Nat.lt_or_eq_of_le hle with h | h
    · have := List.pairwise_iff_getElem.1 hs.pairwise _ _ hlt hj h
      omega
    · congr 1
      refine Eq.trans ?_ e
      congr 1
  have hall : (∀ c ∈ cells, c ∈ fcells) →
      cellIndices fcells cells = some (cells.map (searchsorted fcells)) := by
    intro h
    unfold cellIndices
    rw [if_pos (by simpa using h)]
    simp only
    rw [if_pos]
    rw [List.all_eq_true]
    intro p hp
    rw [List.zip_map_left] at hp
    obtain ⟨⟨c, c'⟩, hq, rfl⟩ := List.mem_map.1 hp
    have hcc : c = c' ∧ c ∈ cells := by
      rw [List.mem_iff_getElem] at hq
      obtain ⟨i, hi, e⟩ := hq
      rw [List.getElem_zip] at e
      obtain ⟨rfl, rfl⟩ := Prod.mk.inj e
      exact ⟨rfl, List.getElem_mem _⟩
    obtain ⟨rfl, hc⟩ := hcc
    simpa using hpos c (h c hc)
  have hnone : ¬ (∀ c ∈ cells, c ∈ fcells) → cellIndices fcells cells = none := by
    intro h
    unfold cellIndices
    rw [if_neg (by simpa using h)]
  by_cases h : ∀ c ∈ cells, c ∈ fcells
  · rw [hall h]
    refine ⟨?_, by simpa using h⟩
    intro iis e
    obtain rfl := Option.some.inj e
    rw [List.forall₂_map_right_iff, List.forall₂_same]
    exact fun c hc => hpos c (h c hc)
  · rw [hnone h]
    exact ⟨by simp, by simpa using h⟩

/-- Counterexample: for a region without true cells, `get_cells(true_cells_only=False)` is neither
sorted nor unique, and `get_cell_indices()` fails for a cell of the region. -/
theorem C53_cell_indices_unsorted : cellIndices [3, 1] [1] = none := by decide +kernel

/-- The hypotheses hold for the facets of two triangles with a common edge, with the second triangle as
the parent region; the facet 1 is the common edge. -/
example : (connOf [[0], [0, 1], [0], [1], [1]]).WF ∧ (connOf [[0, 1, 2], [1, 3, 4]]).WF ∧
    facetIndices (connOf [[0], [0, 1], [0], [1], [1]]) (connOf [[0, 1, 2], [1, 3, 4]]) [1, 3] none
      = some [(0, 1), (1, 0), (1, 1)] ∧
    facetIndices (connOf [[0], [0, 1], [0], [1], [1]]) (connOf [[0, 1, 2], [1, 3, 4]]) [1, 3] (some [1])
      = some [(1, 0), (1, 1)] := by
  refine ⟨⟨by decide, by decide, by decide⟩, ⟨by decide, by decide, by decide⟩, by decide +kernel,
    by decide +kernel⟩

/-! ### In a mesh -/

theorem cDd_row_nodup {nD : ℕ} {cD0 : Conn} {F : ℕ → List (List ℕ)} {s : BState}
    {facets : List (List ℕ)} {ids : List ℕ} (h : UniqueFacets nD F s facets ids)
    (hc : Conforming nD cD0 F) {c : ℕ} (hlt : c < nD) : (s.cDd.row c).Nodup := by
  rw [List.nodup_iff_pairwise_ne, List.pairwise_iff_getElem]
  intro i j hi hj hij he
  have hl := h.rows c hlt
  obtain ⟨k1, hk1, e1, f1⟩ := flat_index h hlt (t := i) (by omega)
  obtain ⟨k2, hk2, e2, f2⟩ := flat_index h hlt (t := j) (by omega)
  have := (h.same k1 k2 hk1 hk2).1 (by rw [e1, e2, he])
  rw [f1, f2] at this
  exact List.pairwise_iff_getElem.1 (hc.distinct c hlt) i j _ _ hij this

/-- C53: in a conforming mesh, the surface facets are the facets that belong to exactly one cell (a cell
with a local facet of the same vertices). -/
theorem C53_surface_mesh {r : Ref} {D nV nD : ℕ} {cD0 : Conn} (hM : MeshReq r D nV nD cD0) (hD : 1 < D)
    (f : ℕ) : f ∈ surfaceFacets (tgt r D nV nD cD0 (D - 1) D) ↔ f < tgtN r D nV nD cD0 (D - 1) ∧
      ∃! k, k < nD ∧ ∃ g ∈ cellFacets (r.locs (D - 1)) r.cellTypes cD0 k,
        g.Perm ((tgt r D nV nD cD0 (D - 1) 0).row f) := by
  have h0 : 0 < D - 1 := by omega
  have h1 : D - 1 < D := by omega
  obtain ⟨-, w, en, hr⟩ := tgtUp_spec hM h0 h1 le_rfl
  obtain ⟨-, wd, end', hd⟩ := tgtDown_spec hM h0 h1 le_rfl
  rw [tgt_d0 r D nV nD cD0 h0]
  have hND : tgtN r D nV nD cD0 D = nD := by unfold tgtN; rw [if_neg (by omega), if_pos rfl]
  rw [(C53_surface _).2 f, en]
  refine and_congr_right fun hf => ?_
  have hmem : ∀ k, k ∈ (tgt r D nV nD cD0 (D - 1) D).row f ↔ k < nD ∧
      ∃ g ∈ cellFacets (r.locs (D - 1)) r.cellTypes cD0 k,
        g.Perm ((tgtV r D nV nD cD0 (D - 1)).row f) := by
    intro k
    rw [hr f hf k, hND]
    refine and_congr_right fun hk => ?_
    rw [hd k (by rw [hND]; exact hk) f, if_pos rfl]
    exact ⟨fun h => h.2, fun h => ⟨hf, h⟩⟩
  -- No cell is repeated.
  have hnd : ((tgt r D nV nD cD0 (D - 1) D).row f).Nodup := by
    rw [List.nodup_iff_count_le_one]
    intro k
    by_cases hk : k < nD
    · obtain ⟨facets, ids, e, hU⟩ := tgtS_spec hM h0 h1
      have hcd : tgtDown r D nV nD cD0 D (D - 1) = (tgtS r nV nD cD0 (D - 1)).cDd := by
        unfold tgtDown; rw [if_pos rfl]
      obtain ⟨c, e2, -, -, hc, -⟩ := C34_transpose (tgtN r D nV nD cD0 (D - 1)) nD
        (tgtDown r D nV nD cD0 D (D - 1)) wd (by rw [end', hND])
        (fun j hj i hi => ((hd j (by rw [hND]; exact hj) i).1 hi).1) hM.C32
      have : tgt r D nV nD cD0 (D - 1) D = c := by
        rw [tgt_up r D nV nD cD0 h0 h1, hND, trD, e2]; rfl
      rw [this, hc f hf k hk, hcd]
      exact List.nodup_iff_count_le_one.1 (cDd_row_nodup hU (hM.conf (D - 1) h0 h1) hk) f
    · have : k ∉ (tgt r D nV nD cD0 (D - 1) D).row f := fun h => hk ((hmem k).1 h).1
      rw [List.count_eq_zero_of_not_mem this]
      omega
  constructor
  · rintro ⟨k, hk⟩
    refine ⟨k, (hmem k).1 (by rw [hk]; simp), fun k' hk' => ?_⟩
    have := (hmem k').2 hk'
    rw [hk] at this
    simpa using this
  · rintro ⟨k, hk, hu⟩
    refine ⟨k, ?_⟩
    have h1 : ∀ k' ∈ (tgt r D nV nD cD0 (D - 1) D).row f, k' = k := fun k' h => hu k' ((hmem k').1 h)
    have h2 := (hmem k).2 hk
    obtain ⟨l1, l2, e⟩ := List.append_of_mem h2
    rw [e] at hnd h1 ⊢
    have n1 : l1 = [] := by
      by_contra hne
      obtain ⟨x, hx⟩ := List.exists_mem_of_ne_nil _ hne
      have := h1 x (by simp [hx])
      subst this
      exact (List.nodup_append.1 hnd).2.2 x hx x (by simp) rfl
    have n2 : l2 = [] := by
      by_contra hne
      obtain ⟨x, hx⟩ := List.exists_mem_of_ne_nil _ hne
      have := h1 x (by simp [hx])
      subst this
      exact (List.nodup_cons.1 (List.nodup_append.1 hnd).2.1).1 hx
    rw [n1, n2]; rfl

/-- C53: in a conforming mesh, the connectivities between facets and cells meet the hypotheses of
`C53_facet_indices`, and a facet has one or more cells. -/
theorem C53_mesh_facets {r : Ref} {D nV nD : ℕ} {cD0 : Conn} (hM : MeshReq r D nV nD cD0) (hD : 1 < D) :
    (tgt r D nV nD cD0 (D - 1) D).WF ∧ (tgt r D nV nD cD0 D (D - 1)).WF ∧
      (tgt r D nV nD cD0 (D - 1) D).num = tgtN r D nV nD cD0 (D - 1) ∧
      ∀ f < tgtN r D nV nD cD0 (D - 1), (tgt r D nV nD cD0 (D - 1) D).row f ≠ [] ∧
        ∀ k ∈ (tgt r D nV nD cD0 (D - 1) D).row f, k < (tgt r D nV nD cD0 D (D - 1)).num ∧
          f ∈ (tgt r D nV nD cD0 D (D - 1)).row k := by
  have h0 : 0 < D - 1 := by omega
  have h1 : D - 1 < D := by omega
  obtain ⟨-, w, en, hr⟩ := tgtUp_spec hM h0 h1 le_rfl
  obtain ⟨-, wd, end', hd⟩ := tgtDown_spec hM h0 h1 le_rfl
  have hND : tgtN r D nV nD cD0 D = nD := by unfold tgtN; rw [if_neg (by omega), if_pos rfl]
  rw [tgt_down r D nV nD cD0 h0 h1]
  refine ⟨w, wd, en, fun f hf => ⟨?_, fun k hk => ?_⟩⟩
  · -- A facet is a facet of the cell that created it.
    obtain ⟨facets, ids, e, hU⟩ := tgtS_spec hM h0 h1
    have hN : tgtN r D nV nD cD0 (D - 1) = (tgtS r nV nD cD0 (D - 1)).cd0.num := by
      unfold tgtN; rw [if_neg (by omega), if_neg (by omega), meshBuild_id e]
    have hin := hU.all f (by omega)
    rw [hU.ids_eq, List.mem_flatMap] at hin
    obtain ⟨k, hk, hm⟩ := hin
    have hk' := List.mem_range.1 hk
    refine List.ne_nil_of_mem ((hr f hf k).2 ⟨by rw [hND]; exact hk', ?_⟩)
    unfold tgtDown
    rw [if_pos rfl]
    exact hm
  · obtain ⟨k1, k2⟩ := (hr f hf k).1 hk
    exact ⟨by rw [end']; exact k1, k2⟩

end Verif.CMesh
