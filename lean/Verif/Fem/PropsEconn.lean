/-
The closed form of the field connectivity.
-/
import Verif.Fem.Nodes
import Verif.Fem.PropsFacetPerm
import Mathlib.Data.List.TakeDrop

namespace Verif.Fem

/-! ### Updates -/

theorem foldl_update_notMem {α κ β : Type} [DecidableEq κ] (l : List α) (k : α → κ) (v : α → β) (f : κ → β)
    (x : κ) (hx : ∀ a ∈ l, k a ≠ x) : l.foldl (fun f a => Function.update f (k a) (v a)) f x = f x := by
  induction l generalizing f with
  | nil => rfl
  | cons a l ih =>
    rw [List.foldl_cons, ih _ fun b hb => hx b (List.mem_cons_of_mem _ hb)]
    exact Function.update_of_ne (hx a List.mem_cons_self).symm _ _

theorem foldl_update_mem {α κ β : Type} [DecidableEq κ] (l : List α) (k : α → κ) (v : α → β) (f : κ → β)
    (a : α) (ha : a ∈ l) (hinj : ∀ b ∈ l, k b = k a → b = a) :
    l.foldl (fun f a => Function.update f (k a) (v a)) f (k a) = v a := by
  induction l generalizing f with
  | nil => cases ha
  | cons b l ih =>
    rw [List.foldl_cons]
    by_cases h : a ∈ l
    · exact ih _ h fun b hb => hinj b (List.mem_cons_of_mem _ hb)
    · have hb : a = b := by
        rcases List.mem_cons.1 ha with h' | h'
        · exact h'
        · exact absurd h' h
      subst hb
      rw [foldl_update_notMem]
      · exact Function.update_self ..
      · intro c hc e
        exact h (hinj c (List.mem_cons_of_mem _ hc) e ▸ hc)

theorem prepareRemap_getElem {l : List ℕ} (hl : l.Nodup) {i : ℕ} (hi : i < l.length) :
    prepareRemap l l[i] = i := by
  have h : (l[i], i) ∈ l.zipIdx := by
    rw [List.mem_zipIdx_iff_getElem?]; simp [hi]
  refine foldl_update_mem l.zipIdx Prod.fst (fun p => (p.2 : ℤ)) _ (l[i], i) h fun b hb e => ?_
  rw [List.mem_zipIdx_iff_getElem?, List.getElem?_eq_some_iff] at hb
  obtain ⟨hb1, hb2⟩ := hb
  have : b.2 = i := (List.Nodup.getElem_inj_iff hl).1 (hb2.trans e)
  exact Prod.ext e this

theorem prepareRemap_mem {l : List ℕ} (hl : l.Nodup) {x : ℕ} (hx : x ∈ l) :
    0 ≤ prepareRemap l x ∧ prepareRemap l x < l.length := by
  obtain ⟨i, hi, rfl⟩ := List.mem_iff_getElem.1 hx
  rw [prepareRemap_getElem hl hi]
  omega

theorem prepareRemap_inj {l : List ℕ} (hl : l.Nodup) {x y : ℕ} (hx : x ∈ l) (hy : y ∈ l) :
    prepareRemap l x = prepareRemap l y ↔ x = y := by
  obtain ⟨i, hi, rfl⟩ := List.mem_iff_getElem.1 hx
  obtain ⟨j, hj, rfl⟩ := List.mem_iff_getElem.1 hy
  rw [prepareRemap_getElem hl hi, prepareRemap_getElem hl hj, Nat.cast_inj, List.Nodup.getElem_inj_iff hl]

/-! ### Node types -/

/-- The types of the nodes: the vertices, the edges one after another, the faces one after another, the
inside of the cell. -/
def shape (nV nE ne nF nf nb : ℕ) : List (ℕ × ℕ) :=
  (List.range nV).map (fun i => (0, i)) ++ (List.range nE).flatMap (fun e => List.replicate ne (1, e))
    ++ (List.range nF).flatMap (fun f => List.replicate nf (2, f)) ++ List.replicate nb (3, 0)

theorem length_blocks {α : Type} (n m : ℕ) (f : ℕ → List α) (hf : ∀ i < n, (f i).length = m) :
    ((List.range n).flatMap f).length = n * m := by
  induction n with
  | zero => simp
  | succ n ih =>
    rw [List.range_succ, List.flatMap_append, List.length_append, ih fun i hi => hf i (by omega)]
    simp [hf n (by omega), Nat.succ_mul]

theorem getElem?_blocks {α : Type} (n m : ℕ) (f : ℕ → List α) (hf : ∀ i < n, (f i).length = m) (i j : ℕ)
    (hi : i < n) (hj : j < m) : ((List.range n).flatMap f)[i * m + j]? = (f i)[j]? := by
  induction n with
  | zero => omega
  | succ n ih =>
    have hl := length_blocks n m f fun i hi => hf i (by omega)
    rw [List.range_succ, List.flatMap_append]
    by_cases h : i < n
    · rw [List.getElem?_append_left, ih (fun i hi => hf i (by omega)) h]
      rw [hl]
      calc i * m + j < (i + 1) * m := by rw [Nat.succ_mul]; omega
        _ ≤ n * m := Nat.mul_le_mul_right _ h
    · obtain rfl : i = n := by omega
      rw [List.getElem?_append_right (by rw [hl]; omega), hl, Nat.add_sub_cancel_left]
      simp

theorem whereType_mid (l1 l2 l3 : List (ℕ × ℕ)) (t : ℕ) (h1 : ∀ x ∈ l1, x.1 ≠ t) (h2 : ∀ x ∈ l2, x.1 = t)
    (h3 : ∀ x ∈ l3, x.1 ≠ t) : whereType (l1 ++ l2 ++ l3) t = List.range' l1.length l2.length := by
  unfold whereType
  have hr : List.range (l1 ++ l2 ++ l3).length = List.range' 0 l1.length
      ++ List.range' l1.length l2.length ++ List.range' (l1.length + l2.length) l3.length := by
    rw [List.range_eq_range', List.length_append, List.length_append]
    rw [← List.range'_append_1, ← List.range'_append_1]
    simp
  rw [hr, List.filter_append, List.filter_append]
  have e1 : (List.range' 0 l1.length).filter
      (fun i => ((l1 ++ l2 ++ l3).getD i (0, 0)).1 == t) = [] := by
    rw [List.filter_eq_nil_iff]
    intro i hi
    have hi : i < l1.length := by simpa using hi
    rw [List.append_assoc, List.getD_append _ _ _ _ hi, List.getD_eq_getElem _ _ hi]
    simpa using h1 _ (List.getElem_mem hi)
  have e2 : (List.range' l1.length l2.length).filter
      (fun i => ((l1 ++ l2 ++ l3).getD i (0, 0)).1 == t) = List.range' l1.length l2.length := by
    rw [List.filter_eq_self]
    intro i hi
    have hi := List.mem_range'_1.1 hi
    rw [List.getD_append _ _ _ _ (by rw [List.length_append]; omega), List.getD_append_right _ _ _ _ hi.1,
      List.getD_eq_getElem _ _ (by omega)]
    simpa using h2 _ (List.getElem_mem _)
  have e3 : (List.range' (l1.length + l2.length) l3.length).filter
      (fun i => ((l1 ++ l2 ++ l3).getD i (0, 0)).1 == t) = [] := by
    rw [List.filter_eq_nil_iff]
    intro i hi
    have hi := List.mem_range'_1.1 hi
    rw [List.getD_append_right _ _ _ _ (by rw [List.length_append]; omega), List.length_append,
      List.getD_eq_getElem _ _ (by omega)]
    simpa using h3 _ (List.getElem_mem _)
  rw [e1, e2, e3]
  simp

theorem filter_steps (n m : ℕ) (hm : 1 ≤ m) :
    (List.range ((n + 1) * m - 1)).filter (fun k => decide ((k + 1) / m > k / m)) =
      (List.range n).map fun e => e * m + (m - 1) := by
  induction n with
  | zero =>
    simp only [Nat.zero_add, Nat.one_mul, List.range_zero, List.map_nil, List.filter_eq_nil_iff, List.mem_range]
    intro k hk
    rw [Nat.div_eq_of_lt (show k + 1 < m by omega), Nat.div_eq_of_lt (show k < m by omega)]
    simp
  | succ n ih =>
    have hs : (n + 1 + 1) * m - 1 = ((n + 1) * m - 1) + m := by
      have : 1 ≤ (n + 1) * m := Nat.mul_pos (by omega) hm
      rw [Nat.succ_mul (n + 1)]; omega
    rw [hs, List.range_eq_range', ← List.range'_append_1, List.filter_append, ← List.range_eq_range', ih,
      List.range_succ, List.map_append, Nat.zero_add]
    congr 1
    obtain ⟨m, rfl⟩ : ∃ k, m = k + 1 := ⟨m - 1, by omega⟩
    have h0 : (n + 1) * (m + 1) - 1 = n * (m + 1) + m := by rw [Nat.succ_mul]; omega
    rw [h0, List.range'_succ, List.filter_cons]
    have t1 : (n * (m + 1) + m + 1) / (m + 1) = n + 1 := by
      rw [show n * (m + 1) + m + 1 = (n + 1) * (m + 1) by ring]
      exact Nat.mul_div_cancel _ (by omega)
    have t2 : (n * (m + 1) + m) / (m + 1) = n := by
      rw [Nat.mul_comm, Nat.mul_add_div (by omega), Nat.div_eq_of_lt (by omega), Nat.add_zero]
    rw [if_pos (by rw [t1, t2]; simp), List.filter_eq_nil_iff.2]
    · simp
    · intro k hk
      have hk := List.mem_range'_1.1 hk
      obtain ⟨r, rfl⟩ : ∃ r, k = (m + 1) * (n + 1) + r := ⟨k - (m + 1) * (n + 1), by
        have : (m + 1) * (n + 1) = n * (m + 1) + m + 1 := by ring
        omega⟩
      have hr : r + 1 < m + 1 := by
        have : (m + 1) * (n + 1) = n * (m + 1) + m + 1 := by ring
        omega
      rw [Nat.add_assoc, Nat.mul_add_div (by omega), Nat.mul_add_div (by omega), Nat.div_eq_of_lt hr,
        Nat.div_eq_of_lt (show r < m + 1 by omega)]
      simp

theorem describeFacets_ok (nts : List (ℕ × ℕ)) (start n m : ℕ) (hn : 2 ≤ n) (hm : 1 ≤ m)
    (h : ∀ k < n * m, (nts.getD (start + k) (0, 0)).2 = k / m) :
    describeFacets nts (List.range' start (n * m)) =
      some ((List.range n).map fun e => List.range' (start + e * m) m) := by
  obtain ⟨n, rfl⟩ : ∃ k, n = k + 1 := ⟨n - 1, by omega⟩
  have ht : (List.range' start ((n + 1) * m)).map (fun i => (nts.getD i (0, 0)).2) =
      (List.range ((n + 1) * m)).map (· / m) := by
    rw [List.range'_eq_map_range, List.map_map]
    refine List.map_congr_left fun k hk => ?_
    exact h k (List.mem_range.1 hk)
  simp only [describeFacets, ht, List.length_map, List.length_range]
  have hik : (List.range ((n + 1) * m - 1)).filter (fun k =>
      decide (((List.range ((n + 1) * m)).map (· / m)).getD (k + 1) 0 >
        ((List.range ((n + 1) * m)).map (· / m)).getD k 0)) = (List.range n).map fun e => e * m + (m - 1) := by
    rw [← filter_steps n m hm]
    refine List.filter_congr fun k hk => ?_
    have hk := List.mem_range.1 hk
    rw [List.getD_eq_getElem _ _ (by simp; omega), List.getD_eq_getElem _ _ (by simp; omega)]
    simp
  rw [hik, if_neg (by simp; omega)]
  have hik2 : 0 :: ((List.range n).map fun e => e * m + (m - 1)).map (· + 1) ++ [(n + 1) * m] =
      (List.range (n + 2)).map (· * m) := by
    rw [List.map_map, List.range_succ, List.map_append, List.range_succ_eq_map, List.map_cons, List.map_map,
      Nat.zero_mul]
    congr 2
    refine List.map_congr_left fun e _ => ?_
    simp only [Function.comp_apply]
    rw [Nat.succ_mul]; omega
  rw [hik2]
  simp only [List.length_map, List.length_range]
  congr 1
  refine List.map_congr_left fun e he => ?_
  have he := List.mem_range.1 he
  rw [List.getD_eq_getElem _ _ (by simp; omega), List.getD_eq_getElem _ _ (by simp; omega)]
  simp only [List.getElem_map, List.getElem_range]
  have : (e + 1) * m - e * m = m := by rw [Nat.succ_mul]; omega
  rw [this]
  apply List.ext_getElem
  · simp only [List.length_take, List.length_drop, List.length_range']
    have : (e + 1) * m ≤ (n + 1) * m := Nat.mul_le_mul_right _ (by omega)
    rw [Nat.succ_mul] at this
    omega
  · intro i h1 h2
    simp
    try omega

theorem describeFacets_nil (nts : List (ℕ × ℕ)) : describeFacets nts [] = none := rfl

/-! ### The connectivity -/

theorem desc_getD (start n m f : ℕ) (hf : f < n) :
    ((List.range n).map fun e => List.range' (start + e * m) m).getD f [] = List.range' (start + f * m) m := by
  rw [List.getD_eq_getElem _ _ (by simpa using hf)]
  simp

theorem setupFacetDofs_at (start n m nFp order : ℕ) (offset : ℤ) (cells facets : List ℕ)
    (ids oris : ℕ → ℕ → ℕ) (econn : ℕ × ℕ → ℤ) (hn : 1 ≤ n) (el f j : ℕ) (hel : el < cells.length) (hf : f < n)
    (hj : j < m) :
    (setupFacetDofs ((List.range n).map fun e => List.range' (start + e * m) m) nFp order offset cells facets
      ids oris n econn).1 (el, start + f * m + j) =
      offset + (m * prepareRemap facets (ids (cells.getD el 0) f) +
        permItem nFp order m (oris (cells.getD el 0) f) j) := by
  have hd : (((List.range n).map fun e => List.range' (start + e * m) m).headD []).length = m := by
    obtain ⟨n, rfl⟩ : ∃ k, n = k + 1 := ⟨n - 1, by omega⟩
    simp [List.range_succ_eq_map]
  have hg : ∀ f < n, ∀ j < m, (((List.range n).map fun e => List.range' (start + e * m) m).getD f []).getD j 0
      = start + f * m + j := by
    intro f hf j hj
    rw [desc_getD _ _ _ _ hf, List.getD_eq_getElem _ _ (by simpa using hj)]
    simp
  simp only [setupFacetDofs, hd]
  have hmem : ∀ q : ℕ × ℕ × ℕ, q ∈ ((List.range cells.length).flatMap fun el => (List.range n).flatMap fun f =>
      (List.range m).map fun j => (el, f, j)) ↔ q.1 < cells.length ∧ q.2.1 < n ∧ q.2.2 < m := by
    rintro ⟨a, b, c⟩
    simp only [List.mem_flatMap, List.mem_range, List.mem_map, Prod.mk.injEq]
    constructor
    · rintro ⟨x, hx, y, hy, z, hz, rfl, rfl, rfl⟩; exact ⟨hx, hy, hz⟩
    · rintro ⟨hx, hy, hz⟩; exact ⟨a, hx, b, hy, c, hz, rfl, rfl, rfl⟩
  have := foldl_update_mem ((List.range cells.length).flatMap fun el => (List.range n).flatMap fun f =>
      (List.range m).map fun j => (el, f, j))
    (fun q : ℕ × ℕ × ℕ => (q.1, (((List.range n).map fun e => List.range' (start + e * m) m).getD q.2.1 []).getD
      q.2.2 0))
    (fun q => offset + (m * prepareRemap facets (ids (cells.getD q.1 0) q.2.1) +
        permItem nFp order m (oris (cells.getD q.1 0) q.2.1) q.2.2)) econn (el, f, j)
    ((hmem _).2 ⟨hel, hf, hj⟩) ?_
  · simp only [hg f hf j hj] at this
    exact this
  · intro b hb e
    have hb := (hmem b).1 hb
    rw [hg f hf j hj, hg _ hb.2.1 _ hb.2.2] at e
    obtain ⟨e1, e2⟩ := Prod.mk.inj e
    have e3 : b.2.1 * m + b.2.2 = f * m + j := by omega
    have e4 : b.2.1 = f := by
      have := congrArg (· / m) e3
      simp only [Nat.mul_comm _ m, Nat.mul_add_div (show 0 < m by omega), Nat.div_eq_of_lt hj,
        Nat.div_eq_of_lt hb.2.2] at this
      omega
    rw [e4] at e3
    ext
    · exact e1
    · exact e4
    · simp; omega

theorem setupFacetDofs_other (start n m nFp order : ℕ) (offset : ℤ) (cells facets : List ℕ)
    (ids oris : ℕ → ℕ → ℕ) (econn : ℕ × ℕ → ℤ) (hn : 1 ≤ n) (el col : ℕ)
    (hcol : col < start ∨ start + n * m ≤ col) :
    (setupFacetDofs ((List.range n).map fun e => List.range' (start + e * m) m) nFp order offset cells facets
      ids oris n econn).1 (el, col) = econn (el, col) := by
  have hd : (((List.range n).map fun e => List.range' (start + e * m) m).headD []).length = m := by
    obtain ⟨n, rfl⟩ : ∃ k, n = k + 1 := ⟨n - 1, by omega⟩
    simp [List.range_succ_eq_map]
  simp only [setupFacetDofs, hd]
  refine foldl_update_notMem _ (fun q : ℕ × ℕ × ℕ => (q.1, (((List.range n).map fun e =>
    List.range' (start + e * m) m).getD q.2.1 []).getD q.2.2 0))
    (fun q => offset + (m * prepareRemap facets (ids (cells.getD q.1 0) q.2.1) +
        permItem nFp order m (oris (cells.getD q.1 0) q.2.1) q.2.2)) econn (el, col) ?_
  rintro ⟨a, f, j⟩ hq e
  simp only [List.mem_flatMap, List.mem_range, List.mem_map, Prod.mk.injEq] at hq
  obtain ⟨x, hx, y, hf, z, hj, rfl, rfl, rfl⟩ := hq
  simp only at e
  rw [desc_getD _ _ _ _ hf, List.getD_eq_getElem _ _ (by simpa using hj)] at e
  have := (Prod.mk.inj e).2
  simp at this
  have h2 : y * m + z < n * m := by
    calc y * m + z < (y + 1) * m := by rw [Nat.succ_mul]; omega
      _ ≤ n * m := Nat.mul_le_mul_right _ hf
  omega

theorem setupFacetDofs_num (start n m nFp order : ℕ) (offset : ℤ) (cells facets : List ℕ)
    (ids oris : ℕ → ℕ → ℕ) (econn : ℕ × ℕ → ℤ) (hn : 1 ≤ n) :
    (setupFacetDofs ((List.range n).map fun e => List.range' (start + e * m) m) nFp order offset cells facets
      ids oris n econn).2 = m * facets.length := by
  have hd : (((List.range n).map fun e => List.range' (start + e * m) m).headD []).length = m := by
    obtain ⟨n, rfl⟩ : ∃ k, n = k + 1 := ⟨n - 1, by omega⟩
    simp [List.range_succ_eq_map]
  simp only [setupFacetDofs, hd]

theorem describe_shape (nV nE ne nF nf nb : ℕ) :
    whereType (shape nV nE ne nF nf nb) 1 = List.range' nV (nE * ne) ∧
    whereType (shape nV nE ne nF nf nb) 2 = List.range' (nV + nE * ne) (nF * nf) ∧
    whereType (shape nV nE ne nF nf nb) 3 = List.range' (nV + nE * ne + nF * nf) nb ∧
    (∀ k < nE * ne, ((shape nV nE ne nF nf nb).getD (nV + k) (0, 0)).2 = k / ne) ∧
    (∀ k < nF * nf, ((shape nV nE ne nF nf nb).getD (nV + nE * ne + k) (0, 0)).2 = k / nf) := by
  have l1 : ((List.range nE).flatMap (fun e => List.replicate ne ((1 : ℕ), e))).length = nE * ne :=
    length_blocks _ _ _ fun i _ => by simp
  have l2 : ((List.range nF).flatMap (fun e => List.replicate nf ((2 : ℕ), e))).length = nF * nf :=
    length_blocks _ _ _ fun i _ => by simp
  refine ⟨?_, ?_, ?_, ?_, ?_⟩
  · rw [shape, List.append_assoc _ _ (List.replicate nb _), whereType_mid, List.length_map, List.length_range, l1]
    · simp
    · simp [List.mem_flatMap]
      intros; assumption
    · intro x hx
      simp [List.mem_flatMap] at hx
      rcases hx with ⟨_, _, _, rfl⟩ | ⟨_, rfl⟩ <;> simp
  · rw [shape, whereType_mid, List.length_append, List.length_map, List.length_range, l1, l2]
    · intro x hx
      simp [List.mem_flatMap] at hx
      rcases hx with ⟨_, _, rfl⟩ | ⟨_, _, _, rfl⟩ <;> simp
    · simp [List.mem_flatMap]
      intros; assumption
    · simp
  · have := whereType_mid ((List.range nV).map (fun i => (0, i))
      ++ (List.range nE).flatMap (fun e => List.replicate ne (1, e))
      ++ (List.range nF).flatMap (fun f => List.replicate nf (2, f))) (List.replicate nb (3, 0)) [] 3 ?_ ?_ ?_
    · rw [List.append_nil] at this
      rw [shape, this]
      simp only [List.length_append, List.length_map, List.length_range, l1, l2, List.length_replicate]
    · intro x hx
      simp [List.mem_flatMap] at hx
      rcases hx with ⟨_, _, rfl⟩ | ⟨_, _, _, rfl⟩ | ⟨_, _, _, rfl⟩ <;> simp
    · simp
    · simp
  · intro k hk
    have hne : 0 < ne := by
      rcases Nat.eq_zero_or_pos ne with h | h
      · subst h; simp at hk
      · exact h
    rw [shape, List.append_assoc, List.append_assoc, List.getD_append_right _ _ _ _ (by simp),
      List.length_map, List.length_range, Nat.add_sub_cancel_left, List.getD_append _ _ _ _ (by rw [l1]; exact hk),
      List.getD_eq_getElem?_getD]
    have hdiv : k / ne < nE := (Nat.div_lt_iff_lt_mul hne).2 hk
    have := getElem?_blocks nE ne (fun e => List.replicate ne ((1 : ℕ), e)) (fun _ _ => by simp) (k / ne) (k % ne)
      hdiv (Nat.mod_lt _ hne)
    rw [Nat.div_add_mod'] at this
    rw [this]
    simp [Nat.mod_lt _ hne]
  · intro k hk
    have hne : 0 < nf := by
      rcases Nat.eq_zero_or_pos nf with h | h
      · subst h; simp at hk
      · exact h
    rw [shape, List.append_assoc, List.getD_append_right _ _ _ _ (by simp [l1]),
      List.length_append, List.length_map, List.length_range, l1, Nat.add_sub_cancel_left,
      List.getD_append _ _ _ _ (by rw [l2]; exact hk), List.getD_eq_getElem?_getD]
    have hdiv : k / nf < nF := (Nat.div_lt_iff_lt_mul hne).2 hk
    have := getElem?_blocks nF nf (fun e => List.replicate nf ((2 : ℕ), e)) (fun _ _ => by simp) (k / nf) (k % nf)
      hdiv (Nat.mod_lt _ hne)
    rw [Nat.div_add_mod'] at this
    rw [this]
    simp [Nat.mod_lt _ hne]

end Verif.Fem
