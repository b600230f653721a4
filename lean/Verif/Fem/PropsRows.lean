/-
The rows of the nodes of the Lagrange elements are all the multi-indices, each once.
-/
import Verif.Fem.PropsDofs
import Verif.Fem.PropsLagVal

namespace Verif.Fem

open Finset
open Verif.CMesh (oriKey)

/-- The field on one cell. -/
def oneCell (g : Gel) : FieldData where
  conn := fun _ i => i
  edgeId := fun _ e => e
  faceId := fun _ f => f
  edgeOri := fun _ e => oriKey (g.edges.getD e [])
  faceOri := fun _ f => oriKey (g.faces.getD f [])
  verts := List.range g.nV
  edges := List.range g.edges.length
  faces := List.range g.faces.length
  cells := [0]

theorem oneCell_ok {g : Gel}
    (he : ∀ e < g.edges.length, ∀ e' < g.edges.length, (g.edges.getD e []).Perm (g.edges.getD e' []) → e = e')
    (hf : ∀ e < g.faces.length, ∀ e' < g.faces.length, (g.faces.getD e []).Perm (g.faces.getD e' []) → e = e') :
    MeshOk g (oneCell g) where
  verts_nodup := List.nodup_range
  edges_nodup := List.nodup_range
  faces_nodup := List.nodup_range
  verts := fun c _ i hi => by simpa [oneCell] using hi
  edges := fun c _ i hi => by simpa [oneCell] using hi
  faces := fun c _ i hi => by simpa [oneCell] using hi
  inj := fun c _ i _ i' _ h => h
  cell := fun el h el' h' _ => by simp [oneCell] at h h'; omega
  edge_eq := fun c _ c' _ e h e' h' => by
    simp only [oneCell, List.map_id']
    exact ⟨fun e => e ▸ List.Perm.refl _, he e h e' h'⟩
  face_eq := fun c _ c' _ e h e' h' => by
    simp only [oneCell, List.map_id']
    exact ⟨fun e => e ▸ List.Perm.refl _, hf e h e' h'⟩
  quad := fun c _ c' _ f h f' h' e x y z w ex => by
    simp only [oneCell] at e ex ⊢
    subst e
    rw [ex]
    exact around_self x y z w
  edgeOri := fun c _ e h => by simp [oneCell]
  faceOri := fun c _ e h => by simp [oneCell]

theorem oneCell_covered (g : Gel) : Covered g (oneCell g) where
  verts := fun v hv => ⟨0, by simp [oneCell], v, by simpa [oneCell] using hv, rfl⟩
  edges := fun v hv => ⟨0, by simp [oneCell], v, by simpa [oneCell] using hv, rfl⟩
  faces := fun v hv => ⟨0, by simp [oneCell], v, by simpa [oneCell] using hv, rfl⟩

/-- Nodes with the same row are the same node. -/
theorem rows_inj {g : Gel} {N : List Nod} {order ne nf nb : ℕ} {loc : (ℕ → ℕ) → (ℕ → ℕ) → ℕ → ℕ}
    (S : HasShape g N ne nf nb) (L : Located g N order ne nf nb loc)
    (he : ∀ e < g.edges.length, ∀ e' < g.edges.length, (g.edges.getD e []).Perm (g.edges.getD e' []) → e = e')
    (hf : ∀ e < g.faces.length, ∀ e' < g.faces.length, (g.faces.getD e []).Perm (g.faces.getD e' []) → e = e')
    {k k' : ℕ} (hk : k < N.length) (hk' : k' < N.length)
    (h : ∀ v, loc id (rowAt N k) v = loc id (rowAt N k') v) : k = k' := by
  have M := oneCell_ok he hf
  have C := oneCell_covered g
  have H := S.econn order (oneCell g)
  have hn : (oneCell g).cells.length = 1 := rfl
  have hlen := S.length
  have hnum : (setupGlobalBasis g N order (oneCell g)).2 = N.length := by
    rw [H.num, hlen]
    simp only [oneCell, List.length_range, List.length_cons, List.length_nil]
    push_cast
    ring
  have hE : (setupGlobalBasis g N order (oneCell g)).1 (0, k) = (setupGlobalBasis g N order (oneCell g)).1 (0, k') := by
    rw [conforming L M H (by omega) (by omega) (hlen ▸ hk) (hlen ▸ hk')]
    exact h
  set f : ℕ → ℕ := fun k => ((setupGlobalBasis g N order (oneCell g)).1 (0, k)).toNat with hf'
  have hsurj : ∀ x < N.length, ∃ k < N.length, f k = x := by
    intro x hx
    obtain ⟨el, hel, k, hk, e⟩ := econn_onto L M C H (x := (x : ℤ)) (by omega) (by omega)
    obtain rfl : el = 0 := by omega
    exact ⟨k, hlen ▸ hk, by simp [hf', e]⟩
  have hinj : Set.InjOn f (range N.length : Finset ℕ) := by
    have himg : (range N.length).image f = range N.length ∨ (range N.length) ⊆ (range N.length).image f := by
      right
      intro x hx
      obtain ⟨k, hk, e⟩ := hsurj x (mem_range.1 hx)
      exact mem_image.2 ⟨k, mem_range.2 hk, e⟩
    have hle : N.length ≤ ((range N.length).image f).card := by
      rcases himg with h | h
      · rw [h, card_range]
      · simpa using card_le_card h
    exact Finset.injOn_of_card_image_eq (le_antisymm card_image_le (by simpa using hle))
  exact hinj (by simpa using hk) (by simpa using hk') (by simp [hf', hE])

theorem simplexLoc_id (nV : ℕ) (row : ℕ → ℕ) {v : ℕ} (hv : v < nV) : simplexLoc nV id row v = row v := by
  simp only [simplexLoc, id]
  rw [Finset.sum_ite_eq']
  simp [hv]

/-! ### Simplices -/

/-- The nodes of the supported simplices. -/
def IsSimplex (g : Gel) : Prop := g = gel12 ∨ g = gel23 ∨ g = gel34

/-- The supported tensor product elements. -/
def IsTensor (g : Gel) : Prop := g = gel12 ∨ g = gel24 ∨ g = gel38

theorem simplex_rows_inj {g : Gel} (hg : IsSimplex g) {o : ℕ} (ho : 1 ≤ o) {k k' : ℕ}
    (hk : k < (simplexNodes g o).length) (hk' : k' < (simplexNodes g o).length)
    (h : rowAt (simplexNodes g o) k = rowAt (simplexNodes g o) k') : k = k' := by
  rcases hg with rfl | rfl | rfl
  · exact rows_inj (shape12 o) (located12 ho) (by decide) (by decide) hk hk' fun v => by rw [h]
  · exact rows_inj (shape23 o) (located23 ho) (by decide) (by decide) hk hk' fun v => by rw [h]
  · exact rows_inj (shape34 o) (located34 ho) (by decide) (by decide) hk hk' fun v => by rw [h]

theorem sum_single (nV a c : ℕ) (ha : a < nV) : ∑ i ∈ range nV, (if i = a then c else 0) = c := by
  rw [Finset.sum_ite_eq']; simp [ha]

theorem sum_edgeW {nV o a b j : ℕ} (ha : a < nV) (hb : b < nV) (hj : j < o - 1) :
    ∑ i ∈ range nV, edgeW o a b j i = o := by
  simp only [edgeW, sum_add_distrib, sum_single _ _ _ ha, sum_single _ _ _ hb]
  omega

theorem sum_triW {nV m a b c : ℕ} {p : ℕ × ℕ} (ha : a < nV) (hb : b < nV) (hc : c < nV) (hp : p.1 + p.2 < m) :
    ∑ i ∈ range nV, triW m a b c p i = m + 2 := by
  simp only [triW, sum_add_distrib, sum_single _ _ _ ha, sum_single _ _ _ hb, sum_single _ _ _ hc]
  omega

/-- A row of a simplex. -/
def SRow (nV o : ℕ) (row : ℕ → ℕ) : Prop := ∑ i ∈ range nV, row i = o ∧ ∀ i, nV ≤ i → row i = 0

theorem srow_vert {nV o i : ℕ} (hi : i < nV) : SRow nV o fun k => if k = i then o else 0 :=
  ⟨sum_single _ _ _ hi, fun j hj => if_neg (by omega)⟩

theorem srow_edge {nV o a b j : ℕ} (ha : a < nV) (hb : b < nV) (hj : j < o - 1) : SRow nV o (edgeW o a b j) :=
  ⟨sum_edgeW ha hb hj, fun i hi => by simp [edgeW, show i ≠ a by omega, show i ≠ b by omega]⟩

theorem srow_tri {nV o a b c j : ℕ} (ha : a < nV) (hb : b < nV) (hc : c < nV) (hj : j < (triL (o - 2)).length) :
    SRow nV o (triW (o - 2) a b c ((triL (o - 2)).getD j (0, 0))) := by
  rw [List.getD_eq_getElem _ _ hj]
  have := mem_triL.1 (List.getElem_mem hj)
  refine ⟨?_, fun i hi => by simp [triW, show i ≠ a by omega, show i ≠ b by omega, show i ≠ c by omega]⟩
  rw [sum_triW ha hb hc this]
  omega

theorem simplex_srow {g : Gel} (hg : IsSimplex g) {o : ℕ} (ho : 1 ≤ o) {k : ℕ}
    (hk : k < (simplexNodes g o).length) : SRow g.nV o (rowAt (simplexNodes g o) k) := by
  rcases hg with rfl | rfl | rfl
  · rw [(shape12 o).length] at hk
    obtain ⟨κ, l, hc⟩ := Col.exists hk
    cases hc with
    | vert i hi => rw [row12_vert hi]; exact srow_vert hi
    | edge e j he hj => simp [gel12] at he
    | face f j hf hj => simp [gel12] at hf
    | bubble j hj => exact (row12_bubble ho hj) ▸ srow_edge (by decide) (by decide) hj
  · rw [(shape23 o).length] at hk
    obtain ⟨κ, l, hc⟩ := Col.exists hk
    cases hc with
    | vert i hi => rw [row23_vert hi]; exact srow_vert hi
    | edge e j he hj =>
      obtain ⟨a, -, b⟩ := gel23_edges e he
      exact (row23_edge ho he hj) ▸ srow_edge (getD_lt (by omega) b) (getD_lt (by omega) b) hj
    | face f j hf hj => simp [gel23] at hf
    | bubble j hj => exact (row23_bubble ho hj) ▸ srow_tri (by decide) (by decide) (by decide) hj
  · rw [(shape34 o).length] at hk
    obtain ⟨κ, l, hc⟩ := Col.exists hk
    cases hc with
    | vert i hi => rw [row34_vert hi]; exact srow_vert hi
    | edge e j he hj =>
      obtain ⟨a, -, b⟩ := gel34_edges e he
      exact (row34_edge ho he hj) ▸ srow_edge (getD_lt (by omega) b) (getD_lt (by omega) b) hj
    | face f j hf hj =>
      obtain ⟨a, -, b⟩ := gel34_faces f hf
      exact (row34_face ho hf hj) ▸ srow_tri (getD_lt (by omega) b) (getD_lt (by omega) b) (getD_lt (by omega) b) hj
    | bubble j hj =>
      refine (row34_bubble ho hj) ▸ ?_
      rw [List.getD_eq_getElem _ _ hj]
      have := mem_tetL.1 (List.getElem_mem hj)
      refine ⟨?_, fun i hi => ?_⟩
      · simp [tetW, gel34, Finset.sum_range_succ]
        omega
      · have : 4 ≤ i := hi
        simp [tetW, show i ≠ 0 by omega, show i ≠ 1 by omega, show i ≠ 2 by omega, show i ≠ 3 by omega]

/-- The sum over the nodes of a simplex is the sum over all the multi-indices. -/
theorem simplex_sum {α : Type} [AddCommMonoid α] {g : Gel} (hg : IsSimplex g) {o : ℕ} (ho : 1 ≤ o)
    (F : (ℕ → ℕ) → α) :
    ∑ k ∈ range (simplexNodes g o).length, F (rowAt (simplexNodes g o) k) =
      ∑ m ∈ finsuppAntidiag (range g.nV) o, F m := by
  set N := simplexNodes g o with hN
  have hsupp : ∀ k < N.length, ∀ i, rowAt N k i ≠ 0 → i ∈ range g.nV := fun k hk i hi => by
    by_contra hc
    exact hi ((simplex_srow hg ho hk).2 i (by simpa using hc))
  have hfin : ∀ k < N.length, (Function.support (rowAt N k)).Finite := fun k hk =>
    (range g.nV).finite_toSet.subset fun i hi => by
      exact_mod_cast hsupp k hk i hi
  let e : ℕ → (ℕ →₀ ℕ) := fun k => if h : k < N.length then Finsupp.ofSupportFinite (rowAt N k) (hfin k h) else 0
  have he : ∀ k < N.length, ⇑(e k) = rowAt N k := fun k hk => by
    simp only [e, dif_pos hk]; rfl
  have hmap : ∀ k ∈ range N.length, e k ∈ finsuppAntidiag (range g.nV) o := fun k hk => by
    rw [mem_range] at hk
    rw [mem_finsuppAntidiag]
    refine ⟨?_, fun i hi => ?_⟩
    · simp only [he k hk]
      exact (simplex_srow hg ho hk).1
    · rw [Finsupp.mem_support_iff, he k hk] at hi
      exact hsupp k hk i hi
  have hinj : Set.InjOn e (range N.length : Finset ℕ) := fun k hk k' hk' h => by
    have hk : k < N.length := by simpa using hk
    have hk' : k' < N.length := by simpa using hk'
    exact simplex_rows_inj hg ho hk hk' (by rw [← hN, ← he k hk, ← he k' hk', h])
  have himg : (range N.length).image e = finsuppAntidiag (range g.nV) o := by
    apply Finset.eq_of_subset_of_card_le
    · intro x hx
      obtain ⟨k, hk, rfl⟩ := mem_image.1 hx
      exact hmap k hk
    · rw [card_image_of_injOn hinj, card_range, card_finsuppAntidiag_nat_eq_choose, card_range, hN,
        C55_count_simplex g hg o ho]
      rcases hg with rfl | rfl | rfl
      · simp only [gel12]
        rw [show 2 + o - 1 = o + 1 by omega, ← Nat.choose_symm_add]
      · simp only [gel23]
        rw [show 3 + o - 1 = o + 2 by omega, ← Nat.choose_symm_add]
      · simp only [gel34]
        rw [show 4 + o - 1 = o + 3 by omega, ← Nat.choose_symm_add]
  rw [← himg, sum_image hinj]
  exact sum_congr rfl fun k hk => by rw [he k (mem_range.1 hk)]

/-! ### Tensor product elements -/

/-- A row of a tensor product element. -/
def TRow (dim o : ℕ) (row : ℕ → ℕ) : Prop := ∀ d < dim, row (2 * d) + row (2 * d + 1) = o

theorem vertexMap_le (dim i d : ℕ) (hd : 1 ≤ dim ∧ dim ≤ 3) (hi : i < 2 ^ dim) (hdd : d < dim) : vertexMap dim i d ≤ 1 := by
  obtain ⟨h1, h2⟩ := hd
  interval_cases dim <;> interval_cases i <;> interval_cases d <;> decide

theorem bitRow_pair {dim i d : ℕ} (hd : 1 ≤ dim ∧ dim ≤ 3) (hi : i < 2 ^ dim) (hdd : d < dim) :
    bitRow dim i (2 * d) + bitRow dim i (2 * d + 1) = 1 := by
  have := vertexMap_le dim i d hd hi hdd
  simp only [bitRow]
  rw [if_pos (by omega), if_neg (by omega), show 2 * d / 2 = d by omega, show (2 * d + 1) / 2 = d by omega]
  omega

theorem trow_vert {dim o i : ℕ} (hd : 1 ≤ dim ∧ dim ≤ 3) (hi : i < 2 ^ dim) : TRow dim o fun k => o * bitRow dim i k :=
  fun d h => by
    simp only
    rw [← Nat.mul_add, bitRow_pair hd hi h, Nat.mul_one]

theorem trow_edge {dim o a b j : ℕ} (hd : 1 ≤ dim ∧ dim ≤ 3) (ha : a < 2 ^ dim) (hb : b < 2 ^ dim) (hj : j < o - 1) :
    TRow dim o fun k => (o - 1 - j) * bitRow dim a k + (j + 1) * bitRow dim b k := fun d h => by
  have h1 := bitRow_pair hd ha h
  have h2 := bitRow_pair hd hb h
  calc _ = (o - 1 - j) * (bitRow dim a (2 * d) + bitRow dim a (2 * d + 1))
      + (j + 1) * (bitRow dim b (2 * d) + bitRow dim b (2 * d + 1)) := by ring
    _ = o := by rw [h1, h2]; omega

theorem tensor_trow {g : Gel} (hg : IsTensor g) {o : ℕ} (ho : 1 ≤ o) {k : ℕ}
    (hk : k < (tensorNodes g o).length) : TRow g.dim o (rowAt (tensorNodes g o) k) := by
  rcases hg with rfl | rfl | rfl
  · rw [(tshape12 o).length] at hk
    obtain ⟨κ, l, hc⟩ := Col.exists hk
    cases hc with
    | vert i hi => rw [trow12_vert hi]; exact trow_vert (by decide) hi
    | edge e j he hj => simp [gel12] at he
    | face f j hf hj => simp [gel12] at hf
    | bubble j hj => exact (trow12_bubble ho hj) ▸ trow_edge (by decide) (by decide) (by decide) hj
  · rw [(tshape24 o).length] at hk
    obtain ⟨κ, l, hc⟩ := Col.exists hk
    cases hc with
    | vert i hi => rw [trow24_vert hi]; exact trow_vert (by decide) hi
    | edge e j he hj =>
      obtain ⟨a, -, b⟩ := gel24_edges e he
      exact (trow24_edge ho he hj) ▸ trow_edge (by decide) (getD_lt (by omega) b) (getD_lt (by omega) b) hj
    | face f j hf hj => simp [gel24] at hf
    | bubble j hj =>
      obtain ⟨p, -, h1, h2, hr⟩ := trow24_bubble ho hj
      refine hr ▸ fun d hd => ?_
      obtain ⟨e0, e1, e2, e3, e4⟩ := sq_div o (o - 1 - p.2) (p.2 + 1) (o - 1 - p.1) (p.1 + 1) ho (by omega) (by omega)
      have hd : d < 2 := hd
      interval_cases d <;> simp [bitRow, vertexMap, e0, e1, e2, e3, e4] <;> omega
  · rw [(tshape38 o).length] at hk
    obtain ⟨κ, l, hc⟩ := Col.exists hk
    cases hc with
    | vert i hi => rw [trow38_vert hi]; exact trow_vert (by decide) hi
    | edge e j he hj =>
      obtain ⟨a, -, b⟩ := gel38_edges e he
      exact (trow38_edge ho he hj) ▸ trow_edge (by decide) (getD_lt (by omega) b) (getD_lt (by omega) b) hj
    | face f j hf hj =>
      obtain ⟨p, -, h1, h2, hr⟩ := trow38_face ho hf hj
      refine hr ▸ fun d hd => ?_
      obtain ⟨e0, e1, e2, e3, e4⟩ := sq_div o (o - 1 - p.2) (p.2 + 1) (o - 1 - p.1) (p.1 + 1) ho (by omega) (by omega)
      have hd : d < 3 := hd
      have hf : f < 6 := hf
      interval_cases f <;> interval_cases d <;>
        simp [bitRow, quadRow, vertexMap, gel38, e0, e1, e2, e3, e4] <;> omega
    | bubble j hj =>
      obtain ⟨p, -, h1, h2, h3, hr⟩ := trow38_bubble hj
      obtain ⟨k0, k1, k2, k3, k4, k5⟩ := cubeRow_items (c1 := o - (p.2.2 + 1)) (c2 := o - (p.2.1 + 1))
        (c3 := o - (p.1 + 1)) (c4 := p.2.2 + 1) (c5 := p.2.1 + 1) (c6 := p.1 + 1) ho (by omega) (by omega) (by omega)
      refine hr ▸ fun d hd => ?_
      have hd : d < 3 := hd
      interval_cases d
      · simp only [Nat.mul_zero, Nat.zero_add, k0, k1]; omega
      · simp only [Nat.mul_one, Nat.reduceAdd, k2, k3]; omega
      · simp only [Nat.reduceMul, Nat.reduceAdd, k4, k5]; omega

theorem tensor_rows_inj {g : Gel} (hg : IsTensor g) {o : ℕ} (ho : 1 ≤ o) {k k' : ℕ}
    (hk : k < (tensorNodes g o).length) (hk' : k' < (tensorNodes g o).length)
    (h : ∀ d < g.dim, rowAt (tensorNodes g o) k (2 * d + 1) = rowAt (tensorNodes g o) k' (2 * d + 1)) : k = k' := by
  have r := tensor_trow hg ho hk
  have r' := tensor_trow hg ho hk'
  have hloc : ∀ dim nV, dim = g.dim → nV = g.nV → nV = 2 ^ dim → 1 ≤ dim ∧ dim ≤ 3 → ∀ v,
      tensorLoc dim nV id (rowAt (tensorNodes g o) k) v = tensorLoc dim nV id (rowAt (tensorNodes g o) k') v := by
    intro dim nV e1 e2 e3 hd v
    subst e1
    simp only [tensorLoc]
    refine sum_congr rfl fun i hi => ?_
    split_ifs
    · refine prod_congr rfl fun d hdd => ?_
      rw [mem_range] at hi hdd
      have := vertexMap_le g.dim i d hd (e3 ▸ hi) hdd
      have a := r d hdd; have b := r' d hdd; have c := h d hdd
      have : vertexMap g.dim i d = 0 ∨ vertexMap g.dim i d = 1 := by omega
      rcases this with e | e <;> rw [e]
      · simp only [Nat.add_zero]; omega
      · exact c
    · rfl
  rcases hg with rfl | rfl | rfl
  · exact rows_inj (tshape12 o) (tlocated12 ho) (by decide) (by decide) hk hk'
      (hloc 1 2 rfl rfl rfl (by decide))
  · exact rows_inj (tshape24 o) (tlocated24 ho) (by decide) (by decide) hk hk'
      (hloc 2 4 rfl rfl rfl (by decide))
  · exact rows_inj (tshape38 o) (tlocated38 ho) (by decide) (by decide) hk hk'
      (hloc 3 8 rfl rfl rfl (by decide))

/-- The sum over the nodes of a tensor product element is the sum over all the tuples of `0, ..., order`. -/
theorem tensor_sum {α : Type} [AddCommMonoid α] {g : Gel} (hg : IsTensor g) {o : ℕ} (ho : 1 ≤ o)
    (F : (Fin g.dim → ℕ) → α) :
    ∑ k ∈ range (tensorNodes g o).length, F (fun d => rowAt (tensorNodes g o) k (2 * d + 1)) =
      ∑ m ∈ Fintype.piFinset fun _ : Fin g.dim => range (o + 1), F m := by
  set N := tensorNodes g o with hN
  let e : ℕ → (Fin g.dim → ℕ) := fun k d => rowAt N k (2 * d + 1)
  have hmap : ∀ k ∈ range N.length, e k ∈ Fintype.piFinset fun _ : Fin g.dim => range (o + 1) := fun k hk => by
    rw [mem_range] at hk
    rw [Fintype.mem_piFinset]
    intro d
    have := tensor_trow hg ho hk d d.2
    rw [mem_range]
    show rowAt N k (2 * d + 1) < o + 1
    rw [← hN] at this
    omega
  have hinj : Set.InjOn e (range N.length : Finset ℕ) := fun k hk k' hk' h => by
    have hk : k < N.length := by simpa using hk
    have hk' : k' < N.length := by simpa using hk'
    exact tensor_rows_inj hg ho hk hk' fun d hd => congrFun h ⟨d, hd⟩
  have himg : (range N.length).image e = Fintype.piFinset fun _ : Fin g.dim => range (o + 1) := by
    apply Finset.eq_of_subset_of_card_le
    · intro x hx
      obtain ⟨k, hk, rfl⟩ := mem_image.1 hx
      exact hmap k hk
    · rw [card_image_of_injOn hinj, card_range, hN, C55_count_tensor g hg o ho]
      simp
  rw [← himg, sum_image hinj]

end Verif.Fem
