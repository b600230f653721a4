/-
The range and the numbers of the DOFs.
-/
import Verif.Fem.PropsTensor
import Verif.CMesh.PropsPipeline
import Mathlib.Data.Nat.Choose.Basic
import Mathlib.Data.Fintype.EquivFin

namespace Verif.Fem

open Finset
open Verif.CMesh (oriKey)

/-! ### The range of the DOFs -/

section
variable {g : Gel} {N : List Nod} {order ne nf nb : ℕ} {d : FieldData} {E : (ℕ × ℕ → ℤ) × ℤ}
  {loc : (ℕ → ℕ) → (ℕ → ℕ) → ℕ → ℕ}

theorem Col.le3 {κ k : ℕ} {l : List ℕ} (h : Col g ne nf nb κ l k) : κ ≤ 3 := by
  cases h <;> omega

theorem econn_range (L : Located g N order ne nf nb loc) (M : MeshOk g d) (h : Econn g order ne nf nb d E)
    {el k : ℕ} (hel : el < d.cells.length) (hk : k < g.nV + g.edges.length * ne + g.faces.length * nf + nb) :
    0 ≤ E.1 (el, k) ∧ E.1 (el, k) < E.2 := by
  obtain ⟨κ, l, hc⟩ := Col.exists hk
  have h1 := hc.range L M h hel
  have h3 := hc.le3
  have h4 := lo_mono (ne := ne) (nf := nf) (nb := nb) (d := d) (show 0 ≤ κ by omega)
  have h5 := lo_mono (ne := ne) (nf := nf) (nb := nb) (d := d) (show κ + 1 ≤ 4 by omega)
  have h6 : lo ne nf nb d 0 = 0 := by simp [lo]
  have h7 : lo ne nf nb d 4 = E.2 := by rw [h.num]; simp [lo]
  omega

/-- A map of `{0, ..., n - 1}` to itself that is injective is onto. -/
theorem onto_of_inj {n : ℕ} (f : ℕ → ℕ) (h : ∀ i < n, f i < n) (hi : ∀ i < n, ∀ j < n, f i = f j → i = j) (k : ℕ)
    (hk : k < n) : ∃ i < n, f i = k := by
  have hinj : Function.Injective fun i : Fin n => (⟨f i, h i i.2⟩ : Fin n) := fun i j e =>
    Fin.ext (hi i i.2 j j.2 (Fin.mk.inj e))
  obtain ⟨i, e⟩ := Finite.surjective_of_injective hinj ⟨k, hk⟩
  exact ⟨i, i.2, congrArg Fin.val e⟩

theorem edge_item_onto {order a b : ℕ} (hab : a ≠ b) (q : ℕ) (hq : q < order - 1) :
    ∃ j < order - 1, permItem 2 order (order - 1) (oriKey [a, b]) j = q := by
  refine onto_of_inj _ (fun i hi => edge_item hi) (fun i hi j hj e => ?_) q hq
  have := (edge_item_same hab (List.Perm.refl _) hi hj).1 e b
  simp [edgeW, hab.symm] at this
  exact this

theorem around_self (a b c d : ℕ) : [a, b, c, d] ∈ around a b c d := by simp [around]

theorem faceW_inj {order n : ℕ} (hn : n = 3 ∨ n = 4) {l : List ℕ} (hl : l.length = n) (hd : l.Nodup) {j j' : ℕ}
    (hj : j < faceN order n) (hj' : j' < faceN order n) (h : ∀ v, faceW order l j v = faceW order l j' v) : j = j' := by
  rcases hn with rfl | rfl
  · obtain ⟨a, b, c, rfl⟩ := list_three hl
    simp only [List.nodup_cons, List.mem_cons, List.not_mem_nil, or_false, not_or, not_false_iff,
      List.nodup_nil, and_true] at hd
    have hj : j < (triL (order - 2)).length := hj
    have hj' : j' < (triL (order - 2)).length := hj'
    simp only [faceW] at h
    rw [List.getD_eq_getElem _ _ hj, List.getD_eq_getElem _ _ hj'] at h
    exact (List.Nodup.getElem_inj_iff (nodup_triL _)).1 (triW_inj hd.1.1 hd.1.2 hd.2 h)
  · obtain ⟨a, b, c, d, rfl⟩ := list_four hl
    have hj : j < (sqL (order - 1)).length := hj
    have hj' : j' < (sqL (order - 1)).length := hj'
    simp only [faceW] at h
    rw [List.getD_eq_getElem _ _ hj, List.getD_eq_getElem _ _ hj'] at h
    exact (List.Nodup.getElem_inj_iff (nodup_sqL _)).1 (sqW_inj hd (mem_sqL.1 (List.getElem_mem hj))
      (mem_sqL.1 (List.getElem_mem hj')) h)

theorem face_item_onto {order n : ℕ} (hn : n = 3 ∨ n = 4) {l : List ℕ} (hl : l.length = n) (hd : l.Nodup) (q : ℕ)
    (hq : q < faceN order n) : ∃ j < faceN order n, permItem n order (faceN order n) (oriKey l) j = q := by
  refine onto_of_inj _ (fun i hi => face_item hn hl hd hi) (fun i hi j hj e => ?_) q hq
  refine faceW_inj hn hl hd hi hj ?_
  exact (face_item_same hn hl hd ⟨List.Perm.refl _, fun a b c d e => e ▸ around_self a b c d⟩ hi hj).1 e

/-- Every entity of the region belongs to a cell of the region. -/
structure Covered (g : Gel) (d : FieldData) : Prop where
  verts : ∀ v ∈ d.verts, ∃ c ∈ d.cells, ∃ i < g.nV, d.conn c i = v
  edges : ∀ x ∈ d.edges, ∃ c ∈ d.cells, ∃ e < g.edges.length, d.edgeId c e = x
  faces : ∀ x ∈ d.faces, ∃ c ∈ d.cells, ∃ f < g.faces.length, d.faceId c f = x

theorem split_range {m : ℕ} {n : ℕ} {x : ℤ} (h0 : 0 ≤ x) (h1 : x < m * n) :
    ∃ r < n, ∃ p < m, x = m * r + p := by
  obtain ⟨y, rfl⟩ := Int.eq_ofNat_of_zero_le h0
  have h1 : y < n * m := by
    have : (y : ℤ) < (m * n : ℕ) := by simpa using h1
    rw [Nat.mul_comm]; exact Int.ofNat_lt.1 this
  obtain ⟨a, b, c⟩ := block_split h1
  refine ⟨y / m, a, y % m, b, ?_⟩
  have : y = m * (y / m) + y % m := (Nat.div_add_mod y m).symm
  exact_mod_cast this

theorem exists_cell {c : ℕ} (h : c ∈ d.cells) : ∃ el < d.cells.length, d.cells.getD el 0 = c := by
  obtain ⟨i, hi, e⟩ := List.mem_iff_getElem.1 h
  exact ⟨i, hi, by rw [List.getD_eq_getElem _ _ hi, e]⟩

theorem econn_onto (L : Located g N order ne nf nb loc) (M : MeshOk g d) (C : Covered g d)
    (h : Econn g order ne nf nb d E) {x : ℤ} (h0 : 0 ≤ x) (h1 : x < E.2) :
    ∃ el < d.cells.length, ∃ k < g.nV + g.edges.length * ne + g.faces.length * nf + nb, E.1 (el, k) = x := by
  have hb : ∀ e' < g.edges.length, ∀ j < ne, e' * ne + j < g.edges.length * ne := fun e' he j hj => by
    calc e' * ne + j < (e' + 1) * ne := by rw [Nat.succ_mul]; omega
      _ ≤ _ := Nat.mul_le_mul_right _ he
  have hb' : ∀ e' < g.faces.length, ∀ j < nf, e' * nf + j < g.faces.length * nf := fun e' he j hj => by
    calc e' * nf + j < (e' + 1) * nf := by rw [Nat.succ_mul]; omega
      _ ≤ _ := Nat.mul_le_mul_right _ he
  rw [h.num] at h1
  by_cases a0 : x < d.verts.length
  · obtain ⟨y, rfl⟩ := Int.eq_ofNat_of_zero_le h0
    have hy : y < d.verts.length := Int.ofNat_lt.1 a0
    obtain ⟨c, hc, i, hi, e⟩ := C.verts _ (List.getElem_mem hy)
    obtain ⟨el, hel, rfl⟩ := exists_cell hc
    refine ⟨el, hel, i, by omega, ?_⟩
    rw [h.vert _ _ hel hi, e, prepareRemap_getElem M.verts_nodup hy]
  by_cases a1 : x < d.verts.length + ne * d.edges.length
  · obtain ⟨r, hr, p, hp, e⟩ := split_range (m := ne) (n := d.edges.length) (x := x - d.verts.length) (by omega) (by omega)
    obtain ⟨c, hc, i, hi, e'⟩ := C.edges _ (List.getElem_mem hr)
    obtain ⟨el, hel, rfl⟩ := exists_cell hc
    have hne := L.hne.resolve_right (by omega)
    obtain ⟨b1, b2, b3⟩ := L.edges i hi
    have hn : ((g.edges.getD i []).map (d.conn (d.cells.getD el 0))).Nodup :=
      b2.map_on fun x hx y hy e' => M.inj _ (mem_cells hel) _ (b3 x hx) _ (b3 y hy) e'
    have l1 := list_two (l := (g.edges.getD i []).map (d.conn (d.cells.getD el 0))) (by simpa using b1)
    rw [l1] at hn
    obtain ⟨j, hj, ej⟩ := edge_item_onto (order := order) (List.pairwise_pair.1 hn) p (hne ▸ hp)
    rw [← hne] at hj ej
    have := hb i hi j hj
    refine ⟨el, hel, g.nV + i * ne + j, by omega, ?_⟩
    rw [h.edge _ _ _ hel hi hj, L.headE hi, M.edgeOri _ (mem_cells hel) _ hi, l1, ej, e',
      prepareRemap_getElem M.edges_nodup hr]
    omega
  by_cases a2 : x < d.verts.length + ne * d.edges.length + nf * d.faces.length
  · obtain ⟨r, hr, p, hp, e⟩ := split_range (m := nf) (n := d.faces.length)
      (x := x - (d.verts.length + ne * d.edges.length)) (by omega) (by omega)
    obtain ⟨c, hc, i, hi, e'⟩ := C.faces _ (List.getElem_mem hr)
    obtain ⟨el, hel, rfl⟩ := exists_cell hc
    have hnf := L.hnf.resolve_right (by omega)
    obtain ⟨b1, b2, b3⟩ := L.faces i hi
    have hn : ((g.faces.getD i []).map (d.conn (d.cells.getD el 0))).Nodup :=
      b2.map_on fun x hx y hy e' => M.inj _ (mem_cells hel) _ (b3 x hx) _ (b3 y hy) e'
    obtain ⟨j, hj, ej⟩ := face_item_onto (order := order) L.lenF3 (by simpa using b1) hn p (hnf ▸ hp)
    rw [← hnf] at hj ej
    have := hb' i hi j hj
    refine ⟨el, hel, g.nV + g.edges.length * ne + i * nf + j, by omega, ?_⟩
    rw [h.face _ _ _ hel hi hj, L.headF hi, M.faceOri _ (mem_cells hel) _ hi, ej, e',
      prepareRemap_getElem M.faces_nodup hr]
    omega
  · obtain ⟨r, hr, p, hp, e⟩ := split_range (m := nb) (n := d.cells.length)
      (x := x - (d.verts.length + ne * d.edges.length + nf * d.faces.length)) (by omega) (by omega)
    refine ⟨r, hr, g.nV + g.edges.length * ne + g.faces.length * nf + p, by omega, ?_⟩
    rw [h.bubble _ _ hr hp]
    push_cast
    omega

end

/-- **C55**: the DOFs of a Lagrange field on simplices are exactly `0, ..., n_nod - 1`. -/
theorem C55_range_simplex (g : Gel) (hg : g = gel12 ∨ g = gel23 ∨ g = gel34) (order : ℕ) (ho : 1 ≤ order)
    (d : FieldData) (M : MeshOk g d) (C : Covered g d) (x : ℤ) :
    (0 ≤ x ∧ x < (setupGlobalBasis g (simplexNodes g order) order d).2) ↔
      ∃ el < d.cells.length, ∃ k < (simplexNodes g order).length,
        (setupGlobalBasis g (simplexNodes g order) order d).1 (el, k) = x := by
  rcases hg with rfl | rfl | rfl
  · rw [(shape12 order).length]
    have H := (shape12 order).econn order d
    exact ⟨fun h => econn_onto (located12 ho) M C H h.1 h.2, fun ⟨el, hel, k, hk, e⟩ =>
      e ▸ econn_range (located12 ho) M H hel hk⟩
  · rw [(shape23 order).length]
    have H := (shape23 order).econn order d
    exact ⟨fun h => econn_onto (located23 ho) M C H h.1 h.2, fun ⟨el, hel, k, hk, e⟩ =>
      e ▸ econn_range (located23 ho) M H hel hk⟩
  · rw [(shape34 order).length]
    have H := (shape34 order).econn order d
    exact ⟨fun h => econn_onto (located34 ho) M C H h.1 h.2, fun ⟨el, hel, k, hk, e⟩ =>
      e ▸ econn_range (located34 ho) M H hel hk⟩

/-- **C55**: the DOFs of a Lagrange field on segments, quadrilaterals or hexahedra are exactly
`0, ..., n_nod - 1`. -/
theorem C55_range_tensor (g : Gel) (hg : g = gel12 ∨ g = gel24 ∨ g = gel38) (order : ℕ) (ho : 1 ≤ order)
    (d : FieldData) (M : MeshOk g d) (C : Covered g d) (x : ℤ) :
    (0 ≤ x ∧ x < (setupGlobalBasis g (tensorNodes g order) order d).2) ↔
      ∃ el < d.cells.length, ∃ k < (tensorNodes g order).length,
        (setupGlobalBasis g (tensorNodes g order) order d).1 (el, k) = x := by
  rcases hg with rfl | rfl | rfl
  · rw [(tshape12 order).length]
    have H := (tshape12 order).econn order d
    exact ⟨fun h => econn_onto (tlocated12 ho) M C H h.1 h.2, fun ⟨el, hel, k, hk, e⟩ =>
      e ▸ econn_range (tlocated12 ho) M H hel hk⟩
  · rw [(tshape24 order).length]
    have H := (tshape24 order).econn order d
    exact ⟨fun h => econn_onto (tlocated24 ho) M C H h.1 h.2, fun ⟨el, hel, k, hk, e⟩ =>
      e ▸ econn_range (tlocated24 ho) M H hel hk⟩
  · rw [(tshape38 order).length]
    have H := (tshape38 order).econn order d
    exact ⟨fun h => econn_onto (tlocated38 ho) M C H h.1 h.2, fun ⟨el, hel, k, hk, e⟩ =>
      e ▸ econn_range (tlocated38 ho) M H hel hk⟩

/-! ### The numbers of the nodes -/

theorem length_triL (m : ℕ) : 2 * (triL m).length = m * (m + 1) := by
  induction m with
  | zero => rfl
  | succ m ih =>
    have : (triL (m + 1)).length = (m + 1) + (triL m).length := by
      rw [triL, List.range_succ_eq_map, List.flatMap_cons, List.length_append, List.flatMap_map]
      congr 1
      · simp
      · rw [triL, List.length_flatMap, List.length_flatMap]
        congr 1
        refine List.map_congr_left fun i _ => ?_
        simp
    rw [this, Nat.mul_add, ih]
    ring

theorem length_tetL (m : ℕ) : 6 * (tetL m).length = m * (m + 1) * (m + 2) := by
  have gen : ∀ m n, m ≤ n → ((List.range n).flatMap fun i2 => (List.range (m - i2)).map fun i3 => (i2, i3)).length =
      (triL m).length := by
    intro m n h
    obtain ⟨k, rfl⟩ := Nat.exists_eq_add_of_le h
    rw [List.range_add, List.flatMap_append, List.length_append, triL]
    have : (((List.range k).map (m + ·)).flatMap fun i2 => (List.range (m - i2)).map fun i3 => (i2, i3)).length = 0 := by
      rw [List.length_eq_zero_iff, List.flatMap_eq_nil_iff]
      intro x hx
      obtain ⟨y, -, rfl⟩ := List.mem_map.1 hx
      simp
    rw [this, Nat.add_zero]
  have : ∀ n, m ≤ n → ((List.range m).flatMap fun i1 => (List.range n).flatMap fun i2 =>
      (List.range (m - i1 - i2)).map fun i3 => (i1, i2, i3)).length * 6 = m * (m + 1) * (m + 2) := by
    induction m with
    | zero => intro n _; rfl
    | succ m ih =>
      intro n hn
      rw [List.range_succ_eq_map, List.flatMap_cons, List.length_append, List.flatMap_map]
      have e1 : ((List.range n).flatMap fun i2 => (List.range (m + 1 - 0 - i2)).map fun i3 => ((0 : ℕ), i2, i3)).length =
          (triL (m + 1)).length := by
        rw [← gen (m + 1) n hn, List.length_flatMap, List.length_flatMap]
        congr 1
        refine List.map_congr_left fun i _ => ?_
        simp
      have e2 : ((List.range m).flatMap fun a => (List.range n).flatMap fun i2 =>
          (List.range (m + 1 - a.succ - i2)).map fun i3 => (a.succ, i2, i3)).length =
          ((List.range m).flatMap fun i1 => (List.range n).flatMap fun i2 =>
          (List.range (m - i1 - i2)).map fun i3 => (i1, i2, i3)).length := by
        rw [List.length_flatMap, List.length_flatMap]
        congr 1
        refine List.map_congr_left fun i _ => ?_
        rw [List.length_flatMap, List.length_flatMap]
        congr 1
        refine List.map_congr_left fun j _ => ?_
        simp
      rw [e1, e2, Nat.add_mul, ih n (by omega)]
      have := length_triL (m + 1)
      nlinarith
  have h := this m le_rfl
  rw [Nat.mul_comm]
  exact h

theorem length_cubeL (m : ℕ) : (cubeL m).length = m ^ 3 := by
  rw [cubeL, length_blocks m (m * m) _ fun i _ => length_blocks m m _ fun j _ => by simp]
  ring

/-- **C55**: a simplex of the dimension `dim` has `binomial(order + dim, dim)` nodes. -/
theorem C55_count_simplex (g : Gel) (hg : g = gel12 ∨ g = gel23 ∨ g = gel34) (order : ℕ) (ho : 1 ≤ order) :
    (simplexNodes g order).length = (order + g.dim).choose g.dim := by
  rcases hg with rfl | rfl | rfl
  · rw [(shape12 order).length]
    simp [gel12]; omega
  · rw [(shape23 order).length]
    have h := length_triL (order - 2)
    simp only [gel23, List.length_cons, List.length_nil]
    have hc := Nat.choose_two_right (order + 2)
    have h2 : (order + 2) * (order + 2 - 1) = 2 * (3 + 3 * (order - 1) + (triL (order - 2)).length) := by
      rw [Nat.mul_add, h]
      rcases order with _ | _ | n
      · omega
      · rfl
      · have e1 : n + 1 + 1 - 1 = n + 1 := by omega
        have e2 : n + 1 + 1 + 2 - 1 = n + 3 := by omega
        have e3 : n + 1 + 1 - 2 = n := by omega
        rw [e1, e2, e3]
        ring
    rw [hc, h2]
    simp
  · rw [(shape34 order).length]
    have h := length_triL (order - 2)
    have h' := length_tetL (order - 3)
    simp only [gel34, List.length_cons, List.length_nil]
    have hc : 6 * (order + 3).choose 3 = (order + 3) * (order + 2) * (order + 1) := by
      have h3 := Nat.add_one_mul_choose_eq (order + 2) 2
      have h2 := Nat.add_one_mul_choose_eq (order + 1) 1
      simp only [Nat.choose_one_right, Nat.succ_eq_add_one] at h2 h3
      nlinarith
    have : 6 * (4 + 6 * (order - 1) + 4 * (triL (order - 2)).length + (tetL (order - 3)).length) =
        6 * (order + 3).choose 3 := by
      rw [hc]
      rcases order with _ | _ | _ | n
      · omega
      · rfl
      · rfl
      · have e1 : n + 1 + 1 + 1 - 1 = n + 2 := by omega
        have e2 : n + 1 + 1 + 1 - 2 = n + 1 := by omega
        have e3 : n + 1 + 1 + 1 - 3 = n := by omega
        rw [e2] at h
        rw [e3] at h'
        rw [e1, e2, e3]
        nlinarith
    simp only [Nat.zero_add]
    omega

/-- **C55**: a tensor product element of the dimension `dim` has `(order + 1)^dim` nodes. -/
theorem C55_count_tensor (g : Gel) (hg : g = gel12 ∨ g = gel24 ∨ g = gel38) (order : ℕ) (ho : 1 ≤ order) :
    (tensorNodes g order).length = (order + 1) ^ g.dim := by
  obtain ⟨n, rfl⟩ : ∃ n, order = n + 1 := ⟨order - 1, by omega⟩
  rcases hg with rfl | rfl | rfl
  · rw [(tshape12 _).length]
    simp [gel12]; omega
  · rw [(tshape24 _).length, length_sqL]
    simp [gel24]; ring
  · rw [(tshape38 _).length, length_sqL, length_cubeL]
    simp [gel38]; ring

end Verif.Fem
