import Verif.Hang.Model
import Verif.Mesh.SpecRefine
import Mathlib.Data.List.GetD
import Mathlib.Tactic.FinCases

/-!
# Numbering of the locally refined mesh and facet substitutions (C125, C126)
-/

namespace Verif.Hang

open Verif.Mesh

variable {α : Type*}

/-! ## C125 -/

/-- C125: the cells that are not refined keep their numbers and rows. -/
theorem C125_coarse_keep (d : α) (nEl nSub : ℕ) (ref : List ℕ) (c0 c1 : List α) {i : ℕ} (hi : i < nEl)
    (h : i ∉ ref) : interleave d nEl nSub ref c0 c1 i = c0.getD i d := by
  simp [interleave, hi, h]

/-- C125: the sub-cell number `k` of the `ii`-th refined cell listed in `sub_cells` has the row of the
`k`-th piece of that cell. -/
theorem C125_sub_rows (d : α) {nEl nSub : ℕ} (hs : 2 ≤ nSub) {ref : List ℕ} (hn : ref.Nodup)
    (hr : ∀ i ∈ ref, i < nEl) (c0 c1 : List α) {ii k : ℕ} (hii : ii < ref.length) (hk : k < nSub) :
    interleave d nEl nSub ref c0 c1 ((subCells nEl nSub ref ii).getD k 0) = c1.getD (nSub * ii + k) d := by
  rcases k with _ | k
  · have h1 : (subCells nEl nSub ref ii).getD 0 0 = ref[ii] := by
      simp [subCells, hii]
    have hm : ref[ii] ∈ ref := List.getElem_mem hii
    rw [h1]
    simp [interleave, hr _ hm, hm, hn.idxOf_getElem]
  · have h1 : (subCells nEl nSub ref ii).getD (k + 1) 0 = nEl + (ii * (nSub - 1) + k) := by
      have : k < nSub - 1 := by omega
      simp [subCells, this]
    have hk' : k < nSub - 1 := by omega
    rw [h1, interleave, if_neg (by omega)]
    have h2 : nEl + (ii * (nSub - 1) + k) - nEl = k + (nSub - 1) * ii := by
      rw [Nat.add_sub_cancel_left, Nat.mul_comm, Nat.add_comm]
    rw [h2, Nat.add_mul_div_left _ _ (by omega), Nat.div_eq_of_lt hk', Nat.add_mul_mod_self_left,
      Nat.mod_eq_of_lt hk', Nat.zero_add, Nat.add_comm 1 k]

/-- C125: every cell of the new mesh is a kept one, or exactly one sub-cell of exactly one refined cell,
and not both. -/
theorem C125_tiling {nEl nSub : ℕ} (hs : 2 ≤ nSub) {ref : List ℕ} (hn : ref.Nodup)
    (hr : ∀ i ∈ ref, i < nEl) {i : ℕ} (hi : i < nEl + ref.length * (nSub - 1)) :
    ((i < nEl ∧ i ∉ ref) ∧ ∀ ii < ref.length, i ∉ subCells nEl nSub ref ii) ∨
    (¬ (i < nEl ∧ i ∉ ref) ∧
      ∃! p : ℕ × ℕ, p.1 < ref.length ∧ p.2 < nSub ∧ (subCells nEl nSub ref p.1).getD p.2 0 = i) := by
  have hget : ∀ ii, ii < ref.length → ∀ k, k < nSub → (subCells nEl nSub ref ii).getD k 0 =
      if k = 0 then ref.getD ii 0 else nEl + (ii * (nSub - 1) + (k - 1)) := by
    intro ii hii k hk
    rcases k with _ | k
    · simp [subCells]
    · have : k < nSub - 1 := by omega
      simp [subCells, this]
  by_cases h : i < nEl ∧ i ∉ ref
  · refine Or.inl ⟨h, fun ii hii hmem => ?_⟩
    rw [subCells, List.mem_cons] at hmem
    rcases hmem with h1 | h1
    · rw [List.getD_eq_getElem _ _ hii] at h1
      exact h.2 (h1 ▸ List.getElem_mem hii)
    · obtain ⟨k, -, hk⟩ := List.mem_map.1 h1
      omega
  · refine Or.inr ⟨h, ?_⟩
    by_cases hlt : i < nEl
    · have hm : i ∈ ref := by by_contra hc; exact h ⟨hlt, hc⟩
      have hidx := List.idxOf_lt_length_of_mem hm
      refine ⟨(ref.idxOf i, 0), ⟨hidx, by omega, ?_⟩, ?_⟩
      · rw [hget _ hidx _ (by omega), if_pos rfl, List.getD_eq_getElem _ _ hidx, List.getElem_idxOf]
      · rintro ⟨ii, k⟩ ⟨h1, h2, h3⟩
        simp only at h1 h2 h3
        rw [hget _ h1 _ h2] at h3
        split_ifs at h3 with hk
        · rw [List.getD_eq_getElem _ _ h1] at h3
          rw [← h3, hn.idxOf_getElem, hk]
        · omega
    · obtain ⟨j, rfl⟩ : ∃ j, i = nEl + j := ⟨i - nEl, by omega⟩
      have hpos : 0 < nSub - 1 := by omega
      have hj : j < ref.length * (nSub - 1) := by omega
      have hq : j / (nSub - 1) < ref.length := Nat.div_lt_of_lt_mul (by rw [Nat.mul_comm]; exact hj)
      have hmod := Nat.mod_lt j hpos
      have hdm : j / (nSub - 1) * (nSub - 1) + j % (nSub - 1) = j := by
        rw [Nat.mul_comm]; exact Nat.div_add_mod _ _
      refine ⟨(j / (nSub - 1), j % (nSub - 1) + 1), ⟨hq, by simp only; omega, ?_⟩, ?_⟩
      · simp only
        rw [hget _ hq _ (by omega), if_neg (by omega), Nat.add_sub_cancel, hdm]
      · rintro ⟨ii, k⟩ ⟨h1, h2, h3⟩
        simp only at h1 h2 h3
        rw [hget _ h1 _ h2] at h3
        split_ifs at h3 with hk
        · rw [List.getD_eq_getElem _ _ h1] at h3
          have := hr _ (List.getElem_mem h1)
          omega
        · have hj' : j = (k - 1) + (nSub - 1) * ii := by rw [Nat.mul_comm]; omega
          have hk' : k - 1 < nSub - 1 := by omega
          rw [hj', Nat.add_mul_div_left _ _ hpos, Nat.div_eq_of_lt hk', Nat.add_mul_mod_self_left,
            Nat.mod_eq_of_lt hk', Nat.zero_add, Nat.sub_add_cancel (by omega)]

example : (List.range 7).map (interleave 0 4 4 [2] [10, 11, 12, 13] [20, 21, 22, 23]) =
    [10, 11, 20, 13, 21, 22, 23] ∧ subCells 4 4 [2] 0 = [2, 4, 5, 6] := by decide

/-! ## C126 -/

/-- C126: for a facet between a refined and a not refined cell, the refined one comes first, with its own
local index of the facet. -/
theorem C126_fine_first (flag : ℕ → Bool) (c0 c1 : ℕ) (a0 a1 : α) :
    (flag c0 = true → flag c1 = false → orderPair flag (c0, c1) (a0, a1) = (a0, a1)) ∧
    (flag c0 = false → flag c1 = true → orderPair flag (c0, c1) (a0, a1) = (a1, a0)) := by
  constructor <;> intro h0 h1 <;> simp [orderPair, h0, h1]

theorem searchsorted_eq {ref : List ℕ} (h : ref.Pairwise (· < ·)) {ii : ℕ} (hii : ii < ref.length) :
    searchsorted ref ref[ii] = ii := by
  induction ref generalizing ii with
  | nil => simp at hii
  | cons a l ih =>
    rw [List.pairwise_cons] at h
    rcases ii with _ | ii
    · have hz : l.countP (fun y => decide (y < a)) = 0 := by
        rw [List.countP_eq_zero]
        intro y hy
        have := h.1 y hy
        simp; omega
      simp [searchsorted, List.countP_cons, hz]
    · have hii' : ii < l.length := by simpa using hii
      have hlt := h.1 _ (List.getElem_mem hii')
      have := ih h.2 hii'
      simp only [searchsorted] at this
      simp [searchsorted, List.countP_cons, hlt, this]

/-- C126: a substitution names the coarse cell with its facet, and the sub-cells of *the* refined cell on
the other side, with the facets given by the table: sub-cell `r.1` of that cell (the cell of the new mesh
with the row of its piece `r.1`), facet `r.2`. -/
theorem C126_sub (d : α) {nEl nSub : ℕ} (hs : 2 ≤ nSub) {ref : List ℕ} (hsort : ref.Pairwise (· < ·))
    (hr : ∀ i ∈ ref, i < nEl) (c0 c1 : List α) (table : List (List (ℕ × ℕ)))
    (ht : ∀ row ∈ table, ∀ r ∈ row, r.1 < nSub) {ii : ℕ} (hii : ii < ref.length) (coarse facFine facCoarse : ℕ) :
    (findSub nEl nSub ref table ref[ii] coarse facFine facCoarse).1 = (coarse, facCoarse) ∧
    (findSub nEl nSub ref table ref[ii] coarse facFine facCoarse).2.map
        (fun s => (interleave d nEl nSub ref c0 c1 s.1, s.2)) =
      (table.getD facFine []).map fun r => (c1.getD (nSub * ii + r.1) d, r.2) := by
  refine ⟨rfl, ?_⟩
  rw [findSub, searchsorted_eq hsort hii, List.map_map]
  refine List.map_congr_left fun r hrm => ?_
  have hk : r.1 < nSub := by
    by_cases hf : facFine < table.length
    · rw [List.getD_eq_getElem _ _ hf] at hrm
      exact ht _ (List.getElem_mem hf) r hrm
    · rw [List.getD_eq_default _ _ (by omega)] at hrm
      simp at hrm
  simp only [Function.comp]
  rw [C125_sub_rows d hs (hsort.imp (fun h => Nat.ne_of_lt h)) hr c0 c1 hii hk]

example : findSub 4 4 [1, 2] refineEdges24 2 3 1 3 = ((3, 3), [(7, 0), (8, 3)]) := by decide

/-- The points of the facet `r.2` of the piece `r.1` of a refined cell: `tab` is the table of the pieces
(`nv` points each), `loc` the local facets. -/
def pieceFacet (tab : List Pt) (nv : ℕ) (loc : List (List ℕ)) (r : ℕ × ℕ) : List Pt :=
  (loc.getD r.2 []).map fun v => tab.getD (nv * r.1 + v) .b

/-- C126: quadrilaterals - the two fine facets are the halves of the edge: from its first vertex to its
midpoint, and from the midpoint to the second vertex. -/
theorem C126_halves24 : ∀ f : Fin 4, ∀ v w : ℕ, edges24[f.1]? = some [v, w] →
    (refineEdges24.getD f.1 []).map (pieceFacet tab24 4 edges24) = [[.c v, .e f.1], [.e f.1, .c w]] := by
  intro f v w h
  fin_cases f <;> (simp only [edges24] at h; obtain ⟨rfl, rfl⟩ : _ ∧ _ := by simpa using h) <;> decide

/-- C126: hexahedra - the two fine edges are the halves of the edge. -/
theorem C126_halves38 : ∀ f : Fin 12, ∀ v w : ℕ, edges38[f.1]? = some [v, w] →
    ∃ p q, (refineEdges38.getD f.1 []).map (pieceFacet tab38 8 edges38) = [p, q] ∧
      ((p.Perm [.c v, .e f.1] ∧ q.Perm [.e f.1, .c w]) ∨ (p.Perm [.c w, .e f.1] ∧ q.Perm [.e f.1, .c v])) := by
  intro f v w h
  fin_cases f <;> (simp only [edges38] at h; obtain ⟨rfl, rfl⟩ : _ ∧ _ := by simpa using h) <;>
    exact ⟨_, _, rfl, by decide⟩

/-- C126: hexahedra - the four fine faces are the quarters of the face: each has one vertex of the face,
the midpoints of the two edges of the face in that vertex, and the centre of the face; every vertex of the
face has its quarter. -/
theorem C126_quarters38 : ∀ f : Fin 6,
    (∀ p ∈ (refineFaces38.getD f.1 []).map (pieceFacet tab38 8 faces38),
      ∃ v ∈ faces38.getD f.1 [], ∃ e ∈ List.range 12, ∃ e' ∈ List.range 12, e ≠ e' ∧
        (∀ x ∈ [e, e'], v ∈ edges38.getD x [] ∧ ∀ w ∈ edges38.getD x [], w ∈ faces38.getD f.1 []) ∧
        p.Perm [.c v, .e e, .f f.1, .e e']) ∧
    ∀ v ∈ faces38.getD f.1 [],
      ((refineFaces38.getD f.1 []).filter fun r => (pieceFacet tab38 8 faces38 r).contains (.c v)).length = 1 := by
  decide +kernel

end Verif.Hang
