/-
C34, C35: transposed and intersected connectivities.
-/
import Verif.CMesh.Fill
import Mathlib.Data.List.Count
import Mathlib.Data.List.Pairwise
import Mathlib.Order.Basic

namespace Verif.CMesh

/-! ### C34: transposition -/

/-- The insertions of `mesh_transpose()`. -/
def transOps (n2 : ℕ) (c21 : Conn) : List (ℕ × ℕ) :=
  (List.range n2).flatMap fun j => (c21.iter j).map fun i => (i, j)

theorem transpose_eq (n1 n2 : ℕ) (c21 : Conn) :
    transpose n1 n2 c21 = (transOps n2 c21).foldlM (fun c o => c.setToFree o.1 o.2)
      (allocConn n1 ((transOps n2 c21).foldl (fun off o => countOne off o.1) fun _ => 0)) := by
  simp only [transpose, transOps, List.foldl_flatMap, List.foldl_map, foldlM_flatMap',
    List.foldlM_map]

theorem rowOf_transOps (n2 : ℕ) (c21 : Conn) (hwf : c21.WF) (hn : c21.num = n2) (i : ℕ) :
    rowOf (transOps n2 c21) i =
      (List.range n2).flatMap fun j => List.replicate ((c21.row j).count i) j := by
  unfold rowOf transOps
  rw [List.filter_flatMap, List.map_flatMap]
  apply List.flatMap_congr
  intro j hj
  have hj' : j < c21.num := by rw [hn]; exact List.mem_range.1 hj
  rw [hwf.iter_eq hj', List.filter_map, List.map_map]
  rw [List.eq_replicate_iff]
  refine ⟨?_, ?_⟩
  · simp only [List.length_map, List.count, List.countP_eq_length_filter]
    rfl
  · intro x hx
    simp only [List.mem_map, Function.comp_apply] at hx
    obtain ⟨_, -, rfl⟩ := hx
    rfl

/-- The rows of the transposed connectivity, exactly: the row `i` has each `j`, in increasing order,
as many times as `i` is in the row `j` of the given connectivity. -/
theorem C34_rows (n1 n2 : ℕ) (c21 : Conn) (hwf : c21.WF) (hn : c21.num = n2)
    (hval : ∀ j < n2, ∀ i ∈ c21.row j, i < n1) (hn2 : n2 ≤ u32None) :
    ∃ c12, transpose n1 n2 c21 = some c12 ∧ c12.WF ∧ c12.num = n1 ∧
      ∀ i < n1, c12.row i = (List.range n2).flatMap fun j => List.replicate ((c21.row j).count i) j
    := by
  rw [transpose_eq]
  have hops : ∀ o ∈ transOps n2 c21, o.1 < n1 ∧ o.2 ≠ u32None := by
    rintro ⟨i, j⟩ h
    simp only [transOps, List.mem_flatMap, List.mem_range, List.mem_map, Prod.mk.injEq] at h
    obtain ⟨j', hj', i', hi', rfl, rfl⟩ := h
    rw [hwf.iter_eq (by omega)] at hi'
    exact ⟨hval _ hj' _ hi', by omega⟩
  obtain ⟨c, h1, h2, h3, h4⟩ := fill_ops n1 _ hops
  exact ⟨c, h1, h2, h3, fun i hi => by rw [h4 i hi, rowOf_transOps n2 c21 hwf hn]⟩

theorem count_flatMap_replicate (n2 : ℕ) (f : ℕ → ℕ) (j : ℕ) (hj : j < n2) :
    ((List.range n2).flatMap fun j => List.replicate (f j) j).count j = f j := by
  rw [List.count_flatMap]
  have : ∀ n, ((List.range n).map (List.count j ∘ fun j => List.replicate (f j) j)).sum
      = if j < n then f j else 0 := by
    intro n
    induction n with
    | zero => simp
    | succ n ih =>
      rw [List.range_succ, List.map_append, List.sum_append, ih]
      simp only [List.map_cons, List.map_nil, Function.comp_apply, List.sum_cons, List.sum_nil,
        List.count_replicate]
      by_cases h : j < n
      · have h2 : ¬ n = j := by omega
        simp [h, h2, Nat.lt_succ_of_lt h]
      · by_cases h2 : n = j
        · subst h2; simp
        · have h3 : ¬ j < n + 1 := by omega
          simp [h, h2, h3]
  rw [this, if_pos hj]

theorem sorted_flatMap_replicate (n : ℕ) (f : ℕ → ℕ) :
    ((List.range n).flatMap fun j => List.replicate (f j) j).Pairwise (· ≤ ·) := by
  rw [List.pairwise_flatMap]
  refine ⟨fun a _ => List.pairwise_replicate.2 (Or.inr le_rfl), ?_⟩
  refine List.Pairwise.imp ?_ (List.pairwise_lt_range (n := n))
  intro a b hab x hx y hy
  rw [List.eq_of_mem_replicate hx, List.eq_of_mem_replicate hy]
  exact hab.le

/-- C34: for every consistent connectivity `d2 -> d1` the transposition succeeds, its result is
consistent, `j` is listed for `i` exactly as many times as `i` is listed for `j`, and each list is in
increasing order. -/
theorem C34_transpose (n1 n2 : ℕ) (c21 : Conn) (hwf : c21.WF) (hn : c21.num = n2)
    (hval : ∀ j < n2, ∀ i ∈ c21.row j, i < n1) (hn2 : n2 ≤ u32None) :
    ∃ c12, transpose n1 n2 c21 = some c12 ∧ c12.WF ∧ c12.num = n1 ∧
      (∀ i < n1, ∀ j < n2, (c12.row i).count j = (c21.row j).count i) ∧
      (∀ i < n1, ∀ j ∈ c12.row i, j < n2) ∧
      (∀ i < n1, (c12.row i).Pairwise (· ≤ ·)) := by
  obtain ⟨c, h1, h2, h3, h4⟩ := C34_rows n1 n2 c21 hwf hn hval hn2
  refine ⟨c, h1, h2, h3, fun i hi j hj => ?_, fun i hi j hj => ?_, fun i hi => ?_⟩
  · rw [h4 i hi, count_flatMap_replicate n2 _ j hj]
  · rw [h4 i hi, List.mem_flatMap] at hj
    obtain ⟨k, hk, hj⟩ := hj
    rw [List.eq_of_mem_replicate hj]
    exact List.mem_range.1 hk
  · rw [h4 i hi]
    exact sorted_flatMap_replicate n2 _

/-- C34: transposing twice gives the rows sorted, i.e. the same incidence relation. -/
theorem C34_transpose_twice (n1 n2 : ℕ) (c21 c12 c21' : Conn) (hwf : c21.WF) (hn : c21.num = n2)
    (hval : ∀ j < n2, ∀ i ∈ c21.row j, i < n1) (hn1 : n1 ≤ u32None) (hn2 : n2 ≤ u32None)
    (h1 : transpose n1 n2 c21 = some c12) (h2 : transpose n2 n1 c12 = some c21') :
    ∀ j < n2, (c21'.row j).Perm (c21.row j) := by
  obtain ⟨c, e1, w, en, hc, hv, -⟩ := C34_transpose n1 n2 c21 hwf hn hval hn2
  obtain rfl : c = c12 := Option.some.inj (e1.symm.trans h1)
  obtain ⟨c', e2, w', en', hc', hv', -⟩ := C34_transpose n2 n1 c w en hv hn1
  obtain rfl : c' = c21' := Option.some.inj (e2.symm.trans h2)
  intro j hj
  rw [List.perm_iff_count]
  intro i
  by_cases hi : i < n1
  · rw [hc' j hj i hi, hc i hi j hj]
  · rw [List.count_eq_zero_of_not_mem fun h => hi (hv' j hj i h),
      List.count_eq_zero_of_not_mem fun h => hi (hval j hj i h)]

/-- Non-vacuity: two triangles (0, 1, 2), (2, 1, 3). -/
def twoTriangles : Conn :=
  { num := 2, nInc := 6, indices := fun p => [0, 1, 2, 2, 1, 3].getD p 0
    offsets := fun i => [0, 3, 6].getD i 0 }

example : twoTriangles.WF ∧ (∀ j < 2, ∀ i ∈ twoTriangles.row j, i < 4) ∧
    (transpose 4 2 twoTriangles).map (fun c => (List.range 4).map c.row)
      = some [[0], [0, 1], [0, 1], [1]] := by
  refine ⟨⟨by decide, by decide, by decide⟩, by decide, by decide +kernel⟩

end Verif.CMesh
