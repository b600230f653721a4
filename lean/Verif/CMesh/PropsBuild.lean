/-
C36: the unique facets computed by `mesh_build()`.
-/
import Verif.CMesh.PropsIntersect
import Mathlib.Data.List.Perm.Basic
import Mathlib.Data.List.Sort

namespace Verif.CMesh

/-! ### Sorting of 2 to 4 values -/

theorem cx_eq (a b : ℕ) : cx (a, b) = (min a b, max a b) := by
  unfold cx
  split
  · rename_i h
    simp only at h
    simp only [Prod.mk.injEq]; omega
  · rename_i h
    simp only [Prod.mk.injEq] at h ⊢; omega

theorem mm_perm (a b : ℕ) (l : List ℕ) : (min a b :: max a b :: l).Perm (a :: b :: l) := by
  rcases le_total a b with h | h
  · rw [min_eq_left h, max_eq_right h]
  · rw [min_eq_right h, max_eq_left h]; exact List.Perm.swap _ _ _

/-- The sorting networks give the sorted permutation of 2, 3 or 4 values. -/
theorem C36_sort234 (l : List ℕ) (h1 : 2 ≤ l.length) (h2 : l.length ≤ 4) :
    (sort234 l).Perm l ∧ (sort234 l).Pairwise (· ≤ ·) := by
  match l, h1, h2 with
  | [a, b], _, _ =>
    simp only [sort234, sort2, cx_eq]
    exact ⟨mm_perm a b [], by simp⟩
  | [a, b, c], _, _ =>
    simp only [sort234, sort3, cx_eq]
    refine ⟨?_, ?_⟩
    · exact (mm_perm _ _ _).trans (((mm_perm _ _ _).cons _).trans (mm_perm _ _ _))
    · simp only [List.pairwise_cons, List.mem_cons, List.not_mem_nil, or_false, forall_eq_or_imp,
        forall_eq, false_imp_iff, implies_true, List.Pairwise.nil, and_true]
      omega
  | [a, b, c, d], _, _ =>
    simp only [sort234, sort4, cx_eq]
    refine ⟨?_, ?_⟩
    · refine (mm_perm _ _ _).trans (((mm_perm _ _ _).cons _).trans ((mm_perm _ _ _).trans ?_))
      exact (((mm_perm _ _ _).cons _).cons _).trans (((mm_perm _ _ _).cons _).trans (mm_perm _ _ _))
    · simp only [List.pairwise_cons, List.mem_cons, List.not_mem_nil, or_false, forall_eq_or_imp,
        forall_eq, false_imp_iff, implies_true, List.Pairwise.nil, and_true]
      omega

theorem sort234_length (l : List ℕ) (h1 : 2 ≤ l.length) (h2 : l.length ≤ 4) :
    (sort234 l).length = l.length := (C36_sort234 l h1 h2).1.length_eq

theorem sort234_eq_iff (l l' : List ℕ) (h1 : 2 ≤ l.length) (h2 : l.length ≤ 4)
    (h1' : 2 ≤ l'.length) (h2' : l'.length ≤ 4) : sort234 l = sort234 l' ↔ l.Perm l' := by
  obtain ⟨p, s⟩ := C36_sort234 l h1 h2
  obtain ⟨p', s'⟩ := C36_sort234 l' h1' h2'
  constructor
  · intro h; exact p.symm.trans (h ▸ p')
  · intro h
    exact List.Perm.eq_of_pairwise (fun a b _ _ h1 h2 => le_antisymm h1 h2) s s'
      (p.trans (h.trans p'.symm))

/-! ### Storing of facets -/

theorem storeList_apply (m : ℕ → ℕ) (p : ℕ) (l : List ℕ) (q : ℕ) :
    storeList m p l q = if h : p ≤ q ∧ q < p + l.length then l[q - p]'(by omega) else m q := by
  induction l generalizing m p with
  | nil =>
    rw [dif_neg (by simp)]; rfl
  | cons x l ih =>
    rw [storeList, ih]
    by_cases h : p + 1 ≤ q ∧ q < p + 1 + l.length
    · rw [dif_pos h, dif_pos (by simp only [List.length_cons]; omega)]
      obtain ⟨t, rfl⟩ := Nat.exists_eq_add_of_le h.1
      have e1 : p + 1 + t - (p + 1) = t := by omega
      have e2 : p + 1 + t - p = t + 1 := by omega
      simp only [e1, e2, List.getElem_cons_succ]
    · rw [dif_neg h]
      by_cases h2 : q = p
      · subst h2
        rw [Function.update_self, dif_pos (by simp)]
        simp
      · rw [Function.update_of_ne h2, dif_neg (by simp only [List.length_cons]; omega)]

/-- The facets `firsts` are stored one after another. -/
structure Stored (firsts : List (List ℕ)) (c : Conn) : Prop where
  zero : c.offsets 0 = 0
  off : ∀ f, (h : f < firsts.length) → c.offsets (f + 1) = c.offsets f + firsts[f].length
  val : ∀ f, (h : f < firsts.length) → ∀ t, (h' : t < firsts[f].length) →
    c.indices (c.offsets f + t) = firsts[f][t]

theorem Stored.mono {firsts : List (List ℕ)} {c : Conn} (h : Stored firsts c) {f f' : ℕ}
    (hf : f ≤ f') (hl : f' ≤ firsts.length) : c.offsets f ≤ c.offsets f' := by
  induction f', hf using Nat.le_induction with
  | base => exact le_rfl
  | succ n hn ih => rw [h.off n (by omega)]; exact (ih (by omega)).trans (Nat.le_add_right _ _)

theorem Stored.push {firsts : List (List ℕ)} {c : Conn} (h : Stored firsts c) (g : List ℕ) :
    let off := Function.update c.offsets (firsts.length + 1) (c.offsets firsts.length + g.length)
    Stored (firsts ++ [g])
      { c with offsets := off, indices := storeList c.indices (off firsts.length) g } := by
  intro off
  have hoff : ∀ f ≤ firsts.length, off f = c.offsets f := fun f hf => by
    simp only [off]; rw [Function.update_of_ne (by omega)]
  refine ⟨by simp only; rw [hoff 0 (by omega)]; exact h.zero, ?_, ?_⟩
  · intro f hf
    simp only [List.length_append, List.length_cons, List.length_nil] at hf
    simp only
    by_cases h1 : f < firsts.length
    · rw [hoff _ (by omega), hoff _ (by omega), h.off f h1, List.getElem_append_left h1]
    · obtain rfl : f = firsts.length := by omega
      rw [hoff _ le_rfl]
      simp only [off, Function.update_self, List.getElem_concat_length]
  · intro f hf t ht
    simp only [List.length_append, List.length_cons, List.length_nil] at hf
    simp only [storeList_apply]
    rw [hoff _ le_rfl]
    by_cases h1 : f < firsts.length
    · rw [hoff _ (by omega)]
      have ht' : t < firsts[f].length := by
        rwa [List.getElem_append_left h1] at ht
      have h3 := h.mono (Nat.succ_le_of_lt h1) le_rfl
      have h4 := h.off f h1
      simp only [Nat.succ_eq_add_one] at h3
      rw [dif_neg (by omega), h.val f h1 t ht']
      simp only [List.getElem_append_left h1]
    · obtain rfl : f = firsts.length := by omega
      rw [hoff _ le_rfl]
      simp only [List.getElem_concat_length] at ht ⊢
      rw [dif_pos (by omega)]
      congr 1
      omega

/-- Reading `n` items at the position of a stored facet. -/
theorem Stored.read {firsts : List (List ℕ)} {c : Conn} (h : Stored firsts c) (f : ℕ)
    (hf : f < firsts.length) (n : ℕ) (hn : firsts[f].length = n) :
    (List.range' (c.offsets f) n).map c.indices = firsts[f] := by
  apply List.ext_getElem
  · simp [hn]
  · intro t h1 h2
    simp only [List.getElem_map, List.getElem_range', one_mul]
    exact h.val f hf t h2

theorem Stored.read_mem {firsts : List (List ℕ)} {c : Conn} (h : Stored firsts c) (f : ℕ)
    (hf : f < firsts.length) (n : ℕ) :
    (firsts[f].length ≤ n → ∀ v ∈ firsts[f], v ∈ (List.range' (c.offsets f) n).map c.indices) ∧
    (n ≤ firsts[f].length → ∀ v ∈ (List.range' (c.offsets f) n).map c.indices, v ∈ firsts[f]) := by
  refine ⟨fun hn v hv => ?_, fun hn v hv => ?_⟩
  · obtain ⟨t, ht, rfl⟩ := List.getElem_of_mem hv
    rw [← h.val f hf t ht]
    exact List.mem_map_of_mem (List.mem_range'_1.2 ⟨by omega, by omega⟩)
  · obtain ⟨p, hp, rfl⟩ := List.mem_map.1 hv
    rw [List.mem_range'_1] at hp
    obtain ⟨t, rfl⟩ := Nat.exists_eq_add_of_le hp.1
    rw [h.val f hf t (by omega)]
    exact List.getElem_mem _

/-! ### The last used position -/

theorem lastUsed_spec {c : Conn} (i : ℕ) (l : List ℕ) (v k : ℕ)
    (hrow : c.row i = l ++ v :: List.replicate k u32None) (hv : v ≠ u32None) :
    lastUsed c i = some (c.offsets i + l.length) := by
  have hlen : c.offsets (i + 1) - c.offsets i = l.length + (1 + k) := by
    rw [← Conn.row_length, hrow]; simp; omega
  have hget : ∀ t, (ht : t < l.length + (1 + k)) → c.indices (c.offsets i + t)
      = (l ++ v :: List.replicate k u32None)[t]'(by simp; omega) := by
    intro t ht
    rw [← Conn.row_getElem c i t (by rw [Conn.row_length, hlen]; exact ht)]
    simp only [hrow]
  unfold lastUsed Conn.positions
  rw [hlen, ← List.range'_append, ← List.range'_append]
  simp only [List.reverse_append, List.find?_append, one_mul]
  rw [List.find?_eq_none.2, Option.none_or]
  · rw [show (List.range' (c.offsets i + l.length) 1).reverse = [c.offsets i + l.length] by simp]
    rw [List.find?_cons_of_pos, Option.some_or]
    rw [hget _ (by omega)]
    simpa using hv
  · intro x hx
    rw [List.mem_reverse, List.mem_range'_1] at hx
    obtain ⟨t, rfl⟩ := Nat.exists_eq_add_of_le hx.1
    have := hget (l.length + 1 + t) (by omega)
    rw [show c.offsets i + l.length + 1 + t = c.offsets i + (l.length + 1 + t) by omega, this]
    rw [List.getElem_append_right (by omega)]
    simp [show l.length + 1 + t - l.length = t + 1 by omega]

end Verif.CMesh
