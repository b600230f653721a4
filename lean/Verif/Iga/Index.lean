import Verif.Iga.Conn
import Mathlib.Algebra.BigOperators.Group.List.Basic
import Mathlib.Algebra.Order.BigOperators.Group.List
import Mathlib.Algebra.BigOperators.Group.Finset.Sigma
import Mathlib.Algebra.BigOperators.Ring.Finset
import Mathlib.Tactic.Positivity

/-!
# Multi-indices
-/

namespace Iga

/-- `is` is an index into an array of the shape `ns`. -/
abbrev Valid (ns is : List ℕ) : Prop := List.Forall₂ (fun n i => i < n) ns is

theorem mem_tp {ns is : List ℕ} : is ∈ tp ns ↔ Valid ns is := by
  induction ns generalizing is with
  | nil => simp [tp, Valid]
  | cons n ns ih =>
    simp only [tp, List.mem_flatMap, List.mem_range, List.mem_map]
    constructor
    · rintro ⟨i, hi, js, hj, rfl⟩
      exact List.Forall₂.cons hi (ih.1 hj)
    · rintro (_ | ⟨hi, h⟩)
      exact ⟨_, hi, _, ih.2 h, rfl⟩

theorem tp_length (ns : List ℕ) : (tp ns).length = ns.prod := by
  induction ns with
  | nil => rfl
  | cons n ns ih => simp [tp, List.length_flatMap, ih]

theorem ravel_lt {ns is : List ℕ} (h : Valid ns is) : ravel ns is < ns.prod := by
  induction h with
  | nil => simp [ravel]
  | @cons n i ns is hi h ih =>
    rw [ravel, List.prod_cons]
    calc i * ns.prod + ravel ns is < i * ns.prod + ns.prod := by omega
      _ = (i + 1) * ns.prod := by ring
      _ ≤ n * ns.prod := Nat.mul_le_mul_right _ hi

theorem getElem?_flatMap_range {β : Type*} (f : ℕ → List β) (m : ℕ) (hf : ∀ i, (f i).length = m) (n i r : ℕ)
    (hi : i < n) (hr : r < m) : ((List.range n).flatMap f)[i * m + r]? = (f i)[r]? := by
  induction n with
  | zero => omega
  | succ n ih =>
    rw [List.range_succ, List.flatMap_append]
    have hl : ((List.range n).flatMap f).length = n * m := by
      simp [List.length_flatMap, hf]
    by_cases h : i < n
    · rw [List.getElem?_append_left, ih h]
      rw [hl]
      calc i * m + r < i * m + m := by omega
        _ = (i + 1) * m := by ring
        _ ≤ n * m := Nat.mul_le_mul_right _ h
    · obtain rfl : i = n := by omega
      rw [List.getElem?_append_right (by rw [hl]; omega), hl]
      simp

theorem tp_get {ns is : List ℕ} (h : Valid ns is) : (tp ns)[ravel ns is]? = some is := by
  induction h with
  | nil => rfl
  | @cons n i ns is hi h ih =>
    rw [tp, ravel, getElem?_flatMap_range _ ns.prod (by simp [tp_length]) _ _ _ hi (ravel_lt h)]
    simp [ih]

theorem unravel_ravel {ns is : List ℕ} (h : Valid ns is) : unravel ns (ravel ns is) = is := by
  induction h with
  | nil => rfl
  | @cons n i ns is hi h ih =>
    have hlt := ravel_lt h
    rw [ravel, unravel, Nat.add_comm, Nat.add_mul_div_right _ _ (by omega), Nat.div_eq_of_lt hlt,
      Nat.zero_add, Nat.add_mul_mod_self_right, Nat.mod_eq_of_lt hlt, ih]

theorem ravel_injective {ns is js : List ℕ} (h : Valid ns is) (h' : Valid ns js)
    (e : ravel ns is = ravel ns js) : is = js := by
  rw [← unravel_ravel h, ← unravel_ravel h', e]

theorem exists_ravel {ns : List ℕ} {k : ℕ} (hk : k < ns.prod) : ∃ is, Valid ns is ∧ ravel ns is = k := by
  induction ns generalizing k with
  | nil => exact ⟨[], List.Forall₂.nil, by simp at hk; simp [ravel, hk]⟩
  | cons n ns ih =>
    rw [List.prod_cons] at hk
    have hpos : 0 < ns.prod := Nat.pos_of_ne_zero fun h => by rw [h] at hk; omega
    obtain ⟨is, h1, h2⟩ := ih (Nat.mod_lt k hpos)
    refine ⟨k / ns.prod :: is, List.Forall₂.cons ?_ h1, ?_⟩
    · exact (Nat.div_lt_iff_lt_mul hpos).2 hk
    · rw [ravel, h2, Nat.mul_comm]; exact Nat.div_add_mod k ns.prod

/-- A sum over the multi-indices in the order of the loops. -/
theorem sum_tp_cons {M : Type*} [AddCommMonoid M] (n : ℕ) (ns : List ℕ) (f : List ℕ → M) :
    ((tp (n :: ns)).map f).sum
      = ∑ i ∈ Finset.range n, ((tp ns).map fun is => f (i :: is)).sum := by
  rw [tp]
  induction n with
  | zero => simp
  | succ n ih =>
    rw [List.range_succ, List.flatMap_append, List.map_append, List.sum_append, ih,
      Finset.sum_range_succ]
    congr 1
    simp [Function.comp_def]

/-- The sum over the positions is the sum over the multi-indices. -/
theorem sum_range_ravel {M : Type*} [AddCommMonoid M] (ns : List ℕ) (f : ℕ → M) :
    ∑ a ∈ Finset.range ns.prod, f a = ((tp ns).map fun is => f (ravel ns is)).sum := by
  have : (List.range ns.prod) = (tp ns).map (ravel ns) := by
    apply List.ext_getElem?
    intro k
    rcases Nat.lt_or_ge k ns.prod with h | h
    · obtain ⟨is, h1, rfl⟩ := exists_ravel h
      rw [List.getElem?_map, tp_get h1, List.getElem?_range h]
      rfl
    · rw [List.getElem?_eq_none (by simpa using h), List.getElem?_eq_none (by simpa [tp_length] using h)]
  have e : ((tp ns).map fun is => f (ravel ns is)) = ((tp ns).map (ravel ns)).map f := by simp
  rw [e, ← this]
  induction ns.prod with
  | zero => rfl
  | succ m ih => rw [Finset.sum_range_succ, List.range_succ, List.map_append, List.sum_append, ← ih]; simp

theorem mapIdx_tp {β : Type*} (ns : List ℕ) (f : ℕ → List ℕ → β) :
    (tp ns).mapIdx f = (tp ns).map fun is => f (ravel ns is) is := by
  apply List.ext_getElem?
  intro k
  rcases Nat.lt_or_ge k ns.prod with h | h
  · obtain ⟨is, h1, rfl⟩ := exists_ravel h
    rw [List.getElem?_map, List.getElem?_mapIdx, tp_get h1]
    rfl
  · rw [List.getElem?_eq_none (by simpa [tp_length] using h),
      List.getElem?_eq_none (by simpa [tp_length] using h)]

end Iga
