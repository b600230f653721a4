import Mathlib.Data.List.Perm.Basic
import Mathlib.Data.List.Sort
import Mathlib.Data.List.Dedup
import Mathlib.Data.List.Nodup
import Mathlib.Tactic.Tauto

/-!
# Python dictionaries and the two set helpers of numpy, as used by `parallel/parallel.py`
-/

namespace Par

/-- A Python `dict` with integer keys, in insertion order. -/
abbrev Dict (α : Type _) := List (ℕ × α)

variable {α : Type _}

/-- `x = d.setdefault(k, dflt)` followed by an in-place modification `f` of `x`.
/repo/sfepy/parallel/parallel.py:104-110, 166, 169 (the modifications of `facets`, `rdof_map`
and `cdof_map` act on the object stored in the dictionary). -/
def dupd : Dict α → ℕ → α → (α → α) → Dict α
  | [], k, dflt, f => [(k, f dflt)]
  | (k', v) :: r, k, dflt, f =>
    if k' = k then (k', f v) :: r else (k', v) :: dupd r k dflt f

/-- `d.get(k)`. -/
def dget : Dict α → ℕ → Option α
  | [], _ => none
  | (k', v) :: r, k => if k' = k then some v else dget r k

/-- `ordered_iteritems(d)`: the items in increasing order of the keys.
/repo/sfepy/base/base.py:1437-1442 -/
def ditems (d : Dict α) : List (ℕ × α) := d.insertionSort (fun a b => a.1 ≤ b.1)

/-- `nm.unique(a)`: the sorted distinct values. -/
def unique (l : List ℕ) : List ℕ := l.dedup.insertionSort (· ≤ ·)

/-- `nm.setdiff1d(a, b)`: the sorted distinct values of `a` not in `b`. -/
def setdiff1d (a b : List ℕ) : List ℕ := (unique a).filter (fun x => decide (x ∉ b))

theorem mem_unique {l : List ℕ} {x : ℕ} : x ∈ unique l ↔ x ∈ l := by
  simp [unique]

theorem nodup_unique (l : List ℕ) : (unique l).Nodup :=
  ((List.perm_insertionSort _ _).nodup_iff).2 (List.nodup_dedup l)

theorem mem_setdiff1d {a b : List ℕ} {x : ℕ} : x ∈ setdiff1d a b ↔ x ∈ a ∧ x ∉ b := by
  simp [setdiff1d, mem_unique]

theorem nodup_setdiff1d (a b : List ℕ) : (setdiff1d a b).Nodup :=
  (nodup_unique a).filter _

/-! ### Lookups -/

theorem dget_dupd (d : Dict α) (k : ℕ) (dflt : α) (f : α → α) (j : ℕ) :
    dget (dupd d k dflt f) j = if j = k then some (f ((dget d k).getD dflt)) else dget d j := by
  induction d with
  | nil => simp only [dupd, dget]; by_cases h : k = j <;> simp [h, eq_comm]
  | cons p r ih =>
    obtain ⟨k', v⟩ := p
    by_cases hk : k' = k
    · subst hk
      by_cases hj : j = k'
      · subst hj; simp [dupd, dget]
      · simp [dupd, dget, hj, Ne.symm hj]
    · by_cases hj : j = k
      · subst hj
        simp [dupd, dget, hk, ih]
      · by_cases hj' : k' = j
        · subst hj'; simp [dupd, dget, hk]
        · simp [dupd, dget, hk, hj, hj', ih]

/-- The keys. -/
def dkeys (d : Dict α) : List ℕ := d.map Prod.fst

theorem mem_dkeys_dupd (d : Dict α) (k : ℕ) (dflt : α) (f : α → α) (j : ℕ) :
    j ∈ dkeys (dupd d k dflt f) ↔ j = k ∨ j ∈ dkeys d := by
  induction d with
  | nil => simp [dupd, dkeys]
  | cons p r ih =>
    obtain ⟨k', v⟩ := p
    by_cases hk : k' = k
    · subst hk; simp [dupd, dkeys]
    · simp only [dupd, hk, if_false, dkeys, List.map_cons, List.mem_cons] at ih ⊢
      rw [ih]; tauto

theorem nodup_dkeys_dupd (d : Dict α) (k : ℕ) (dflt : α) (f : α → α)
    (h : (dkeys d).Nodup) : (dkeys (dupd d k dflt f)).Nodup := by
  induction d with
  | nil => simp [dupd, dkeys]
  | cons p r ih =>
    obtain ⟨k', v⟩ := p
    have h' : k' ∉ dkeys r ∧ (dkeys r).Nodup := by simpa [dkeys] using h
    by_cases hk : k' = k
    · subst hk; simpa [dupd, dkeys] using h
    · simp only [dupd, hk, if_false]
      show (k' :: dkeys (dupd r k dflt f)).Nodup
      refine List.nodup_cons.2 ⟨?_, ih h'.2⟩
      rw [mem_dkeys_dupd]; tauto

theorem dget_eq_some {d : Dict α} (h : (dkeys d).Nodup) {k : ℕ} {v : α} :
    dget d k = some v ↔ (k, v) ∈ d := by
  induction d with
  | nil => simp [dget]
  | cons p r ih =>
    obtain ⟨k', v'⟩ := p
    have h' : k' ∉ dkeys r ∧ (dkeys r).Nodup := by simpa [dkeys] using h
    by_cases hk : k' = k
    · subst hk
      simp only [dget, if_true, Option.some.injEq, List.mem_cons, Prod.mk.injEq, true_and]
      constructor
      · intro e; exact Or.inl e.symm
      · rintro (e | e)
        · exact e.symm
        · exact absurd (List.mem_map.2 ⟨_, e, rfl⟩) h'.1
    · simp only [dget, hk, if_false, ih h'.2, List.mem_cons, Prod.mk.injEq]
      constructor
      · exact Or.inr
      · rintro (⟨e, -⟩ | e)
        · exact absurd e.symm hk
        · exact e

theorem dget_isSome {d : Dict α} {k : ℕ} : (dget d k).isSome ↔ k ∈ dkeys d := by
  induction d with
  | nil => simp [dget, dkeys]
  | cons p r ih =>
    obtain ⟨k', v'⟩ := p
    by_cases hk : k' = k
    · subst hk; simp [dget, dkeys]
    · have : k ≠ k' := fun h => hk h.symm
      simp only [dget, hk, if_false, ih]
      simp [dkeys, this]

theorem mem_ditems {d : Dict α} {x : ℕ × α} : x ∈ ditems d ↔ x ∈ d := by
  simp [ditems]

theorem ditems_perm (d : Dict α) : (ditems d).Perm d := List.perm_insertionSort _ _

instance : Std.Total (fun a b : ℕ × α => a.1 ≤ b.1) := ⟨fun a b => Nat.le_total a.1 b.1⟩
instance : IsTrans (ℕ × α) (fun a b : ℕ × α => a.1 ≤ b.1) := ⟨fun _ _ _ h h' => Nat.le_trans h h'⟩

theorem ditems_sorted {d : Dict α} (h : (dkeys d).Nodup) :
    ((ditems d).map Prod.fst).Pairwise (· < ·) := by
  have h1 : ((ditems d).map Prod.fst).Pairwise (· ≤ ·) := by
    rw [List.pairwise_map]
    exact List.pairwise_insertionSort _ _
  have h2 : ((ditems d).map Prod.fst).Nodup := ((ditems_perm d).map _).nodup_iff.2 h
  exact (h1.and h2).imp fun ⟨a, b⟩ => lt_of_le_of_ne a b

/-- Concatenating a list-valued attribute of the items, when the modification appends. -/
theorem dupd_flatMap_perm {β : Type _} (g : α → List β) (d : Dict α) (k : ℕ) (dflt : α)
    (f : α → α) (new : List β) (h0 : g dflt = [])
    (hf : (g (f ((dget d k).getD dflt))).Perm (g ((dget d k).getD dflt) ++ new)) :
    ((dupd d k dflt f).flatMap fun p => g p.2).Perm ((d.flatMap fun p => g p.2) ++ new) := by
  induction d with
  | nil => simpa [dupd, dget, h0] using hf
  | cons p r ih =>
    obtain ⟨k', v⟩ := p
    by_cases hk : k' = k
    · subst hk
      simp only [dget, if_true, Option.getD_some] at hf
      simp only [dupd, if_true, List.flatMap_cons]
      refine (hf.append_right _).trans ?_
      rw [List.append_assoc, List.append_assoc]
      exact List.Perm.append_left _ List.perm_append_comm
    · simp only [dget, hk, if_false] at hf
      simp only [dupd, hk, if_false, List.flatMap_cons, List.append_assoc]
      exact List.Perm.append_left _ (ih hf)

end Par
