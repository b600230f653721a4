/-
NumPy-like vectors.

A one-dimensional array is a function `Nat → α`; its length is carried separately
by the definitions that need it.  Only the entries below the length are meaningful
(the theorems only speak about those entries).
-/
namespace Verif.Np

/-- One item assignment `v[i] = x` (NumPy/C). -/
def upd {α : Type _} (v : Nat → α) (i : Nat) (x : α) : Nat → α :=
  fun j => if j = i then x else v j

/-- NumPy fancy assignment `v[idx] = vals` for two equally long one-dimensional
operands: items are assigned in order, so with repeated indices the last one wins. -/
def scatter {α : Type _} (v : Nat → α) : List (Nat × α) → (Nat → α)
  | [] => v
  | (i, x) :: rest => scatter (upd v i x) rest

/-- NumPy fancy assignment of a scalar, `v[idx] = x`. -/
def scatterConst {α : Type _} (v : Nat → α) (idx : List Nat) (x : α) : Nat → α :=
  scatter v (idx.map fun i => (i, x))

/-- `nm.nonzero(mask)[0]` of a mask of length `n`: increasing list of indices. -/
def nonzero (n : Nat) (mask : Nat → Bool) : List Nat :=
  (List.range n).filter mask

@[simp] theorem upd_same {α} (v : Nat → α) (i : Nat) (x : α) : upd v i x i = x := by
  simp [upd]

theorem upd_ne {α} (v : Nat → α) {i j : Nat} (x : α) (h : j ≠ i) : upd v i x j = v j := by
  simp [upd, h]

@[simp] theorem scatter_nil {α} (v : Nat → α) : scatter v [] = v := rfl

@[simp] theorem scatter_cons {α} (v : Nat → α) (p : Nat × α) (l : List (Nat × α)) :
    scatter v (p :: l) = scatter (upd v p.1 p.2) l := rfl

/-- Entries whose index is not assigned are unchanged. -/
theorem scatter_of_not_mem {α} (l : List (Nat × α)) (v : Nat → α) (j : Nat)
    (h : ∀ p ∈ l, p.1 ≠ j) : scatter v l j = v j := by
  induction l generalizing v with
  | nil => rfl
  | cons p l ih =>
    rw [scatter_cons, ih _ (fun q hq => h q (List.mem_cons_of_mem _ hq))]
    exact upd_ne _ _ (fun e => h p List.mem_cons_self e.symm)

/-- An assigned entry gets one of the values assigned to it. -/
theorem scatter_mem {α} (l : List (Nat × α)) (v : Nat → α) (j : Nat)
    (h : ∃ p ∈ l, p.1 = j) : ∃ p ∈ l, p.1 = j ∧ scatter v l j = p.2 := by
  induction l generalizing v with
  | nil => simp at h
  | cons p l ih =>
    by_cases h' : ∃ q ∈ l, q.1 = j
    · obtain ⟨q, hq, e, hv⟩ := ih (upd v p.1 p.2) h'
      exact ⟨q, List.mem_cons_of_mem _ hq, e, hv⟩
    · have hne : ∀ q ∈ l, q.1 ≠ j := fun q hq e => h' ⟨q, hq, e⟩
      have hp : p.1 = j := by
        obtain ⟨q, hq, e⟩ := h
        rcases List.mem_cons.1 hq with rfl | hq
        · exact e
        · exact absurd e (hne q hq)
      refine ⟨p, List.mem_cons_self, hp, ?_⟩
      rw [scatter_cons, scatter_of_not_mem _ _ _ hne, hp, upd_same]

/-- If all values assigned to `j` agree, that is the result. -/
theorem scatter_eq {α} (l : List (Nat × α)) (v : Nat → α) (j : Nat) (x : α)
    (h : ∃ p ∈ l, p.1 = j) (hx : ∀ p ∈ l, p.1 = j → p.2 = x) : scatter v l j = x := by
  obtain ⟨p, hp, e, hv⟩ := scatter_mem l v j h
  rw [hv, hx p hp e]

theorem scatterConst_apply {α} (v : Nat → α) (idx : List Nat) (x : α) (j : Nat) :
    scatterConst v idx x j = if j ∈ idx then x else v j := by
  unfold scatterConst
  split
  · next h =>
    apply scatter_eq
    · exact ⟨(j, x), List.mem_map.2 ⟨j, h, rfl⟩, rfl⟩
    · intro p hp _
      obtain ⟨i, _, rfl⟩ := List.mem_map.1 hp
      rfl
  · next h =>
    apply scatter_of_not_mem
    intro p hp e
    obtain ⟨i, hi, rfl⟩ := List.mem_map.1 hp
    exact h (e ▸ hi)

theorem mem_nonzero {n : Nat} {mask : Nat → Bool} {i : Nat} :
    i ∈ nonzero n mask ↔ i < n ∧ mask i = true := by
  simp [nonzero, List.mem_filter]

theorem scatter_append {α} (l₁ l₂ : List (Nat × α)) (v : Nat → α) :
    scatter v (l₁ ++ l₂) = scatter (scatter v l₁) l₂ := by
  induction l₁ generalizing v with
  | nil => rfl
  | cons p l ih => simp [ih]

end Verif.Np
