/-
C33: the sorts of integers, of indices and of matrix rows.
-/
import Verif.Sort.PropsQuick
import Mathlib.Data.List.Lex
import Mathlib.Order.Interval.Finset.Defs
import Mathlib.Data.Int.Interval
import Mathlib.Data.Finset.Card

namespace Verif.Sort

open Function

/-! ### Integers and indices -/

theorem weak_key {α : Type} (key : α → ℤ) : Weak fun x y => decide (key x < key y) where
  irrefl := by simp
  trans := by intro a b c h1 h2; simp only [decide_eq_true_eq] at *; omega
  negTrans := by intro a b c h1 h2; simp only [decide_eq_false_iff_not] at *; omega

/-- C33: `int32_quicksort()` sorts. -/
theorem C33_int32_quicksort (n : ℕ) (hn : n < 2 ^ 31) (a : ℤ → ℤ) (fuel : ℕ) (hf : 2 * n + 1 ≤ fuel) :
    ∃ b, int32Quicksort n fuel a = some b ∧
      (∃ σ : Equiv.Perm ℤ, b = a ∘ σ ∧ ∀ k : ℤ, ¬ (0 ≤ k ∧ k < n) → σ k = k) ∧
      ∀ i j : ℤ, 0 ≤ i → i < j → j < n → b i ≤ b j := by
  obtain ⟨b, e, h1, h2⟩ := C33_quicksort (weak_key fun x : ℤ => x) n
    (lt_of_lt_of_le hn (by norm_num)) a fuel hf
  exact ⟨b, e, h1, fun i j h3 h4 h5 => by simpa using h2 i j h3 h4 h5⟩

/-- C33: `int32_aquicksort()` of the indices `0, ..., n - 1` returns a permutation sorting the values. -/
theorem C33_int32_aquicksort (n : ℕ) (hn : n < 2 ^ 31) (v : ℤ → ℤ) (fuel : ℕ) (hf : 2 * n + 1 ≤ fuel) :
    ∃ σ : Equiv.Perm ℤ, int32Aquicksort v n fuel (fun i => i) = some ⇑σ ∧
      (∀ k : ℤ, ¬ (0 ≤ k ∧ k < n) → σ k = k) ∧ ∀ i j : ℤ, 0 ≤ i → i < j → j < n → v (σ i) ≤ v (σ j) := by
  obtain ⟨b, e, ⟨σ, rfl, hs⟩, h2⟩ := C33_quicksort (weak_key v) n
    (lt_of_lt_of_le hn (by norm_num)) (fun i => i) fuel hf
  exact ⟨σ, e, hs, fun i j h3 h4 h5 => by simpa using h2 i j h3 h4 h5⟩

/-! ### Rows -/

/-- `MTXR_LT` is the lexicographic order of the columns `ic`. -/
theorem mtxrLt_iff (a b : ℕ → ℤ) (ic : List ℕ) :
    mtxrLt a b ic = true ↔ List.Lex (· < ·) (ic.map a) (ic.map b) := by
  induction ic with
  | nil => simp [mtxrLt]
  | cons c ic ih =>
    simp only [mtxrLt, List.map_cons]
    split
    · rename_i h
      simp only [true_iff]
      exact List.Lex.rel h
    · rename_i h
      split
      · rename_i h'
        simp only [Bool.false_eq_true, false_iff]
        generalize a c = x at *
        generalize b c = y at *
        intro hl
        cases hl with
        | cons hl => omega
        | rel hl => omega
      · rename_i h'
        have : a c = b c := by omega
        rw [ih, this]
        generalize b c = y
        constructor
        · intro hl; exact List.Lex.cons hl
        · intro hl
          cases hl with
          | cons hl => exact hl
          | rel hl => omega

theorem mtxrLt_weak (ic : List ℕ) {α : Type} (row : α → ℕ → ℤ) :
    Weak fun x y => mtxrLt (row x) (row y) ic where
  irrefl := by
    intro x
    induction ic with
    | nil => rfl
    | cons c ic ih => simpa [mtxrLt] using ih
  trans := by
    intro x y z
    induction ic with
    | nil => simp [mtxrLt]
    | cons c ic ih =>
      simp only [mtxrLt]
      intro h1 h2
      split at h1
      · split at h2
        · rw [if_pos (by omega)]
        · split at h2
          · simp at h2
          · rw [if_pos (by omega)]
      · split at h1
        · simp at h1
        · split at h2
          · rw [if_pos (by omega)]
          · split at h2
            · simp at h2
            · rw [if_neg (by omega), if_neg (by omega)]
              exact ih h1 h2
  negTrans := by
    intro x y z
    induction ic with
    | nil => simp [mtxrLt]
    | cons c ic ih =>
      simp only [mtxrLt]
      intro h1 h2
      split at h1
      · simp at h1
      · split at h1
        · split at h2
          · simp at h2
          · split at h2
            · rw [if_neg (by omega), if_pos (by omega)]
            · rw [if_neg (by omega), if_pos (by omega)]
        · split at h2
          · simp at h2
          · split at h2
            · rw [if_neg (by omega), if_pos (by omega)]
            · rw [if_neg (by omega), if_neg (by omega)]
              exact ih h1 h2

/-- C33: `int32_mtx_aquicksort()` returns a permutation sorting the rows lexicographically. -/
theorem C33_mtx_aquicksort (n : ℕ) (hn : n < 2 ^ 31) (v : ℤ → ℕ → ℤ) (ic : List ℕ) (fuel : ℕ)
    (hf : 2 * n + 1 ≤ fuel) :
    ∃ σ : Equiv.Perm ℤ, mtxAquicksort v ic n fuel (fun i => i) = some ⇑σ ∧
      (∀ k : ℤ, ¬ (0 ≤ k ∧ k < n) → σ k = k) ∧
      ∀ i j : ℤ, 0 ≤ i → i < j → j < n → ¬ List.Lex (· < ·) (ic.map (v (σ j))) (ic.map (v (σ i))) := by
  obtain ⟨b, e, ⟨σ, rfl, hs⟩, h2⟩ := C33_quicksort (mtxrLt_weak ic v) n
    (lt_of_lt_of_le hn (by norm_num)) (fun i => i) fuel hf
  refine ⟨σ, e, hs, fun i j h3 h4 h5 => ?_⟩
  have := h2 i j h3 h4 h5
  simp only [comp_apply] at this
  rw [← mtxrLt_iff, this]
  simp

theorem permI_ok (n : ℕ) (σ : Equiv.Perm ℤ) (hσ : ∀ k : ℤ, ¬ (0 ≤ k ∧ k < n) → σ k = k) :
    ∃ permI, (List.range n).foldlM (fun permI (ii : ℕ) => do
      let p ← rd n (⇑σ) (ii : ℤ)
      wr n permI p (ii : ℤ)) (fun _ : ℤ => (0 : ℤ)) = some permI ∧
      ∀ k : ℤ, 0 ≤ k → k < n → permI k = σ.symm k := by
  have hin : ∀ k : ℤ, 0 ≤ k → k < n → 0 ≤ σ k ∧ σ k < n := by
    intro k h1 h2
    have := rearr_maps (l := 0) (r := n - 1) (σ := σ) (fun k hk => hσ k (by omega)) k ⟨h1, by omega⟩
    omega
  have main : ∀ m ≤ n, ∃ permI, (List.range m).foldlM (fun permI (ii : ℕ) => do
      let p ← rd n (⇑σ) (ii : ℤ)
      wr n permI p (ii : ℤ)) (fun _ : ℤ => (0 : ℤ)) = some permI ∧ ∀ k : ℕ, k < m → permI (σ k) = k := by
    intro m
    induction m with
    | zero => intro _; exact ⟨_, rfl, by simp⟩
    | succ m ih =>
      intro hm
      obtain ⟨q, e, hq⟩ := ih (by omega)
      have := hin m (by omega) (by omega)
      rw [List.range_succ, List.foldlM_append, e]
      simp only [Option.bind_eq_bind, Option.bind_some, List.foldlM_cons, List.foldlM_nil]
      rw [rd_ok _ (by omega) (by omega)]
      simp only [Option.bind_some]
      rw [wr_ok _ _ this.1 this.2]
      refine ⟨_, rfl, fun k hk => ?_⟩
      by_cases h : k = m
      · subst h; simp
      · rw [update_of_ne, hq k (by omega)]
        intro h'
        have := σ.injective h'
        omega
  obtain ⟨permI, e, h⟩ := main n le_rfl
  refine ⟨permI, e, fun k h1 h2 => ?_⟩
  have hk : 0 ≤ σ.symm k ∧ σ.symm k < n := by
    by_contra hc
    have := hσ _ hc
    rw [Equiv.apply_symm_apply] at this
    rw [← this] at hc
    exact hc ⟨h1, h2⟩
  have := h (σ.symm k).toNat (by omega)
  have e2 : (((σ.symm k).toNat : ℕ) : ℤ) = σ.symm k := by omega
  rw [e2, Equiv.apply_symm_apply] at this
  exact this

variable {R : Type}

/-- The rows at `D` are in the place, the other ones are not moved. -/
def Done (σ : Equiv.Perm ℤ) (A : ℤ → R) (s : RowState R) (D : Finset ℤ) : Prop :=
  (∀ k, s.array k = if k ∈ D then A (σ k) else A k) ∧
  (∀ k, s.perm k = if k ∈ D then k else σ k) ∧ ∀ k, k ∈ D ↔ σ k ∈ D

theorem chain_ok (n : ℕ) (σ : Equiv.Perm ℤ) (hσ : ∀ k : ℤ, ¬ (0 ≤ k ∧ k < n) → σ k = k) (permI : ℤ → ℤ)
    (hpI : ∀ k : ℤ, 0 ≤ k → k < n → permI k = σ.symm k) (A : ℤ → R) (D : Finset ℤ) (ii : ℤ)
    (hD : ∀ k, k ∈ D ↔ σ k ∈ D) (hii : 0 ≤ ii ∧ ii < n) :
    ∀ (fuel : ℕ) (s : RowState R) (c : ℤ) (E : Finset ℤ), n - E.card < fuel →
    E ⊆ Finset.Ico 0 (n : ℤ) → ii ∈ E → c ∉ E → σ ii ∉ E → (∀ k ∈ E, k ∉ D) → c ∉ D →
    (∀ k ∈ E, k ≠ ii → σ k ∈ E) → σ c ∈ E → (∀ k ∈ E, σ.symm k ∈ E ∨ σ.symm k = c) → 0 ≤ c → c < n →
    (∀ k, k ≠ σ ii → s.array k = if k ∈ D ∪ E then A (σ k) else A k) →
    (∀ k, s.perm k = if k ∈ D ∪ E then k else σ k) →
    ∃ s' D', chain n permI (σ ii) fuel s (A (σ c)) c = some s' ∧ Done σ A s' D' ∧ ii ∈ D' ∧ D ⊆ D'
  | 0, s, c, E, h, _, _, _, _, _, _, _, _, _, _, _, _, _ => by omega
  | fuel + 1, s, c, E, hfuel, hE, hiE, hcE, hnE, hED, hcD, hup, hcup, hdown, hc0, hcn, harr, hperm => by
    have hin : ∀ k : ℤ, 0 ≤ k → k < n → 0 ≤ σ k ∧ σ k < n := by
      intro k h1 h2
      have := rearr_maps (l := 0) (r := n - 1) (σ := σ) (fun k hk => hσ k (by omega)) k ⟨h1, by omega⟩
      omega
    have hnew := hin ii hii.1 hii.2
    rw [chain]
    split
    · rename_i hne
      rw [wr_ok _ _ hnew.1 hnew.2]
      simp only [Option.bind_eq_bind, Option.bind_some]
      rw [rd_ok _ hc0 hcn]
      simp only [Option.bind_some]
      rw [rd_ok _ hnew.1 hnew.2]
      simp only [Option.bind_some, update_self]
      rw [wr_ok _ _ hc0 hcn]
      simp only [Option.bind_some]
      rw [wr_ok _ _ hc0 hcn]
      simp only [Option.bind_some]
      rw [rd_ok _ hc0 hcn]
      simp only [Option.bind_some]
      rw [hpI c hc0 hcn, update_of_ne (Ne.symm hne), harr c (Ne.symm hne), if_neg (by simp [hcD, hcE])]
      have hc' : 0 ≤ σ.symm c ∧ σ.symm c < n := by
        by_contra hcc
        have := hσ _ hcc
        rw [Equiv.apply_symm_apply] at this
        rw [← this] at hcc
        exact hcc ⟨hc0, hcn⟩
      have hcard : (insert c E).card = E.card + 1 := Finset.card_insert_of_notMem hcE
      have hsub : insert c E ⊆ Finset.Ico 0 (n : ℤ) := by
        intro k hk
        rcases Finset.mem_insert.1 hk with rfl | hk
        · simp [hc0, hcn]
        · exact hE hk
      have hle : (insert c E).card ≤ n := by
        have := Finset.card_le_card hsub
        simpa using this
      have hA : A c = A (σ (σ.symm c)) := by rw [Equiv.apply_symm_apply]
      rw [hA]
      refine chain_ok n σ hσ permI hpI A D ii hD hii fuel _ (σ.symm c) (insert c E) (by omega) hsub
        (by simp [hiE]) ?_ ?_ ?_ ?_ ?_ ?_ ?_ hc'.1 hc'.2 ?_ ?_
      · intro hmem
        rcases Finset.mem_insert.1 hmem with h | h
        · have : c = σ c := by
            conv_lhs => rw [← Equiv.apply_symm_apply σ c, h]
          rw [← this] at hcup
          exact hcE hcup
        · by_cases hi : σ.symm c = ii
          · apply hne
            rw [← hi, Equiv.apply_symm_apply]
          · have := hup _ h hi
            rw [Equiv.apply_symm_apply] at this
            exact hcE this
      · intro hmem
        rcases Finset.mem_insert.1 hmem with h | h
        · exact hne h
        · exact hnE h
      · intro k hk
        rcases Finset.mem_insert.1 hk with rfl | hk
        · exact hcD
        · exact hED k hk
      · intro h
        apply hcD
        have := (hD _).1 h
        rwa [Equiv.apply_symm_apply] at this
      · intro k hk hki
        rcases Finset.mem_insert.1 hk with rfl | hk
        · exact Finset.mem_insert_of_mem hcup
        · exact Finset.mem_insert_of_mem (hup k hk hki)
      · rw [Equiv.apply_symm_apply]; simp
      · intro k hk
        rcases Finset.mem_insert.1 hk with rfl | hk
        · exact Or.inr rfl
        · rcases hdown k hk with h | h
          · exact Or.inl (Finset.mem_insert_of_mem h)
          · exact Or.inl (by rw [h]; simp)
      · intro k hk
        simp only
        by_cases hkc : k = c
        · subst hkc
          rw [update_self, if_pos (by simp)]
        · rw [update_of_ne hkc, update_of_ne hk, harr k hk]
          have : (k ∈ D ∪ insert c E) = (k ∈ D ∪ E) := by simp [hkc]
          simp only [this]
      · intro k
        simp only
        by_cases hkc : k = c
        · subst hkc
          rw [update_self, if_pos (by simp)]
        · rw [update_of_ne hkc, hperm k]
          have : (k ∈ D ∪ insert c E) = (k ∈ D ∪ E) := by simp [hkc]
          simp only [this]
    · rename_i heq
      have heq : σ ii = c := by simpa using heq
      rw [wr_ok _ _ hnew.1 hnew.2]
      simp only [Option.bind_eq_bind, Option.bind_some]
      rw [wr_ok _ _ hnew.1 hnew.2]
      refine ⟨_, D ∪ insert c E, rfl, ⟨?_, ?_, ?_⟩, by simp [hiE], by intro k hk; simp [hk]⟩
      · intro k
        simp only
        by_cases hkc : k = σ ii
        · subst hkc
          rw [update_self, if_pos (by simp [heq]), heq]
        · rw [update_of_ne hkc, harr k hkc]
          rw [heq] at hkc
          have : (k ∈ D ∪ insert c E) = (k ∈ D ∪ E) := by simp [hkc]
          simp only [this]
      · intro k
        simp only
        by_cases hkc : k = σ ii
        · subst hkc
          rw [update_self, if_pos (by simp [heq])]
        · rw [update_of_ne hkc, hperm k]
          rw [heq] at hkc
          have : (k ∈ D ∪ insert c E) = (k ∈ D ∪ E) := by simp [hkc]
          simp only [this]
      · intro k
        simp only [Finset.mem_union, Finset.mem_insert]
        constructor
        · rintro (h | rfl | h)
          · exact Or.inl ((hD k).1 h)
          · exact Or.inr (Or.inr hcup)
          · by_cases hki : k = ii
            · subst hki; exact Or.inr (Or.inl heq)
            · exact Or.inr (Or.inr (hup k h hki))
        · rintro (h | h | h)
          · exact Or.inl ((hD k).2 h)
          · have : k = ii := σ.injective (h.trans heq.symm)
            subst this; exact Or.inr (Or.inr hiE)
          · rcases hdown _ h with h' | h'
            · rw [Equiv.symm_apply_apply] at h'; exact Or.inr (Or.inr h')
            · rw [Equiv.symm_apply_apply] at h'; exact Or.inr (Or.inl h')

theorem rowStep_ok (n : ℕ) (σ : Equiv.Perm ℤ) (hσ : ∀ k : ℤ, ¬ (0 ≤ k ∧ k < n) → σ k = k) (permI : ℤ → ℤ)
    (hpI : ∀ k : ℤ, 0 ≤ k → k < n → permI k = σ.symm k) (A : ℤ → R) (fuel : ℕ) (hf : n < fuel)
    (s : RowState R) (D : Finset ℤ) (hs : Done σ A s D) (ii : ℤ) (hii : 0 ≤ ii ∧ ii < n) :
    ∃ s' D', rowStep n fuel permI s ii = some s' ∧ Done σ A s' D' ∧ ii ∈ D' ∧ D ⊆ D' := by
  obtain ⟨h1, h2, h3⟩ := hs
  have hin : ∀ k : ℤ, 0 ≤ k → k < n → 0 ≤ σ k ∧ σ k < n := by
    intro k h1 h2
    have := rearr_maps (l := 0) (r := n - 1) (σ := σ) (fun k hk => hσ k (by omega)) k ⟨h1, by omega⟩
    omega
  rw [rowStep, rd_ok _ hii.1 hii.2]
  simp only [Option.bind_eq_bind, Option.bind_some]
  split
  · rename_i heq
    by_cases hD : ii ∈ D
    · exact ⟨s, D, rfl, ⟨h1, h2, h3⟩, hD, fun _ h => h⟩
    · have hfix : σ ii = ii := by
        rw [h2 ii, if_neg hD] at heq; exact heq.symm
      refine ⟨s, insert ii D, rfl, ⟨?_, ?_, ?_⟩, by simp, by intro k hk; simp [hk]⟩
      · intro k
        rw [h1 k]
        by_cases hk : k = ii
        · subst hk; simp [hfix]
        · have : (k ∈ insert ii D) = (k ∈ D) := by simp [hk]
          simp only [this]
      · intro k
        rw [h2 k]
        by_cases hk : k = ii
        · subst hk; simp [hfix]
        · have : (k ∈ insert ii D) = (k ∈ D) := by simp [hk]
          simp only [this]
      · intro k
        simp only [Finset.mem_insert]
        rw [h3 k]
        have : k = ii ↔ σ k = ii := by
          constructor
          · rintro rfl; exact hfix
          · intro h; exact σ.injective (h.trans hfix.symm)
        rw [this]
  · rename_i hne
    have hD : ii ∉ D := by
      intro hD
      rw [h2 ii, if_pos hD] at hne
      exact hne rfl
    have hp : s.perm ii = σ ii := by rw [h2 ii, if_neg hD]
    rw [hp] at hne ⊢
    have hnew := hin ii hii.1 hii.2
    have hnD : σ ii ∉ D := fun h => hD ((h3 ii).2 h)
    rw [rd_ok _ hii.1 hii.2]
    simp only [Option.bind_some]
    rw [rd_ok _ hnew.1 hnew.2]
    simp only [Option.bind_some]
    rw [wr_ok _ _ hii.1 hii.2]
    simp only [Option.bind_some]
    rw [wr_ok _ _ hii.1 hii.2]
    simp only [Option.bind_some]
    rw [rd_ok _ hii.1 hii.2]
    simp only [Option.bind_some]
    rw [hpI ii hii.1 hii.2, h1 ii, if_neg hD, h1 (σ ii), if_neg hnD]
    have hA : A ii = A (σ (σ.symm ii)) := by rw [Equiv.apply_symm_apply]
    rw [hA]
    have hc' : 0 ≤ σ.symm ii ∧ σ.symm ii < n := by
      by_contra hcc
      have := hσ _ hcc
      rw [Equiv.apply_symm_apply] at this
      rw [← this] at hcc
      exact hcc hii
    have hc1 : σ.symm ii ≠ ii := by
      intro h
      apply hne
      conv_lhs => rw [← Equiv.apply_symm_apply σ ii, h]
    refine chain_ok n σ hσ permI hpI A D ii h3 hii fuel _ (σ.symm ii) {ii} (by omega)
      (by intro k hk; simp at hk; subst hk; simp [hii]) (by simp) (by simpa using hc1)
      (by simpa using Ne.symm hne) (by intro k hk; simp at hk; subst hk; exact hD) ?_ ?_ (by simp) ?_
      hc'.1 hc'.2 ?_ ?_
    · intro h
      have := (h3 _).1 h
      rw [Equiv.apply_symm_apply] at this
      exact hD this
    · intro k hk hki; simp at hk; exact absurd hk hki
    · intro k hk; simp at hk; subst hk; right; rfl
    · intro k hk
      simp only
      by_cases hki : k = ii
      · subst hki; rw [update_self, if_pos (by simp)]
      · rw [update_of_ne hki, h1 k]
        have : (k ∈ D ∪ {ii}) = (k ∈ D) := by simp [hki]
        simp only [this]
    · intro k
      simp only
      by_cases hki : k = ii
      · subst hki; rw [update_self, if_pos (by simp)]
      · rw [update_of_ne hki, h2 k]
        have : (k ∈ D ∪ {ii}) = (k ∈ D) := by simp [hki]
        simp only [this]

/-- C33: `int32_sort_rows()` terminates without accesses out of the arrays; the result is a rearrangement of
whole rows, sorted lexicographically by the given columns. -/
theorem C33_sort_rows (n : ℕ) (hn : n < 2 ^ 31) (array : ℤ → ℕ → ℤ) (ic : List ℕ) (fuel : ℕ)
    (hf : 2 * n + 1 ≤ fuel) :
    ∃ out, sortRows n fuel array ic = some out ∧
      (∃ σ : Equiv.Perm ℤ, (∀ k : ℤ, ¬ (0 ≤ k ∧ k < n) → σ k = k) ∧ ∀ k, out k = array (σ k)) ∧
      ∀ i j : ℤ, 0 ≤ i → i < j → j < n → ¬ List.Lex (· < ·) (ic.map (out j)) (ic.map (out i)) := by
  obtain ⟨σ, e, hσ, hsort⟩ := C33_mtx_aquicksort n hn array ic fuel hf
  obtain ⟨permI, eI, hI⟩ := permI_ok n σ hσ
  have main : ∀ m ≤ n, ∃ s D, (List.range m).foldlM (fun s (ii : ℕ) => rowStep n fuel permI s (ii : ℤ))
      { array := array, perm := σ } = some s ∧ Done σ array s D ∧ ∀ k : ℕ, k < m → (k : ℤ) ∈ D := by
    intro m
    induction m with
    | zero =>
      intro _
      exact ⟨_, ∅, rfl, ⟨by simp, by simp, by simp⟩, by simp⟩
    | succ m ih =>
      intro hm
      obtain ⟨s, D, e, hD, hk⟩ := ih (by omega)
      obtain ⟨s', D', e', hD', hm', hsub⟩ := rowStep_ok n σ hσ permI hI array fuel (by omega) s D hD m
        (by omega)
      rw [List.range_succ, List.foldlM_append, e]
      simp only [Option.bind_eq_bind, Option.bind_some, List.foldlM_cons, List.foldlM_nil, e']
      refine ⟨s', D', rfl, hD', fun k hk' => ?_⟩
      by_cases h : k = m
      · subst h; exact hm'
      · exact hsub (hk k (by omega))
  obtain ⟨s, D, es, hD, hall⟩ := main n le_rfl
  have hout : ∀ k, s.array k = array (σ k) := by
    intro k
    rw [hD.1 k]
    by_cases hk : 0 ≤ k ∧ k < n
    · have := hall k.toNat (by omega)
      have e2 : ((k.toNat : ℕ) : ℤ) = k := by omega
      rw [e2] at this
      rw [if_pos this]
    · rw [hσ k hk]; simp
  refine ⟨s.array, ?_, ⟨σ, hσ, hout⟩, fun i j h1 h2 h3 => ?_⟩
  · rw [sortRows, e]
    simp only [Option.bind_eq_bind, Option.bind_some]
    simp only [Option.bind_eq_bind] at eI es
    rw [eI]
    simp only [Option.bind_some]
    rw [es]
    rfl
  · rw [hout, hout]
    exact hsort i j h1 h2 h3

example : (sortRows 4 9 (fun i => if i = 0 then fun _ => 3 else if i = 1 then fun _ => 1 else
    if i = 2 then fun _ => 2 else fun c => (c : ℤ)) [0, 1]).map
    (fun b => [0, 1, 2, 3].map fun i : ℤ => [b i 0, b i 1])
    = some [[0, 1], [1, 1], [2, 2], [3, 3]] := by decide +kernel

end Verif.Sort
