import Verif.Asm.Model
import Mathlib.Algebra.BigOperators.Group.List.Basic
import Mathlib.Algebra.BigOperators.Ring.List
import Mathlib.Algebra.Ring.Basic
import Mathlib.Tactic.Ring
import Mathlib.Tactic.SplitIfs
/-
C12 - C14: assembling.
-/
namespace Verif.Asm
open Verif.Np

/-! ### Specification -/

/-- Sum over all listed elements (with their position) and all local rows of the element
vector entries whose connectivity entry is `g`. -/
def vecSum {α : Type} [AddCommMonoid α] (vecIn : Nat → α) (cellSize : Nat) (iels : List Nat)
    (conn : Nat → Int) (nEp : Nat) (g : Nat) : α :=
  (iels.zipIdx.map fun p => ((List.range nEp).map fun ir =>
    if conn (p.1 * nEp + ir) = (g : Int) then vecIn (p.2 * cellSize + ir) else 0).sum).sum

/-- Sum over all listed elements and all local (row, column) positions of the element
matrix entries whose row and column connectivity entries are `(i, j)`. -/
def mtxSum {α : Type} [AddCommMonoid α] (mtxIn : Nat → α) (cellSize : Nat) (iels : List Nat)
    (rowConn : Nat → Int) (nEpr : Nat) (colConn : Nat → Int) (nEpc : Nat) (i : Nat) (j : Int) : α :=
  (iels.zipIdx.map fun p => ((List.range nEpr).map fun ir => ((List.range nEpc).map fun ic =>
    if rowConn (p.1 * nEpr + ir) = (i : Int) ∧ colConn (p.1 * nEpc + ic) = j
    then mtxIn (p.2 * cellSize + (nEpc * ir + ic)) else 0).sum).sum).sum

/-- Some element asks for an entry outside of the sparsity pattern. -/
def Missing (prows : Nat → Nat) (cols : Nat → Int) (iels : List Nat)
    (rowConn : Nat → Int) (nEpr : Nat) (colConn : Nat → Int) (nEpc : Nat) : Prop :=
  ∃ iel ∈ iels, ∃ ir < nEpr, ∃ ic < nEpc, ∃ i j : Nat,
    rowConn (iel * nEpr + ir) = i ∧ colConn (iel * nEpc + ic) = j ∧
    ∀ k, prows i ≤ k → k < prows (i + 1) → cols k ≠ j

/-- The stored CSR matrix entry (i, j): duplicates are summed. -/
def csrEntry {α : Type} [AddCommMonoid α] (prows : Nat → Nat) (cols : Nat → Int)
    (val : Nat → α) (i : Nat) (j : Int) : α :=
  ((List.range' (prows i) (prows (i + 1) - prows i)).map fun k => if cols k = j then val k else 0).sum

/-- Rows have no duplicate columns. -/
def NoDupCols (prows : Nat → Nat) (cols : Nat → Int) : Prop :=
  ∀ i k l, prows i ≤ k → k < prows (i + 1) → prows i ≤ l → l < prows (i + 1) → cols k = cols l → k = l

/-- The rows occupy consecutive ranges. -/
def MonoRows (prows : Nat → Nat) : Prop := ∀ i, prows i ≤ prows (i + 1)

/-! ### C12 -/

theorem addEntry_apply {α : Type} [CommRing α] (sign : α) (val : Nat → α) (irg : Int) (x : α)
    (g : Nat) : addEntry sign val irg x g = val g + sign * (if irg = (g : Int) then x else 0) := by
  unfold addEntry
  split
  · rw [if_neg (by omega)]; ring
  · by_cases h : irg = (g : Int)
    · rw [if_pos h]; subst h; simp [upd]
    · rw [if_neg h, upd_ne _ _ (by omega)]; ring

theorem foldl_add {α β : Type} [CommRing α] (l : List β) (f : (Nat → α) → β → (Nat → α))
    (c : β → α) (g : Nat) (hf : ∀ v b, f v b g = v g + c b) (v : Nat → α) :
    l.foldl f v g = v g + (l.map c).sum := by
  induction l generalizing v with
  | nil => simp
  | cons b l ih => rw [List.foldl_cons, ih, hf, List.map_cons, List.sum_cons]; ring

/-- C12: `assemble_vector` adds to entry `g` exactly `sign` times the sum of the matching
element entries (so entries not referred to do not change and negative connectivity
entries contribute nothing). -/
theorem C12_assemble_vector {α : Type} [CommRing α] (val vecIn : Nat → α) (cellSize : Nat)
    (iels : List Nat) (sign : α) (conn : Nat → Int) (nEp : Nat) (g : Nat) :
    assembleVector val vecIn cellSize iels sign conn nEp g =
      val g + sign * vecSum vecIn cellSize iels conn nEp g := by
  unfold assembleVector vecSum
  rw [foldl_add _ _ (fun p : Nat × Nat => sign * ((List.range nEp).map fun ir =>
    if conn (p.1 * nEp + ir) = (g : Int) then vecIn (p.2 * cellSize + ir) else 0).sum)]
  · rw [List.sum_map_mul_left]
  · intro v p
    rw [foldl_add _ _ (fun ir => sign *
      (if conn (p.1 * nEp + ir) = (g : Int) then vecIn (p.2 * cellSize + ir) else 0))]
    · rw [List.sum_map_mul_left]
    · intro v ir; rw [addEntry_apply]

/-- C12: an entry that no listed element refers to is unchanged. -/
theorem C12_untouched {α : Type} [CommRing α] (val vecIn : Nat → α) (cellSize : Nat)
    (iels : List Nat) (sign : α) (conn : Nat → Int) (nEp : Nat) (g : Nat)
    (h : ∀ iel ∈ iels, ∀ ir < nEp, conn (iel * nEp + ir) ≠ (g : Int)) :
    assembleVector val vecIn cellSize iels sign conn nEp g = val g := by
  rw [C12_assemble_vector]
  have : vecSum vecIn cellSize iels conn nEp g = 0 := by
    unfold vecSum
    apply List.sum_eq_zero
    intro x hx
    obtain ⟨⟨iel, ii⟩, hp, rfl⟩ := List.mem_map.1 hx
    apply List.sum_eq_zero
    intro y hy
    obtain ⟨ir, hir, rfl⟩ := List.mem_map.1 hy
    rw [List.mem_zipIdx_iff_getElem?] at hp
    exact if_neg (h iel (List.mem_of_getElem? hp) ir (List.mem_range.1 hir))
  rw [this]; ring

/-- A concrete case: two elements sharing DOF 1, one negative connectivity entry. -/
example : (List.range 3).map (assembleVector (fun _ => (0 : Int))
    (fun k => [1, 2, 30, 40].getD k 0) 2 [0, 1] 1 (fun k => [0, 1, 1, -2].getD k 0) 2) =
    [1, 32, 0] := by decide

/-! ### C13 -/

theorem linSearch_some {prows : Nat → Nat} {cols : Nat → Int} {i : Nat} {j : Int} {k : Nat}
    (h : linSearch prows cols i j = some k) :
    prows i ≤ k ∧ k < prows (i + 1) ∧ cols k = j := by
  unfold linSearch at h
  have h1 := List.mem_of_find?_eq_some h
  have h2 := List.find?_some h
  rw [List.mem_range'_1] at h1
  simp only [beq_iff_eq] at h2
  omega

theorem linSearch_none {prows : Nat → Nat} {cols : Nat → Int} {i : Nat} {j : Int} :
    linSearch prows cols i j = none ↔ ∀ k, prows i ≤ k → k < prows (i + 1) → cols k ≠ j := by
  unfold linSearch
  rw [List.find?_eq_none]
  constructor
  · intro h k h1 h2 e
    exact h k (List.mem_range'_1.2 (by omega)) (by simp [e])
  · intro h k hk e
    rw [List.mem_range'_1] at hk
    simp only [beq_iff_eq] at e
    exact h k (by omega) (by omega) e

/-- The contribution of one element matrix entry to the stored slot `k` of row `i`. -/
def hit {α : Type} [Zero α] (cols : Nat → Int) (i k : Nat) (irg icg : Int) (x : α) : α :=
  if irg = (i : Int) ∧ icg = cols k then x else 0

theorem rows_disjoint {prows : Nat → Nat} (hm : MonoRows prows) {i i' k : Nat}
    (h1 : prows i ≤ k) (h2 : k < prows (i + 1)) (h3 : prows i' ≤ k) (h4 : k < prows (i' + 1)) :
    i = i' := by
  have hmono : ∀ a b, a ≤ b → prows a ≤ prows b := by
    intro a b hab
    induction b with
    | zero => have : a = 0 := by omega
              subst this; exact Nat.le_refl _
    | succ b ih =>
      by_cases h : a = b + 1
      · subst h; exact Nat.le_refl _
      · exact Nat.le_trans (ih (by omega)) (hm b)
  by_contra hne
  rcases Nat.lt_or_gt_of_ne hne with h | h
  · have := hmono (i + 1) i' h; omega
  · have := hmono (i' + 1) i h; omega

theorem addItem_lin {α : Type} [CommRing α] {prows : Nat → Nat} {cols : Nat → Int}
    (hm : MonoRows prows) (hd : NoDupCols prows cols) (hc : ∀ k, 0 ≤ cols k)
    (sign : α) (irg icg : Int) (x : α) (v w : Nat → α) {i k : Nat}
    (h1 : prows i ≤ k) (h2 : k < prows (i + 1))
    (h : addItem (linSearch prows cols) sign irg icg x v = .ok w) :
    w k = v k + sign * hit cols i k irg icg x := by
  unfold addItem at h
  unfold hit
  split at h
  · cases h; rw [if_neg (by omega)]; ring
  · split at h
    · cases h
      rw [if_neg]
      · ring
      · rintro ⟨_, e⟩; have := hc k; omega
    · split at h
      · next ik hs =>
        cases h
        obtain ⟨s1, s2, s3⟩ := linSearch_some hs
        by_cases e : k = ik
        · subst e
          have : irg.toNat = i := rows_disjoint hm s1 s2 h1 h2
          rw [if_pos ⟨by omega, s3.symm⟩, upd_same]
        · rw [upd_ne _ _ e, if_neg]
          · ring
          · rintro ⟨e1, e2⟩
            have : irg.toNat = i := by omega
            rw [this] at s1 s2
            exact e (hd i k ik h1 h2 s1 s2 (by rw [s3, e2]))
      · cases h

theorem foldlM_add {α β : Type} [CommRing α] (l : List β)
    (f : (Nat → α) → β → Except (Nat → α) (Nat → α)) (c : β → α) (g : Nat)
    (hf : ∀ v b w, f v b = .ok w → w g = v g + c b) (v w : Nat → α)
    (h : l.foldlM f v = .ok w) : w g = v g + (l.map c).sum := by
  induction l generalizing v with
  | nil => cases h; simp
  | cons b l ih =>
    rw [List.foldlM_cons] at h
    cases hb : f v b with
    | error e => rw [hb] at h; cases h
    | ok u =>
      rw [hb] at h
      rw [ih u h, hf v b u hb, List.map_cons, List.sum_cons]; ring

theorem foldlM_ok_iff {α β : Type} (l : List β)
    (f : (Nat → α) → β → Except (Nat → α) (Nat → α)) (Q : β → Prop)
    (hf : ∀ v b, (∃ w, f v b = .ok w) ↔ Q b) (v : Nat → α) :
    (∃ w, l.foldlM f v = .ok w) ↔ ∀ b ∈ l, Q b := by
  induction l generalizing v with
  | nil => exact ⟨fun _ => by simp, fun _ => ⟨v, rfl⟩⟩
  | cons b l ih =>
    rw [List.foldlM_cons]
    cases hb : f v b with
    | error e =>
      constructor
      · rintro ⟨w, hw⟩; cases hw
      · intro h
        obtain ⟨w, hw⟩ := (hf v b).2 (h b List.mem_cons_self)
        rw [hb] at hw; cases hw
    | ok u =>
      have hQ : Q b := (hf v b).1 ⟨u, hb⟩
      show (∃ w, l.foldlM f u = .ok w) ↔ _
      rw [ih u]
      constructor
      · intro h c hc
        rcases List.mem_cons.1 hc with rfl | hc
        · exact hQ
        · exact h c hc
      · exact fun h c hc => h c (List.mem_cons_of_mem _ hc)

/-- C13: if `assemble_matrix` succeeds, every stored slot `k` (in row `i`, column `cols k`)
got exactly `sign` times the sum of the element entries for `(i, cols k)`. -/
theorem C13_assemble_matrix {α : Type} [CommRing α] (prows : Nat → Nat) (cols : Nat → Int)
    (hm : MonoRows prows) (hd : NoDupCols prows cols) (hc : ∀ k, 0 ≤ cols k)
    (val mtxIn : Nat → α) (cellSize : Nat) (iels : List Nat) (sign : α) (rowConn : Nat → Int)
    (nEpr : Nat) (colConn : Nat → Int) (nEpc : Nat) (w : Nat → α)
    (h : assembleMatrix (linSearch prows cols) val mtxIn cellSize iels sign rowConn nEpr
      colConn nEpc = .ok w) (i k : Nat) (h1 : prows i ≤ k) (h2 : k < prows (i + 1)) :
    w k = val k + sign * mtxSum mtxIn cellSize iels rowConn nEpr colConn nEpc i (cols k) := by
  unfold assembleMatrix at h
  unfold mtxSum
  rw [foldlM_add _ _ (fun p : Nat × Nat => sign * ((List.range nEpr).map fun ir =>
      ((List.range nEpc).map fun ic =>
    if rowConn (p.1 * nEpr + ir) = (i : Int) ∧ colConn (p.1 * nEpc + ic) = cols k
    then mtxIn (p.2 * cellSize + (nEpc * ir + ic)) else 0).sum).sum) k _ _ _ h,
    List.sum_map_mul_left]
  intro v p u hu
  rw [foldlM_add _ _ (fun ir => sign * ((List.range nEpc).map fun ic =>
    if rowConn (p.1 * nEpr + ir) = (i : Int) ∧ colConn (p.1 * nEpc + ic) = cols k
    then mtxIn (p.2 * cellSize + (nEpc * ir + ic)) else 0).sum) k _ _ _ hu, List.sum_map_mul_left]
  intro v ir u hu
  rw [foldlM_add _ _ (fun ic => sign *
    (if rowConn (p.1 * nEpr + ir) = (i : Int) ∧ colConn (p.1 * nEpc + ic) = cols k
    then mtxIn (p.2 * cellSize + (nEpc * ir + ic)) else 0)) k _ _ _ hu, List.sum_map_mul_left]
  intro v ic u hu
  exact addItem_lin hm hd hc sign _ _ _ v u h1 h2 hu

theorem sum_ite_unique {α : Type} [AddCommMonoid α] (l : List Nat) (hn : l.Nodup) (P : Nat → Prop)
    [DecidablePred P] (f : Nat → α) (k : Nat) (hk : k ∈ l) (hP : ∀ l' ∈ l, P l' ↔ l' = k) :
    (l.map fun l' => if P l' then f l' else 0).sum = f k := by
  induction l with
  | nil => simp at hk
  | cons a l ih =>
    rw [List.nodup_cons] at hn
    rw [List.map_cons, List.sum_cons]
    by_cases e : a = k
    · subst e
      rw [if_pos ((hP a List.mem_cons_self).2 rfl)]
      have : (l.map fun l' => if P l' then f l' else 0).sum = 0 := by
        apply List.sum_eq_zero
        intro x hx
        obtain ⟨b, hb, rfl⟩ := List.mem_map.1 hx
        apply if_neg
        intro h
        have := (hP b (List.mem_cons_of_mem _ hb)).1 h
        exact hn.1 (this ▸ hb)
      rw [this, add_zero]
    · rw [if_neg (fun h => e ((hP a List.mem_cons_self).1 h)), zero_add]
      apply ih hn.2
      · rcases List.mem_cons.1 hk with h | h
        · exact absurd h.symm e
        · exact h
      · exact fun b hb => hP b (List.mem_cons_of_mem _ hb)

/-- C13 in terms of matrix entries: after success, entry `(i, j)` of the CSR matrix has
increased by `sign` times the sum of the element entries for `(i, j)`, for every `(i, j)`. -/
theorem C13_matrix_entries {α : Type} [CommRing α] (prows : Nat → Nat) (cols : Nat → Int)
    (hm : MonoRows prows) (hd : NoDupCols prows cols) (hc : ∀ k, 0 ≤ cols k)
    (val mtxIn : Nat → α) (cellSize : Nat) (iels : List Nat) (sign : α) (rowConn : Nat → Int)
    (nEpr : Nat) (colConn : Nat → Int) (nEpc : Nat) (w : Nat → α)
    (h : assembleMatrix (linSearch prows cols) val mtxIn cellSize iels sign rowConn nEpr
      colConn nEpc = .ok w) (hmiss : ¬ Missing prows cols iels rowConn nEpr colConn nEpc)
    (i j : Nat) :
    csrEntry prows cols w i j = csrEntry prows cols val i j +
      sign * mtxSum mtxIn cellSize iels rowConn nEpr colConn nEpc i j := by
  by_cases hk : ∃ k, prows i ≤ k ∧ k < prows (i + 1) ∧ cols k = (j : Int)
  · obtain ⟨k, k1, k2, k3⟩ := hk
    have key : ∀ u : Nat → α, csrEntry prows cols u i j = u k := by
      intro u
      unfold csrEntry
      apply sum_ite_unique _ List.nodup_range' (fun l => cols l = (j : Int)) u k
      · rw [List.mem_range'_1]; omega
      · intro l hl
        rw [List.mem_range'_1] at hl
        constructor
        · intro e; exact hd i l k (by omega) (by omega) k1 k2 (by rw [e, k3])
        · intro e; rw [e, k3]
    rw [key, key, C13_assemble_matrix prows cols hm hd hc val mtxIn cellSize iels sign rowConn nEpr
      colConn nEpc w h i k k1 k2, k3]
  · have key : ∀ u : Nat → α, csrEntry prows cols u i j = 0 := by
      intro u
      unfold csrEntry
      apply List.sum_eq_zero
      intro x hx
      obtain ⟨k, hk', rfl⟩ := List.mem_map.1 hx
      rw [List.mem_range'_1] at hk'
      exact if_neg fun e => hk ⟨k, by omega, by omega, e⟩
    have hz : mtxSum mtxIn cellSize iels rowConn nEpr colConn nEpc i j = 0 := by
      unfold mtxSum
      apply List.sum_eq_zero
      intro x hx
      obtain ⟨⟨iel, ii⟩, hp, rfl⟩ := List.mem_map.1 hx
      rw [List.mem_zipIdx_iff_getElem?] at hp
      apply List.sum_eq_zero
      intro y hy
      obtain ⟨ir, hir, rfl⟩ := List.mem_map.1 hy
      apply List.sum_eq_zero
      intro z hz
      obtain ⟨ic, hic, rfl⟩ := List.mem_map.1 hz
      apply if_neg
      rintro ⟨e1, e2⟩
      apply hmiss
      exact ⟨iel, List.mem_of_getElem? hp, ir, List.mem_range.1 hir, ic, List.mem_range.1 hic,
        i, j, e1, e2, fun k k1 k2 e => hk ⟨k, k1, k2, e⟩⟩
    rw [key, key, hz]; ring

/-- C13: `assemble_matrix` raises `IndexError` iff some element refers to an entry outside
of the sparsity pattern. -/
theorem C13_error_iff {α : Type} [CommRing α] (prows : Nat → Nat) (cols : Nat → Int)
    (val mtxIn : Nat → α) (cellSize : Nat) (iels : List Nat) (sign : α) (rowConn : Nat → Int)
    (nEpr : Nat) (colConn : Nat → Int) (nEpc : Nat) :
    (∃ e, assembleMatrix (linSearch prows cols) val mtxIn cellSize iels sign rowConn nEpr
      colConn nEpc = .error e) ↔ Missing prows cols iels rowConn nEpr colConn nEpc := by
  have hitem : ∀ (v : Nat → α) (irg icg : Int) (x : α),
      (∃ w, addItem (linSearch prows cols) sign irg icg x v = .ok w) ↔
        ¬ (∃ i j : Nat, irg = i ∧ icg = j ∧ ∀ k, prows i ≤ k → k < prows (i + 1) → cols k ≠ j) := by
    intro v irg icg x
    unfold addItem
    split
    · next h =>
      constructor
      · rintro _ ⟨i, j, e, _⟩; omega
      · intro _; exact ⟨v, rfl⟩
    · next h0 =>
      split
      · next h =>
        constructor
        · rintro _ ⟨i, j, _, e, _⟩; omega
        · intro _; exact ⟨v, rfl⟩
      · next h1 =>
        cases hs : linSearch prows cols irg.toNat icg with
        | some ik =>
          obtain ⟨s1, s2, s3⟩ := linSearch_some hs
          constructor
          · rintro _ ⟨i, j, e1, e2, hn⟩
            have : irg.toNat = i := by omega
            rw [this] at s1 s2
            exact hn ik s1 s2 (by rw [s3, e2])
          · intro _; exact ⟨_, rfl⟩
        | none =>
          have := linSearch_none.1 hs
          constructor
          · rintro ⟨w, hw⟩; cases hw
          · intro hn
            exfalso
            apply hn
            refine ⟨irg.toNat, icg.toNat, by omega, by omega, ?_⟩
            intro k k1 k2 e
            exact this k k1 k2 (by omega)
  have hok : (∃ w, assembleMatrix (linSearch prows cols) val mtxIn cellSize iels sign rowConn nEpr
      colConn nEpc = .ok w) ↔ ¬ Missing prows cols iels rowConn nEpr colConn nEpc := by
    unfold assembleMatrix
    rw [foldlM_ok_iff _ _ (fun p : Nat × Nat => ∀ ir ∈ List.range nEpr, ∀ ic ∈ List.range nEpc,
      ¬ (∃ i j : Nat, rowConn (p.1 * nEpr + ir) = i ∧ colConn (p.1 * nEpc + ic) = j ∧
        ∀ k, prows i ≤ k → k < prows (i + 1) → cols k ≠ j))]
    · unfold Missing
      constructor
      · rintro h ⟨iel, hiel, ir, hir, ic, hic, hx⟩
        obtain ⟨n, hn, e⟩ := List.getElem_of_mem hiel
        refine h (iel, n) ?_ ir (List.mem_range.2 hir) ic (List.mem_range.2 hic) hx
        rw [List.mem_zipIdx_iff_getElem?]
        simp [hn, e]
      · intro h p hp ir hir ic hic hx
        apply h
        obtain ⟨iel, n⟩ := p
        rw [List.mem_zipIdx_iff_getElem?] at hp
        exact ⟨iel, List.mem_of_getElem? hp, ir, List.mem_range.1 hir, ic, List.mem_range.1 hic, hx⟩
    · intro v p
      apply foldlM_ok_iff
      intro v ir
      apply foldlM_ok_iff
      intro v ic
      exact hitem _ _ _ _
  constructor
  · rintro ⟨e, he⟩
    by_contra hn
    obtain ⟨w, hw⟩ := hok.2 hn
    rw [hw] at he; cases he
  · intro hmiss
    cases hr : assembleMatrix (linSearch prows cols) val mtxIn cellSize iels sign rowConn nEpr
      colConn nEpc with
    | error e => exact ⟨e, rfl⟩
    | ok w => exact absurd hmiss (hok.1 ⟨w, hr⟩)

/-- Row pointers of a 2x2 matrix with stored entries (0,0), (0,1), (1,1). -/
def sampleRows (i : Nat) : Nat := if i = 0 then 0 else if i = 1 then 2 else 3

/-- Its column indices. -/
def sampleCols (k : Nat) : Int := if k = 0 then 0 else 1

/-- Non-vacuity: the sample matrix meets the hypotheses, one element is assembled into it. -/
example : MonoRows sampleRows ∧ NoDupCols sampleRows sampleCols ∧ (∀ k, 0 ≤ sampleCols k) ∧
    (match assembleMatrix (linSearch sampleRows sampleCols)
        (fun _ => (0 : Int)) (fun k => [1, 2, 3, 4].getD k 0) 4 [0] 1
        (fun k => [0, -1].getD k 0) 2 (fun k => [0, 1].getD k 0) 2 with
      | .ok w => (List.range 3).map w
      | .error _ => []) = [1, 2, 0] := by
  refine ⟨?_, ?_, ?_, by decide⟩
  · intro i; unfold sampleRows; rcases i with _ | _ | i <;> simp
  · intro i k l h1 h2 h3 h4 e
    unfold sampleRows at h1 h2 h3 h4
    unfold sampleCols at e
    repeat' split at h1
    all_goals repeat' split at h2
    all_goals repeat' split at e
    all_goals simp_all
    all_goals omega
  · intro k; unfold sampleCols; split <;> omega

/-! ### C14 -/

theorem bsearch_found {cols : Nat → Int} {a b t : Nat} (hinc : ∀ k l, a ≤ k → k < l → l < b →
    cols k < cols l) (ha : a ≤ t) (hb : t < b) (i0 i1 : Int) (h0 : (a : Int) ≤ i0)
    (h1 : i1 ≤ b) (h2 : i0 ≤ t) (h3 : t ≤ i1) : bsearch cols i0 i1 (cols t) = some t := by
  fun_induction bsearch cols i0 i1 (cols t) with
  | case1 i0 i1 h im e =>
    congr 1
    by_contra hne
    have him : (im.toNat : Int) = im := by omega
    have hlt : im.toNat < b := by omega
    rcases Nat.lt_or_gt_of_ne hne with hh | hh
    · have := hinc im.toNat t (by omega) hh hb; omega
    · have := hinc t im.toNat (by omega) hh hlt; omega
  | case2 i0 i1 h im e hlt ih =>
    apply ih
    · omega
    · exact h1
    · by_contra hh
      have hh : (t : Int) < im + 1 := by omega
      by_cases e2 : im.toNat = t
      · exact e (by rw [e2])
      · have := hinc t im.toNat ha (by omega) (by omega); omega
    · exact h3
  | case3 i0 i1 h im e hge ih =>
    apply ih
    · exact h0
    · omega
    · exact h2
    · by_contra hh
      by_cases e2 : im.toNat = t
      · exact e (by rw [e2])
      · have := hinc im.toNat t (by omega) (by omega) hb; omega
  | case4 i0 i1 h => omega

/-- Column indices increase strictly within each row. -/
def SortedRows (prows : Nat → Nat) (cols : Nat → Int) : Prop :=
  ∀ i k l, prows i ≤ k → k < l → l < prows (i + 1) → cols k < cols l

theorem binSearch_present {prows : Nat → Nat} {cols : Nat → Int} (hs : SortedRows prows cols)
    {i : Nat} {j : Int} {k : Nat} (h : linSearch prows cols i j = some k) :
    binSearch prows cols i j = some k := by
  obtain ⟨h1, h2, rfl⟩ := linSearch_some h
  unfold binSearch
  apply bsearch_found (a := prows i) (b := prows (i + 1)) (hs i) h1 h2 <;> omega

theorem foldlM_congr_ok {α β : Type} (l : List β)
    (f g : (Nat → α) → β → Except (Nat → α) (Nat → α))
    (hfg : ∀ v b w, f v b = .ok w → g v b = .ok w) (v w : Nat → α)
    (h : l.foldlM f v = .ok w) : l.foldlM g v = .ok w := by
  induction l generalizing v with
  | nil => exact h
  | cons b l ih =>
    rw [List.foldlM_cons] at h ⊢
    cases hb : f v b with
    | error e => rw [hb] at h; cases h
    | ok u =>
      rw [hb] at h
      rw [hfg v b u hb]
      exact ih u h

/-- C14, partial: whenever linear-search assembly succeeds (no entry is missing from the
pattern), binary-search assembly gives the same result.  Missing part: if an entry is
missing from the pattern, `assemble_matrix_b` need not raise (`C14_counterexample`). -/
theorem C14_bsearch_agrees_partial {α : Type} [CommRing α] (prows : Nat → Nat) (cols : Nat → Int)
    (hs : SortedRows prows cols) (val mtxIn : Nat → α) (cellSize : Nat) (iels : List Nat)
    (sign : α) (rowConn : Nat → Int) (nEpr : Nat) (colConn : Nat → Int) (nEpc : Nat) (w : Nat → α)
    (h : assembleMatrix (linSearch prows cols) val mtxIn cellSize iels sign rowConn nEpr
      colConn nEpc = .ok w) :
    assembleMatrix (binSearch prows cols) val mtxIn cellSize iels sign rowConn nEpr
      colConn nEpc = .ok w := by
  unfold assembleMatrix at h ⊢
  refine foldlM_congr_ok _ _ _ ?_ _ _ h
  intro v p u hu
  refine foldlM_congr_ok _ _ _ ?_ _ _ hu
  intro v ir u hu
  refine foldlM_congr_ok _ _ _ ?_ _ _ hu
  intro v ic u hu
  unfold addItem at hu ⊢
  split
  · next h0 => rw [if_pos h0] at hu; exact hu
  · next h0 =>
    rw [if_neg h0] at hu
    split
    · next h1 => rw [if_pos h1] at hu; exact hu
    · next h1 =>
      rw [if_neg h1] at hu
      cases hl : linSearch prows cols (rowConn (p.1 * nEpr + ir)).toNat (colConn (p.1 * nEpc + ic)) with
      | none => rw [hl] at hu; cases hu
      | some ik =>
        rw [hl] at hu
        rw [binSearch_present hs hl]
        exact hu

/-- C14 is false in general: a 2-row pattern with rows [0] and [1]; the element asks for
entry (0, 1), which is not stored.  Linear search raises, binary search runs into the next
row and adds the value to entry (1, 1). -/
theorem C14_counterexample :
    let prows : Nat → Nat := fun i => if i = 0 then 0 else if i = 1 then 1 else 2
    let cols : Nat → Int := fun k => [0, 1].getD k 5
    SortedRows prows cols ∧
    (∃ e, assembleMatrix (linSearch prows cols) (fun _ => (0 : Int)) (fun _ => 7) 1 [0] 1
      (fun _ => 0) 1 (fun _ => 1) 1 = .error e) ∧
    (∃ w, assembleMatrix (binSearch prows cols) (fun _ => (0 : Int)) (fun _ => 7) 1 [0] 1
      (fun _ => 0) 1 (fun _ => 1) 1 = .ok w ∧ w 1 = 7) := by
  intro prows cols
  refine ⟨?_, ?_, ?_⟩
  · intro i k l h1 h2 h3
    exfalso
    simp only [prows] at h1 h3
    split_ifs at h1 h3 <;> omega
  · exact ⟨_, rfl⟩
  · have hb : binSearch prows cols 0 1 = some 1 := by
      unfold binSearch
      have e0 : prows 0 = 0 := rfl
      have e1 : prows (0 + 1) = 1 := rfl
      rw [e0, e1]
      unfold bsearch
      have c0 : cols 0 = 0 := rfl
      have c1 : cols 1 = 1 := rfl
      simp [c0]
      unfold bsearch
      simp [c1]
    refine ⟨upd (fun _ => 0) 1 (0 + 1 * 7), ?_, by simp [upd]⟩
    simp [assembleMatrix, addItem, List.range_succ, hb, pure, Except.pure, bind, Except.bind]

end Verif.Asm
