import Verif.Dof.Model
/-
C01, C02: layout of the global state vector (`DofInfo`).
-/
namespace Verif.Dof
open Verif.Np

/-! ### Specification vocabulary -/

/-- Variable `nm` owns the DOF range `sl` (i.e. it was appended without sharing). -/
def Owns (s : DofInfo) (nm : String) (sl : Slice) : Prop :=
  s.indx nm = some sl ∧ s.sharedDofs nm = none

/-- DOF `i` lies in the slice. -/
def Slice.Has (sl : Slice) (i : Nat) : Prop := sl.start ≤ i ∧ i < sl.stop

/-- The objects that can be observed: reached from the empty one by append calls. -/
def DofInfo.Reachable (s : DofInfo) : Prop := ∃ ops, s = DofInfo.empty.run ops

/-! ### Invariant -/

structure Inv (s : DofInfo) : Prop where
  nodup : s.varNames.Nodup
  dom : ∀ nm sl, s.indx nm = some sl → nm ∈ s.varNames
  sdom : ∀ nm sh, s.sharedDofs nm = some sh → nm ∈ s.varNames
  bounds : ∀ nm sl, s.indx nm = some sl →
    sl.stop ≤ s.nDofTotal ∧ ∃ k, s.nDof nm = some k ∧ sl.stop = sl.start + k
  ordered : s.varNames.Pairwise fun a b =>
    ∀ sla slb, Owns s a sla → Owns s b slb → sla.stop ≤ slb.start
  cover : ∀ i, i < s.nDofTotal → ∃ nm sl, Owns s nm sl ∧ sl.Has i
  shared : ∀ nm sh, s.sharedDofs nm = some sh →
    s.indx nm = s.indx sh ∧ s.nDof nm = s.nDof sh ∧ (s.indx sh).isSome
  count : ∀ nm, nm ∈ s.varNames → (s.nDof nm).isSome

theorem inv_empty : Inv DofInfo.empty := by
  constructor <;> simp [DofInfo.empty]

theorem pairwise_or {α} {R : α → α → Prop} {l : List α} (h : l.Pairwise R) {a b : α}
    (ha : a ∈ l) (hb : b ∈ l) (hne : a ≠ b) : R a b ∨ R b a := by
  induction l with
  | nil => simp at ha
  | cons c l ih =>
    rw [List.pairwise_cons] at h
    rcases List.mem_cons.1 ha with e | ha'
    · rcases List.mem_cons.1 hb with e' | hb'
      · exact absurd (e.trans e'.symm) hne
      · exact .inl (e ▸ h.1 _ hb')
    · rcases List.mem_cons.1 hb with e' | hb'
      · exact .inr (e' ▸ h.1 _ ha')
      · exact ih h.2 ha' hb'

theorem dset_same {β} (d : String → Option β) (k : String) (v : β) : dset d k v k = some v := by
  simp [dset]

theorem dset_ne {β} (d : String → Option β) {k k' : String} (v : β) (h : k' ≠ k) :
    dset d k v k' = d k' := by simp [dset, h]

theorem inv_append (s : DofInfo) (h : Inv s) (name : String) (nd : Nat) (sh : Option String) :
    Inv (s.append name nd sh).1 := by
  unfold DofInfo.append
  split
  · exact h
  · next hn =>
    have hix : s.indx name = none := by
      cases hx : s.indx name with
      | none => rfl
      | some sl => exact absurd (h.dom _ _ hx) hn
    have hsx : s.sharedDofs name = none := by
      cases hx : s.sharedDofs name with
      | none => rfl
      | some sl => exact absurd (h.sdom _ _ hx) hn
    -- names occurring as `shared` targets are different from `name`
    have htgt : ∀ nm sh', s.sharedDofs nm = some sh' → sh' ≠ name := by
      intro nm sh' e e'
      have := (h.shared nm sh' e).2.2
      rw [e', hix] at this; simp at this
    have hown : ∀ nm sl, Owns s nm sl → nm ≠ name := by
      intro nm sl ho e
      rw [e] at ho; rw [ho.1] at hix; cases hix
    -- state right before `_update_after_append`
    have hnodup : (s.varNames ++ [name]).Nodup := by
      rw [List.nodup_append]
      refine ⟨h.nodup, by simp, ?_⟩
      intro a ha b hb
      simp at hb
      intro e; exact hn (hb ▸ e ▸ ha)
    have hbase : Inv { s with varNames := s.varNames ++ [name], nDof := dset s.nDof name nd } := by
      constructor
      · exact hnodup
      · intro nm sl e; simp [h.dom nm sl e]
      · intro nm sl e; simp [h.sdom nm sl e]
      · intro nm sl e
        obtain ⟨h1, k, h2, h3⟩ := h.bounds nm sl e
        have : nm ≠ name := by intro e'; rw [e', hix] at e; cases e
        exact ⟨h1, k, by simpa [dset_ne _ _ this] using h2, h3⟩
      · show List.Pairwise _ _
        rw [List.pairwise_append]
        refine ⟨h.ordered, by simp, ?_⟩
        intro a _ b hb sla slb _ hob
        simp at hb; subst hb
        exact absurd rfl (hown b slb hob)
      · exact h.cover
      · intro nm sh' e
        obtain ⟨h1, h2, h3⟩ := h.shared nm sh' e
        have n1 : nm ≠ name := by
          intro e'; rw [e'] at e; rw [hsx] at e; cases e
        have n2 := htgt nm sh' e
        exact ⟨h1, by simpa [dset_ne _ _ n1, dset_ne _ _ n2] using h2, h3⟩
      · intro nm hm
        by_cases e : nm = name
        · simp [e, dset_same]
        · simp at hm
          simp only [dset_ne _ _ e]
          exact h.count nm (hm.resolve_right e)
    unfold DofInfo.updateAfterAppend
    split
    · -- own DOFs
      constructor
      · exact hnodup
      · intro nm sl e
        by_cases en : nm = name
        · simp [en]
        · simp only [dset_ne _ _ en] at e
          simp [h.dom nm sl e]
      · intro nm sl e; simp [h.sdom nm sl e]
      · intro nm sl e
        by_cases en : nm = name
        · simp only [en, dset_same, Option.some.injEq] at e
          subst e
          exact ⟨Nat.le_refl _, nd, by simp [en, dset_same], rfl⟩
        · simp only [dset_ne _ _ en] at e ⊢
          obtain ⟨h1, k, h2, h3⟩ := h.bounds nm sl e
          exact ⟨Nat.le_trans h1 (Nat.le_add_right _ _), k, h2, h3⟩
      · show List.Pairwise _ _
        rw [List.pairwise_append]
        refine ⟨?_, by simp, ?_⟩
        · refine List.Pairwise.imp_of_mem ?_ h.ordered
          intro a b ha hb hab sla slb hoa hob
          have na : a ≠ name := fun e => hn (e ▸ ha)
          have nb : b ≠ name := fun e => hn (e ▸ hb)
          simp only [Owns, dset_ne _ _ na, dset_ne _ _ nb] at hoa hob
          exact hab sla slb hoa hob
        · intro a ha b hb sla slb hoa hob
          simp at hb; subst hb
          have na : a ≠ b := fun e => hn (e ▸ ha)
          simp only [Owns, dset_ne _ _ na, dset_same, Option.some.injEq] at hoa hob
          rw [← hob.1]
          exact (h.bounds a sla hoa.1).1
      · intro i hi
        simp at hi
        by_cases h' : i < s.nDofTotal
        · obtain ⟨nm, sl, ho, hs⟩ := h.cover i h'
          refine ⟨nm, sl, ?_, hs⟩
          have := hown nm sl ho
          simpa [Owns, dset_ne _ _ this] using ho
        · refine ⟨name, ⟨s.nDofTotal, s.nDofTotal + nd⟩, ?_, ?_⟩
          · simp [Owns, dset_same, hsx]
          · constructor <;> simp <;> omega
      · intro nm sh' e
        have n1 : nm ≠ name := by
          intro e'; rw [e'] at e; rw [hsx] at e; cases e
        have n2 := htgt nm sh' e
        obtain ⟨h1, h2, h3⟩ := hbase.shared nm sh' e
        simp only [dset_ne _ _ n1, dset_ne _ _ n2] at h1 h2 h3 ⊢
        exact ⟨h1, h2, h3⟩
      · exact hbase.count
    · next sh0 =>
      split
      · exact hbase
      · next sl0 hsl0 =>
        simp only at hsl0
        have n0 : sh0 ≠ name := by intro e; rw [e, hix] at hsl0; cases hsl0
        obtain ⟨hb1, k0, hb2, hb3⟩ := h.bounds sh0 sl0 hsl0
        split
        · next hnone => simp [dset_ne _ _ n0, hb2] at hnone
        · next n' hn' =>
          simp only [dset_ne _ _ n0, hb2, Option.some.injEq] at hn'
          subst hn'
          constructor
          · exact hnodup
          · intro nm sl e
            by_cases en : nm = name
            · simp [en]
            · simp only [dset_ne _ _ en] at e
              simp [h.dom nm sl e]
          · intro nm sl e
            by_cases en : nm = name
            · simp [en]
            · simp only [dset_ne _ _ en] at e
              simp [h.sdom nm sl e]
          · intro nm sl e
            by_cases en : nm = name
            · simp only [en, dset_same, Option.some.injEq] at e
              subst e
              exact ⟨hb1, k0, by simp [en, dset_same], hb3⟩
            · simp only [dset_ne _ _ en] at e ⊢
              exact h.bounds nm sl e
          · show List.Pairwise _ _
            rw [List.pairwise_append]
            refine ⟨?_, by simp, ?_⟩
            · refine List.Pairwise.imp_of_mem ?_ h.ordered
              intro a b ha hb hab sla slb hoa hob
              have na : a ≠ name := fun e => hn (e ▸ ha)
              have nb : b ≠ name := fun e => hn (e ▸ hb)
              simp only [Owns, dset_ne _ _ na, dset_ne _ _ nb] at hoa hob
              exact hab sla slb hoa hob
            · intro a ha b hb sla slb hoa hob
              simp at hb; subst hb
              simp [Owns, dset_same] at hob
          · intro i hi
            obtain ⟨nm, sl, ho, hs⟩ := h.cover i hi
            refine ⟨nm, sl, ?_, hs⟩
            have := hown nm sl ho
            simpa [Owns, dset_ne _ _ this] using ho
          · intro nm sh' e
            by_cases en : nm = name
            · simp only [en, dset_same, Option.some.injEq] at e
              subst e
              simp [en, dset_same, dset_ne _ _ n0, hsl0, hb2]
            · simp only [dset_ne _ _ en] at e
              have n2 := htgt nm sh' e
              obtain ⟨h1, h2, h3⟩ := h.shared nm sh' e
              simp only [dset_ne _ _ en, dset_ne _ _ n2]
              exact ⟨h1, h2, h3⟩
          · intro nm hm
            by_cases e : nm = name
            · simp [e, dset_same]
            · simp at hm
              simp only [dset_ne _ _ e]
              exact h.count nm (hm.resolve_right e)

theorem inv_run (s : DofInfo) (h : Inv s) (ops : List AppendOp) : Inv (s.run ops) := by
  induction ops generalizing s with
  | nil => exact h
  | cons op ops ih => exact ih _ (inv_append s h _ _ _)

theorem inv_reachable {s : DofInfo} (h : s.Reachable) : Inv s := by
  obtain ⟨ops, rfl⟩ := h
  exact inv_run _ inv_empty ops

/-! ### C01 -/

/-- Every DOF index below the total belongs to exactly one owning variable, and
indices at or above the total to none. -/
theorem C01_slices_tile (s : DofInfo) (h : s.Reachable) (i : Nat) :
    (i < s.nDofTotal ↔ ∃ nm sl, Owns s nm sl ∧ sl.Has i) ∧
    (∀ nm sl nm' sl', Owns s nm sl → sl.Has i → Owns s nm' sl' → sl'.Has i → nm = nm') := by
  have hi := inv_reachable h
  refine ⟨⟨hi.cover i, ?_⟩, ?_⟩
  · rintro ⟨nm, sl, ho, hs⟩
    exact Nat.lt_of_lt_of_le hs.2 (hi.bounds nm sl ho.1).1
  · intro nm sl nm' sl' ho hs ho' hs'
    by_cases e : nm = nm'
    · exact e
    · exfalso
      rcases pairwise_or hi.ordered (hi.dom _ _ ho.1) (hi.dom _ _ ho'.1) e with r | r
      · have := r sl sl' ho ho'
        have := hs.2; have := hs'.1; omega
      · have := r sl' sl ho' ho
        have := hs.1; have := hs'.2; omega

/-- The slices of owning variables are in the order of the append calls. -/
theorem C01_append_order (s : DofInfo) (h : s.Reachable) (l₁ l₂ l₃ : List String)
    (a b : String) (hl : s.varNames = l₁ ++ a :: (l₂ ++ b :: l₃)) (sla slb : Slice)
    (ha : Owns s a sla) (hb : Owns s b slb) : sla.stop ≤ slb.start := by
  have ho := (inv_reachable h).ordered
  rw [hl, List.pairwise_append] at ho
  have := (List.pairwise_cons.1 ho.2.1).1 b (by simp)
  exact this sla slb ha hb

/-- The length of a variable's slice is its DOF count. -/
theorem C01_slice_length (s : DofInfo) (h : s.Reachable) (nm : String) (sl : Slice)
    (hs : s.indx nm = some sl) : s.nDof nm = some (sl.stop - sl.start) := by
  obtain ⟨_, k, h2, h3⟩ := (inv_reachable h).bounds nm sl hs
  rw [h2, h3]; simp

/-- A sharing variable has exactly the slice and the DOF count of its partner. -/
theorem C01_shared_slice (s : DofInfo) (h : s.Reachable) (nm sh : String)
    (hs : s.sharedDofs nm = some sh) :
    ∃ sl, s.indx nm = some sl ∧ s.indx sh = some sl ∧ s.nDof nm = s.nDof sh := by
  obtain ⟨h1, h2, h3⟩ := (inv_reachable h).shared nm sh hs
  obtain ⟨sl, hsl⟩ := Option.isSome_iff_exists.1 h3
  exact ⟨sl, h1.trans hsl, hsl, h2⟩

/-- What one append call does.  A known name: ValueError and nothing changes.  A new
name without sharing: it gets the next `nd` DOFs, no other variable changes.  A new
name sharing with a laid-out variable: it gets that variable's slice, the total and
all other variables are unchanged. -/
theorem C01_append_effect (s : DofInfo) (h : s.Reachable) (nm : String) (nd : Nat) :
    (nm ∈ s.varNames → ∀ sh, s.append nm nd sh = (s, some .valueError)) ∧
    (nm ∉ s.varNames →
      (s.append nm nd none).2 = none ∧
      (s.append nm nd none).1.nDofTotal = s.nDofTotal + nd ∧
      Owns (s.append nm nd none).1 nm ⟨s.nDofTotal, s.nDofTotal + nd⟩ ∧
      (s.append nm nd none).1.varNames = s.varNames ++ [nm] ∧
      ∀ o, o ≠ nm → (s.append nm nd none).1.indx o = s.indx o) ∧
    (nm ∉ s.varNames → ∀ sh sl, s.indx sh = some sl →
      (s.append nm nd (some sh)).2 = none ∧
      (s.append nm nd (some sh)).1.nDofTotal = s.nDofTotal ∧
      (s.append nm nd (some sh)).1.indx nm = some sl ∧
      (s.append nm nd (some sh)).1.sharedDofs nm = some sh ∧
      ∀ o, o ≠ nm → (s.append nm nd (some sh)).1.indx o = s.indx o) := by
  have hi := inv_reachable h
  refine ⟨?_, ?_, ?_⟩
  · intro hm sh; simp [DofInfo.append, hm]
  · intro hm
    have hsx : s.sharedDofs nm = none := by
      cases hx : s.sharedDofs nm with
      | none => rfl
      | some sl => exact absurd (hi.sdom _ _ hx) hm
    simp only [DofInfo.append, hm, if_false, DofInfo.updateAfterAppend]
    refine ⟨trivial, trivial, ⟨by simp [dset_same], hsx⟩, trivial, ?_⟩
    intro o ho; simp [dset_ne _ _ ho]
  · intro hm sh sl hsl
    have n0 : sh ≠ nm := fun e => hm (e ▸ hi.dom _ _ hsl)
    obtain ⟨_, k, hk, _⟩ := hi.bounds sh sl hsl
    simp only [DofInfo.append, hm, if_false, DofInfo.updateAfterAppend, hsl, dset_ne _ _ n0, hk]
    refine ⟨trivial, trivial, by simp [dset_same], by simp [dset_same], ?_⟩
    intro o ho; simp [dset_ne _ _ ho]

/-- Non-vacuity: three variables, the third sharing with the first; a repeated and
an ill-formed call in between. -/
example : ∃ s, DofInfo.Reachable s ∧ s.nDofTotal = 7 ∧
    Owns s "u" ⟨0, 4⟩ ∧ Owns s "p" ⟨4, 7⟩ ∧ s.sharedDofs "w" = some "u" ∧
    s.varNames = ["u"] ++ "p" :: ([] ++ "w" :: []) := by
  refine ⟨_, ⟨[⟨"u", 4, none⟩, ⟨"u", 9, none⟩, ⟨"p", 3, none⟩, ⟨"w", 4, some "u"⟩], rfl⟩, ?_⟩
  simp [DofInfo.run, DofInfo.append, DofInfo.empty, DofInfo.updateAfterAppend, dset, Owns]

/-! ### C02 -/

/-- The names kept by a subset request: known ones, in request order. -/
def keptNames (s : DofInfo) (names : List String) : List String :=
  names.filter (· ∈ s.varNames)

theorem subsetLoop_spec (s : DofInfo) (hs : Inv s) (names : List String) (di : DofInfo)
    (hd : Inv di) (hown : ∀ nm ∈ di.varNames, nm ∈ s.varNames ∧ di.nDof nm = s.nDof nm)
    (hnd : (di.varNames ++ keptNames s names).Nodup)
    (hsd : ∀ nm, di.sharedDofs nm = none) (hix : ∀ nm ∈ di.varNames, (di.indx nm).isSome) :
    ∃ di', DofInfo.subsetLoop s di names = .ok di' ∧ Inv di' ∧
      di'.varNames = di.varNames ++ keptNames s names ∧
      (∀ nm ∈ di'.varNames, di'.nDof nm = s.nDof nm ∧ (di'.indx nm).isSome) ∧
      (∀ nm, di'.sharedDofs nm = none) ∧
      di'.nDofTotal = di.nDofTotal + ((keptNames s names).map fun nm => (s.nDof nm).getD 0).sum := by
  induction names generalizing di with
  | nil =>
    refine ⟨di, rfl, hd, by simp [keptNames], ?_, hsd, by simp [keptNames]⟩
    intro nm hm; exact ⟨(hown nm hm).2, hix nm hm⟩
  | cons nm rest ih =>
    by_cases hm : nm ∈ s.varNames
    · have hk : keptNames s (nm :: rest) = nm :: keptNames s rest := by simp [keptNames, hm]
      rw [hk] at hnd ⊢
      have hnot : nm ∉ di.varNames := by
        intro hc
        rw [List.nodup_append] at hnd
        exact hnd.2.2 nm hc nm (by simp) rfl
      obtain ⟨k, hk'⟩ := Option.isSome_iff_exists.1 (hs.count nm hm)
      simp only [DofInfo.subsetLoop, hm, if_true, hk', DofInfo.append, hnot, if_false,
        DofInfo.updateAfterAppend]
      have hd' := inv_append di hd nm k none
      simp only [DofInfo.append, hnot, if_false, DofInfo.updateAfterAppend] at hd'
      obtain ⟨di', h1, h2, h3, h4, h5, h6⟩ := ih _ hd' (by
          intro o ho
          by_cases e : o = nm
          · subst e; exact ⟨hm, by simp [dset_same, hk']⟩
          · simp at ho
            have := hown o (ho.resolve_right e)
            simpa [dset_ne _ _ e] using this) (by simpa using hnd) hsd (by
          intro o ho
          by_cases e : o = nm
          · simp [e, dset_same]
          · simp at ho
            simpa [dset_ne _ _ e] using hix o (ho.resolve_right e))
      refine ⟨di', h1, h2, by simpa using h3, h4, h5, ?_⟩
      rw [h6]; simp [hk']; omega
    · have hk : keptNames s (nm :: rest) = keptNames s rest := by simp [keptNames, hm]
      rw [hk] at hnd ⊢
      simp only [DofInfo.subsetLoop, hm, if_false]
      exact ih di hd hown hnd hsd hix

/-- A repeated known name in the request raises ValueError. -/
theorem subsetLoop_dup (s : DofInfo) (hs : Inv s) (names : List String) (di : DofInfo)
    (hnd : ¬ (di.varNames ++ keptNames s names).Nodup) (hdn : di.varNames.Nodup) :
    DofInfo.subsetLoop s di names = .error .valueError := by
  induction names generalizing di with
  | nil => simp [keptNames] at hnd; exact absurd hdn hnd
  | cons nm rest ih =>
    by_cases hm : nm ∈ s.varNames
    · have hk : keptNames s (nm :: rest) = nm :: keptNames s rest := by simp [keptNames, hm]
      rw [hk] at hnd
      obtain ⟨k, hk'⟩ := Option.isSome_iff_exists.1 (hs.count nm hm)
      by_cases hc : nm ∈ di.varNames
      · simp [DofInfo.subsetLoop, hm, hk', DofInfo.append, hc]
      · simp only [DofInfo.subsetLoop, hm, if_true, hk', DofInfo.append, hc, if_false,
          DofInfo.updateAfterAppend]
        apply ih
        · simpa using hnd
        · rw [List.nodup_append]
          refine ⟨hdn, by simp, ?_⟩
          intro a ha b hb
          simp at hb
          intro e; exact hc (hb ▸ e ▸ ha)
    · have hk : keptNames s (nm :: rest) = keptNames s rest := by simp [keptNames, hm]
      rw [hk] at hnd
      simp only [DofInfo.subsetLoop, hm, if_false]
      exact ih di hnd hdn

/-- `get_subset_info(names)`: if no known name is requested twice, the result is a
well-formed layout with exactly the known requested names in request order, all owning
their DOFs, each with its original DOF count, and with the sum of the counts as total
(consecutiveness and disjointness then follow from C01, since the result is itself
produced by append calls). A known name requested twice raises ValueError. -/
theorem C02_subset_layout (s : DofInfo) (h : s.Reachable) (names : List String) :
    ((keptNames s names).Nodup →
      ∃ di, s.subsetInfo names = .ok di ∧ di.varNames = keptNames s names ∧
        (∀ nm ∈ keptNames s names, di.nDof nm = s.nDof nm ∧ ∃ sl, Owns di nm sl) ∧
        di.nDofTotal = ((keptNames s names).map fun nm => (s.nDof nm).getD 0).sum ∧
        (∀ l₁ l₂ nm sl, keptNames s names = l₁ ++ nm :: l₂ → di.indx nm = some sl →
          sl.start = (l₁.map fun nm => (s.nDof nm).getD 0).sum)) ∧
    (¬ (keptNames s names).Nodup → s.subsetInfo names = .error .valueError) := by
  have hi := inv_reachable h
  constructor
  · intro hnd
    -- also needed: start positions; generalise the loop
    have key : ∀ names di, Inv di →
        (∀ nm, di.sharedDofs nm = none) →
        (∀ l₁ l₂ nm sl, di.varNames = l₁ ++ nm :: l₂ → di.indx nm = some sl →
          sl.start = (l₁.map fun nm => (s.nDof nm).getD 0).sum) →
        di.nDofTotal = (di.varNames.map fun nm => (s.nDof nm).getD 0).sum →
        ∀ di', DofInfo.subsetLoop s di names = .ok di' →
        ∀ l₁ l₂ nm sl, di'.varNames = l₁ ++ nm :: l₂ → di'.indx nm = some sl →
          sl.start = (l₁.map fun nm => (s.nDof nm).getD 0).sum := by
      intro names
      induction names with
      | nil =>
        intro di _ _ hst _ di' he
        simp [DofInfo.subsetLoop] at he; subst he; exact hst
      | cons nm0 rest ih =>
        intro di hd hsd hst htot di' he
        by_cases hm : nm0 ∈ s.varNames
        · obtain ⟨k, hk'⟩ := Option.isSome_iff_exists.1 (hi.count nm0 hm)
          by_cases hc : nm0 ∈ di.varNames
          · simp [DofInfo.subsetLoop, hm, hk', DofInfo.append, hc] at he
          · simp only [DofInfo.subsetLoop, hm, if_true, hk', DofInfo.append, hc, if_false,
              DofInfo.updateAfterAppend] at he
            have hd' := inv_append di hd nm0 k none
            simp only [DofInfo.append, hc, if_false, DofInfo.updateAfterAppend] at hd'
            refine ih _ hd' hsd ?_ ?_ di' he
            · intro l₁ l₂ nm sl hl hx
              simp only at hl hx
              by_cases e : nm = nm0
              · subst e
                simp only [dset_same, Option.some.injEq] at hx
                subst hx
                rcases List.eq_nil_or_concat l₂ with rfl | ⟨l₂', b, rfl⟩
                · have := List.append_inj_left' hl rfl
                  rw [← this]; exact htot
                · exfalso
                  rw [List.concat_eq_append] at hl
                  have hl2 : di.varNames ++ [nm] = (l₁ ++ nm :: l₂') ++ [b] := by
                    rw [hl]; simp
                  have := List.append_inj_left' hl2 rfl
                  exact hc (by rw [this]; simp)
              · simp only [dset_ne _ _ e] at hx
                rcases List.eq_nil_or_concat l₂ with rfl | ⟨l₂', b, rfl⟩
                · have := List.append_inj_right' hl rfl
                  simp at this; exact absurd this.symm e
                · rw [List.concat_eq_append] at hl
                  have hl2 : di.varNames ++ [nm0] = (l₁ ++ nm :: l₂') ++ [b] := by
                    rw [hl]; simp
                  have := List.append_inj_left' hl2 rfl
                  exact hst l₁ l₂' nm sl this hx
            · simp [htot, hk']
        · simp only [DofInfo.subsetLoop, hm, if_false] at he
          exact ih di hd hsd hst htot di' he
    obtain ⟨di', h1, h2, h3, h4, h5, h6⟩ := subsetLoop_spec s hi names DofInfo.empty inv_empty
      (by simp [DofInfo.empty]) (by simpa [DofInfo.empty] using hnd) (by simp [DofInfo.empty])
      (by simp [DofInfo.empty])
    have h3' : di'.varNames = keptNames s names := by simpa [DofInfo.empty] using h3
    refine ⟨di', h1, h3', ?_, by simpa [DofInfo.empty] using h6, ?_⟩
    · intro nm hm
      rw [← h3'] at hm
      obtain ⟨e1, e2⟩ := h4 nm hm
      obtain ⟨sl, hsl⟩ := Option.isSome_iff_exists.1 e2
      exact ⟨e1, sl, hsl, h5 nm⟩
    · intro l₁ l₂ nm sl hl hx
      rw [← h3'] at hl
      exact key names DofInfo.empty inv_empty (by simp [DofInfo.empty]) (by simp [DofInfo.empty])
        (by simp [DofInfo.empty]) di' h1 l₁ l₂ nm sl hl hx
  · intro hnd
    exact subsetLoop_dup s hi names DofInfo.empty (by simpa [DofInfo.empty] using hnd)
      (by simp [DofInfo.empty])

/-- Non-vacuity: request `["p", "zzz", "u"]` from the layout u(4), p(3). -/
example : ∃ s, DofInfo.Reachable s ∧ keptNames s ["p", "zzz", "u"] = ["p", "u"] ∧
    (keptNames s ["p", "zzz", "u"]).Nodup := by
  refine ⟨_, ⟨[⟨"u", 4, none⟩, ⟨"p", 3, none⟩], rfl⟩, ?_⟩
  simp [DofInfo.run, DofInfo.append, DofInfo.empty, DofInfo.updateAfterAppend, keptNames]

end Verif.Dof
