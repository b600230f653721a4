import Verif.Dof.LemmasTie
/-
Lemmas: values of essential DOFs, pointwise description of get_full / apply_ebc.
-/
namespace Verif.Dof
open Verif.Np

variable {α : Type}

/-! ### The loop over essential conditions -/

theorem scatter_last (l : List (Nat × α)) (v : Nat → α) (j : Nat) :
    scatter v l j = ((l.reverse.find? fun p => p.1 == j).map (·.2)).getD (v j) := by
  induction l generalizing v with
  | nil => rfl
  | cons p l ih =>
    rw [scatter_cons, ih, List.reverse_cons, List.find?_append]
    cases h : l.reverse.find? fun p => p.1 == j with
    | some q => simp
    | none =>
      by_cases e : p.1 = j
      · simp [e, upd]
      · have : (p.1 == j) = false := by simpa using e
        simp [this, upd, Ne.symm e]

theorem loop_ebc (bcs : List (BC α)) (s : MapState α) :
    (bcs.foldl stepBC s).eqEbc = scatterConst s.eqEbc ((ebcItems bcs).map (·.1)) true ∧
    (bcs.foldl stepBC s).valEbc = scatter s.valEbc (ebcItems bcs) := by
  induction bcs generalizing s with
  | nil => exact ⟨rfl, rfl⟩
  | cons bc bcs ih =>
    rw [List.foldl_cons]
    obtain ⟨h1, h2⟩ := ih (stepBC s bc)
    rw [h1, h2]
    cases bc with
    | ebc items =>
      simp only [stepBC, ebcItems, scatterConst, List.map_append]
      rw [scatter_append, scatter_append]
      exact ⟨rfl, rfl⟩
    | epbc prs =>
      have : (stepEpbc s prs).eqEbc = s.eqEbc ∧ (stepEpbc s prs).valEbc = s.valEbc := by
        unfold stepEpbc; dsimp only; split <;> exact ⟨rfl, rfl⟩
      simp only [stepBC, ebcItems, this.1, this.2]
      exact ⟨trivial, trivial⟩
    | skip => exact ⟨rfl, rfl⟩

theorem prescribed_iff [Zero α] (bcs : List (BC α)) (i : Nat) :
    (loopBCs bcs).eqEbc i = true ↔ ∃ x, Prescribed bcs i x := by
  unfold loopBCs
  rw [(loop_ebc bcs _).1, scatterConst_apply]
  have : i ∈ (ebcItems bcs).map (·.1) ↔ ∃ x, Prescribed bcs i x := by
    unfold Prescribed
    constructor
    · intro h
      obtain ⟨p, hp, rfl⟩ := List.mem_map.1 h
      cases h : (ebcItems bcs).reverse.find? fun q => q.1 == p.1 with
      | some q => exact ⟨q.2, by simp⟩
      | none =>
        rw [List.find?_eq_none] at h
        have := h p (List.mem_reverse.2 hp)
        simp at this
    · rintro ⟨x, hx⟩
      cases h : (ebcItems bcs).reverse.find? fun q => q.1 == i with
      | none => rw [h] at hx; simp at hx
      | some q =>
        have h1 := List.mem_of_find?_eq_some h
        have h2 := List.find?_some h
        exact List.mem_map.2 ⟨q, List.mem_reverse.1 h1, by simpa using h2⟩
  rw [← this]
  constructor
  · intro h
    by_contra hn
    rw [if_neg hn] at h
    exact absurd h (by simp [MapState.init])
  · intro h; rw [if_pos h]

theorem prescribed_val [Zero α] (bcs : List (BC α)) (i : Nat) (x : α)
    (h : Prescribed bcs i x) : (loopBCs bcs).valEbc i = x := by
  unfold loopBCs
  rw [(loop_ebc bcs _).2, scatter_last]
  unfold Prescribed at h
  rw [h]; rfl

theorem prescribed_lt {n : Nat} {bcs : List (BC α)} (hr : InRange n bcs) {i : Nat} {x : α}
    (h : Prescribed bcs i x) : i < n := by
  unfold Prescribed at h
  cases h' : (ebcItems bcs).reverse.find? fun q => q.1 == i with
  | none => rw [h'] at h; simp at h
  | some q =>
    have h1 := List.mem_of_find?_eq_some h'
    have h2 : q.1 = i := by simpa using List.find?_some h'
    exact h2 ▸ hr.1 q (List.mem_reverse.1 h1)

theorem linked_lt {n : Nat} {bcs : List (BC α)} (hr : InRange n bcs) {i j : Nat}
    (h : Linked (declared bcs) i j) (hi : i < n) : j < n := by
  rcases linked_ends h with rfl | ⟨_, h⟩
  · exact hi
  · obtain ⟨p, hp, rfl | rfl⟩ := mem_ends.1 h
    · exact (hr.2 p hp).1
    · exact (hr.2 p hp).2

/-! ### Range of `master_slave` in general -/

/-- All stored DOF numbers are below `n`. -/
def MsRange (n : Nat) (ms : Nat → Int) : Prop := ∀ i, -(n : Int) ≤ ms i ∧ ms i ≤ n

theorem scatter_all {β : Type} (Q : β → Prop) (l : List (Nat × β)) (v : Nat → β)
    (hv : ∀ i, Q (v i)) (hl : ∀ p ∈ l, Q p.2) : ∀ i, Q (scatter v l i) := by
  induction l generalizing v with
  | nil => exact hv
  | cons p l ih =>
    rw [scatter_cons]
    apply ih
    · intro i; unfold upd; split
      · exact hl p List.mem_cons_self
      · exact hv i
    · exact fun q hq => hl q (List.mem_cons_of_mem _ hq)

theorem assignPairs_range {n : Nat} {ms : Nat → Int} (h : MsRange n ms) (prs : List (Nat × Nat))
    (hp : ∀ p ∈ prs, p.1 < n ∧ p.2 < n) : MsRange n (assignPairs ms prs) := by
  unfold assignPairs
  apply scatter_all (fun x : Int => -(n : Int) ≤ x ∧ x ≤ n)
  · apply scatter_all (fun x : Int => -(n : Int) ≤ x ∧ x ≤ n) _ _ h
    intro q hq
    obtain ⟨p, hp', rfl⟩ := List.mem_map.1 hq
    have := hp p hp'
    simp only; omega
  · intro q hq
    obtain ⟨p, hp', rfl⟩ := List.mem_map.1 hq
    have := hp p hp'
    simp only; omega

theorem partner_lt {n : Nat} {x : Int} (h : -(n : Int) ≤ x ∧ x ≤ n) (hx : x ≠ 0) :
    partner x < n := by
  rcases Int.lt_or_gt_of_ne hx with hl | hg
  · rw [partner_neg (neg_cast hl)]; omega
  · rw [partner_pos (pos_cast hg)]; omega

theorem loop_range (n : Nat) (bcs : List (BC α)) (hr : ∀ p ∈ declared bcs, p.1 < n ∧ p.2 < n)
    (s : MapState α) (hs : MsRange n s.ms) (hc : ∀ c ∈ s.chains, c.1 < n ∧ c.2 < n) :
    MsRange n (bcs.foldl stepBC s).ms ∧
      ∀ c ∈ (bcs.foldl stepBC s).chains, c.1 < n ∧ c.2 < n := by
  induction bcs generalizing s with
  | nil => exact ⟨hs, hc⟩
  | cons bc bcs ih =>
    rw [List.foldl_cons]
    cases bc with
    | ebc items => exact ih hr (stepBC s (.ebc items)) hs hc
    | skip => exact ih hr s hs hc
    | epbc prs =>
      have hp : ∀ p ∈ prs, p.1 < n ∧ p.2 < n := by
        intro p hp
        exact hr p (by simp [declared, epbcLists, hp])
      apply ih
      · intro p hp'
        apply hr
        have : p ∈ (epbcLists bcs).flatten := hp'
        simp [declared, epbcLists]
        right; simpa using this
      · show MsRange n (stepEpbc s prs).ms
        rw [stepEpbc_ms]
        exact assignPairs_range hs _ (fun p h => hp p (mem_fresh.1 h).1)
      · intro c hc'
        rcases (stepEpbc_chains s prs c).1 hc' with h | ⟨p, hpp, ⟨h, rfl⟩ | ⟨h, rfl⟩ | ⟨h, rfl⟩⟩
        · exact hc c h
        · exact ⟨(hp p hpp).1, partner_lt (hs _) h⟩
        · exact ⟨(hp p hpp).2, partner_lt (hs _) h⟩
        · exact hp c hpp

theorem resolveChain_range {n : Nat} (ch : List Nat) (hch : ∀ x ∈ ch, x < n) (ms : Nat → Int)
    (h : MsRange n ms) : MsRange n (resolveChain ms ch) := by
  unfold resolveChain
  cases hl : ch.getLast? with
  | none => exact h
  | some s =>
    cases hh : ch.head? with
    | none => exact h
    | some c =>
      have hs := hch s (List.mem_of_getLast? hl)
      have hc := hch c (List.mem_of_head? hh)
      intro i
      simp only
      unfold upd
      split
      · omega
      · rw [scatterConst_apply]
        split
        · omega
        · exact h i

theorem resolveChains_range {n : Nat} (chs : List (List Nat)) (hch : ∀ g ∈ chs, ∀ x ∈ g, x < n)
    (ms : Nat → Int) (h : MsRange n ms) : MsRange n (resolveChains ms chs) := by
  unfold resolveChains
  induction chs generalizing ms with
  | nil => exact h
  | cons g chs ih =>
    rw [List.foldl_cons]
    exact ih (fun g' hg' => hch g' (List.mem_cons_of_mem _ hg')) _
      (resolveChain_range g (hch g List.mem_cons_self) ms h)

/-- The final `master_slave` array of `mapEquations`. -/
def finalMs [Zero α] (ord : List Nat → List Nat) (bcs : List (BC α)) : Nat → Int :=
  resolveChains (loopBCs bcs).ms (groupChains ord (loopBCs bcs).chains)

theorem mapEquations_eq [Zero α] (ord : List Nat → List Nat) (n : Nat) (bcs : List (BC α))
    (unused : List Nat) : mapEquations ord n bcs unused =
    finishMap n (loopBCs bcs).eqEbc (loopBCs bcs).valEbc (finalMs ord bcs) unused := rfl

theorem finalMs_range [Zero α] (ord : List Nat → List Nat) (hord : ∀ l, (ord l).Perm l) {n : Nat}
    {bcs : List (BC α)} (hr : InRange n bcs) : MsRange n (finalMs ord bcs) := by
  obtain ⟨h1, h2⟩ := loop_range n bcs hr.2 (MapState.init α)
    (by intro i; simp [MapState.init]) (by simp [MapState.init])
  apply resolveChains_range _ _ _ h1
  intro g hg x hx
  have := (C10_group_chains_components ord hord (loopBCs bcs).chains).2.2.1 x
  obtain ⟨p, hp, rfl | rfl⟩ := this.1 ⟨g, hg, hx⟩
  · exact (h2 p hp).1
  · exact (h2 p hp).2

theorem finalMs_tied [Zero α] (ord : List Nat → List Nat) (hord : ∀ l, (ord l).Perm l)
    {bcs : List (BC α)} (hg : GoodOrder bcs) : Tied (declared bcs) (finalMs ord bcs) := by
  obtain ⟨t, ht⟩ := TieInv.loop bcs [] [] [] (by simp [ends]) (MapState.init α) TieInv.init hg
  exact ht.resolve ord hord

theorem sl_lt {n : Nat} {ms : Nat → Int} (h : MsRange n ms) {i : Nat} (hi : 0 < ms i) :
    sl ms i < n := by
  have := h i
  unfold sl; omega

/-! ### Roots of tie classes -/

/-- The representative (slave) of DOF `i`. -/
def root (ms : Nat → Int) (i : Nat) : Nat := if 0 < ms i then sl ms i else i

theorem Tied.root_nonpos {P ms} (h : Tied P ms) (i : Nat) : ¬ 0 < ms (root ms i) := by
  unfold root
  split
  · next hi =>
    have he : i ∈ ends P := by
      by_contra hn; have := h.zero i hn; omega
    rcases h.neg_or i he with hl | ⟨s, e, hs, _⟩
    · omega
    · have : sl ms i = s := by unfold sl; omega
      rw [this]; omega
  · assumption

theorem Tied.root_linked {P ms} (h : Tied P ms) (i : Nat) : Linked P i (root ms i) := by
  unfold root
  split
  · next hi =>
    have he : i ∈ ends P := by
      by_contra hn; have := h.zero i hn; omega
    rcases h.neg_or i he with hl | ⟨s, e, hs, hl⟩
    · omega
    · have : sl ms i = s := by unfold sl; omega
      rw [this]; exact hl
  · exact .refl _

theorem Tied.root_eq_iff {P ms} (h : Tied P ms) (i j : Nat) :
    root ms i = root ms j ↔ Linked P i j := by
  constructor
  · intro e
    exact .trans _ _ _ (h.root_linked i) (e ▸ .symm _ _ (h.root_linked j))
  · intro hl
    have hr : Linked P (root ms i) (root ms j) :=
      .trans _ _ _ (.symm _ _ (h.root_linked i)) (.trans _ _ _ hl (h.root_linked j))
    rcases linked_ends hr with e | ⟨h1, h2⟩
    · exact e
    · have n1 : ms (root ms i) < 0 := by
        rcases h.neg_or _ h1 with h' | ⟨s, e, _⟩
        · exact h'
        · have := h.root_nonpos i; omega
      have n2 : ms (root ms j) < 0 := by
        rcases h.neg_or _ h2 with h' | ⟨s, e, _⟩
        · exact h'
        · have := h.root_nonpos j; omega
      exact h.uniq _ _ n1 n2 hr

theorem root_lt {n : Nat} {ms : Nat → Int} (h : MsRange n ms) {i : Nat} (hi : i < n) :
    root ms i < n := by
  unfold root; split
  · exact sl_lt h (by assumption)
  · exact hi

/-! ### Values of essential DOFs -/

/-- The `val_ebc` array after the propagation (dof_info.py:491-494), as in `finishMap`. -/
def val2 (n : Nat) (e0 : Nat → Bool) (v0 : Nat → α) (ms : Nat → Int) : Nat → α :=
  let prs := (nonzero n fun i => decide (ms i > 0)).map fun i => (i, sl ms i)
  let val1 := scatter v0 ((prs.filter fun p => e0 p.1).map fun p => (p.2, v0 p.1))
  scatter val1 ((prs.filter fun p => e0 p.2).map fun p => (p.1, val1 p.2))

theorem finishMap_valEbc (n : Nat) (e0 : Nat → Bool) (v0 : Nat → α) (ms : Nat → Int)
    (unused : List Nat) : (finishMap n e0 v0 ms unused).valEbc =
    (finishMap n e0 v0 ms unused).eqEbc.map (val2 n e0 v0 ms) := by
  unfold val2 finishMap sl
  simp only [zip_map_self]

theorem val2_eq {P} {n : Nat} {e0 : Nat → Bool} {v0 : Nat → α} {ms : Nat → Int}
    (ht : Tied P ms)
    (hc : ∀ i j, e0 i = true → e0 j = true → root ms i = root ms j → v0 i = v0 j)
    (i j : Nat) (hi : i < n) (hj : e0 j = true) (hr : root ms i = root ms j)
    (hmem : e0 i = true ∨ (∃ a < n, 0 < ms a ∧ e0 a = true ∧ sl ms a = i) ∨
      (0 < ms i ∧ e0 (sl ms i) = true)) : val2 n e0 v0 ms i = v0 j := by
  unfold val2
  generalize hM : (nonzero n fun i => decide (ms i > 0)) = M
  have hMm : ∀ a, a ∈ M ↔ a < n ∧ 0 < ms a := by
    intro a; rw [← hM, mem_nonzero]; simp
  have hroot : ∀ a, 0 < ms a → root ms a = sl ms a := by
    intro a ha; unfold root; rw [if_pos ha]
  have hroot2 : ∀ a, ¬ 0 < ms a → root ms a = a := by
    intro a ha; unfold root; rw [if_neg ha]
  have hsl : ∀ a, 0 < ms a → root ms (sl ms a) = sl ms a := by
    intro a ha
    apply hroot2
    rw [← hroot a ha]; exact ht.root_nonpos a
  -- value after the first assignment
  have h1 : ∀ k, root ms k = root ms j →
      (e0 k = true ∨ ∃ a < n, 0 < ms a ∧ e0 a = true ∧ sl ms a = k) →
      scatter v0 (((M.map fun i => (i, sl ms i)).filter fun p => e0 p.1).map
        fun p => (p.2, v0 p.1)) k = v0 j := by
    intro k hk hor
    by_cases hx : ∃ a < n, 0 < ms a ∧ e0 a = true ∧ sl ms a = k
    · apply scatter_eq
      · obtain ⟨a, ha, ha2, ha3, rfl⟩ := hx
        exact ⟨_, List.mem_map.2 ⟨(a, sl ms a), List.mem_filter.2
          ⟨List.mem_map.2 ⟨a, (hMm a).2 ⟨ha, ha2⟩, rfl⟩, ha3⟩, rfl⟩, rfl⟩
      · intro p hp e
        obtain ⟨q, hq, rfl⟩ := List.mem_map.1 hp
        obtain ⟨hq1, hq2⟩ := List.mem_filter.1 hq
        obtain ⟨a, ha, rfl⟩ := List.mem_map.1 hq1
        simp only at e hq2 ⊢
        apply hc a j hq2 hj
        rw [hroot a ((hMm a).1 ha).2, ← hk, ← e, hsl a ((hMm a).1 ha).2]
    · rw [scatter_of_not_mem]
      · rcases hor with h | h
        · exact hc k j h hj hk
        · exact absurd h hx
      · intro p hp e
        obtain ⟨q, hq, rfl⟩ := List.mem_map.1 hp
        obtain ⟨hq1, hq2⟩ := List.mem_filter.1 hq
        obtain ⟨a, ha, rfl⟩ := List.mem_map.1 hq1
        exact hx ⟨a, ((hMm a).1 ha).1, ((hMm a).1 ha).2, hq2, e⟩
  by_cases h2 : 0 < ms i ∧ e0 (sl ms i) = true
  · apply scatter_eq
    · exact ⟨_, List.mem_map.2 ⟨(i, sl ms i), List.mem_filter.2
          ⟨List.mem_map.2 ⟨i, (hMm i).2 ⟨hi, h2.1⟩, rfl⟩, h2.2⟩, rfl⟩, rfl⟩
    · intro p hp e
      obtain ⟨q, hq, rfl⟩ := List.mem_map.1 hp
      obtain ⟨hq1, hq2⟩ := List.mem_filter.1 hq
      obtain ⟨a, ha, rfl⟩ := List.mem_map.1 hq1
      simp only at e hq2 ⊢
      subst e
      apply h1 _ _ (.inl hq2)
      rw [hsl a h2.1, ← hr, hroot a h2.1]
  · rw [scatter_of_not_mem]
    · apply h1 i hr
      rcases hmem with h | h | h
      · exact .inl h
      · exact .inr h
      · exact absurd h h2
    · intro p hp e
      obtain ⟨q, hq, rfl⟩ := List.mem_map.1 hp
      obtain ⟨hq1, hq2⟩ := List.mem_filter.1 hq
      obtain ⟨a, ha, rfl⟩ := List.mem_map.1 hq1
      simp only at e hq2
      subst e
      exact h2 ⟨((hMm a).1 ha).2, hq2⟩

/-! ### Pointwise get_full and apply_ebc -/

theorem add_inj (off : Nat) : Function.Injective fun i => off + i := by
  intro a b h; simp only at h; omega

/-- the list of essential values used with an optional forced value -/
def ebcFun (val : Nat → α) (force : Option α) : Nat → α :=
  match force with
  | none => val
  | some f => fun _ => f

section
variable (n : Nat) (e0 : Nat → Bool) (v0 : Nat → α) (ms : Nat → Int) (unused : List Nat)

theorem ebcVals_eq (force : Option α) :
    (finishMap n e0 v0 ms unused).ebcValues force =
    (finishMap n e0 v0 ms unused).eqEbc.map (ebcFun (val2 n e0 v0 ms) force) := by
  cases force with
  | none => exact finishMap_valEbc ..
  | some f => rfl

theorem ebc_scatter (force : Option α) (vec : Nat → α) (off i : Nat) :
    scatter vec (((finishMap n e0 v0 ms unused).eqEbc.zip
      ((finishMap n e0 v0 ms unused).eqEbc.map (ebcFun (val2 n e0 v0 ms) force))).map
      fun p => (off + p.1, p.2)) (off + i) =
    if i ∈ (finishMap n e0 v0 ms unused).eqEbc then ebcFun (val2 n e0 v0 ms) force i
    else vec (off + i) := by
  rw [zip_map_self, List.map_map]
  exact scatter_map_self (finishMap n e0 v0 ms unused).eqEbc vec (fun i => off + i) (add_inj off)
    (ebcFun (val2 n e0 v0 ms) force) i

theorem pairs_scatter (v : Nat → α) (off i : Nat) (hi : i < n) :
    scatter v (((finishMap n e0 v0 ms unused).master.zip
      (finishMap n e0 v0 ms unused).slave).map fun p => (off + p.1, v (off + p.2))) (off + i) =
    v (off + root ms i) := by
  rw [finishMap_zip, List.map_map]
  have := scatter_map_self (finishMap n e0 v0 ms unused).master v (fun i => off + i) (add_inj off)
    (fun i => v (off + sl ms i)) i
  simp only [mem_master, hi, true_and] at this
  unfold root
  split
  · next h => rw [if_pos h] at this; exact this
  · next h => rw [if_neg h] at this; exact this

/-- the vector before the last assignment of `get_full` -/
theorem getFull_root (r : Nat → α) (rOff : Nat) (force : Option α) (vec : Nat → α)
    (off i : Nat) (hi : i < n) :
    getFull (finishMap n e0 v0 ms unused) r rOff force vec off (off + i) =
    scatter (scatter vec (((finishMap n e0 v0 ms unused).eqEbc.zip
        ((finishMap n e0 v0 ms unused).eqEbc.map (ebcFun (val2 n e0 v0 ms) force))).map
        fun p => (off + p.1, p.2)))
      ((finishMap n e0 v0 ms unused).eqi.zipIdx.map fun p => (off + p.1, r (rOff + p.2)))
      (off + root ms i) := by
  unfold getFull
  rw [ebcVals_eq]
  exact pairs_scatter n e0 v0 ms unused _ off i hi

theorem mid_eqi (r : Nat → α) (rOff : Nat) (v : Nat → α) (off k : Nat)
    (hk : k < (finishMap n e0 v0 ms unused).eqi.length) :
    scatter v ((finishMap n e0 v0 ms unused).eqi.zipIdx.map fun p => (off + p.1, r (rOff + p.2)))
      (off + (finishMap n e0 v0 ms unused).eqi[k]) = r (rOff + k) :=
  scatter_zipIdx _ (eqi_nodup ..) v (fun i => off + i) (add_inj off) (fun k => r (rOff + k)) k hk

theorem mid_not_eqi (r : Nat → α) (rOff : Nat) (v : Nat → α) (off i : Nat)
    (hi : i ∉ (finishMap n e0 v0 ms unused).eqi) :
    scatter v ((finishMap n e0 v0 ms unused).eqi.zipIdx.map fun p => (off + p.1, r (rOff + p.2)))
      (off + i) = v (off + i) :=
  scatter_zipIdx_not_mem _ v (fun i => off + i) (add_inj off) (fun k => r (rOff + k)) i hi

theorem applyEbc_root (force : Option α) (vec : Nat → α) (off i : Nat) (hi : i < n) :
    applyEbc (finishMap n e0 v0 ms unused) vec off force (off + i) =
    if root ms i ∈ (finishMap n e0 v0 ms unused).eqEbc
    then ebcFun (val2 n e0 v0 ms) force (root ms i) else vec (off + root ms i) := by
  unfold applyEbc
  rw [ebcVals_eq, pairs_scatter n e0 v0 ms unused _ off i hi, ebc_scatter]

end
end Verif.Dof
