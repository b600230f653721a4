import Verif.Ml.Layout

/-!
# The built expressions evaluate the forms (proof)
-/

namespace Ml

set_option linter.unusedSectionVars false
set_option linter.unusedSimpArgs false

variable {K : Type*} [Field K]

/-! ## General lemmas -/

theorem sumOver_rel (size : Char → ℕ) (S : List Char) (f g : (Char → ℕ) → K)
    (hfg : ∀ σ σ' : Char → ℕ, (∀ l ∈ S, σ l = σ' l) → f σ = g σ') : ∀ (ls : List Char) (ρ ρ' : Char → ℕ),
    (∀ l ∈ S, l ∉ ls → ρ l = ρ' l) → sumOver size ls ρ f = sumOver size ls ρ' g := by
  intro ls
  induction ls with
  | nil => intro ρ ρ' h; exact hfg ρ ρ' fun l hl => h l hl (by simp)
  | cons a ls ih =>
    intro ρ ρ' h
    rw [sumOver, sumOver]
    refine Finset.sum_congr rfl fun i _ => ih _ _ fun l hl hn => ?_
    by_cases e : l = a
    · subst e; simp
    · rw [Function.update_of_ne e, Function.update_of_ne e]
      exact h l hl (by simp [e, hn])

theorem assign_left {l1 l2 : List Char} {o1 o2 : List ℕ} (hlen : l1.length = o1.length) {l : Char} (hl : l ∈ l1) :
    assign (l1 ++ l2) (o1 ++ o2) l = assign l1 o1 l := by
  unfold assign
  rw [List.idxOf_append_of_mem hl]
  have : List.idxOf l l1 < o1.length := hlen ▸ List.idxOf_lt_length_iff.mpr hl
  simp [List.getD, List.getElem?_append_left this]

theorem assign_right {l1 l2 : List Char} {o1 o2 : List ℕ} (hlen : l1.length = o1.length) {l : Char} (hl : l ∉ l1) :
    assign (l1 ++ l2) (o1 ++ o2) l = assign l2 o2 l := by
  unfold assign
  rw [List.idxOf_append_of_notMem hl, hlen]
  simp only [List.getD]
  rw [List.getElem?_append_right (by omega)]
  congr 2
  omega

theorem assign_cons_self (l : Char) (ls : List Char) (o : ℕ) (os : List ℕ) : assign (l :: ls) (o :: os) l = o := by
  simp [assign]

theorem assign_cons_ne {l m : Char} (h : l ≠ m) (ls : List Char) (o : ℕ) (os : List ℕ) :
    assign (m :: ls) (o :: os) l = assign ls os l := by
  simp [assign, List.idxOf_cons_ne _ h.symm]

/-! ## The expression in question -/

/-- The annotated arguments. -/
def anns (diff : Option ℕ) (k : ℕ) (args : List Arg) : List Ann := annotate diff k (order args) 0 auxLetters

def isDiff (diff : Option ℕ) (x : ℕ × Arg) : Bool := decide (x.2.kind = .state ∧ diff = some x.2.name)

theorem annotate_occ (diff : Option ℕ) (k : ℕ) : ∀ (xs : List (ℕ × Arg)) (ia : ℕ) (aux : List Char), xs.Nodup →
    ∀ a ∈ annotate diff k xs ia aux, isDiff diff (a.pos, a.arg) →
      (a.role = .unit ↔ ∃ j, (xs.filter (isDiff diff))[j]? = some (a.pos, a.arg) ∧ k = ia + j) := by
  intro xs
  induction xs with
  | nil => intro ia aux _ a ha; simp [annotate] at ha
  | cons x xs ih =>
    intro ia aux hn a ha hd
    rw [List.nodup_cons] at hn
    rw [annotate] at ha
    rcases List.mem_cons.mp ha with rfl | ha
    · have hd' : isDiff diff x := hd
      have hx : x.2.kind = .state ∧ diff = some x.2.name := by simpa [isDiff] using hd'
      have hrole : (annOf diff k ia aux x).role = .unit ↔ k = ia := by
        unfold annOf
        by_cases e : k = ia <;> simp [hx.1, hx.2, e]
      rw [hrole, List.filter_cons, if_pos hd']
      constructor
      · intro e; exact ⟨0, rfl, by omega⟩
      · rintro ⟨j, hj, hk⟩
        cases j with
        | zero => omega
        | succ j =>
          rw [List.getElem?_cons_succ] at hj
          have := List.mem_of_getElem? hj
          rw [List.mem_filter] at this
          exact absurd this.1 hn.1
    · have hne : (a.pos, a.arg) ≠ x := by
        intro e
        have : (a.pos, a.arg) ∈ xs := by
          rw [← annotate_map diff k xs _ _]
          exact List.mem_map.mpr ⟨a, ha, rfl⟩
        exact hn.1 (e ▸ this)
      rw [ih _ _ hn.2 a ha hd, List.filter_cons]
      by_cases hx : isDiff diff x
      · have hx' : x.2.kind = .state ∧ diff = some x.2.name := by simpa [isDiff] using hx
        rw [if_pos hx, if_pos hx']
        constructor
        · rintro ⟨j, hj, hk⟩
          exact ⟨j + 1, by rw [List.getElem?_cons_succ]; exact hj, by omega⟩
        · rintro ⟨j, hj, hk⟩
          cases j with
          | zero => simp at hj; exact absurd hj.symm hne
          | succ j => exact ⟨j, by rw [List.getElem?_cons_succ] at hj; exact hj, by omega⟩
      · have hx' : ¬ (x.2.kind = .state ∧ diff = some x.2.name) := by simpa [isDiff] using hx
        rw [if_neg hx, if_neg hx']

theorem order_nodup (args : List Arg) : (order args).Nodup := (order_perm args).nodup_iff.mpr (numbered_nodup args)

theorem anns_map (diff : Option ℕ) (k : ℕ) (args : List Arg) :
    (anns diff k args).map (fun a => (a.pos, a.arg)) = order args := annotate_map _ _ _ _ _

theorem ann_mem {diff : Option ℕ} {k : ℕ} {args : List Arg} {a : Ann} (h : a ∈ anns diff k args) :
    (a.pos, a.arg) ∈ numbered args := by
  have : (a.pos, a.arg) ∈ order args := by
    rw [← anns_map diff k args]; exact List.mem_map.mpr ⟨a, h, rfl⟩
  exact (order_perm args).mem_iff.mp this

theorem numbered_arg {args : List Arg} {x : ℕ × Arg} (h : x ∈ numbered args) : x.2 ∈ args := by
  have : x.2 ∈ (numbered args).map Prod.snd := List.mem_map.mpr ⟨x, h, rfl⟩
  rwa [numbered_snd] at this

theorem occ_length (diff : Option ℕ) (d : ℕ) (hd : diff = some d) (args : List Arg) :
    ((numbered args).filter (isDiff diff)).length = nAddOf diff args := by
  subst hd
  unfold nAddOf
  have : (args.filter fun a => decide (a.kind = .state ∧ a.name = d)) =
      ((numbered args).filter (isDiff (some d))).map Prod.snd := by
    conv_lhs => rw [← numbered_snd args]
    rw [List.filter_map]
    congr 1
    refine List.filter_congr fun x _ => ?_
    simp [isDiff, eq_comm]
  simp only [this, List.length_map]

/-- The differentiated variable without the modifier. -/
theorem ann_plain {dim : ℕ} {diff : Option ℕ} {nAdd : ℕ} {args : List Arg} (hg : Good dim diff nAdd args) {k : ℕ}
    (hk : k < nAdd) {a : Ann} (ha : a ∈ anns diff k args) (hr : a.role = .plain) : a.arg.mod = none := by
  rcases annotate_role diff k _ _ _ a ha with ⟨_, e⟩ | ⟨_, e⟩ | ⟨_, _, e⟩ | ⟨e1, e2, _⟩
  · simp [hr] at e
  · simp [hr] at e
  · simp [hr] at e
  rcases hg.plain with h1 | h1
  · exfalso
    have hd : isDiff diff (a.pos, a.arg) := by simp [isDiff, e1, e2]
    have hiff := annotate_occ diff k _ 0 auxLetters (order_nodup args) a ha hd
    have hnu : ¬ a.role = .unit := by simp [hr]
    have hmem : (a.pos, a.arg) ∈ (order args).filter (isDiff diff) := by
      rw [List.mem_filter]
      refine ⟨?_, hd⟩
      rw [← anns_map diff k args]; exact List.mem_map.mpr ⟨a, ha, rfl⟩
    obtain ⟨j, hj⟩ := List.getElem?_of_mem hmem
    have hlen : ((order args).filter (isDiff diff)).length = 1 := by
      rw [((order_perm args).filter _).length_eq, occ_length diff a.arg.name e2 args, ← hg.count, h1]
    have hj0 : j < ((order args).filter (isDiff diff)).length := (List.getElem?_eq_some_iff.mp hj).1
    exact hnu (hiff.mpr ⟨j, hj, by omega⟩)
  · exact h1 a.arg (numbered_arg (ann_mem ha)) e1 e2

theorem ann_wf {dim : ℕ} {diff : Option ℕ} {nAdd : ℕ} {args : List Arg} (hg : Good dim diff nAdd args) {fe : Bool}
    {mode : Mode} {b : B} {k : ℕ} (hk : k < nAdd) (hb : BuiltOK fe diff mode args b k) {a : Ann}
    (ha : a ∈ anns diff k args) : AnnWF a := by
  have hn := ann_mem ha
  have harg := numbered_arg hn
  have ho : (a.pos, a.arg) ∈ order args := (order_perm args).mem_iff.mpr hn
  have hrole := annotate_role diff k _ _ _ a ha
  have hkm : a.role = .mat ↔ a.arg.kind = .ndarray := by
    rcases hrole with ⟨e1, e2⟩ | ⟨e1, e2⟩ | ⟨e1, _, e2⟩ | ⟨e1, _, e2⟩
    · simp [e1, e2]
    · simp [e1, e2]
    · simp [e1, e2]
    · rcases e2 with e2 | e2 <;> simp [e1, e2]
  refine ⟨hkm, ?_, ?_, ?_, ?_, ?_, ?_⟩
  · by_cases hm : a.role = .mat
    · exact .inr hm
    · left
      have hp := hb.pos _ ho (fun e => hm (hkm.mpr e))
      rw [annotate_node diff k _ _ _ a ha]
      have : a.pos < nodeLetters.length := hp
      rw [List.getD_eq_getElem?_getD, List.getElem?_eq_getElem this]
      exact List.getElem_mem _
  · intro hu
    exact (annotate_aux diff k _ 0 auxLetters hb.aux (by decide)).1 a ha (usesAux_takes ha hu)
  · exact hg.wf.letters a.arg harg
  · intro l hl hl'
    refine hg.wf.innerNot l ?_ ?_
    · exact List.mem_flatMap.mpr ⟨_, harg, hl⟩
    · exact List.mem_flatMap.mpr ⟨_, harg, hl'⟩
  · intro hm hs
    obtain ⟨h1, h2, _⟩ := hg.wf.mods a.arg harg (fun e => hm (hkm.mpr e)) hs
    exact ⟨h1, h2⟩
  · exact fun hr => ann_plain hg hk ha hr

/-- The letters of two arguments are distinct. -/
structure Distinct (a b : Ann) : Prop where
  node : a.role ≠ .mat → b.role ≠ .mat → a.node ≠ b.node
  aux : usesAux a → usesAux b → a.aux ≠ b.aux
  inner : ∀ l ∈ innerLetters a.arg, l ∉ innerLetters b.arg

theorem Distinct.symm {a b : Ann} (h : Distinct a b) : Distinct b a :=
  ⟨fun h1 h2 e => h.node h2 h1 e.symm, fun h1 h2 e => h.aux h2 h1 e.symm, fun l hl hl' => h.inner l hl' hl⟩

theorem nodeLetters_inj {i j : ℕ} (hi : i < 5) (hj : j < 5) (h : nodeLetters.getD i ' ' = nodeLetters.getD j ' ') :
    i = j := by
  have h1 : i = 0 ∨ i = 1 ∨ i = 2 ∨ i = 3 ∨ i = 4 := by omega
  have h2 : j = 0 ∨ j = 1 ∨ j = 2 ∨ j = 3 ∨ j = 4 := by omega
  rcases h1 with rfl | rfl | rfl | rfl | rfl <;> rcases h2 with rfl | rfl | rfl | rfl | rfl <;>
    first | rfl | (exact absurd h (by decide))

theorem anns_distinct {dim : ℕ} {diff : Option ℕ} {nAdd : ℕ} {args : List Arg} (hg : Good dim diff nAdd args) {fe : Bool}
    {mode : Mode} {b : B} {k : ℕ} (hk : k < nAdd) (hb : BuiltOK fe diff mode args b k) :
    (anns diff k args).Pairwise Distinct := by
  have hA : ∀ a ∈ anns diff k args, AnnWF a := fun a ha => ann_wf hg hk hb ha
  have h1 : (anns diff k args).Pairwise fun a b => a.role ≠ .mat → b.role ≠ .mat → a.node ≠ b.node := by
    have hp : (anns diff k args).Pairwise fun a b => a.pos ≠ b.pos := by
      have : ((anns diff k args).map fun a => a.pos).Nodup := by
        have e : ((anns diff k args).map fun a => a.pos) = (order args).map Prod.fst := by
          rw [← anns_map diff k args, List.map_map]; rfl
        rw [e, ((order_perm args).map _).nodup_iff, numbered_fst]
        exact List.nodup_range
      exact List.pairwise_map.mp this
    refine hp.imp_of_mem ?_
    intro a b ha hb' hne h1 h2 e
    rw [annotate_node diff k _ _ _ a ha, annotate_node diff k _ _ _ b hb'] at e
    refine hne (nodeLetters_inj ?_ ?_ e)
    · exact hb.pos (a.pos, a.arg) ((order_perm args).mem_iff.mpr (ann_mem ha)) fun e => h1 ((hA a ha).kindMat.mpr e)
    · exact hb.pos (b.pos, b.arg) ((order_perm args).mem_iff.mpr (ann_mem hb')) fun e => h2 ((hA b hb').kindMat.mpr e)
  have h2 : (anns diff k args).Pairwise fun a b => usesAux a → usesAux b → a.aux ≠ b.aux := by
    refine (annotate_aux diff k _ 0 auxLetters hb.aux (by decide)).2.imp_of_mem ?_
    intro a b ha hb' h u1 u2
    exact h (usesAux_takes ha u1) (usesAux_takes hb' u2)
  have h3 : (anns diff k args).Pairwise fun a b => ∀ l ∈ innerLetters a.arg, l ∉ innerLetters b.arg := by
    have e : ((anns diff k args).map fun a => a.arg).Perm args := by
      have e1 : ((anns diff k args).map fun a => a.arg) = (order args).map Prod.snd := by
        rw [← anns_map diff k args, List.map_map]; rfl
      rw [e1]
      have := (order_perm args).map Prod.snd
      rwa [numbered_snd] at this
    have hn : (((anns diff k args).map fun a => a.arg).flatMap innerLetters).Nodup :=
      (e.flatMap_right _).nodup_iff.mpr hg.wf.inner
    rw [List.nodup_flatMap] at hn
    have := List.pairwise_map.mp hn.2
    exact this.imp fun h l hl hl' => h hl hl'
  exact ((h1.and h2).and h3).imp fun ⟨⟨x, y⟩, z⟩ => ⟨x, y, z⟩

/-! ## Letters -/

theorem mem_group {fe : Bool} {x : Ann} (h : AnnWF x) {l : Char} : l ∈ groupLetters fe x →
    l = 'c' ∨ l = 'q' ∨ l ∈ argLetters x.arg ∨ l ∈ innerLetters x.arg ∨ (l = x.node ∧ x.role ≠ .mat) ∨
      (l = x.aux ∧ usesAux x) := by
  intro hl
  obtain ⟨cq, hcq, _, hp⟩ := groupLetters_perm fe x h
  have := hp.mem_iff.mp hl
  simp only [List.mem_append] at this
  rcases this with ((((h1 | h1) | h1) | h1) | h1) | h1
  · rcases hcq l h1 with e | e
    · exact .inl e
    · exact .inr (.inl e)
  · exact .inr (.inr (.inl h1))
  · exact .inr (.inr (.inr (.inl h1)))
  · exact .inr (.inr (.inr (.inl h1)))
  · refine .inr (.inr (.inr (.inr (.inl ?_))))
    split at h1
    · simp at h1
    · rename_i hm
      split at h1 <;> simp at h1 <;> exact ⟨h1, hm⟩
  · refine .inr (.inr (.inr (.inr (.inr ?_))))
    split at h1
    · rename_i hm; simp at h1; exact ⟨h1, .inl hm⟩
    · split at h1
      · rename_i hm; simp at h1; exact ⟨h1, .inr hm⟩
      · simp at h1

theorem priv_cases {x : Ann} (h : AnnWF x) {l : Char} (hl : l ∈ priv x) :
    l ∈ innerLetters x.arg ∨ (l = x.node ∧ (x.role = .dofs ∨ x.role = .plain)) ∨
      (l = x.aux ∧ x.role = .dofs ∧ x.arg.mod.isSome) := by
  rw [inner_eq x h]
  unfold priv at hl
  cases hr : x.role with
  | mat => simp [hr] at hl
  | plain => simp [hr] at hl; simp [hl, h.plain hr]
  | dofs =>
    cases hm : x.arg.mod <;> simp [hr, hm] at hl ⊢
    · exact hl
    · rcases hl with e | e | e
      · exact .inl e
      · exact .inr (.inr e)
      · exact .inr (.inl e)
  | unit =>
    cases hm : x.arg.mod <;> simp [hr, hm] at hl ⊢
    exact hl

theorem argLetters_mem_group (fe : Bool) {x : Ann} (h : AnnWF x) {l : Char} (hl : l ∈ argLetters x.arg) :
    l ∈ groupLetters fe x := by
  obtain ⟨cq, _, _, hp⟩ := groupLetters_perm fe x h
  rw [hp.mem_iff]
  simp [hl]

theorem priv_mem_group (fe : Bool) {x : Ann} (h : AnnWF x) {l : Char} (hl : l ∈ priv x) : l ∈ groupLetters fe x := by
  obtain ⟨cq, _, _, hp⟩ := groupLetters_perm fe x h
  rw [hp.mem_iff]
  rcases priv_cases h hl with e | ⟨e, hr⟩ | ⟨e, hr, hm⟩
  · simp [e]
  · rcases hr with hr | hr <;> simp [hr, e]
  · simp [hr, hm, e]

theorem priv_nodup {x : Ann} (h : AnnWF x) : (priv x).Nodup := by
  unfold priv
  cases hr : x.role with
  | mat => simp
  | plain => simp
  | dofs =>
    cases hm : x.arg.mod with
    | none => simp
    | some m =>
      simp only [Option.isSome_some, if_true]
      have hin : e2 x.arg.ein ∈ innerLetters x.arg := by rw [inner_eq x h]; simp [hr, hm]
      have h2 := h.letters _ (List.mem_append_right _ hin)
      have hnode := h.node.resolve_right (by simp [hr])
      have haux := h.aux (.inr ⟨hr, by simp [hm]⟩)
      have a1 : e2 x.arg.ein ≠ x.aux := fun e => h2 (e ▸ reserved_aux haux)
      have a2 : e2 x.arg.ein ≠ x.node := fun e => h2 (e ▸ reserved_node hnode)
      have a3 := node_ne_aux hnode haux
      simp [a1, a2, a3.symm]
  | unit => cases hm : x.arg.mod <;> simp

/-- The letters of an argument are not private letters of another one. -/
theorem group_priv {fe : Bool} {a b : Ann} (ha : AnnWF a) (hb : AnnWF b) (hd : Distinct a b)
    (hin : ∀ l ∈ innerLetters b.arg, l ∉ argLetters a.arg) {l : Char} (hl : l ∈ groupLetters fe a) : l ∉ priv b := by
  intro hp
  have hbr : ∀ {m}, m ∈ innerLetters b.arg → m ∉ reserved := fun hm => hb.letters _ (List.mem_append_right _ hm)
  rcases priv_cases hb hp with e | ⟨e, hr⟩ | ⟨e, hr, hm⟩
  · rcases mem_group ha hl with h | h | h | h | ⟨h, h'⟩ | ⟨h, h'⟩
    · exact hbr e (h ▸ by decide)
    · exact hbr e (h ▸ by decide)
    · exact hin l e h
    · exact hd.inner l h e
    · exact hbr e (h ▸ reserved_node (ha.node.resolve_right h'))
    · exact hbr e (h ▸ reserved_aux (ha.aux h'))
  · have hbm : b.role ≠ .mat := by rcases hr with hr | hr <;> simp [hr]
    have hbn := hb.node.resolve_right hbm
    rcases mem_group ha hl with h | h | h | h | ⟨h, h'⟩ | ⟨h, h'⟩
    · exact (node_ne_c hbn).1 (e ▸ h)
    · exact (node_ne_c hbn).2 (e ▸ h)
    · exact ha.letters l (List.mem_append_left _ h) (e ▸ reserved_node hbn)
    · exact ha.letters l (List.mem_append_right _ h) (e ▸ reserved_node hbn)
    · exact hd.node h' hbm (h ▸ e)
    · exact node_ne_aux hbn (ha.aux h') (e ▸ h)
  · have hu : usesAux b := .inr ⟨hr, hm⟩
    have hbx := hb.aux hu
    rcases mem_group ha hl with h | h | h | h | ⟨h, h'⟩ | ⟨h, h'⟩
    · exact (aux_ne_c hbx).1 (e ▸ h)
    · exact (aux_ne_c hbx).2 (e ▸ h)
    · exact ha.letters l (List.mem_append_left _ h) (e ▸ reserved_aux hbx)
    · exact ha.letters l (List.mem_append_right _ h) (e ▸ reserved_aux hbx)
    · exact node_ne_aux (ha.node.resolve_right h') hbx (h ▸ e)
    · exact hd.aux h' hu (h ▸ e)

end Ml
