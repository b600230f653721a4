import Verif.Ml.Core

/-!
# The built expressions evaluate the forms (proof, continued)
-/

namespace Ml

set_option linter.unusedSectionVars false
set_option linter.unusedSimpArgs false

variable {K : Type*} [Field K]

/-! ## Counting letters -/

theorem count_flatMap_le {α : Type*} (f : α → List Char) (l : Char) {xs : List α} {x : α} (hx : x ∈ xs) :
    (f x).count l ≤ (xs.flatMap f).count l := by
  induction xs with
  | nil => simp at hx
  | cons y xs ih =>
    rw [List.flatMap_cons, List.count_append]
    rcases List.mem_cons.mp hx with rfl | hx
    · omega
    · have := ih hx; omega

theorem count_flatMap_congr {α : Type*} (f g : α → List Char) (l : Char) {xs : List α}
    (h : ∀ x ∈ xs, (f x).count l = (g x).count l) : (xs.flatMap f).count l = (xs.flatMap g).count l := by
  induction xs with
  | nil => rfl
  | cons y xs ih =>
    rw [List.flatMap_cons, List.flatMap_cons, List.count_append, List.count_append, h y (by simp),
      ih fun x hx => h x (List.mem_cons_of_mem _ hx)]

theorem length_le_count {α : Type*} (f : α → List Char) (l : Char) {xs : List α} (h : ∀ x ∈ xs, l ∈ f x) :
    xs.length ≤ (xs.flatMap f).count l := by
  induction xs with
  | nil => simp
  | cons y xs ih =>
    rw [List.flatMap_cons, List.count_append, List.length_cons]
    have h1 := List.count_pos_iff.mpr (h y (by simp))
    have h2 := ih fun x hx => h x (List.mem_cons_of_mem _ hx)
    omega

/-- For the letters of the user, the operands have the counts of the expression. -/
theorem count_group {fe : Bool} {x : Ann} (h : AnnWF x) {l : Char} (hl : l ∉ reserved)
    (hi : l ∉ innerLetters x.arg) : (groupLetters fe x).count l = (argLetters x.arg).count l := by
  obtain ⟨cq, hcq, _, hp⟩ := groupLetters_perm fe x h
  have h0 : cq.count l = 0 := List.count_eq_zero.mpr fun hm => hl (by
    rcases hcq l hm with e | e <;> subst e <;> decide)
  have h1 : (innerLetters x.arg).count l = 0 := List.count_eq_zero.mpr hi
  have h2 : (if x.role = .mat then [] else if x.role = .unit then [x.node] else [x.node, x.node]).count l = 0 := by
    refine List.count_eq_zero.mpr fun hm => ?_
    split at hm
    · simp at hm
    · rename_i hr
      have : l = x.node := by split at hm <;> simpa using hm
      exact hl (this ▸ reserved_node (h.node.resolve_right hr))
  have h3 : (if x.role = .unit ∧ x.arg.nc > 1 then [x.aux] else
        if x.role = .dofs ∧ x.arg.mod.isSome then [x.aux, x.aux] else []).count l = 0 := by
    refine List.count_eq_zero.mpr fun hm => ?_
    split at hm
    · rename_i hr
      exact hl ((by simpa using hm : l = x.aux) ▸ reserved_aux (h.aux (.inl hr)))
    · split at hm
      · rename_i hr
        exact hl ((by simpa using hm : l = x.aux) ▸ reserved_aux (h.aux (.inr hr)))
      · simp at hm
  rw [hp.count_eq]
  simp only [List.count_append, h0, h1, h2, h3]
  omega

theorem count_priv {fe : Bool} {x : Ann} (h : AnnWF x) {l : Char} (hl : l ∈ priv x) :
    2 ≤ (groupLetters fe x).count l := by
  obtain ⟨cq, hcq, _, hp⟩ := groupLetters_perm fe x h
  rw [hp.count_eq]
  simp only [List.count_append]
  rcases priv_cases h hl with e | ⟨e, hr⟩ | ⟨e, hr, hm⟩
  · have := List.count_pos_iff.mpr e
    omega
  · subst e
    have : (if x.role = .mat then [] else if x.role = .unit then [x.node] else [x.node, x.node]).count x.node = 2 := by
      rcases hr with hr | hr <;> simp [hr]
    omega
  · subst e
    have : (if x.role = .unit ∧ x.arg.nc > 1 then [x.aux] else
        if x.role = .dofs ∧ x.arg.mod.isSome then [x.aux, x.aux] else []).count x.aux = 2 := by
      simp [hr, hm]
    omega

/-- A private letter or an output letter. -/
theorem node_role {x : Ann} (h : x.role ≠ .mat) : x.node ∈ outLetters x ∨ x.node ∈ priv x := by
  cases hr : x.role with
  | mat => exact absurd hr h
  | plain => right; simp [priv, hr]
  | dofs => right; cases hm : x.arg.mod <;> simp [priv, hr, hm]
  | unit => left; by_cases hc : x.arg.nc > 1 <;> simp [outLetters, hr, hc]

theorem aux_role {x : Ann} (h : usesAux x) : x.aux ∈ outLetters x ∨ x.aux ∈ priv x := by
  rcases h with ⟨hr, hc⟩ | ⟨hr, hm⟩
  · left; simp [outLetters, hr, hc]
  · right; simp [priv, hr, hm]

theorem inner_priv {x : Ann} (h : AnnWF x) {l : Char} (hl : l ∈ innerLetters x.arg) : l ∈ priv x := by
  rw [inner_eq x h] at hl
  split at hl
  · rename_i hm
    have e : l = e2 x.arg.ein := by simpa using hl
    cases hr : x.role with
    | mat => exact absurd hr hm.1
    | plain => have := h.plain hr; simp [this] at hm
    | dofs => simp [priv, hr, hm.2, e]
    | unit => simp [priv, hr, hm.2, e]
  · simp at hl

theorem outLetters_cases {x : Ann} {l : Char} (hl : l ∈ outLetters x) :
    x.role = .unit ∧ (l = x.node ∨ (l = x.aux ∧ x.arg.nc > 1)) := by
  unfold outLetters at hl
  cases hr : x.role with
  | unit =>
    refine ⟨rfl, ?_⟩
    by_cases hc : x.arg.nc > 1 <;> simp [hr, hc] at hl ⊢
    · rcases hl with e | e
      · exact .inr e
      · exact .inl e
    · exact hl
  | _ => simp [hr] at hl

theorem outLetters_reserved {x : Ann} (h : AnnWF x) {l : Char} (hl : l ∈ outLetters x) :
    l ∈ reserved ∧ l ≠ 'c' ∧ l ≠ 'q' := by
  obtain ⟨hr, e | ⟨e, hc⟩⟩ := outLetters_cases hl
  · have := h.node.resolve_right (by simp [hr])
    subst e
    exact ⟨reserved_node this, node_ne_c this⟩
  · have := h.aux (.inl ⟨hr, hc⟩)
    subst e
    exact ⟨reserved_aux this, aux_ne_c this⟩

/-! ## One built expression -/

section

variable {dim : ℕ} {diff : Option ℕ} {nAdd : ℕ} {args : List Arg} {fe : Bool} {mode : Mode} {b : B} {k : ℕ}

theorem args_perm (diff : Option ℕ) (k : ℕ) (args : List Arg) :
    ((anns diff k args).map fun a => a.arg).Perm args := by
  have e1 : ((anns diff k args).map fun a => a.arg) = (order args).map Prod.snd := by
    rw [← anns_map diff k args, List.map_map]; rfl
  rw [e1]
  have := (order_perm args).map Prod.snd
  rwa [numbered_snd] at this

theorem argLetters_perm (diff : Option ℕ) (k : ℕ) (args : List Arg) :
    ((anns diff k args).flatMap fun a => argLetters a.arg).Perm (args.flatMap argLetters) := by
  have := (args_perm diff k args).flatMap_right argLetters
  rwa [List.flatMap_map] at this

theorem anns_length (diff : Option ℕ) (k : ℕ) (args : List Arg) : (anns diff k args).length = args.length := by
  have := (args_perm diff k args).length_eq
  simpa using this

/-- The items of the expression. -/
def allItems (fe : Bool) (mode : Mode) (diff : Option ℕ) (k : ℕ) (args : List Arg) : List Item :=
  scalarItems mode args ++ (anns diff k args).flatMap (groupItems fe)

theorem allItems_letters (fe : Bool) (mode : Mode) (diff : Option ℕ) (k : ℕ) (args : List Arg) :
    ((allItems fe mode diff k args).map fun i => i.2.1).flatten =
      (scalarItems mode args).flatMap (fun i => i.2.1) ++ (anns diff k args).flatMap (groupLetters fe) := by
  unfold allItems
  rw [List.map_append, List.flatten_append]
  congr 1
  unfold groupLetters
  induction anns diff k args with
  | nil => rfl
  | cons x xs ih =>
    rw [List.flatMap_cons, List.flatMap_cons, List.map_append, List.flatten_append, ih, ← List.flatMap_def]

/-- The weight operands. -/
theorem scalarItems_spec (hb : BuiltOK fe diff mode args b k) :
    (mode ≠ .qp → 'q' ∈ (scalarItems mode args).flatMap fun i => i.2.1) ∧
    (mode = .qp → scalarItems mode args = []) ∧
    (∀ l ∈ (scalarItems mode args).flatMap (fun i => i.2.1), l = 'c' ∨ l = 'q') ∧ args ≠ [] := by
  have hne : ∀ {kd x}, firstOf kd args = some x → args ≠ [] := by
    intro kd x h e
    have := (firstOf_some h).1
    rw [e] at this
    simp [numbered] at this
  cases hv : firstOf .virtual args with
  | some x =>
    refine ⟨?_, ?_, ?_, hne hv⟩
    · intro hm; simp [scalarItems, hv, hm]
    · intro hm; simp [scalarItems, hv, hm]
    · intro l hl
      by_cases hm : mode = .qp <;> simp [scalarItems, hv, hm] at hl
      exact hl
  | none =>
    obtain ⟨x, hx⟩ := Option.isSome_iff_exists.mp (hb.first hv)
    refine ⟨?_, ?_, ?_, hne hx⟩
    · intro hm; simp [scalarItems, hv, hx, hm]
    · intro hm; simp [scalarItems, hv, hx, hm]
    · intro l hl
      cases mode <;> simp [scalarItems, hv, hx] at hl <;> tauto

/-- The letter of the points occurs at least twice. -/
theorem count_q (hb : BuiltOK fe diff mode args b k) (hA : ∀ a ∈ anns diff k args, AnnWF a)
    (hq : mode = .qp → 2 ≤ args.length) :
    2 ≤ ((scalarItems mode args).flatMap (fun i => i.2.1) ++ (anns diff k args).flatMap (groupLetters fe)).count 'q' := by
  have h1 : args.length ≤ ((anns diff k args).flatMap (groupLetters fe)).count 'q' := by
    rw [← anns_length diff k args]
    refine length_le_count _ _ fun x hx => ?_
    obtain ⟨cq, _, h, hp⟩ := groupLetters_perm fe x (hA x hx)
    rw [hp.mem_iff]; simp [h]
  rw [List.count_append]
  obtain ⟨s1, _, _, s4⟩ := scalarItems_spec hb
  by_cases hm : mode = .qp
  · have := hq hm; omega
  · have := List.count_pos_iff.mpr (s1 hm)
    have := List.length_pos_iff.mpr s4
    omega

theorem insertionSort_perm {l₁ l₂ : List Char} (h : l₁.Perm l₂) :
    l₁.insertionSort (fun a b => a.toNat ≤ b.toNat) = l₂.insertionSort (fun a b => a.toNat ≤ b.toNat) := by
  let r : Char → Char → Prop := fun a b => a.toNat ≤ b.toNat
  have : Std.Antisymm r := ⟨fun a b h1 h2 => by
    have : a.toNat = b.toNat := Nat.le_antisymm h1 h2
    exact Char.ext (UInt32.toNat_inj.mp this)⟩
  have : Std.Total r := ⟨fun a b => Nat.le_total _ _⟩
  have : IsTrans Char r := ⟨fun a b c h1 h2 => Nat.le_trans h1 h2⟩
  refine List.Perm.eq_of_pairwise' (r := r) (List.pairwise_insertionSort r l₁) (List.pairwise_insertionSort r l₂) ?_
  exact ((List.perm_insertionSort r l₁).trans h).trans (List.perm_insertionSort r l₂).symm

/-- The free letters found by the builder. -/
theorem free_eq (hg : Good dim diff nAdd args) (hk : k < nAdd) (hb : BuiltOK fe diff mode args b k)
    (hq : mode = .qp → 2 ≤ args.length) :
    freeLetters ((allItems fe mode diff k args).map fun i => i.2.1)
      ('c' :: (anns diff k args).flatMap outLetters) = freeOf args := by
  have hA : ∀ a ∈ anns diff k args, AnnWF a := fun a ha => ann_wf hg hk hb ha
  unfold freeLetters freeOf
  refine insertionSort_perm ?_
  rw [allItems_letters]
  refine (List.perm_ext_iff_of_nodup (((List.nodup_dedup _).filter _).filter _) ((List.nodup_dedup _).filter _)).mpr ?_
  intro l
  simp only [List.mem_filter, List.mem_dedup, decide_eq_true_eq]
  set L := (scalarItems mode args).flatMap (fun i => i.2.1) ++ (anns diff k args).flatMap (groupLetters fe) with hL
  obtain ⟨_, _, s3, _⟩ := scalarItems_spec hb
  have key : l ∉ reserved → (∀ a ∈ anns diff k args, l ∉ innerLetters a.arg) →
      L.count l = (args.flatMap argLetters).count l := by
    intro hr hi
    rw [hL, List.count_append]
    have h0 : ((scalarItems mode args).flatMap fun i => i.2.1).count l = 0 :=
      List.count_eq_zero.mpr fun hm => hr (by rcases s3 l hm with e | e <;> subst e <;> decide)
    rw [h0, count_flatMap_congr _ (fun a => argLetters a.arg) l fun a ha => count_group (hA a ha) hr (hi a ha),
      (argLetters_perm diff k args).count_eq]
    omega
  have hle : ∀ a ∈ anns diff k args, (groupLetters fe a).count l ≤ L.count l := by
    intro a ha
    rw [hL, List.count_append]
    have := count_flatMap_le (groupLetters fe) l ha
    omega
  constructor
  · rintro ⟨⟨h1, h2⟩, h3⟩
    have h3c : l ≠ 'c' := fun e => h3 (by simp [e])
    have h3o : ∀ a ∈ anns diff k args, l ∉ outLetters a := fun a ha h => h3 (by
      simp only [List.mem_cons, List.mem_flatMap]; exact .inr ⟨a, ha, h⟩)
    have hnp : ∀ a ∈ anns diff k args, l ∉ priv a := by
      intro a ha hp
      have := count_priv (fe := fe) (hA a ha) hp
      have := hle a ha
      omega
    have hlq : l ≠ 'q' := by
      intro e
      have := count_q hb hA hq
      rw [← hL, ← e] at this
      omega
    have hnr : l ∈ args.flatMap argLetters := by
      rcases List.mem_append.mp h1 with h | h
      · rcases s3 l h with e | e
        · exact absurd e h3c
        · exact absurd e hlq
      · obtain ⟨a, ha, hla⟩ := List.mem_flatMap.mp h
        rcases mem_group (hA a ha) hla with e | e | e | e | ⟨e, hr⟩ | ⟨e, hr⟩
        · exact absurd e h3c
        · exact absurd e hlq
        · exact List.mem_flatMap.mpr ⟨_, numbered_arg (ann_mem ha), e⟩
        · exact absurd (inner_priv (hA a ha) e) (hnp a ha)
        · rcases node_role hr with h' | h'
          · exact absurd (e ▸ h') (h3o a ha)
          · exact absurd (e ▸ h') (hnp a ha)
        · rcases aux_role hr with h' | h'
          · exact absurd (e ▸ h') (h3o a ha)
          · exact absurd (e ▸ h') (hnp a ha)
    refine ⟨hnr, ?_⟩
    rw [← key ?_ fun a ha h => hnp a ha (inner_priv (hA a ha) h)]
    · exact h2
    · obtain ⟨a, ha, hla⟩ := List.mem_flatMap.mp hnr
      exact hg.wf.letters a ha l (List.mem_append_left _ hla)
  · rintro ⟨h1, h2⟩
    obtain ⟨a, ha, hla⟩ := List.mem_flatMap.mp h1
    have hr := hg.wf.letters a ha l (List.mem_append_left _ hla)
    have hi : ∀ a ∈ anns diff k args, l ∉ innerLetters a.arg := fun x hx h =>
      hg.wf.innerNot l (List.mem_flatMap.mpr ⟨_, numbered_arg (ann_mem hx), h⟩) h1
    have hc := key hr hi
    refine ⟨⟨List.count_pos_iff.mp (by omega), by omega⟩, ?_⟩
    simp only [List.mem_cons, List.mem_flatMap, not_or, not_exists, not_and]
    refine ⟨fun e => hr (e ▸ by decide), fun x hx h => ?_⟩
    exact hr (outLetters_reserved (hA x hx) h).1

theorem freeOf_mem {args : List Arg} {l : Char} :
    l ∈ freeOf args ↔ l ∈ args.flatMap argLetters ∧ (args.flatMap argLetters).count l = 1 := by
  unfold freeOf
  rw [List.mem_insertionSort]
  simp

theorem repeated_mem {args : List Arg} {l : Char} :
    l ∈ repeatedLetters args ↔ l ∈ args.flatMap argLetters ∧ (args.flatMap argLetters).count l ≠ 1 := by
  unfold repeatedLetters
  simp

theorem user_not_reserved (hg : Good dim diff nAdd args) {l : Char} (hl : l ∈ args.flatMap argLetters) :
    l ∉ reserved := by
  obtain ⟨a, ha, hla⟩ := List.mem_flatMap.mp hl
  exact hg.wf.letters a ha l (List.mem_append_left _ hla)

/-- The final output letters. -/
def finalOut (mode : Mode) (diff : Option ℕ) (k : ℕ) (args : List Arg) : List Char :=
  'c' :: ((if mode = .qp then ['q'] else []) ++ ((anns diff k args).flatMap outLetters ++ freeOf args))

theorem finishOut_eq (hg : Good dim diff nAdd args) (hk : k < nAdd) (hb : BuiltOK fe diff mode args b k)
    (hq : mode = .qp → 2 ≤ args.length) :
    finishOut mode (b.subs k) (b.out k) = finalOut mode diff k args := by
  have hA : ∀ a ∈ anns diff k args, AnnWF a := fun a ha => ann_wf hg hk hb ha
  obtain ⟨m, hr⟩ := hb.rep
  have e1 : b.subs k = (allItems fe mode diff k args).map fun i => i.2.1 := hr.2.1
  have e2 : b.out k = 'c' :: (anns diff k args).flatMap outLetters := hb.out
  unfold finishOut finalOut
  rw [e1, e2, free_eq hg hk hb hq]
  by_cases hm : mode = .qp
  · simp only [hm, if_true, List.cons_append, List.flatMap_cons, List.nil_append, List.cons.injEq, true_and]
    have : ∀ L : List Char, (∀ l ∈ L, l ≠ 'c') → (L.flatMap fun l => if l = 'c' then ['c', 'q'] else [l]) = L := by
      intro L
      induction L with
      | nil => intro _; rfl
      | cons l L ih =>
        intro h
        rw [List.flatMap_cons, if_neg (h l (by simp)), ih fun m hm => h m (List.mem_cons_of_mem _ hm)]
        rfl
    refine this _ fun l hl => ?_
    rcases List.mem_append.mp hl with h | h
    · obtain ⟨a, ha, hla⟩ := List.mem_flatMap.mp h
      exact (outLetters_reserved (hA a ha) hla).2.1
    · exact fun e => user_not_reserved hg (freeOf_mem.mp h).1 (e ▸ by decide)
  · simp [hm]

theorem operands_eq (env : Env K) {L : List Item} {m : ℕ} (h : Rep b k L m) :
    operands env b k = L.map (toOp env) := by
  obtain ⟨h1, h2, h3⟩ := h
  unfold operands
  refine List.ext_getElem (by simp [h1]) fun i hi1 hi2 => ?_
  have hi : i < L.length := by simpa using hi2
  simp only [List.getElem_map, List.getElem_range, toOp, h1, h2, h3]
  have e1 : (L.map fun i => i.2.1).getD i [] = L[i].2.1 := by simp [List.getD, hi]
  have e2 : (L.map fun i => i.1).getD i (.det 0) = L[i].1 := by simp [List.getD, hi]
  have e3 : ((L.map fun (i : Item) => i.2.2) ++ List.replicate m []).getD i [] = L[i].2.2 := by
    simp only [List.getD]
    rw [List.getElem?_append_left (by simpa using hi)]
    simp [hi]
  rw [e1, e2, e3]

/-- The summed letters. -/
def sumLetters (mode : Mode) (diff : Option ℕ) (k : ℕ) (args : List Arg) : List Char :=
  (if mode = .qp then [] else ['q']) ++ repeatedLetters args ++ (anns diff k args).flatMap priv

theorem distinct_of_ne {L : List Ann} (hD : L.Pairwise Distinct) {x y : Ann} (hx : x ∈ L) (hy : y ∈ L) (hne : x ≠ y) :
    Distinct x y := by
  induction L with
  | nil => simp at hx
  | cons z L ih =>
    rw [List.pairwise_cons] at hD
    rcases List.mem_cons.mp hx with h1 | h1 <;> rcases List.mem_cons.mp hy with h2 | h2
    · exact absurd (h1.trans h2.symm) hne
    · exact h1 ▸ hD.1 y h2
    · exact h2 ▸ (hD.1 x h1).symm
    · exact ih hD.2 h1 h2

theorem priv_not_out (hg : Good dim diff nAdd args) (hk : k < nAdd) (hb : BuiltOK fe diff mode args b k) {x : Ann}
    (hx : x ∈ anns diff k args) {l : Char} (hl : l ∈ priv x) :
    l ≠ 'c' ∧ l ≠ 'q' ∧ (∀ y ∈ anns diff k args, l ∉ outLetters y) ∧ l ∉ args.flatMap argLetters := by
  have hA : ∀ a ∈ anns diff k args, AnnWF a := fun a ha => ann_wf hg hk hb ha
  have hD := anns_distinct hg hk hb
  have hxw := hA x hx
  refine ⟨?_, ?_, ?_, ?_⟩
  · rcases priv_cases hxw hl with e | ⟨e, hr⟩ | ⟨e, hr, hm⟩
    · exact fun h => hxw.letters l (List.mem_append_right _ e) (h ▸ by decide)
    · subst e; exact (node_ne_c (hxw.node.resolve_right (by rcases hr with hr | hr <;> simp [hr]))).1
    · subst e; exact (aux_ne_c (hxw.aux (.inr ⟨hr, hm⟩))).1
  · rcases priv_cases hxw hl with e | ⟨e, hr⟩ | ⟨e, hr, hm⟩
    · exact fun h => hxw.letters l (List.mem_append_right _ e) (h ▸ by decide)
    · subst e; exact (node_ne_c (hxw.node.resolve_right (by rcases hr with hr | hr <;> simp [hr]))).2
    · subst e; exact (aux_ne_c (hxw.aux (.inr ⟨hr, hm⟩))).2
  · intro y hy ho
    have hyw := hA y hy
    have hyr := (outLetters_cases ho).1
    rcases priv_cases hxw hl with e | ⟨e, hr⟩ | ⟨e, hr, hm⟩
    · exact hxw.letters l (List.mem_append_right _ e) (outLetters_reserved hyw ho).1
    · have hne : x ≠ y := fun h => by subst h; rcases hr with hr | hr <;> simp [hr] at hyr
      have hd := distinct_of_ne hD hx hy hne
      have hxm : x.role ≠ .mat := by rcases hr with hr | hr <;> simp [hr]
      have hym : y.role ≠ .mat := by simp [hyr]
      rcases (outLetters_cases ho).2 with h | ⟨h, hc⟩
      · exact hd.node hxm hym (e ▸ h)
      · exact node_ne_aux (hxw.node.resolve_right hxm) (hyw.aux (.inl ⟨hyr, hc⟩)) (e ▸ h)
    · have hne : x ≠ y := fun h => by subst h; simp [hr] at hyr
      have hd := distinct_of_ne hD hx hy hne
      have hym : y.role ≠ .mat := by simp [hyr]
      have hxa := hxw.aux (.inr ⟨hr, hm⟩)
      rcases (outLetters_cases ho).2 with h | ⟨h, hc⟩
      · exact node_ne_aux (hyw.node.resolve_right hym) hxa (h ▸ e)
      · exact hd.aux (.inr ⟨hr, hm⟩) (.inl ⟨hyr, hc⟩) (e ▸ h)
  · intro h
    rcases priv_cases hxw hl with e | ⟨e, hr⟩ | ⟨e, hr, hm⟩
    · exact hg.wf.innerNot l (List.mem_flatMap.mpr ⟨_, numbered_arg (ann_mem hx), e⟩) h
    · have hxm : x.role ≠ .mat := by rcases hr with hr | hr <;> simp [hr]
      exact user_not_reserved hg h (e ▸ reserved_node (hxw.node.resolve_right hxm))
    · exact user_not_reserved hg h (e ▸ reserved_aux (hxw.aux (.inr ⟨hr, hm⟩)))

theorem repeated_nodup (args : List Arg) : (repeatedLetters args).Nodup := (List.nodup_dedup _).filter _

theorem privs_nodup (hg : Good dim diff nAdd args) (hk : k < nAdd) (hb : BuiltOK fe diff mode args b k) :
    ((anns diff k args).flatMap priv).Nodup := by
  have hA : ∀ a ∈ anns diff k args, AnnWF a := fun a ha => ann_wf hg hk hb ha
  rw [List.nodup_flatMap]
  refine ⟨fun x hx => priv_nodup (hA x hx), ?_⟩
  refine (anns_distinct hg hk hb).imp_of_mem fun {a c} ha hc hd => ?_
  intro l hl hl'
  refine group_priv (fe := fe) (hA a ha) (hA c hc) hd ?_ (priv_mem_group fe (hA a ha) hl) hl'
  intro m hm hm'
  exact hg.wf.innerNot m (List.mem_flatMap.mpr ⟨_, numbered_arg (ann_mem hc), hm⟩)
    (List.mem_flatMap.mpr ⟨_, numbered_arg (ann_mem ha), hm'⟩)

theorem sumLetters_nodup (hg : Good dim diff nAdd args) (hk : k < nAdd) (hb : BuiltOK fe diff mode args b k) :
    (sumLetters mode diff k args).Nodup := by
  unfold sumLetters
  rw [List.nodup_append, List.nodup_append]
  refine ⟨⟨by split <;> simp, repeated_nodup args, ?_⟩, privs_nodup hg hk hb, ?_⟩
  · intro l hl m hm e
    subst e
    have : l = 'q' := by
      split at hl
      · simp at hl
      · simpa using hl
    exact user_not_reserved hg (repeated_mem.mp hm).1 (this ▸ by decide)
  · intro l hl m hm e
    subst e
    obtain ⟨x, hx, hlx⟩ := List.mem_flatMap.mp hm
    obtain ⟨_, h2, _, h4⟩ := priv_not_out hg hk hb hx hlx
    rcases List.mem_append.mp hl with h | h
    · refine h2 ?_
      split at h
      · simp at h
      · simpa using h
    · exact h4 (repeated_mem.mp h).1

theorem toOp_sub (env : Env K) (i : Item) : (toOp env i).sub = i.2.1 := rfl

theorem sumLetters_mem (env : Env K) (hg : Good dim diff nAdd args) (hk : k < nAdd)
    (hb : BuiltOK fe diff mode args b k) (l : Char) :
    l ∈ sumLetters mode diff k args ↔
      (∃ p ∈ (allItems fe mode diff k args).map (toOp env), l ∈ p.sub) ∧ l ∉ finalOut mode diff k args := by
  have hA : ∀ a ∈ anns diff k args, AnnWF a := fun a ha => ann_wf hg hk hb ha
  obtain ⟨s1, s2, s3, s4⟩ := scalarItems_spec hb
  have hmem : (∃ p ∈ (allItems fe mode diff k args).map (toOp env), l ∈ p.sub) ↔
      (l ∈ (scalarItems mode args).flatMap fun i => i.2.1) ∨ ∃ x ∈ anns diff k args, l ∈ groupLetters fe x := by
    rw [← List.mem_flatMap (l := anns diff k args) (f := groupLetters fe), ← List.mem_append, ← allItems_letters]
    rw [List.mem_flatten]
    constructor
    · rintro ⟨p, hp, hl⟩
      obtain ⟨i, hi, rfl⟩ := List.mem_map.mp hp
      exact ⟨i.2.1, List.mem_map.mpr ⟨i, hi, rfl⟩, hl⟩
    · rintro ⟨s, hs, hl⟩
      obtain ⟨i, hi, rfl⟩ := List.mem_map.mp hs
      exact ⟨toOp env i, List.mem_map.mpr ⟨i, hi, rfl⟩, hl⟩
  rw [hmem]
  have hout : l ∉ finalOut mode diff k args ↔ l ≠ 'c' ∧ (mode = .qp → l ≠ 'q') ∧
      (∀ y ∈ anns diff k args, l ∉ outLetters y) ∧ l ∉ freeOf args := by
    unfold finalOut
    by_cases hm : mode = .qp <;> simp [hm]
  rw [hout]
  unfold sumLetters
  rw [List.mem_append, List.mem_append]
  constructor
  · rintro ((h | h) | h)
    · have hm : mode ≠ .qp := by intro e; simp [e] at h
      have e : l = 'q' := by simpa [hm] using h
      subst e
      refine ⟨.inl (s1 hm), by decide, fun e => absurd e hm, ?_, ?_⟩
      · intro y hy ho; exact (outLetters_reserved (hA y hy) ho).2.2 rfl
      · intro hf; exact user_not_reserved hg (freeOf_mem.mp hf).1 (by decide)
    · obtain ⟨h1, h2⟩ := repeated_mem.mp h
      have hr := user_not_reserved hg h1
      have : l ∈ (anns diff k args).flatMap fun a => argLetters a.arg := (argLetters_perm diff k args).mem_iff.mpr h1
      obtain ⟨x, hx, hlx⟩ := List.mem_flatMap.mp this
      refine ⟨.inr ⟨x, hx, argLetters_mem_group fe (hA x hx) hlx⟩, fun e => hr (e ▸ by decide),
        fun _ e => hr (e ▸ by decide), fun y hy ho => hr (outLetters_reserved (hA y hy) ho).1, fun hf => ?_⟩
      exact h2 (freeOf_mem.mp hf).2
    · obtain ⟨x, hx, hlx⟩ := List.mem_flatMap.mp h
      obtain ⟨h1, h2, h3, h4⟩ := priv_not_out hg hk hb hx hlx
      exact ⟨.inr ⟨x, hx, priv_mem_group fe (hA x hx) hlx⟩, h1, fun _ => h2, h3, fun hf => h4 (freeOf_mem.mp hf).1⟩
  · rintro ⟨h, hc, hq, ho, hf⟩
    have hqq : l = 'q' → l ∈ (if mode = .qp then [] else ['q']) := by
      intro e
      have : mode ≠ .qp := fun hm => hq hm e
      simp [this, e]
    rcases h with h | ⟨x, hx, hlx⟩
    · rcases s3 l h with e | e
      · exact absurd e hc
      · exact .inl (.inl (hqq e))
    · rcases mem_group (hA x hx) hlx with e | e | e | e | ⟨e, hr⟩ | ⟨e, hr⟩
      · exact absurd e hc
      · exact .inl (.inl (hqq e))
      · have h1 : l ∈ args.flatMap argLetters := List.mem_flatMap.mpr ⟨_, numbered_arg (ann_mem hx), e⟩
        exact .inl (.inr (repeated_mem.mpr ⟨h1, fun hc1 => hf (freeOf_mem.mpr ⟨h1, hc1⟩)⟩))
      · exact .inr (List.mem_flatMap.mpr ⟨x, hx, inner_priv (hA x hx) e⟩)
      · rcases node_role hr with h' | h'
        · exact absurd (e ▸ h') (ho x hx)
        · exact .inr (List.mem_flatMap.mpr ⟨x, hx, e ▸ h'⟩)
      · rcases aux_role hr with h' | h'
        · exact absurd (e ▸ h') (ho x hx)
        · exact .inr (List.mem_flatMap.mpr ⟨x, hx, e ▸ h'⟩)

end

end Ml
