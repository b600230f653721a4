import Verif.Ml.Group
import Mathlib.Data.List.Nodup
import Mathlib.Data.List.Perm.Lattice

/-!
# The closed form of the built expressions and the letters of their operands (proof only)
-/

namespace Ml

set_option linter.unusedSectionVars false
set_option linter.unusedSimpArgs false

variable {K : Type*} [Field K]

/-! ## The order of the arguments -/

/-- The arguments in the order of processing: the virtual one first. -/
def order (args : List Arg) : List (ℕ × Arg) :=
  match firstOf .virtual args with
  | some x => x :: (numbered args).filter fun y => decide (y.1 ≠ x.1)
  | none => numbered args

theorem numbered_fst (args : List Arg) : (numbered args).map Prod.fst = List.range args.length := by
  unfold numbered
  rw [List.map_fst_zip]
  simp

theorem numbered_snd (args : List Arg) : (numbered args).map Prod.snd = args := by
  unfold numbered
  rw [List.map_snd_zip]
  simp

theorem numbered_nodup (args : List Arg) : (numbered args).Nodup :=
  List.Nodup.of_map Prod.fst (by rw [numbered_fst]; exact List.nodup_range)

theorem numbered_inj (args : List Arg) {x y : ℕ × Arg} (hx : x ∈ numbered args) (hy : y ∈ numbered args)
    (h : x.1 = y.1) : x = y :=
  List.inj_on_of_nodup_map (by rw [numbered_fst]; exact List.nodup_range) hx hy h

theorem firstOf_some {k : Kind} {args : List Arg} {x : ℕ × Arg} (h : firstOf k args = some x) :
    x ∈ numbered args ∧ x.2.kind = k := by
  unfold firstOf at h
  exact ⟨List.mem_of_find?_eq_some h, by simpa using List.find?_some h⟩

theorem order_perm (args : List Arg) : (order args).Perm (numbered args) := by
  unfold order
  cases h : firstOf .virtual args with
  | none => exact List.Perm.refl _
  | some x =>
    have hx := (firstOf_some h).1
    refine (List.perm_ext_iff_of_nodup ?_ (numbered_nodup args)).mpr ?_
    · rw [List.nodup_cons]
      exact ⟨by simp, (numbered_nodup args).filter _⟩
    · intro y
      simp only [List.mem_cons, List.mem_filter, decide_eq_true_eq]
      constructor
      · rintro (rfl | h)
        · exact hx
        · exact h.1
      · intro hy
        by_cases e : y.1 = x.1
        · exact .inl (numbered_inj args hy hx e)
        · exact .inr ⟨hy, e⟩

/-- The scalar operands. -/
def scalarItems (mode : Mode) (args : List Arg) : List Item :=
  match firstOf .virtual args with
  | some x => if mode ≠ .qp then [(.det x.2.name, ['c', 'q'], [])] else []
  | none =>
    match firstOf .state args with
    | some x => (if mode ≠ .qp then [(.det x.2.name, ['c', 'q'], [])] else []) ++
        (if mode = .elAvg then [(.ivol x.2.name, ['c'], [])] else [])
    | none => []

theorem addScalars_rep (mode : Mode) (withVol : Bool) (a : Arg) (k : ℕ) :
    Rep (addScalars mode withVol a B.init) k ((if mode ≠ .qp then [(.det a.name, ['c', 'q'], [])] else []) ++
      (if withVol = true ∧ mode = .elAvg then [(.ivol a.name, ['c'], [])] else [])) 0 ∧
    (addScalars mode withVol a B.init).out = B.init.out ∧ (addScalars mode withVol a B.init).ia = 0 ∧
    (addScalars mode withVol a B.init).aux = auxLetters := by
  have h0 : Rep B.init k [] 0 := ⟨rfl, rfl, rfl⟩
  refine ⟨?_, ?_, ?_, ?_⟩
  · cases mode <;> cases withVol <;> simp [addScalars]
    · exact h0.add_none _ _
    · exact h0.add_none _ _
    · exact h0
    · exact h0
    · exact h0.add_none _ _
    · exact (h0.add_none _ _).add_none _ _
  all_goals
    unfold addScalars
    simp only
    split <;> split <;> rfl

structure BuiltOK (fe : Bool) (diff : Option ℕ) (mode : Mode) (args : List Arg) (b : B) (k : ℕ) : Prop where
  out : b.out k = 'c' :: (annotate diff k (order args) 0 auxLetters).flatMap outLetters
  rep : ∃ m, Rep b k (scalarItems mode args ++ (annotate diff k (order args) 0 auxLetters).flatMap (groupItems fe)) m
  pos : ∀ x ∈ order args, x.2.kind ≠ .ndarray → x.1 < 5
  aux : ((order args).filter fun x => takesAux diff x.2).length ≤ auxLetters.length
  virt : ∀ x ∈ order args, x.2.kind = .virtual → firstOf .virtual args = some x
  first : firstOf .virtual args = none → (firstOf .state args).isSome

theorem buildRaw_ok {fe : Bool} {nAdd : ℕ} {diff : Option ℕ} {mode : Mode} {args : List Arg} {b : B}
    (h : buildRaw fe nAdd diff mode args = some b) {k : ℕ} (hk : k < nAdd)
    (hmf : MatFirst diff nAdd (numbered args)) : BuiltOK fe diff mode args b k := by
  unfold buildRaw at h
  cases hv : firstOf .virtual args with
  | some x =>
    rw [hv] at h
    simp only at h
    cases hb : addVirtual fe (addScalars mode false x.2 B.init) x.1 x.2 with
    | none => rw [hb] at h; simp at h
    | some b1 =>
      rw [hb] at h
      simp only at h
      have hxk := (firstOf_some hv).2
      obtain ⟨r0, o0, i0, a0⟩ := addScalars_rep mode false x.2 k
      have hs := addVirtual_step (diff := diff) hxk hb r0 nAdd
      obtain ⟨m1, hm1, r1⟩ := hs.rep
      have hm1' := hm1 (.inr (by simp [hxk]))
      subst hm1'
      have hmf' : MatFirst diff nAdd ((numbered args).filter fun y => decide (y.1 ≠ x.1)) := by
        rcases hmf with e | e
        · exact .inl e
        · exact .inr (e.sublist List.filter_sublist)
      obtain ⟨j1, ⟨m2, j2⟩, j3, j4, j5⟩ := addArgs_spec fe nAdd diff k hk _ b1 b _ _ hmf' (.inl rfl) h r1
      have e1 : b1.ia = 0 := by rw [hs.ia]; simp [hxk, i0]
      have e2 : b1.aux = if takesAux diff x.2 then auxLetters.tail else auxLetters := by rw [hs.aux, a0]
      have eo : order args = x :: (numbered args).filter fun y => decide (y.1 ≠ x.1) := by
        unfold order; rw [hv]
      have ea : annotate diff k (order args) 0 auxLetters =
          annOf diff k 0 auxLetters x :: annotate diff k ((numbered args).filter fun y => decide (y.1 ≠ x.1)) 0
            (if takesAux diff x.2 then auxLetters.tail else auxLetters) := by
        rw [eo, annotate]; simp [hxk]
      refine ⟨?_, ⟨m2, ?_⟩, ?_, ?_, ?_, ?_⟩
      · rw [j1, hs.out, ea, e1, e2, i0, a0, o0]
        simp [B.init]
      · rw [ea, List.flatMap_cons, ← List.append_assoc]
        rw [e1, e2, i0, a0] at j2
        have es : scalarItems mode args = (if mode ≠ .qp then [(.det x.2.name, ['c', 'q'], [])] else []) ++
            (if false = true ∧ mode = .elAvg then [(.ivol x.2.name, ['c'], [])] else []) := by
          unfold scalarItems; rw [hv]; simp
        rw [es]
        exact j2
      · rw [eo]
        intro y hy
        rcases List.mem_cons.mp hy with rfl | hy
        · exact hs.node
        · exact j4 y hy
      · rw [eo, List.filter_cons]
        rw [e2] at j5
        by_cases ht : takesAux diff x.2
        · simp only [ht, if_true, List.length_cons] at j5 ⊢
          rw [List.length_tail] at j5
          have : auxLetters.length = 9 := rfl
          omega
        · simpa [ht] using j5
      · rw [eo]
        intro y hy hyk
        rcases List.mem_cons.mp hy with rfl | hy
        · exact hv
        · exact absurd hyk (j3 y hy)
      · intro e; rw [hv] at e; simp at e
  | none =>
    rw [hv] at h
    simp only at h
    cases hst : firstOf .state args with
    | none => rw [hst] at h; simp at h
    | some x =>
      rw [hst] at h
      simp only at h
      obtain ⟨r0, o0, i0, a0⟩ := addScalars_rep mode true x.2 k
      obtain ⟨j1, ⟨m2, j2⟩, j3, j4, j5⟩ := addArgs_spec fe nAdd diff k hk _ _ b _ _ hmf (.inl rfl) h r0
      have eo : order args = numbered args := by unfold order; rw [hv]
      refine ⟨?_, ⟨m2, ?_⟩, ?_, ?_, ?_, ?_⟩
      · rw [j1, eo, i0, a0, o0]; simp [B.init]
      · rw [i0, a0] at j2
        have es : scalarItems mode args = (if mode ≠ .qp then [(.det x.2.name, ['c', 'q'], [])] else []) ++
            (if true = true ∧ mode = .elAvg then [(.ivol x.2.name, ['c'], [])] else []) := by
          unfold scalarItems; rw [hv, hst]; simp
        rw [es, eo]; exact j2
      · rw [eo]; exact j4
      · rw [eo, ← a0]; exact j5
      · rw [eo]; intro y hy e; exact absurd e (j3 y hy)
      · intro _; rw [hst]; rfl

/-! ## The annotations -/

theorem annotate_map (diff : Option ℕ) (k : ℕ) : ∀ (xs : List (ℕ × Arg)) (ia : ℕ) (aux : List Char),
    (annotate diff k xs ia aux).map (fun a => (a.pos, a.arg)) = xs := by
  intro xs
  induction xs with
  | nil => intro ia aux; rfl
  | cons x xs ih => intro ia aux; rw [annotate, List.map_cons, ih]; rfl

theorem annotate_node (diff : Option ℕ) (k : ℕ) : ∀ (xs : List (ℕ × Arg)) (ia : ℕ) (aux : List Char),
    ∀ a ∈ annotate diff k xs ia aux, a.node = nodeLetters.getD a.pos ' ' := by
  intro xs
  induction xs with
  | nil => intro ia aux a ha; simp [annotate] at ha
  | cons x xs ih =>
    intro ia aux a ha
    rw [annotate] at ha
    rcases List.mem_cons.mp ha with rfl | ha
    · rfl
    · exact ih _ _ a ha

theorem annotate_role (diff : Option ℕ) (k : ℕ) : ∀ (xs : List (ℕ × Arg)) (ia : ℕ) (aux : List Char),
    ∀ a ∈ annotate diff k xs ia aux,
      (a.arg.kind = .ndarray ∧ a.role = .mat) ∨ (a.arg.kind = .virtual ∧ a.role = .unit) ∨
      (a.arg.kind = .state ∧ diff ≠ some a.arg.name ∧ a.role = .dofs) ∨
      (a.arg.kind = .state ∧ diff = some a.arg.name ∧ (a.role = .unit ∨ a.role = .plain)) := by
  intro xs
  induction xs with
  | nil => intro ia aux a ha; simp [annotate] at ha
  | cons x xs ih =>
    intro ia aux a ha
    rw [annotate] at ha
    rcases List.mem_cons.mp ha with rfl | ha
    · unfold annOf
      cases hk : x.2.kind with
      | ndarray => simp
      | virtual => simp
      | state =>
        by_cases hd : diff = some x.2.name
        · by_cases e : k = ia <;> simp [hd, e]
        · simp [hd]
    · exact ih _ _ a ha

theorem annotate_aux (diff : Option ℕ) (k : ℕ) : ∀ (xs : List (ℕ × Arg)) (ia : ℕ) (aux : List Char),
    (xs.filter fun x => takesAux diff x.2).length ≤ aux.length → aux.Nodup →
    (∀ a ∈ annotate diff k xs ia aux, takesAux diff a.arg → a.aux ∈ aux) ∧
    (annotate diff k xs ia aux).Pairwise (fun a b => takesAux diff a.arg → takesAux diff b.arg → a.aux ≠ b.aux) := by
  intro xs
  induction xs with
  | nil => intro ia aux _ _; simp [annotate]
  | cons x xs ih =>
    intro ia aux hl hn
    rw [annotate]
    by_cases ht : takesAux diff x.2
    · rw [List.filter_cons, if_pos ht] at hl
      cases aux with
      | nil => simp at hl
      | cons l aux =>
        simp only [ht, if_true, List.tail_cons]
        rw [List.nodup_cons] at hn
        obtain ⟨h1, h2⟩ := ih (if x.2.kind = .state ∧ diff = some x.2.name then ia + 1 else ia) aux
          (by simpa using hl) hn.2
        refine ⟨?_, List.pairwise_cons.mpr ⟨?_, h2⟩⟩
        · intro a ha hta
          rcases List.mem_cons.mp ha with rfl | ha
          · simp [annOf]
          · exact List.mem_cons_of_mem _ (h1 a ha hta)
        · intro a ha _ hta e
          have := h1 a ha hta
          rw [← e] at this
          exact hn.1 (by simpa [annOf] using this)
    · rw [List.filter_cons, if_neg ht] at hl
      simp only [ht, Bool.false_eq_true, if_false]
      obtain ⟨h1, h2⟩ := ih (if x.2.kind = .state ∧ diff = some x.2.name then ia + 1 else ia) aux hl hn
      refine ⟨?_, List.pairwise_cons.mpr ⟨?_, h2⟩⟩
      · intro a ha hta
        rcases List.mem_cons.mp ha with rfl | ha
        · exact absurd hta ht
        · exact h1 a ha hta
      · intro a _ hta
        exact absurd hta ht

/-- The argument has an auxiliary letter in the expression. -/
def usesAux (x : Ann) : Prop := (x.role = .unit ∧ x.arg.nc > 1) ∨ (x.role = .dofs ∧ x.arg.mod.isSome)

theorem usesAux_takes {diff : Option ℕ} {k : ℕ} {xs : List (ℕ × Arg)} {ia : ℕ} {aux : List Char} {a : Ann}
    (ha : a ∈ annotate diff k xs ia aux) (hu : usesAux a) : takesAux diff a.arg := by
  rcases annotate_role diff k xs ia aux a ha with ⟨e1, e2⟩ | ⟨e1, e2⟩ | ⟨e1, e2, e3⟩ | ⟨e1, e2, e3⟩
  · rcases hu with ⟨h, _⟩ | ⟨h, _⟩ <;> simp [e2] at h
  · rcases hu with ⟨_, h⟩ | ⟨h, _⟩
    · simp [takesAux, e1, h]
    · simp [e2] at h
  · rcases hu with ⟨h, _⟩ | ⟨_, h⟩
    · simp [e3] at h
    · simp [takesAux, e1, e2, h]
  · rcases hu with ⟨_, h⟩ | ⟨h, _⟩
    · simp [takesAux, e1, e2, h]
    · rcases e3 with e3 | e3 <;> simp [e3] at h

/-! ## The letters of a group -/

def groupLetters (fe : Bool) (x : Ann) : List Char := (groupItems fe x).flatMap fun i => i.2.1

/-- The conditions on the letters of an annotated argument, without the sizes. -/
structure AnnWF (x : Ann) : Prop where
  kindMat : x.role = .mat ↔ x.arg.kind = .ndarray
  node : x.node ∈ nodeLetters ∨ x.role = .mat
  aux : usesAux x → x.aux ∈ auxLetters
  letters : ∀ l ∈ argLetters x.arg ++ innerLetters x.arg, l ∉ reserved
  innerNot : ∀ l ∈ innerLetters x.arg, l ∉ argLetters x.arg
  mods : x.role ≠ .mat → x.arg.mod.isSome → x.arg.nc > 1 ∧ isDer x.arg.ein = true
  plain : x.role = .plain → x.arg.mod = none

theorem inner_eq (x : Ann) (h : AnnWF x) :
    innerLetters x.arg = if x.role ≠ .mat ∧ x.arg.mod.isSome then [e2 x.arg.ein] else [] := by
  unfold innerLetters
  cases hk : x.arg.kind with
  | ndarray => simp [h.kindMat.mpr hk]
  | _ =>
    have : x.role ≠ .mat := fun e => by simp [h.kindMat.mp e] at hk
    cases hm : x.arg.mod <;> simp [this, e2]

theorem argLetters_var (x : Ann) (h : AnnWF x) (hr : x.role ≠ .mat) : argLetters x.arg =
    if x.arg.mod.isSome then [e0 x.arg.ein] else
      (if x.arg.nc > 1 then [e0 x.arg.ein] else []) ++ (if isDer x.arg.ein then [e2 x.arg.ein] else []) := by
  rw [argLetters_eq]
  cases hk : x.arg.kind with
  | ndarray => exact absurd (h.kindMat.mpr hk) hr
  | _ => cases hm : x.arg.mod <;> simp

theorem argLetters_mat (x : Ann) (h : AnnWF x) (hr : x.role = .mat) : argLetters x.arg = matLetters x.arg.ein := by
  rw [argLetters_eq, h.kindMat.mp hr]

/-- The letters of the operands of an argument, up to the order. -/
theorem groupLetters_perm (fe : Bool) (x : Ann) (h : AnnWF x) : ∃ cq : List Char, (∀ l ∈ cq, l = 'c' ∨ l = 'q') ∧
    'q' ∈ cq ∧
    (groupLetters fe x).Perm (cq ++ argLetters x.arg ++ innerLetters x.arg ++ innerLetters x.arg ++
      (if x.role = .mat then [] else if x.role = .unit then [x.node] else [x.node, x.node]) ++
      (if x.role = .unit ∧ x.arg.nc > 1 then [x.aux] else
        if x.role = .dofs ∧ x.arg.mod.isSome then [x.aux, x.aux] else [])) := by
  by_cases hr : x.role = .mat
  · refine ⟨['c', 'q'], by simp, by simp, ?_⟩
    rw [inner_eq x h, argLetters_mat x h hr]
    simp [groupLetters, groupItems, hr]
  · rw [inner_eq x h, argLetters_var x h hr]
    have hb : ∃ cq : List Char, (∀ l ∈ cq, l = 'c' ∨ l = 'q') ∧ 'q' ∈ cq ∧
        (basisItem fe x.node x.arg).2.1 = cq ++ (if isDer x.arg.ein then [e2 x.arg.ein] else []) ++ [x.node] := by
      unfold basisItem
      by_cases hd : isDer x.arg.ein
      · exact ⟨['c', 'q'], by simp, by simp, by simp [hd]⟩
      · cases fe
        · exact ⟨['q'], by simp, by simp, by simp [hd]⟩
        · exact ⟨['c', 'q'], by simp, by simp, by simp [hd]⟩
    obtain ⟨cq, hcq, hq, hb⟩ := hb
    cases hrole : x.role with
    | mat => exact absurd hrole hr
    | plain =>
      refine ⟨'c' :: cq, by intro l hl; rcases List.mem_cons.mp hl with rfl | hl; exacts [.inl rfl, hcq l hl], by simp [hq], ?_⟩
      have hm := h.plain hrole
      simp only [groupLetters, groupItems, hrole, List.flatMap_cons, List.flatMap_nil, hb, hm, dofsItem]
      by_cases hc : x.arg.nc > 1 <;> by_cases hd : isDer x.arg.ein <;> simp [hc, hd]
      all_goals
        refine List.perm_iff_count.mpr fun l => ?_
        simp only [List.count_append, List.count_cons, List.count_nil]
        omega
    | dofs =>
      refine ⟨'c' :: cq, by intro l hl; rcases List.mem_cons.mp hl with rfl | hl; exacts [.inl rfl, hcq l hl], by simp [hq], ?_⟩
      cases hm : x.arg.mod with
      | none =>
        simp only [groupLetters, groupItems, hrole, hm, List.flatMap_cons, List.flatMap_nil, hb, dofsItem]
        by_cases hc : x.arg.nc > 1 <;> by_cases hd : isDer x.arg.ein <;> simp [hc, hd]
        all_goals
          refine List.perm_iff_count.mpr fun l => ?_
          simp only [List.count_append, List.count_cons, List.count_nil]
          omega
      | some md =>
        obtain ⟨hc, hd⟩ := h.mods hr (by simp [hm])
        simp only [groupLetters, groupItems, hrole, hm, List.flatMap_cons, List.flatMap_nil, hb, dofsItem, unitItem]
        cases md <;> simp [hc, hd]
        all_goals
          refine List.perm_iff_count.mpr fun l => ?_
          simp only [List.count_append, List.count_cons, List.count_nil]
          omega
    | unit =>
      refine ⟨cq, hcq, hq, ?_⟩
      cases hm : x.arg.mod with
      | none =>
        simp only [groupLetters, groupItems, hrole, hm, List.flatMap_cons, List.flatMap_nil, hb, unitItem]
        by_cases hc : x.arg.nc > 1 <;> by_cases hd : isDer x.arg.ein <;> simp [hc, hd, unitItem, hm]
        all_goals
          refine List.perm_iff_count.mpr fun l => ?_
          simp only [List.count_append, List.count_cons, List.count_nil]
          omega
      | some md =>
        obtain ⟨hc, hd⟩ := h.mods hr (by simp [hm])
        simp only [groupLetters, groupItems, hrole, hm, List.flatMap_cons, List.flatMap_nil, hb]
        cases md <;> simp [hc, hd, unitItem, hm]
        all_goals
          refine List.perm_iff_count.mpr fun l => ?_
          simp only [List.count_append, List.count_cons, List.count_nil]
          omega

end Ml
