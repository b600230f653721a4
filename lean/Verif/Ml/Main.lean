import Verif.Ml.Eval

/-!
# The built expressions evaluate the forms (proof, the end)
-/

namespace Ml

set_option linter.unusedSectionVars false
set_option linter.unusedSimpArgs false

variable {K : Type*} [Field K]

section

variable {diff : Option ℕ} {nAdd : ℕ} {args : List Arg} {fe : Bool} {mode : Mode} {b : B} {k : ℕ} {env : Env K}
  {size : Char → ℕ}

theorem sizes_items (hs : SizesAgree size env nAdd b) (hk : k < nAdd) {L : List Item} {m : ℕ} (h : Rep b k L m)
    {i : Item} (hi : i ∈ L) {sh : List ℕ} (he : opShape env i.1 = some sh) : i.2.1.map size = sh := by
  obtain ⟨j, hj⟩ := List.getElem?_of_mem hi
  have hjl : j < L.length := (List.getElem?_eq_some_iff.mp hj).1
  have := hs k hk j (by rw [h.1]; simpa using hjl) sh
  rw [h.1, h.2.1] at this
  simp only [List.getD, List.getElem?_map, hj, Option.map_some, Option.getD_some] at this
  exact this he

theorem ann_ok (hg : Good env.dim diff nAdd args) (hk : k < nAdd) (hb : BuiltOK fe diff mode args b k)
    (hs : SizesAgree size env nAdd b) {x : Ann} (hx : x ∈ anns diff k args) : AnnOK size env x := by
  have hw := ann_wf hg hk hb hx
  obtain ⟨m, hr⟩ := hb.rep
  have hit : ∀ i ∈ groupItems fe x, ∀ sh, opShape env i.1 = some sh → i.2.1.map size = sh := by
    intro i hi sh he
    exact sizes_items hs hk hr (List.mem_append_right _ (List.mem_flatMap.mpr ⟨x, hx, hi⟩)) he
  have hbasis : x.role ≠ .mat → basisItem fe x.node x.arg ∈ groupItems fe x := by
    intro h
    unfold groupItems
    cases hr : x.role with
    | mat => exact absurd hr h
    | plain => simp
    | dofs => cases x.arg.mod <;> simp
    | unit => simp
  have hunit : x.role ≠ .mat → x.arg.mod.isSome → unitItem x.aux x.arg ∈ groupItems fe x := by
    intro h hm
    unfold groupItems
    cases hr : x.role with
    | mat => exact absurd hr h
    | plain => have := hw.plain hr; simp [this] at hm
    | dofs => cases hm' : x.arg.mod <;> simp [hm'] at hm ⊢
    | unit => simp [(hw.mods h hm).1]
  have husz : x.role ≠ .mat → x.arg.mod.isSome → size x.aux = env.dim ∧ size (e2 x.arg.ein) = env.dim := by
    intro h hm
    cases hm' : x.arg.mod with
    | none => simp [hm'] at hm
    | some md =>
      have := hit _ (hunit h hm)
      cases md with
      | s =>
        have := this [env.dim, env.dim, (env.dim + 1) * env.dim / 2] (by simp [unitItem, hm', opShape])
        simp only [unitItem, hm', List.map_cons, List.map_nil, List.cons.injEq] at this
        exact ⟨this.1, this.2.1⟩
      | v =>
        have := this [env.dim, env.dim, env.dim * env.dim] (by simp [unitItem, hm', opShape])
        simp only [unitItem, hm', List.map_cons, List.map_nil, List.cons.injEq] at this
        exact ⟨this.1, this.2.1⟩
  refine ⟨hw.kindMat, hw.node, ?_, hw.letters, hw.innerNot, ?_, hw.plain, ?_, ?_, ?_⟩
  · by_cases hu : usesAux x
    · exact .inl (hw.aux hu)
    · right
      constructor
      · intro h1 h2; exact hu (.inl ⟨h1, h2⟩)
      · intro h1
        by_contra h2
        exact hu (.inr ⟨h1, by cases hm : x.arg.mod <;> simp [hm] at h2 ⊢⟩)
  · intro h hm
    exact ⟨(hw.mods h hm).1, (hw.mods h hm).2,
      (hg.wf.mods x.arg (numbered_arg (ann_mem hx)) (fun e => h (hw.kindMat.mpr e)) hm).2.2⟩
  · intro h
    have := hit _ (hbasis h)
    unfold basisItem at this
    by_cases hd : isDer x.arg.ein
    · have := this [env.nCell, env.nQp, env.dim, env.nn x.arg.name] (by simp [hd, opShape])
      simp [hd] at this
      exact this.2.2.2
    · cases fe
      · have := this [env.nQp, env.nn x.arg.name] (by simp [hd, opShape])
        simp [hd] at this
        exact this.2
      · have := this [env.nCell, env.nQp, env.nn x.arg.name] (by simp [hd, opShape])
        simp [hd] at this
        exact this.2.2
  · intro h1 h2; exact (husz (by simp [h1]) h2).1
  · intro h1 h2; exact (husz h1 h2).2

/-- The weight of the scalar operands. -/
theorem scalar_val (hb : BuiltOK fe diff mode args b k) (hm : mode ≠ .qp) (ρ : Char → ℕ) :
    prodAt ((scalarItems mode args).map (toOp env)) ρ = weight env mode args (ρ 'c') (ρ 'q') := by
  have hfind : ∀ kd, args.find? (fun a => decide (a.kind = kd)) = (firstOf kd args).map Prod.snd := by
    intro kd
    unfold firstOf
    conv_lhs => rw [← numbered_snd args]
    rw [List.find?_map]
    rfl
  have hnv : (∀ a ∈ args, a.kind ≠ .virtual) ↔ firstOf .virtual args = none := by
    have h := hfind .virtual
    constructor
    · intro hh
      cases hv : firstOf .virtual args with
      | none => rfl
      | some x => exact absurd (firstOf_some hv).2 (hh _ (numbered_arg (firstOf_some hv).1))
    · intro hv a ha e
      rw [hv, Option.map_none, List.find?_eq_none] at h
      exact h a ha (by simpa using e)
  unfold weight firstVar
  simp only [hfind, hnv]
  cases hv : firstOf .virtual args with
  | some x => simp [scalarItems, hv, hm, prodAt, toOp, opVal]
  | none =>
    obtain ⟨x, hx⟩ := Option.isSome_iff_exists.mp (hb.first hv)
    cases mode
    · simp [scalarItems, hv, hx, prodAt, toOp, opVal]
    · exact absurd rfl hm
    · simp [scalarItems, hv, hx, prodAt, toOp, opVal]

/-- The indices of the basis functions in the output. -/
def outIdx (U : ℕ → ℕ × ℕ) (x : Ann) : List ℕ :=
  match x.role with
  | .unit => basisIdx x.arg.nc (U x.pos).1 (U x.pos).2
  | _ => []

theorem outIdx_length (U : ℕ → ℕ × ℕ) (x : Ann) : (outLetters x).length = (outIdx U x).length := by
  unfold outLetters outIdx basisIdx
  cases x.role <;> simp
  split <;> rfl

theorem outIdx_flat_length (U : ℕ → ℕ × ℕ) (A : List Ann) :
    (A.flatMap outLetters).length = (A.flatMap (outIdx U)).length := by
  induction A with
  | nil => rfl
  | cons x A ih => rw [List.flatMap_cons, List.flatMap_cons, List.length_append, List.length_append, ih, outIdx_length U x]

theorem assign_outIdx (U : ℕ → ℕ × ℕ) : ∀ {A : List Ann}, (∀ a ∈ A, AnnWF a) → A.Pairwise Distinct → ∀ x ∈ A,
    x.role = .unit →
    assign (A.flatMap outLetters) (A.flatMap (outIdx U)) x.node = (U x.pos).2 ∧
    (x.arg.nc > 1 → assign (A.flatMap outLetters) (A.flatMap (outIdx U)) x.aux = (U x.pos).1) := by
  intro A
  induction A with
  | nil => intro _ _ x hx; simp at hx
  | cons y A ih =>
    intro hA hD x hx hr
    rw [List.pairwise_cons] at hD
    rw [List.flatMap_cons, List.flatMap_cons]
    rcases List.mem_cons.mp hx with e | hxA
    · subst e
      have hn : x.node ∈ outLetters x := by unfold outLetters; rw [hr]; simp; split <;> simp
      have hxn := (hA x (by simp)).node.resolve_right (by simp [hr])
      constructor
      · rw [assign_left (outIdx_length U x) hn]
        unfold outLetters outIdx basisIdx
        rw [hr]
        by_cases hc : x.arg.nc > 1
        · have := node_ne_aux hxn ((hA x (by simp)).aux (.inl ⟨hr, hc⟩))
          simp only [hc, if_true]
          rw [assign_cons_ne this, assign_cons_self]
        · simp only [hc, if_false]
          rw [assign_cons_self]
      · intro hc
        have ha : x.aux ∈ outLetters x := by unfold outLetters; rw [hr]; simp [hc]
        rw [assign_left (outIdx_length U x) ha]
        unfold outLetters outIdx basisIdx
        rw [hr]
        simp only [hc, if_true]
        rw [assign_cons_self]
    · have hd := hD.1 x hxA
      have hxw := hA x hx
      have hyw := hA y (by simp)
      have hxm : x.role ≠ .mat := by simp [hr]
      have hxn := hxw.node.resolve_right hxm
      have hnn : x.node ∉ outLetters y := by
        intro ho
        obtain ⟨hyr, e | ⟨e, hc⟩⟩ := outLetters_cases ho
        · exact hd.node (by simp [hyr]) hxm e.symm
        · exact node_ne_aux hxn (hyw.aux (.inl ⟨hyr, hc⟩)) e
      obtain ⟨i1, i2⟩ := ih (fun a ha => hA a (List.mem_cons_of_mem _ ha)) hD.2 x hxA hr
      constructor
      · rw [assign_right (outIdx_length U y) hnn]; exact i1
      · intro hc
        have hxa := hxw.aux (.inl ⟨hr, hc⟩)
        have hna : x.aux ∉ outLetters y := by
          intro ho
          obtain ⟨hyr, e | ⟨e, hc'⟩⟩ := outLetters_cases ho
          · exact node_ne_aux (hyw.node.resolve_right (by simp [hyr])) hxa e.symm
          · exact hd.aux (.inl ⟨hyr, hc'⟩) (.inl ⟨hr, hc⟩) e.symm
        rw [assign_right (outIdx_length U y) hna]; exact i2 hc

/-- The DOFs of the variables in the expression: the basis functions or the actual DOFs. -/
def annW (env : Env K) (c : ℕ) (U : ℕ → ℕ × ℕ) (A : List Ann) (p : ℕ) : ℕ → ℕ → K :=
  match A.find? (fun x => decide (x.pos = p)) with
  | some x => if x.role = .unit then unitDofs (if x.arg.nc > 1 then (U p).1 else 0) (U p).2
      else env.dofs x.arg.name c
  | none => fun _ _ => 0

theorem annW_eq (env : Env K) (c : ℕ) (U : ℕ → ℕ × ℕ) {x : Ann} (hx : x ∈ anns diff k args) :
    annW env c U (anns diff k args) x.pos =
      if x.role = .unit then unitDofs (if x.arg.nc > 1 then (U x.pos).1 else 0) (U x.pos).2
      else env.dofs x.arg.name c := by
  have hp : ((anns diff k args).map fun a => a.pos).Nodup := by
    have e : ((anns diff k args).map fun a => a.pos) = (order args).map Prod.fst := by
      rw [← anns_map diff k args, List.map_map]; rfl
    rw [e, ((order_perm args).map _).nodup_iff, numbered_fst]
    exact List.nodup_range
  have : (anns diff k args).find? (fun y => decide (y.pos = x.pos)) = some x := by
    cases hf : (anns diff k args).find? (fun y => decide (y.pos = x.pos)) with
    | none =>
      rw [List.find?_eq_none] at hf
      exact absurd (by simp) (hf x hx)
    | some y =>
      have h1 := List.mem_of_find?_eq_some hf
      have h2 : y.pos = x.pos := by simpa using List.find?_some hf
      rw [List.inj_on_of_nodup_map hp h1 hx h2]
  unfold annW
  rw [this]

theorem argVal_congr (env : Env K) (fe : Bool) (c q : ℕ) (a : Arg) (w : ℕ → ℕ → K) (σ σ' : Char → ℕ)
    (h : ∀ l ∈ argLetters a, σ l = σ' l) : argVal env fe c q a w σ = argVal env fe c q a w σ' := by
  rw [argVal_eq, argVal_eq]
  rw [argLetters_eq] at h
  cases hk : a.kind with
  | ndarray =>
    simp only [hk] at h ⊢
    congr 1
    refine List.map_congr_left fun ch hch => ?_
    by_cases hd : ch.isDigit
    · simp [hd]
    · simp only [hd, Bool.false_eq_true, if_false]
      exact h ch (by simp [matLetters, isNum, hch, hd])
  | _ =>
    cases hm : a.mod with
    | none =>
      simp only [hk, hm] at h ⊢
      by_cases hc : a.nc > 1 <;> by_cases hd : isDer a.ein <;> simp [hc, hd] at h ⊢ <;> simp [h]
    | some md =>
      simp only [hk, hm] at h
      cases md <;> simp [h (e0 a.ein) (by simp)]

/-- The value of a built expression. -/
theorem einsum_built (hg : Good env.dim diff nAdd args) (hk : k < nAdd) (hb : BuiltOK fe diff mode args b k)
    (hs : SizesAgree size env nAdd b) (hq : mode = .qp → 2 ≤ args.length)
    (c q₀ : ℕ) (U : ℕ → ℕ × ℕ) (fr : List ℕ)
    (hn : ∀ x ∈ anns diff k args, x.role = .unit → (U x.pos).2 < env.nn x.arg.name)
    (hd : ∀ x ∈ anns diff k args, x.role = .unit → x.arg.mod.isSome → (U x.pos).1 < env.dim) :
    einsum size (operands env b k) (finishOut mode (b.subs k) (b.out k))
        (c :: ((if mode = .qp then [q₀] else []) ++ ((anns diff k args).flatMap (outIdx U) ++ fr))) =
      if mode = .qp then form size env fe c q₀ args (annW env c U (anns diff k args)) fr
      else ∑ q ∈ Finset.range env.nQp,
        weight env mode args c q * form size env fe c q args (annW env c U (anns diff k args)) fr := by
  classical
  have hA : ∀ a ∈ anns diff k args, AnnWF a := fun a ha => ann_wf hg hk hb ha
  have hD := anns_distinct hg hk hb
  obtain ⟨m, hr⟩ := hb.rep
  have hrep : Rep b k (allItems fe mode diff k args) m := hr
  set A := anns diff k args with hAdef
  set W := annW env c U A with hW
  rw [finishOut_eq hg hk hb hq, operands_eq env hrep]
  rw [einsum_eq size _ _ _ (sumLetters mode diff k args) (sumLetters_nodup hg hk hb) (sumLetters_mem env hg hk hb)]
  set o := c :: ((if mode = .qp then [q₀] else []) ++ (A.flatMap (outIdx U) ++ fr)) with ho
  set ρ₀ := assign (finalOut mode diff k args) o with hρ
  -- the values of the output letters
  have v_c : ρ₀ 'c' = c := by rw [hρ, ho]; exact assign_cons_self _ _ _ _
  have v_q : mode = .qp → ρ₀ 'q' = q₀ := by
    intro hm
    rw [hρ, ho]
    unfold finalOut
    rw [assign_cons_ne (by decide), hm]
    simp only [if_true, List.cons_append]
    exact assign_cons_self _ _ _ _
  have hlq : (if mode = Mode.qp then ['q'] else []).length = (if mode = Mode.qp then [q₀] else []).length := by
    split <;> rfl
  have v_tail : ∀ l, l ≠ 'c' → l ≠ 'q' → ρ₀ l = assign (A.flatMap outLetters ++ freeOf args)
      (A.flatMap (outIdx U) ++ fr) l := by
    intro l h1 h2
    rw [hρ, ho]
    unfold finalOut
    rw [assign_cons_ne h1, assign_right hlq]
    split <;> simp [h2]
  have v_unit : ∀ x ∈ A, x.role = .unit → ρ₀ x.node = (U x.pos).2 ∧ (x.arg.nc > 1 → ρ₀ x.aux = (U x.pos).1) := by
    intro x hx hxr
    obtain ⟨i1, i2⟩ := assign_outIdx U hA hD x hx hxr
    have hxn := (hA x hx).node.resolve_right (by simp [hxr])
    constructor
    · rw [v_tail _ (node_ne_c hxn).1 (node_ne_c hxn).2, assign_left (outIdx_flat_length U A), i1]
      refine List.mem_flatMap.mpr ⟨x, hx, ?_⟩
      unfold outLetters; rw [hxr]; simp; split <;> simp
    · intro hc
      have hxa := (hA x hx).aux (.inl ⟨hxr, hc⟩)
      rw [v_tail _ (aux_ne_c hxa).1 (aux_ne_c hxa).2, assign_left (outIdx_flat_length U A), i2 hc]
      refine List.mem_flatMap.mpr ⟨x, hx, ?_⟩
      unfold outLetters; rw [hxr]; simp [hc]
  have v_free : ∀ l ∈ args.flatMap argLetters, ρ₀ l = assign (freeOf args) fr l := by
    intro l hl
    have hnr := user_not_reserved hg hl
    rw [v_tail _ (fun e => hnr (by rw [e]; decide)) (fun e => hnr (by rw [e]; decide)), assign_right (outIdx_flat_length U A)]
    intro h
    obtain ⟨x, hx, hlx⟩ := List.mem_flatMap.mp h
    exact hnr (outLetters_reserved (hA x hx) hlx).1
  -- the product of the operands
  have hprod : ∀ ρ, prodAt ((allItems fe mode diff k args).map (toOp env)) ρ =
      prodAt ((scalarItems mode args).map (toOp env)) ρ *
        (A.map fun x => prodAt ((groupItems fe x).map (toOp env)) ρ).prod := by
    intro ρ
    unfold allItems
    rw [List.map_append, prodAt_append, List.map_flatMap, prodAt_flatMap]
  rw [sumOver_congr size _ _ _ _ hprod]
  unfold sumLetters
  rw [sumOver_append]
  -- the inner sums
  have hgroups : (A.map fun x => (priv x, prodAt ((groupItems fe x).map (toOp env)))).Pairwise
      fun a b => Indep a.2 b.1 ∧ Indep b.2 a.1 := by
    rw [List.pairwise_map]
    refine hD.imp_of_mem fun {a b'} ha hb' hdab => ?_
    have hin : ∀ x ∈ A, ∀ y ∈ A, ∀ l ∈ innerLetters x.arg, l ∉ argLetters y.arg := by
      intro x hx y hy l hl hl'
      exact hg.wf.innerNot l (List.mem_flatMap.mpr ⟨_, numbered_arg (ann_mem hx), hl⟩)
        (List.mem_flatMap.mpr ⟨_, numbered_arg (ann_mem hy), hl'⟩)
    have hind : ∀ x y, AnnWF x → AnnWF y → Distinct x y → (∀ l ∈ innerLetters y.arg, l ∉ argLetters x.arg) →
        Indep (prodAt ((groupItems fe x).map (toOp env))) (priv y) := by
      intro x y hx hy hxy hi
      refine indep_prodAt _ _ fun p hp l hl => ?_
      obtain ⟨i, hi', rfl⟩ := List.mem_map.mp hp
      exact group_priv (fe := fe) hx hy hxy hi (List.mem_flatMap.mpr ⟨i, hi', hl⟩)
    exact ⟨hind a b' (hA a ha) (hA b' hb') hdab (hin b' hb' a ha),
      hind b' a (hA b' hb') (hA a ha) hdab.symm (hin a ha b' hb')⟩
  have hscal : Indep (prodAt ((scalarItems mode args).map (toOp env))) (A.flatMap priv) := by
    refine indep_prodAt _ _ fun p hp l hl hl' => ?_
    obtain ⟨i, hi', rfl⟩ := List.mem_map.mp hp
    obtain ⟨x, hx, hlx⟩ := List.mem_flatMap.mp hl'
    obtain ⟨h1, h2, _⟩ := priv_not_out hg hk hb hx hlx
    rcases (scalarItems_spec hb).2.2.1 l (List.mem_flatMap.mpr ⟨i, hi', hl⟩) with e | e
    · exact h1 e
    · exact h2 e
  have hinner : ∀ ρ : Char → ℕ, sumOver size (A.flatMap priv) ρ (fun ρ =>
      prodAt ((scalarItems mode args).map (toOp env)) ρ *
        (A.map fun x => prodAt ((groupItems fe x).map (toOp env)) ρ).prod) =
      prodAt ((scalarItems mode args).map (toOp env)) ρ *
        (A.map fun x => sumOver size (priv x) ρ (prodAt ((groupItems fe x).map (toOp env)))).prod := by
    intro ρ
    rw [sumOver_indep_mul size _ _ _ hscal]
    congr 1
    have := sumOver_groups size (A.map fun x => (priv x, prodAt ((groupItems fe x).map (toOp env)))) hgroups ρ
    simp only [List.flatMap_map, List.map_map, Function.comp_def] at this
    exact this
  rw [sumOver_congr size _ _ _ _ hinner]
  -- the values of the arguments
  have hvals : ∀ ρ : Char → ℕ, (∀ l, l ∉ (if mode = .qp then [] else ['q']) ++ repeatedLetters args → ρ l = ρ₀ l) →
      (A.map fun x => sumOver size (priv x) ρ (prodAt ((groupItems fe x).map (toOp env)))).prod =
        ((numbered args).map fun x => argVal env fe c (ρ 'q') x.2 (W x.1) ρ).prod := by
    intro ρ hρρ
    have hstable : ∀ l ∈ reserved, l ≠ 'q' → ρ l = ρ₀ l := by
      intro l hl hlq
      refine hρρ l fun h => ?_
      rcases List.mem_append.mp h with h | h
      · split at h
        · simp at h
        · exact hlq (by simpa using h)
      · exact user_not_reserved hg (repeated_mem.mp h).1 hl
    have hc : ρ 'c' = c := by rw [hstable 'c' (by decide) (by decide), v_c]
    have hval : ∀ x ∈ A, sumOver size (priv x) ρ (prodAt ((groupItems fe x).map (toOp env))) =
        argVal env fe c (ρ 'q') x.arg (W x.pos) ρ := by
      intro x hx
      have hu : x.role = .unit → ρ x.node = (U x.pos).2 ∧ (x.arg.nc > 1 → ρ x.aux = (U x.pos).1) := by
        intro hxr
        obtain ⟨u1, u2⟩ := v_unit x hx hxr
        have hxn := (hA x hx).node.resolve_right (by simp [hxr])
        refine ⟨by rw [hstable _ (reserved_node hxn) (node_ne_c hxn).2, u1], fun hc1 => ?_⟩
        have hxa := (hA x hx).aux (.inl ⟨hxr, hc1⟩)
        rw [hstable _ (reserved_aux hxa) (aux_ne_c hxa).2, u2 hc1]
      rw [group_val size env fe x (ann_ok hg hk hb hs hx) ρ ?_ ?_, hc]
      · congr 1
        rw [hW, annW_eq env c U hx]
        unfold annDofs
        cases hxr : x.role with
        | unit =>
          obtain ⟨u1, u2⟩ := hu hxr
          simp only [if_true, u1]
          by_cases hc1 : x.arg.nc > 1
          · simp only [hc1, if_true, u2 hc1]
          · simp only [hc1, if_false]
        | _ => simp [hc]
      · intro hxr
        rw [(hu hxr).1]; exact hn x hx hxr
      · intro hxr hm
        rw [(hu hxr).2 ((hA x hx).mods (by simp [hxr]) hm).1]; exact hd x hx hxr hm
    rw [List.map_congr_left hval]
    have e1 : (A.map fun x => argVal env fe c (ρ 'q') x.arg (W x.pos) ρ) =
        ((order args).map fun x => argVal env fe c (ρ 'q') x.2 (W x.1) ρ) := by
      rw [← anns_map diff k args, List.map_map]; rfl
    rw [e1]
    exact ((order_perm args).map _).prod_eq
  have hform : ∀ (q : ℕ) (ρ : Char → ℕ), (∀ l ∈ args.flatMap argLetters, ρ l = ρ₀ l) →
      sumOver size (repeatedLetters args) ρ (fun ρ => ((numbered args).map fun x =>
        argVal env fe c q x.2 (W x.1) ρ).prod) = form size env fe c q args W fr := by
    intro q ρ hρρ
    unfold form
    refine sumOver_rel size (args.flatMap argLetters) _ _ ?_ _ _ _ ?_
    · intro σ σ' hσ
      congr 1
      refine List.map_congr_left fun x hx => argVal_congr env fe c q x.2 _ σ σ' fun l hl => ?_
      exact hσ l (List.mem_flatMap.mpr ⟨_, numbered_arg hx, hl⟩)
    · intro l hl _
      rw [hρρ l hl, v_free l hl]
  have hqrep : 'q' ∉ repeatedLetters args := fun h => user_not_reserved hg (repeated_mem.mp h).1 (by decide)
  by_cases hm : mode = .qp
  · rw [if_pos hm]
    simp only [hm, if_true, List.nil_append]
    rw [← hform q₀ ρ₀ fun _ _ => rfl]
    refine sumOver_congr' size _ _ _ _ fun ρ h1 _ => ?_
    have := hvals ρ (by simpa [hm] using h1)
    have hs0 : scalarItems Mode.qp args = [] := by
      have := (scalarItems_spec hb).2.1 hm
      rwa [hm] at this
    rw [hs0]
    simp only [List.map_nil]
    rw [show prodAt ([] : List (Operand K)) ρ = 1 from rfl, one_mul, this, h1 'q' hqrep, v_q hm]
  · rw [if_neg hm]
    simp only [hm, if_false, List.singleton_append]
    rw [sumOver]
    have hsq : size 'q' = env.nQp := by
      have hdet : ∃ i ∈ allItems fe mode diff k args, (∃ a, i.1 = .det a) ∧ i.2.1 = ['c', 'q'] := by
        unfold allItems
        cases hv : firstOf .virtual args with
        | some x => exact ⟨(.det x.2.name, ['c', 'q'], []), List.mem_append_left _ (by simp [scalarItems, hv, hm]),
            ⟨_, rfl⟩, rfl⟩
        | none =>
          obtain ⟨x, hx⟩ := Option.isSome_iff_exists.mp (hb.first hv)
          exact ⟨(.det x.2.name, ['c', 'q'], []), List.mem_append_left _ (by simp [scalarItems, hv, hx, hm]),
            ⟨_, rfl⟩, rfl⟩
      obtain ⟨i, hi, ⟨a, hia⟩, hi2⟩ := hdet
      have := sizes_items hs hk hrep hi (sh := [env.nCell, env.nQp]) (by rw [hia]; rfl)
      rw [hi2] at this
      simp at this
      exact this.2
    rw [hsq]
    refine Finset.sum_congr rfl fun q _ => ?_
    have e1 : ∀ l ∈ args.flatMap argLetters, Function.update ρ₀ 'q' q l = ρ₀ l := by
      intro l hl
      have := user_not_reserved hg hl
      rw [Function.update_of_ne (fun e => this (by rw [e]; decide))]
    rw [← hform q _ e1, ← sumOver_indep_mul size (repeatedLetters args) _ (fun _ => weight env mode args c q)
      (fun _ _ _ => rfl) (Function.update ρ₀ 'q' q)]
    refine sumOver_congr' size _ _ _ _ fun ρ h1 _ => ?_
    have h2 : ∀ l, l ∉ (if mode = .qp then [] else ['q']) ++ repeatedLetters args → ρ l = ρ₀ l := by
      intro l hl
      simp only [hm, if_false, List.singleton_append, List.mem_cons, not_or] at hl
      rw [h1 l hl.2, Function.update_of_ne hl.1]
    have hq1 : ρ 'q' = q := by rw [h1 'q' hqrep, Function.update_self]
    have hc1 : ρ 'c' = c := by
      rw [h2 'c' ?_, v_c]
      simp only [hm, if_false, List.singleton_append, List.mem_cons, not_or]
      exact ⟨by decide, fun h => user_not_reserved hg (repeated_mem.mp h).1 (by decide)⟩
    rw [hvals ρ h2, scalar_val hb hm, hq1, hc1]

end

end Ml
