import Verif.Ml.Main

/-!
# The built expressions are the documented forms
-/

namespace Ml

set_option linter.unusedSectionVars false
set_option linter.unusedSimpArgs false

variable {K : Type*} [Field K]

/-- The DOFs of the variables in the residual: the virtual variable is the basis function of the component `i` and the
node `n`, the other ones have their actual DOFs in the cell `c`. -/
def dofsAt (env : Env K) (c : ℕ) (args : List Arg) (i n p : ℕ) : ℕ → ℕ → K :=
  match args[p]? with
  | some a => if a.kind = .virtual then unitDofs (if a.nc > 1 then i else 0) n else env.dofs a.name c
  | none => fun _ _ => 0

/-- The axes of the output belonging to the virtual variable: none without it, the node, or the component and the
node. -/
def virtualIdx (args : List Arg) (i n : ℕ) : List ℕ :=
  match args.find? (fun a => decide (a.kind = .virtual)) with
  | some a => basisIdx a.nc i n
  | none => []

/-- The first axes of the output: the cell, the quadrature point in the `qp` mode. -/
def headIdx (mode : Mode) (c q : ℕ) : List ℕ := if mode = .qp then [c, q] else [c]

/-- The value of a term in the cell `c`: the integral over the cell of the form (over the volume in the element average
mode), or its value in the point `q₀` in the `qp` mode. -/
def value (mode : Mode) (env : Env K) (args : List Arg) (c q₀ : ℕ) (f : ℕ → K) : K :=
  if mode = .qp then f q₀ else ∑ q ∈ Finset.range env.nQp, weight env mode args c q * f q

/-- The positions of the variable `d` among the arguments (not as the virtual one). -/
def occurrences (d : ℕ) (args : List Arg) : List ℕ :=
  ((numbered args).filter fun x => decide (x.2.kind = .state ∧ x.2.name = d)).map Prod.fst

/-! ## Proofs -/

theorem form_congr (size : Char → ℕ) (env : Env K) (fe : Bool) (c q : ℕ) (args : List Arg) (W W' : ℕ → ℕ → ℕ → K)
    (fr : List ℕ) (h : ∀ x ∈ numbered args, x.2.kind ≠ .ndarray → W x.1 = W' x.1) :
    form size env fe c q args W fr = form size env fe c q args W' fr := by
  unfold form
  refine sumOver_congr size _ _ _ _ fun ρ => ?_
  congr 1
  refine List.map_congr_left fun x hx => ?_
  by_cases hk : x.2.kind = .ndarray
  · unfold argVal; simp [hk]
  · rw [h x hx hk]

theorem numbered_get {args : List Arg} {x : ℕ × Arg} (h : x ∈ numbered args) : args[x.1]? = some x.2 := by
  unfold numbered at h
  obtain ⟨i, hi, e⟩ := List.getElem_of_mem h
  rw [List.getElem_zip] at e
  have h2 : i < args.length := by simpa using hi
  rw [← e]
  simp only [List.getElem_range]
  exact List.getElem?_eq_getElem h2

theorem order_filter (diff : Option ℕ) (args : List Arg) :
    (order args).filter (isDiff diff) = (numbered args).filter (isDiff diff) := by
  unfold order
  cases hv : firstOf .virtual args with
  | none => rfl
  | some x =>
    obtain ⟨hx, hk⟩ := firstOf_some hv
    simp only
    rw [List.filter_cons, if_neg (by simp [isDiff, hk]), List.filter_filter]
    refine List.filter_congr fun y hy => ?_
    by_cases hd : isDiff diff y
    · have : y.1 ≠ x.1 := by
        intro e
        rw [numbered_inj args hy hx e] at hd
        simp [isDiff, hk] at hd
      simp [hd, this]
    · simp [hd]

theorem annotate_out (diff : Option ℕ) (k ncd j m : ℕ) (U : ℕ → ℕ × ℕ) : ∀ (xs : List (ℕ × Arg)) (ia : ℕ) (aux : List Char),
    (∀ x ∈ xs, x.2.kind ≠ .virtual) → (∀ x ∈ xs, isDiff diff x → x.2.nc = ncd ∧ U x.1 = (j, m)) →
    (annotate diff k xs ia aux).flatMap (outIdx U) =
      if ia ≤ k ∧ k < ia + (xs.filter (isDiff diff)).length then basisIdx ncd j m else [] := by
  intro xs
  induction xs with
  | nil =>
    intro ia aux _ _
    rw [if_neg (by simp)]
    rfl
  | cons x xs ih =>
    intro ia aux hv hd
    have hv' := fun y hy => hv y (List.mem_cons_of_mem _ hy)
    have hd' := fun y hy => hd y (List.mem_cons_of_mem _ hy)
    rw [annotate, List.flatMap_cons, ih _ _ hv' hd']
    by_cases hx : isDiff diff x
    · have hx' : x.2.kind = .state ∧ diff = some x.2.name := by simpa [isDiff] using hx
      obtain ⟨h1, h2⟩ := hd x (by simp) hx
      rw [if_pos hx', List.filter_cons, if_pos hx, List.length_cons]
      by_cases e : k = ia
      · rw [if_neg (by omega), if_pos (by omega)]
        unfold outIdx annOf
        simp [hx'.1, hx'.2, e, h1, h2]
      · have : outIdx U (annOf diff k ia aux x) = [] := by
          unfold outIdx annOf
          simp [hx'.1, hx'.2, e]
        rw [this, List.nil_append]
        refine if_congr ?_ rfl rfl
        omega
    · have hx' : ¬ (x.2.kind = .state ∧ diff = some x.2.name) := by simpa [isDiff] using hx
      rw [if_neg hx', List.filter_cons, if_neg hx]
      have : outIdx U (annOf diff k ia aux x) = [] := by
        have hvx := hv x (by simp)
        unfold outIdx annOf
        cases hk : x.2.kind with
        | ndarray => rfl
        | virtual => exact absurd hk hvx
        | state =>
          have : diff ≠ some x.2.name := fun e => hx' ⟨hk, e⟩
          simp [this]
      rw [this, List.nil_append]

theorem find_virtual (args : List Arg) (kd : Kind) :
    args.find? (fun a => decide (a.kind = kd)) = (firstOf kd args).map Prod.snd := by
  unfold firstOf
  conv_lhs => rw [← numbered_snd args]
  rw [List.find?_map]
  rfl

/-- The indices of the basis functions for the virtual variable `(i, n)` and the differentiated one `(j, m)`. -/
def idxOf (args : List Arg) (i n j m p : ℕ) : ℕ × ℕ :=
  match args[p]? with
  | some a => if a.kind = .virtual then (i, n) else (j, m)
  | none => (j, m)

theorem anns_out {fe : Bool} {diff : Option ℕ} {mode : Mode} {args : List Arg} {b : B} {k : ℕ}
    (hb : BuiltOK fe diff mode args b k) (ncd i n j m : ℕ)
    (hnc : ∀ x ∈ numbered args, isDiff diff x → x.2.nc = ncd) :
    (anns diff k args).flatMap (outIdx (idxOf args i n j m)) = virtualIdx args i n ++
      if k < ((numbered args).filter (isDiff diff)).length then basisIdx ncd j m else [] := by
  have hdiffU : ∀ x ∈ numbered args, isDiff diff x → x.2.nc = ncd ∧ idxOf args i n j m x.1 = (j, m) := by
    intro x hx hd
    refine ⟨hnc x hx hd, ?_⟩
    unfold idxOf
    rw [numbered_get hx]
    have : x.2.kind = .state ∧ diff = some x.2.name := by simpa [isDiff] using hd
    simp [this.1]
  rw [← order_filter]
  unfold anns virtualIdx
  rw [find_virtual]
  have hvirt := hb.virt
  have hop := order_perm args
  revert hvirt hop
  unfold order
  cases hv : firstOf .virtual args with
  | none =>
    intro hvirt hop
    simp only at hvirt hop ⊢
    rw [annotate_out diff k ncd j m _ _ _ _ ?_ hdiffU]
    · simp
    · intro x hx e
      have := hvirt x hx e
      simp at this
  | some x =>
    intro hvirt hop
    simp only at hvirt hop ⊢
    obtain ⟨hx, hkx⟩ := firstOf_some hv
    rw [annotate, List.flatMap_cons, annotate_out diff k ncd j m _ _ _ _ ?_ ?_]
    · congr 1
      · unfold outIdx annOf
        simp only [hkx, Option.map_some]
        unfold idxOf
        rw [numbered_get hx]
        simp [hkx]
      · rw [List.filter_cons_of_neg (by simp [isDiff, hkx])]
        simp [hkx]
    · intro y hy e
      have := hvirt y (List.mem_cons_of_mem _ hy) e
      rw [List.mem_filter] at hy
      simp at this hy
      exact hy.2 (by rw [this])
    · intro y hy
      exact hdiffU y (List.mem_of_mem_filter hy)

/-- The value of the expression `k`. -/
theorem copy_val {fe : Bool} {diff : Option ℕ} {nAdd : ℕ} {mode : Mode} {args : List Arg} {b : B} {k : ℕ} {env : Env K}
    {size : Char → ℕ} (hg : Good env.dim diff nAdd args) (hk : k < nAdd) (hb : BuiltOK fe diff mode args b k)
    (hs : SizesAgree size env nAdd b) (hq : mode = .qp → 2 ≤ args.length)
    (c q₀ i n j m ncd : ℕ) (fr : List ℕ)
    (hnc : ∀ x ∈ numbered args, isDiff diff x → x.2.nc = ncd)
    (hv : ∀ a ∈ args, a.kind = .virtual → n < env.nn a.name ∧ (a.mod.isSome → i < env.dim))
    (hd : ∀ x ∈ numbered args, isDiff diff x → m < env.nn x.2.name ∧ (x.2.mod.isSome → j < env.dim)) :
    einsum size (operands env b k) (finishOut mode (b.subs k) (b.out k))
        (headIdx mode c q₀ ++ (virtualIdx args i n ++
          (if k < ((numbered args).filter (isDiff diff)).length then basisIdx ncd j m else []) ++ fr)) =
      value mode env args c q₀ fun q => form size env fe c q args
        (match ((numbered args).filter (isDiff diff))[k]? with
          | some x => Function.update (dofsAt env c args i n) x.1 (unitDofs (if ncd > 1 then j else 0) m)
          | none => dofsAt env c args i n) fr := by
  have hunit : ∀ x ∈ anns diff k args, x.role = .unit → x.arg.kind = .virtual ∨
      (isDiff diff (x.pos, x.arg) ∧ ((numbered args).filter (isDiff diff))[k]? = some (x.pos, x.arg)) := by
    intro x hx hr
    rcases annotate_role diff k _ _ _ x hx with ⟨_, e⟩ | ⟨e, _⟩ | ⟨_, _, e⟩ | ⟨e1, e2, _⟩
    · simp [hr] at e
    · exact .inl e
    · simp [hr] at e
    · right
      have hdx : isDiff diff (x.pos, x.arg) := by simp [isDiff, e1, e2]
      refine ⟨hdx, ?_⟩
      obtain ⟨jj, h1, h2⟩ := (annotate_occ diff k _ 0 auxLetters (order_nodup args) x hx hdx).mp hr
      rw [order_filter] at h1
      rw [h2, Nat.zero_add, h1]
  have hU : ∀ x ∈ anns diff k args, x.role = .unit →
      (idxOf args i n j m x.pos).2 < env.nn x.arg.name ∧
      (x.arg.mod.isSome → (idxOf args i n j m x.pos).1 < env.dim) := by
    intro x hx hr
    have hxn := ann_mem hx
    unfold idxOf
    rw [numbered_get hxn]
    rcases hunit x hx hr with e | ⟨e, _⟩
    · simp only [e, if_true]
      exact hv x.arg (numbered_arg hxn) e
    · have : x.arg.kind = .state := by
        have : x.arg.kind = .state ∧ diff = some x.arg.name := by simpa [isDiff] using e
        exact this.1
      simp only [this, reduceCtorEq, if_false]
      exact hd _ hxn e
  have key := einsum_built hg hk hb hs hq c q₀ (idxOf args i n j m) fr (fun x hx hr => (hU x hx hr).1)
    (fun x hx hr => (hU x hx hr).2)
  rw [anns_out hb ncd i n j m hnc] at key
  have eidx : headIdx mode c q₀ ++ (virtualIdx args i n ++
      (if k < ((numbered args).filter (isDiff diff)).length then basisIdx ncd j m else []) ++ fr) =
      c :: ((if mode = .qp then [q₀] else []) ++ (virtualIdx args i n ++
      (if k < ((numbered args).filter (isDiff diff)).length then basisIdx ncd j m else []) ++ fr)) := by
    unfold headIdx
    by_cases hm : mode = .qp <;> simp [hm]
  rw [eidx, key]
  have hform : ∀ q, form size env fe c q args (annW env c (idxOf args i n j m) (anns diff k args)) fr =
      form size env fe c q args (match ((numbered args).filter (isDiff diff))[k]? with
          | some x => Function.update (dofsAt env c args i n) x.1 (unitDofs (if ncd > 1 then j else 0) m)
          | none => dofsAt env c args i n) fr := by
    intro q
    refine form_congr _ _ _ _ _ _ _ _ _ fun x hx hxk => ?_
    have hxo : x ∈ order args := (order_perm args).mem_iff.mpr hx
    rw [← anns_map diff k args] at hxo
    obtain ⟨a, ha, rfl⟩ := List.mem_map.mp hxo
    rw [annW_eq env c _ ha]
    have hget := numbered_get hx
    by_cases hr : a.role = .unit
    · rw [if_pos hr]
      rcases hunit a ha hr with e | ⟨e, e'⟩
      · have hne : ∀ y, ((numbered args).filter (isDiff diff))[k]? = some y → a.pos ≠ y.1 := by
          intro y hy eq
          have hy' := List.mem_of_getElem? hy
          rw [List.mem_filter] at hy'
          have : (a.pos, a.arg) = y := numbered_inj args hx hy'.1 eq
          rw [← this] at hy'
          have h2 := hy'.2
          simp [isDiff, e] at h2
        have hval : unitDofs (if a.arg.nc > 1 then (idxOf args i n j m a.pos).1 else 0) (idxOf args i n j m a.pos).2 =
            dofsAt env c args i n a.pos := by
          unfold idxOf dofsAt
          simp only at hget
          rw [hget]
          simp [e]
        cases ho : ((numbered args).filter (isDiff diff))[k]? with
        | none => simp only; exact hval
        | some y =>
          simp only
          rw [Function.update_of_ne (hne y ho)]
          exact hval
      · rw [e']
        simp only
        rw [Function.update_self, hnc _ hx e]
        have hst : a.arg.kind = .state := by
          have : a.arg.kind = .state ∧ diff = some a.arg.name := by simpa [isDiff] using e
          exact this.1
        unfold idxOf
        simp only at hget
        rw [hget]
        simp [hst]
    · rw [if_neg hr]
      have hnv : a.arg.kind ≠ .virtual := by
        intro e
        rcases annotate_role diff k _ _ _ a ha with ⟨e1, _⟩ | ⟨_, e2⟩ | ⟨e1, _, _⟩ | ⟨e1, e2, _⟩
        · simp [e1] at e
        · exact hr e2
        · simp [e1] at e
        · simp [e1] at e
      have hval : env.dofs a.arg.name c = dofsAt env c args i n a.pos := by
        unfold dofsAt
        simp only at hget
        rw [hget]
        simp [hnv]
      cases ho : ((numbered args).filter (isDiff diff))[k]? with
      | none => simp only; exact hval
      | some y =>
        simp only
        rw [Function.update_of_ne]
        · exact hval
        · intro eq
          have hy' := List.mem_of_getElem? ho
          rw [List.mem_filter] at hy'
          have : (a.pos, a.arg) = y := numbered_inj args hx hy'.1 eq
          have hdy := hy'.2
          rw [← this] at ho hdy
          refine hr ((annotate_occ diff k _ 0 auxLetters (order_nodup args) a ha hdy).mpr ⟨k, ?_, by omega⟩)
          rw [order_filter]
          exact ho
  unfold value
  simp only [hform]

theorem build_raw {fe : Bool} {nAdd : ℕ} {diff : Option ℕ} {mode : Mode} {args : List Arg} {b : B}
    (h : build fe nAdd diff mode args = some b) : ∃ r, buildRaw fe nAdd diff mode args = some r ∧
      b.names = r.names ∧ b.subs = r.subs ∧ b.comps = r.comps ∧
      b.out = fun k => finishOut mode (r.subs k) (r.out k) := by
  unfold build at h
  cases hr : buildRaw fe nAdd diff mode args with
  | none => rw [hr] at h; simp at h
  | some r =>
    rw [hr] at h
    simp only [Option.some.injEq] at h
    subst h
    exact ⟨r, rfl, rfl, rfl, rfl, rfl⟩

theorem operands_congr (env : Env K) {b r : B} (h1 : b.names = r.names) (h2 : b.subs = r.subs) (h3 : b.comps = r.comps)
    (k : ℕ) : operands env b k = operands env r k := by
  unfold operands
  rw [h1, h2, h3]

theorem sizes_congr (env : Env K) {size : Char → ℕ} {nAdd : ℕ} {b r : B} (h1 : b.names = r.names) (h2 : b.subs = r.subs)
    (h : SizesAgree size env nAdd b) : SizesAgree size env nAdd r := by
  unfold SizesAgree at h ⊢
  rwa [h1, h2] at h

/-- C86: for every term expression with well formed letters, the expression made by the builder evaluates to the
documented form: in the weak and evaluation modes to the integral over the cell of the product of the arguments
summed over the repeated letters, with the virtual variable replaced by the basis functions; in the element average
mode divided by the volume; in the `qp` mode to the values in the quadrature points. The output axes are: the cell
(the point), the component and node of the virtual variable, the free letters in the alphabetic order. -/
theorem C86_residual {fe : Bool} {mode : Mode} {args : List Arg} {b : B} {env : Env K} {size : Char → ℕ}
    (h : build fe 1 none mode args = some b) (hwf : WF env.dim args) (hs : SizesAgree size env 1 b)
    (hq : mode = .qp → 2 ≤ args.length) (c q₀ i n : ℕ) (fr : List ℕ)
    (hv : ∀ a ∈ args, a.kind = .virtual → n < env.nn a.name ∧ (a.mod.isSome → i < env.dim)) :
    evalTerm size env 1 b (headIdx mode c q₀ ++ (virtualIdx args i n ++ fr)) =
      value mode env args c q₀ fun q => form size env fe c q args (dofsAt env c args i n) fr := by
  obtain ⟨r, hr, h1, h2, h3, h4⟩ := build_raw h
  have hg : Good env.dim none 1 args := ⟨hwf, .inl rfl, rfl, .inl rfl⟩
  have hb := buildRaw_ok hr (k := 0) (by omega) (.inl rfl)
  have hnil : (numbered args).filter (isDiff none) = [] := by simp [isDiff]
  have key := copy_val hg (by omega) hb (sizes_congr env h1 h2 hs) hq c q₀ i n 0 0 0 fr (by simp [isDiff]) hv
    (by simp [isDiff])
  rw [hnil] at key
  simp only [List.length_nil, Nat.not_lt_zero, if_false, List.append_nil, List.getElem?_nil] at key
  unfold evalTerm
  simp only [List.range_one, List.map_cons, List.map_nil, List.sum_cons, List.sum_nil, add_zero]
  rw [operands_congr env h1 h2 h3, h4]
  exact key

/-- C86: the expressions with `diff_var`: the sum over the occurrences of the variable of the forms with this
occurrence replaced by the basis functions. -/
theorem C86_tangent {fe : Bool} {mode : Mode} {args : List Arg} {b : B} {env : Env K} {size : Char → ℕ} {d ncd : ℕ}
    (h : build fe (nAddOf (some d) args) (some d) mode args = some b)
    (hg : Good env.dim (some d) (nAddOf (some d) args) args)
    (hs : SizesAgree size env (nAddOf (some d) args) b)
    (hq : mode = .qp → 2 ≤ args.length) (c q₀ i n j m : ℕ) (fr : List ℕ)
    (hnc : ∀ a ∈ args, a.kind = .state → a.name = d → a.nc = ncd)
    (hv : ∀ a ∈ args, a.kind = .virtual → n < env.nn a.name ∧ (a.mod.isSome → i < env.dim))
    (hm : m < env.nn d) (hj : ∀ a ∈ args, a.kind = .state → a.name = d → a.mod.isSome → j < env.dim) :
    evalTerm size env (nAddOf (some d) args) b
        (headIdx mode c q₀ ++ (virtualIdx args i n ++ basisIdx ncd j m ++ fr)) =
      ((occurrences d args).map fun p => value mode env args c q₀ fun q => form size env fe c q args
        (Function.update (dofsAt env c args i n) p (unitDofs (if ncd > 1 then j else 0) m)) fr).sum := by
  obtain ⟨r, hr, h1, h2, h3, h4⟩ := build_raw h
  have hdd : ∀ x, isDiff (some d) x ↔ x.2.kind = .state ∧ x.2.name = d := by
    intro x
    unfold isDiff
    rw [decide_eq_true_iff, Option.some.injEq, eq_comm (a := d)]
  have hlen := occ_length (some d) d rfl args
  set occ := (numbered args).filter (isDiff (some d)) with hocc
  have hO : occurrences d args = occ.map Prod.fst := by
    unfold occurrences
    rw [hocc]
    congr 1
    refine List.filter_congr fun x _ => ?_
    rw [Bool.eq_iff_iff, hdd, decide_eq_true_iff]
  rw [hO, List.map_map]
  unfold evalTerm
  have hterm : ∀ k ∈ List.range (nAddOf (some d) args),
      einsum size (operands env b k) (b.out k)
        (headIdx mode c q₀ ++ (virtualIdx args i n ++ basisIdx ncd j m ++ fr)) =
      (occ.map ((fun p => value mode env args c q₀ fun q => form size env fe c q args
        (Function.update (dofsAt env c args i n) p (unitDofs (if ncd > 1 then j else 0) m)) fr) ∘ Prod.fst)).getD k 0 := by
    intro k hk
    rw [List.mem_range] at hk
    have hb := buildRaw_ok hr hk hg.matFirst
    have key := copy_val hg hk hb (sizes_congr env h1 h2 hs) hq c q₀ i n j m ncd fr
      (fun x hx hd => hnc x.2 (numbered_arg hx) ((hdd x).mp hd).1 ((hdd x).mp hd).2) hv
      (fun x hx hd => ⟨by rw [((hdd x).mp hd).2]; exact hm,
        fun hmod => hj x.2 (numbered_arg hx) ((hdd x).mp hd).1 ((hdd x).mp hd).2 hmod⟩)
    rw [← hocc] at key
    have hk' : k < occ.length := by omega
    rw [if_pos hk', List.getElem?_eq_getElem hk'] at key
    rw [operands_congr env h1 h2 h3, h4]
    simp only at key ⊢
    rw [key, List.getD_eq_getElem?_getD, List.getElem?_map, List.getElem?_eq_getElem hk']
    rfl
  rw [List.map_congr_left hterm]
  congr 1
  refine List.ext_getElem (by simp [hlen]) fun k hk1 hk2 => ?_
  simp only [List.length_map] at hk2
  simp [hk2]

end Ml
