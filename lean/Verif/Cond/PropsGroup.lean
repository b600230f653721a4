import Verif.Cond.Model
import Mathlib.Data.List.Basic
import Mathlib.Data.List.Sort
import Mathlib.Tactic.Linarith

/-!
# C123 (grouping by variables, canonical dof names), C124 (order of application)
-/

namespace Verif.Cond

/-! ### Dictionary lookups -/

theorem dictGet_set {α : Type*} (d : List (Str × α)) (k k' : Str) (v : α) :
    dictGet (dictSet d k v) k' = if k' = k then some v else dictGet d k' := by
  induction d with
  | nil =>
    by_cases h : k' = k
    · subst h; simp [dictSet, dictGet]
    · have : ¬ k = k' := fun e => h e.symm
      simp [dictSet, dictGet, h, this]
  | cons p d ih =>
    unfold dictSet at ih ⊢
    unfold dictGet at ih ⊢
    by_cases hp : p.1 = k
    · have h1 : ((p :: d).any fun q => q.1 == k) = true := by simp [hp]
      rw [if_pos h1]
      by_cases h : k' = k
      · subst h; simp [hp]
      · have hk : ¬ k = k' := fun e => h e.symm
        simp only [List.map_cons, hp, beq_self_eq_true, if_true, List.find?_cons,
          beq_eq_false_iff_ne.mpr hk, h, if_false]
        by_cases ha : (d.any fun q => q.1 == k) = true
        · rw [if_pos ha, if_neg h] at ih; exact ih
        · have : d.map (fun q => if (q.1 == k) = true then (k, v) else q) = d := by
            conv_rhs => rw [← List.map_id d]
            apply List.map_congr_left
            intro q hq
            rw [if_neg]; · rfl
            intro hc; exact ha (List.any_eq_true.mpr ⟨q, hq, hc⟩)
          rw [this]
    · have hpb : (p.1 == k) = false := beq_eq_false_iff_ne.mpr hp
      simp only [List.any_cons, hpb, Bool.false_or, List.map_cons, List.cons_append,
        Bool.false_eq_true, if_false]
      by_cases ha : (d.any fun q => q.1 == k) = true
      · rw [if_pos ha] at ih ⊢
        by_cases hpk : p.1 = k'
        · have : ¬ k' = k := fun e => hp (hpk.trans e)
          simp [hpk, this]
        · simp only [List.find?_cons, beq_eq_false_iff_ne.mpr hpk]
          exact ih
      · rw [if_neg ha] at ih ⊢
        by_cases hpk : p.1 = k'
        · have : ¬ k' = k := fun e => hp (hpk.trans e)
          simp [hpk, this]
        · simp only [List.find?_cons, beq_eq_false_iff_ne.mpr hpk]
          exact ih

theorem addTo_get {V : Type*} (out : List (Str × List (Single V))) (s : Single V) (v : Str) :
    (dictGet (addTo out s) v).getD [] =
      (dictGet out v).getD [] ++ (if varName s = v then [s] else []) := by
  unfold addTo
  rw [dictGet_set]
  by_cases h : v = varName s
  · subst h; simp
  · have : ¬ varName s = v := fun e => h e.symm
    simp [h, this]

theorem addAll_get {V : Type*} (l : List (Single V)) (v : Str) : ∀ out,
    (dictGet (l.foldl addTo out) v).getD [] =
      (dictGet out v).getD [] ++ l.filter (fun s => decide (varName s = v)) := by
  induction l with
  | nil => intro out; simp
  | cons s l ih =>
    intro out
    rw [List.foldl_cons, ih, addTo_get, List.filter_cons]
    by_cases h : varName s = v <;> simp [h]

/-- **C123 (grouping).**  After `group_by_variables()` the conditions of a variable `v` are those it had
before (`groups`), followed by exactly the single conditions whose dof name begins with `v.`, in the
order of the conditions and of their dofs: none is lost, duplicated or moved to another variable. -/
theorem C123_grouping {V : Type*} (conds : List (Cnd V)) (groups : List (Str × List (Single V)))
    (v : Str) :
    (dictGet (groupByVariables conds groups) v).getD [] =
      (dictGet groups v).getD [] ++
        (conds.flatMap iterSingle).filter (fun s => decide (varName s = v)) := by
  unfold groupByVariables
  induction conds generalizing groups with
  | nil => simp
  | cons c t ih =>
    rw [List.foldl_cons, ih, addAll_get, List.flatMap_cons, List.filter_append, List.append_assoc]

theorem splitOn_ne_nil (c : Char) (s : Str) : splitOn c s ≠ [] := by
  cases s with
  | nil => simp [splitOn]
  | cons a t => unfold splitOn; split_ifs; · simp
                split <;> simp

theorem splitOn_none (c : Char) (s : Str) (h : c ∉ s) : splitOn c s = [s] := by
  induction s with
  | nil => rfl
  | cons a t ih =>
    rw [List.mem_cons, not_or] at h
    rw [splitOn, if_neg (fun e => h.1 e.symm), ih h.2]

theorem splitOn_append (c : Char) (a b : Str) (h : c ∉ a) :
    splitOn c (a ++ c :: b) = a :: splitOn c b := by
  induction a with
  | nil => simp [splitOn]
  | cons x a ih =>
    rw [List.mem_cons, not_or] at h
    rw [List.cons_append, splitOn, if_neg (fun e => h.1 e.symm), ih h.2]

theorem joinDot_splitOn (s : Str) : joinDot (splitOn '.' s) = s := by
  induction s with
  | nil => rfl
  | cons a t ih =>
    unfold splitOn
    have hne := splitOn_ne_nil '.' t
    split_ifs with h
    · cases hs : splitOn '.' t with
      | nil => exact absurd hs hne
      | cons x r => rw [joinDot]; rw [hs] at ih; rw [ih, h]; simp; simp
    · cases hs : splitOn '.' t with
      | nil => exact absurd hs hne
      | cons x r =>
        simp only
        rw [hs] at ih
        cases r with
        | nil => simpa [joinDot] using ih
        | cons y r => simp only [joinDot, List.cons_append] at ih ⊢; rw [ih]

/-- **C123 (plain specifications).**  A specification `var.what` without `grad` in it gives a single
condition of the variable `var` with the same specification, value and key. -/
theorem C123_plain {V : Type*} (key var what : Str) (val : V) (hv : '.' ∉ var)
    (hg : contains "grad".toList (var ++ '.' :: what) = false) :
    (iterSingle ⟨key, [(var ++ '.' :: what, val)]⟩).map (fun s => (s, varName s)) =
      [(⟨key, var ++ '.' :: what, val, false⟩, var)] := by
  simp only [iterSingle, List.map_cons, List.map_nil, hg, Bool.false_eq_true, if_false, varName,
    splitOn_append _ _ _ hv, List.headD_cons]

/-- **C123 (gradient specifications).**  `grad.var.what` gives a single condition of the variable `var`
with the specification `var.what`, marked as one on the derivative. -/
theorem C123_grad {V : Type*} (key var what : Str) (val : V) (hv : '.' ∉ var) :
    (iterSingle ⟨key, [("grad.".toList ++ var ++ '.' :: what, val)]⟩).map (fun s => (s, varName s)) =
      [(⟨key, var ++ '.' :: what, val, true⟩, var)] := by
  have h1 : contains "grad".toList ("grad.".toList ++ var ++ '.' :: what) = true := by
    simp [contains, List.isPrefixOf]
  have h2 : splitOn '.' ("grad.".toList ++ var ++ '.' :: what) =
      "grad".toList :: splitOn '.' (var ++ '.' :: what) := by
    have := splitOn_append '.' "grad".toList (var ++ '.' :: what) (by decide)
    rw [← this]; simp
  have h3 := joinDot_splitOn (var ++ '.' :: what)
  simp only [iterSingle, List.map_cons, List.map_nil, h1, if_true, h2, List.tail_cons, h3, varName]
  rw [splitOn_append _ _ _ hv, List.headD_cons]

theorem contains_mid (sub a b : Str) : contains sub (a ++ (sub ++ b)) = true := by
  induction a with
  | nil =>
    cases hsb : sub ++ b with
    | nil =>
      have : sub = [] := (List.append_eq_nil_iff.mp hsb).1
      simp [contains, this]
    | cons c t =>
      rw [List.nil_append, contains, Bool.or_eq_true]
      left
      rw [← hsb, List.isPrefixOf_iff_prefix]
      exact List.prefix_append _ _
  | cons c a ih => rw [List.cons_append, contains, ih, Bool.or_true]

/-- **C123 (finding).**  A condition on a variable whose *name* contains `grad` is taken for one on a
derivative: its single condition is filed under the variable name `all` (or the component), and the
group of the variable itself does not get it - the condition is silently ignored. -/
theorem C123_grad_in_name {V : Type*} (key a b what : Str) (val : V) (ha : '.' ∉ a) (hb : '.' ∉ b)
    (hw : '.' ∉ what) (hne : what ≠ a ++ "grad".toList ++ b) :
    (iterSingle ⟨key, [(a ++ "grad".toList ++ b ++ '.' :: what, val)]⟩).map
        (fun s => (s.dofs, varName s)) = [(what, what)] ∧
      (dictGet (groupByVariables [⟨key, [(a ++ "grad".toList ++ b ++ '.' :: what, val)]⟩] [])
        (a ++ "grad".toList ++ b)).getD [] = [] := by
  have h1 : contains "grad".toList (a ++ "grad".toList ++ b ++ '.' :: what) = true := by
    have := contains_mid "grad".toList a (b ++ '.' :: what)
    simpa using this
  have hv : '.' ∉ a ++ "grad".toList ++ b := by
    simp only [List.mem_append, not_or]
    exact ⟨⟨ha, by decide⟩, hb⟩
  have h2 := splitOn_append '.' (a ++ "grad".toList ++ b) what hv
  rw [splitOn_none _ _ hw] at h2
  have h3 : iterSingle ⟨key, [(a ++ "grad".toList ++ b ++ '.' :: what, val)]⟩ =
      [⟨key, what, val, true⟩] := by
    simp only [iterSingle, List.map_cons, List.map_nil, h1, if_true, h2, List.tail_cons, joinDot]
  constructor
  · rw [h3]; simp [varName, splitOn_none _ _ hw]
  · rw [C123_grouping]
    simp only [List.flatMap_cons, List.flatMap_nil, h3]
    rw [List.append_nil, List.filter_cons, if_neg]
    · simp [dictGet]
    · simpa [varName, splitOn_none _ _ hw] using hne

/-! ### Canonical dof names -/

/-- `", ".join(names)`. -/
def joinComma : List Str → Str
  | [] => []
  | [a] => a
  | a :: t => a ++ ',' :: ' ' :: joinComma t

theorem strip_id (s : Str) (h : ∀ c ∈ s, Char.isWhitespace c = false) : strip s = s := by
  have aux : ∀ t : Str, (∀ c ∈ t, Char.isWhitespace c = false) → t.dropWhile Char.isWhitespace = t := by
    intro t ht
    cases t with
    | nil => rfl
    | cons a t => rw [List.dropWhile_cons, if_neg (by simp [ht a])]
  unfold strip
  rw [aux s h, aux s.reverse (by intro c hc; exact h c (List.mem_reverse.mp hc)), List.reverse_reverse]

theorem strip_blank (s : Str) : strip (' ' :: s) = strip s := by
  unfold strip
  rw [List.dropWhile_cons, if_pos (by decide)]

theorem split_comma (ns : List Str) (hne : ns ≠ []) (hc : ∀ n ∈ ns, ',' ∉ n)
    (hw : ∀ n ∈ ns, ∀ c ∈ n, Char.isWhitespace c = false) :
    (splitOn ',' (joinComma ns)).map strip = ns ∧
      (splitOn ',' (' ' :: joinComma ns)).map strip = ns := by
  induction ns with
  | nil => exact absurd rfl hne
  | cons a t ih =>
    have ha : ',' ∉ a := hc a (by simp)
    have hwa : strip a = a := strip_id a (hw a (by simp))
    have hb : ',' ∉ ' ' :: a := by
      rw [List.mem_cons, not_or]; exact ⟨by decide, ha⟩
    cases t with
    | nil =>
      simp only [joinComma]
      rw [splitOn_none _ _ ha, splitOn_none _ _ hb]
      simp [hwa, strip_blank]
    | cons b t =>
      have := ih (by simp) (fun n hn => hc n (List.mem_cons_of_mem _ hn))
        (fun n hn => hw n (List.mem_cons_of_mem _ hn))
      simp only [joinComma]
      rw [splitOn_append _ _ _ ha, ← List.cons_append, splitOn_append _ _ _ hb]
      simp [hwa, strip_blank, this.2]

/-- **C123 (dof names: all).**  `var.all` means all the DOFs of the variable. -/
theorem C123_canonize_all (var : Str) (allDofs : List Str) (hv : '.' ∉ var) :
    canonize (var ++ '.' :: "all".toList) allDofs = some allDofs := by
  unfold canonize
  rw [splitOn_append _ _ _ hv, splitOn_none '.' "all".toList (by decide)]
  simp

/-- **C123 (dof names: one component).**  `var.i` (with `i` neither `all` nor beginning with `[`) means
itself. -/
theorem C123_canonize_one (var comp : Str) (allDofs : List Str) (hv : '.' ∉ var) (hc : '.' ∉ comp)
    (hne : comp ≠ []) (hall : comp ≠ "all".toList) (hb : comp.head? ≠ some '[') :
    canonize (var ++ '.' :: comp) allDofs = some [var ++ '.' :: comp] := by
  unfold canonize
  rw [splitOn_append _ _ _ hv, splitOn_none _ _ hc]
  simp only [if_neg hall]
  cases comp with
  | nil => exact absurd rfl hne
  | cons a t =>
    have : a ≠ '[' := fun e => hb (by simp [e])
    simp [this]

/-- **C123 (dof names: several components).**  `var.[i, j, ...]` means `var.i, var.j, ...`, in the given
order, for any number of components. -/
theorem C123_canonize_list (var : Str) (comps : List Str) (allDofs : List Str) (hv : '.' ∉ var)
    (hne : comps ≠ []) (hd : ∀ n ∈ comps, '.' ∉ n) (hc : ∀ n ∈ comps, ',' ∉ n)
    (hw : ∀ n ∈ comps, ∀ c ∈ n, Char.isWhitespace c = false) :
    canonize (var ++ '.' :: '[' :: (joinComma comps ++ [']'])) allDofs =
      some (comps.map fun c => var ++ '.' :: c) := by
  have hdot : '.' ∉ '[' :: (joinComma comps ++ [']']) := by
    have : ∀ ns : List Str, (∀ n ∈ ns, '.' ∉ n) → '.' ∉ joinComma ns := by
      intro ns
      induction ns with
      | nil => intro _; simp [joinComma]
      | cons a t ih =>
        intro h
        have h1 := ih (fun n hn => h n (List.mem_cons_of_mem _ hn))
        cases t with
        | nil => simpa [joinComma] using h
        | cons b t =>
          simp only [joinComma, List.mem_append, List.mem_cons, not_or]
          exact ⟨h a (by simp), by decide, by decide, h1⟩
    simp only [List.mem_cons, List.mem_append, not_or, List.not_mem_nil]
    exact ⟨by decide, this comps hd, by decide, not_false⟩
  unfold canonize
  rw [splitOn_append _ _ _ hv, splitOn_none _ _ hdot]
  have hall : ¬ ('[' :: (joinComma comps ++ [']'])) = "all".toList := by
    intro h
    have := congrArg List.head? h
    simp at this
  simp only [if_neg hall, if_true, List.dropLast_concat]
  have h1 := (split_comma comps hne hc hw).1
  congr 1
  conv_rhs => rw [← h1, List.map_map]
  rfl

/-! ### Order of application -/

theorem strLe_total : ∀ a b : Str, strLe a b = true ∨ strLe b a = true
  | [], b => Or.inl (by simp [strLe])
  | _ :: _, [] => Or.inr (by simp [strLe])
  | a :: s, b :: t => by
    simp only [strLe]
    rcases lt_trichotomy a.toNat b.toNat with h | h | h
    · left; simp [h]
    · have := strLe_total s t
      simp [h, this]
    · right; simp [h]

theorem strLe_trans : ∀ a b c : Str, strLe a b = true → strLe b c = true → strLe a c = true
  | [], _, _, _, _ => by simp [strLe]
  | _ :: _, [], _, h, _ => by simp [strLe] at h
  | _ :: _, _ :: _, [], _, h => by simp [strLe] at h
  | a :: s, b :: t, c :: u, h1, h2 => by
    simp only [strLe] at *
    have ih := strLe_trans s t u
    split_ifs at h1 h2 ⊢ with p1 p2 p3 p4 p5 p6 p7 p8 <;> first | rfl | omega | exact ih h1 h2

/-- **C124 (order).**  The conditions of a variable are applied sorted by their keys; none is lost or
duplicated. -/
theorem C124_sorted {V : Type*} (l : List (Single V)) :
    (sortConds l).Perm l ∧ (sortConds l).Pairwise fun a b => strLe a.key b.key = true := by
  refine ⟨List.mergeSort_perm _ _, ?_⟩
  have := List.pairwise_mergeSort (le := fun a b : Single V => strLe a.key b.key)
    (fun a b c => strLe_trans a.key b.key c.key)
    (fun a b => by simpa [Bool.or_eq_true] using strLe_total a.key b.key) l
  exact this

/-- **C124 (stability).**  Single conditions made from one condition (equal keys) keep their order. -/
theorem C124_stable {V : Type*} (l : List (Single V)) (k : Str) :
    (sortConds l).filter (fun s => decide (s.key = k)) = l.filter (fun s => decide (s.key = k)) := by
  have hsub : List.Sublist (l.filter fun s => decide (s.key = k)) (sortConds l) := by
    apply List.sublist_mergeSort (fun a b c => strLe_trans a.key b.key c.key)
      (fun a b => by simpa [Bool.or_eq_true] using strLe_total a.key b.key)
    · rw [List.pairwise_filter]
      refine List.pairwise_of_forall ?_
      intro a b ha hb
      have ha' : a.key = k := by simpa using ha
      have hb' : b.key = k := by simpa using hb
      show strLe a.key b.key = true
      rw [ha', hb']
      exact (strLe_total k k).elim id id
    · exact List.filter_sublist
  have h2 := hsub.filter (fun s => decide (s.key = k))
  rw [List.filter_filter] at h2
  simp only [Bool.and_self] at h2
  refine (h2.eq_of_length ?_).symm
  exact (((C124_sorted l).1.filter _).length_eq).symm

theorem strLe_append (a s t : Str) : strLe (a ++ s) (a ++ t) = strLe s t := by
  induction a with
  | nil => rfl
  | cons c a ih => simp [strLe, ih]

theorem strLe_diverge : ∀ n n' x y : Str, ¬ n <+: n' → ¬ n' <+: n →
    strLe (n ++ x) (n' ++ y) = strLe n n'
  | [], _, _, _, h, _ => absurd (List.nil_prefix) h
  | _ :: _, [], _, _, _, h => absurd (List.nil_prefix) h
  | a :: s, b :: t, x, y, h, h' => by
    simp only [List.cons_append, strLe]
    rcases lt_trichotomy a.toNat b.toNat with hl | hl | hl
    · simp [hl]
    · have hab : a = b := Char.ext (UInt32.toNat_inj.mp hl)
      subst hab
      have hs : ¬ s <+: t := fun hc => h (by rw [List.cons_prefix_cons]; exact ⟨rfl, hc⟩)
      have ht : ¬ t <+: s := fun hc => h' (by rw [List.cons_prefix_cons]; exact ⟨rfl, hc⟩)
      simp [strLe_diverge s t x y hs ht]
    · simp [hl]

/-- **C124 (names decide, not positions).**  Two short-syntax conditions of one kind are applied in the
alphabetical order of their names, wherever they stand in the input - if neither name is a prefix of the
other. -/
theorem C124_by_name (pre n n' : Str) (i j : ℕ) (h : ¬ n <+: n') (h' : ¬ n' <+: n) :
    strLe (shortKey pre n i) (shortKey pre n' j) = strLe n n' := by
  unfold shortKey
  rw [strLe_append]
  simp only [strLe, lt_irrefl, if_false]
  exact strLe_diverge n n' _ _ h h'

/-- **C124 (kinds).**  All essential conditions of a variable are applied before all its periodic ones. -/
theorem C124_ebc_first (n n' : Str) (i j : ℕ) :
    strLe (shortKey "ebc".toList n i) (shortKey "epbc".toList n' j) = true ∧
      strLe (shortKey "epbc".toList n' j) (shortKey "ebc".toList n i) = false := by
  constructor <;> simp [shortKey, strLe]

/-- **C124 (finding).**  When one name is a prefix of the other, the number or the character after it
decides: `a_1` is applied before `a`, whatever the positions, although `a` sorts before `a_1`. -/
theorem C124_prefix_counterexample (i j : ℕ) :
    strLe (shortKey "ebc".toList "a_1".toList i) (shortKey "ebc".toList "a".toList j) = true ∧
      strLe (shortKey "ebc".toList "a".toList j) (shortKey "ebc".toList "a_1".toList i) = false := by
  constructor <;> simp [shortKey, strLe]

/-! ### Non-vacuity -/

example : contains "grad".toList ("u".toList ++ '.' :: "all".toList) = false := by decide +kernel

example : (groupByVariables [⟨"k1".toList, [("u.0".toList, 1), ("p.all".toList, 2)]⟩,
    ⟨"k0".toList, [("u.[1,2]".toList, 3)]⟩] []).map (fun g => (String.ofList g.1, g.2.map (·.val))) =
    [("u", [1, 3]), ("p", [2])] := by decide +kernel

example : canonize "u.[0,  2]".toList [] = some ["u.0".toList, "u.2".toList] := by decide +kernel

example : ¬ "left".toList <+: "right".toList ∧ ¬ "right".toList <+: "left".toList := by
  constructor <;> simp [← List.isPrefixOf_iff_prefix, List.isPrefixOf]

example : sortConds [⟨"ebc_b__0".toList, "u.all".toList, 1, false⟩,
    ⟨"ebc_a__1".toList, "u.all".toList, 2, false⟩] =
    [⟨"ebc_a__1".toList, "u.all".toList, 2, false⟩, ⟨"ebc_b__0".toList, "u.all".toList, 1, false⟩] := by
  simp [sortConds, List.mergeSort, List.MergeSort.Internal.splitInTwo, strLe]

end Verif.Cond
