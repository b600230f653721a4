import Verif.Cond.Model
import Mathlib.Data.List.Basic
import Mathlib.Tactic.Linarith

/-!
# C121 (configuration keys), C122 (dispatch by key)
-/

namespace Verif.Cond

/-! ### Keys -/

theorem underscore_suffix_inj (d d' : Str) (hd : '_' ∉ d) (hd' : '_' ∉ d') (a a' : Str)
    (h : a ++ '_' :: d = a' ++ '_' :: d') : a = a' ∧ d = d' := by
  have h2 : d.reverse ++ '_' :: a.reverse = d'.reverse ++ '_' :: a'.reverse := by
    have := congrArg List.reverse h; simpa using this
  have key : ∀ (x x' y y' : Str), '_' ∉ x → '_' ∉ x' → x ++ '_' :: y = x' ++ '_' :: y' →
      x = x' ∧ y = y' := by
    intro x
    induction x with
    | nil =>
      intro x' y y' _ hx' h
      cases x' with
      | nil => exact ⟨rfl, by simpa using h⟩
      | cons b x' => simp only [List.nil_append, List.cons_append, List.cons.injEq] at h
                     exact absurd (h.1 ▸ List.mem_cons_self) hx'
    | cons b x ih =>
      intro x' y y' hx hx' h
      cases x' with
      | nil => simp only [List.nil_append, List.cons_append, List.cons.injEq] at h
               exact absurd (h.1 ▸ List.mem_cons_self) hx
      | cons b' x' =>
        simp only [List.cons_append, List.cons.injEq] at h
        obtain ⟨h1, h2⟩ := ih x' y y' (fun hm => hx (List.mem_cons_of_mem _ hm))
          (fun hm => hx' (List.mem_cons_of_mem _ hm)) h.2
        exact ⟨by rw [h.1, h1], h2⟩
  obtain ⟨h3, h4⟩ := key _ _ _ _ (by simpa using hd) (by simpa using hd') h2
  exact ⟨by simpa using h4, by simpa using h3⟩

theorem digits_inj {i j : ℕ} (h : Nat.toDigits 10 i = Nat.toDigits 10 j) : i = j := by
  have := congrArg (fun d => Nat.ofDigitChars 10 d 0) h
  simpa [Nat.ofDigitChars_ten_toDigits] using this

/-- A short-syntax key determines the name and the number. -/
theorem shortKey_inj (pre n n' : Str) (i j : ℕ) (h : shortKey pre n i = shortKey pre n' j) :
    n = n' ∧ i = j := by
  unfold shortKey at h
  have h1 := List.append_cancel_left h
  simp only [List.cons.injEq, true_and] at h1
  have h2 : (n ++ ['_']) ++ '_' :: Nat.toDigits 10 i = (n' ++ ['_']) ++ '_' :: Nat.toDigits 10 j := by
    simpa using h1
  obtain ⟨h3, h4⟩ := underscore_suffix_inj _ _ Nat.underscore_not_in_toDigits
    Nat.underscore_not_in_toDigits _ _ h2
  exact ⟨List.append_cancel_right h3, digits_inj h4⟩

theorem longKey_inj (pre n n' : Str) (h : longKey pre n = longKey pre n') : n = n' := by
  unfold longKey at h
  have h1 := List.append_cancel_left h
  simpa using h1

/-! ### The dictionary -/

theorem dictSet_fresh {α : Type*} (d : List (Str × α)) (k : Str) (v : α) (h : k ∉ d.map Prod.fst) :
    dictSet d k v = d ++ [(k, v)] := by
  unfold dictSet
  rw [if_neg]
  intro hc
  rw [List.any_eq_true] at hc
  obtain ⟨p, hp, he⟩ := hc
  exact h (List.mem_map.mpr ⟨p, hp, by simpa using he⟩)

theorem foldl_dictSet {α β : Type*} (f : β → Str × α) (l : List β) : ∀ d : List (Str × α),
    (d.map Prod.fst ++ l.map fun b => (f b).1).Nodup →
    l.foldl (fun d b => dictSet d (f b).1 (f b).2) d = d ++ l.map f := by
  induction l with
  | nil => intro d _; simp
  | cons b l ih =>
    intro d hn
    have hfresh : (f b).1 ∉ d.map Prod.fst := by
      intro hm
      rw [List.nodup_append] at hn
      exact hn.2.2 _ hm _ (by simp) rfl
    rw [List.foldl_cons, dictSet_fresh d _ _ hfresh, ih]
    · simp
    · simpa using hn

/-- What every condition-like item stores: the key has one of the two forms. -/
def KeyForm {V : Type*} (pre : Str) (item : Str → ℕ → Entry V → Str × Conf V) : Prop :=
  (∀ key ii vals, (item key ii (.tuple vals)).1 = shortKey pre key ii) ∧
  (∀ key ii name fields, (item key ii (.full name fields)).1 = longKey pre name)

theorem keyForm_cond {V : Type*} (pre : Str) : KeyForm pre (condItem (V := V) pre) := by
  constructor
  · intro key ii vals; simp only [condItem]; split_ifs <;> rfl
  · intro key ii name fields; rfl

theorem keyForm_epbc {V : Type*} (pre : Str) : KeyForm pre (epbcItem (V := V) pre) := by
  constructor
  · intro key ii vals; simp only [epbcItem]; split_ifs <;> rfl
  · intro key ii name fields; rfl

/-- The names given in the long syntax, in order. -/
def longNames {V : Type*} (adict : List (Str × Entry V)) : List Str :=
  adict.filterMap fun p => match p.2 with
    | .tuple _ => none
    | .full name _ => some name

theorem nodup_keys {V : Type*} (pre : Str) (item : Str → ℕ → Entry V → Str × Conf V)
    (hk : KeyForm pre item) (adict : List (Str × Entry V))
    (hl : (longNames adict).Nodup)
    (hs : ∀ n ∈ longNames adict, ∀ x i, n ≠ x ++ '_' :: '_' :: Nat.toDigits 10 i) (k0 : ℕ) :
    ((adict.zipIdx k0).map fun p => (item p.1.1 p.2 p.1.2).1).Nodup := by
  induction adict generalizing k0 with
  | nil => simp
  | cons p t ih =>
    obtain ⟨key, e⟩ := p
    have ht : ((t.zipIdx (k0 + 1)).map fun p => (item p.1.1 p.2 p.1.2).1).Nodup := by
      apply ih
      · cases e with
        | tuple v => simpa [longNames] using hl
        | full n f =>
          simp only [longNames, List.filterMap_cons] at hl
          exact (List.nodup_cons.mp hl).2
      · intro n hn
        apply hs
        cases e with
        | tuple v => simpa [longNames] using hn
        | full n f => simp only [longNames, List.filterMap_cons]; exact List.mem_cons_of_mem _ hn
    rw [List.zipIdx_cons, List.map_cons, List.nodup_cons]
    refine ⟨?_, ht⟩
    rw [List.mem_map]
    rintro ⟨⟨⟨key', e'⟩, j⟩, hm, heq⟩
    have hj : k0 + 1 ≤ j := List.le_snd_of_mem_zipIdx hm
    have hmem : (key', e') ∈ t := List.fst_mem_of_mem_zipIdx hm
    simp only at heq
    cases e with
    | tuple v =>
      rw [hk.1] at heq
      cases e' with
      | tuple v' =>
        rw [hk.1] at heq
        have := (shortKey_inj _ _ _ _ _ heq).2
        omega
      | full n' f' =>
        rw [hk.2] at heq
        refine hs n' ?_ key k0 ?_
        · simp only [longNames, List.filterMap_cons]
          exact List.mem_filterMap.mpr ⟨_, hmem, rfl⟩
        · exact longKey_inj pre _ _ heq
    | full n f =>
      rw [hk.2] at heq
      cases e' with
      | tuple v' =>
        rw [hk.1] at heq
        refine hs n ?_ key' j ?_
        · simp [longNames]
        · exact (longKey_inj pre _ _ heq).symm
      | full n' f' =>
        rw [hk.2] at heq
        have := longKey_inj pre _ _ heq
        subst this
        simp only [longNames, List.filterMap_cons, List.nodup_cons] at hl
        exact hl.1 (List.mem_filterMap.mpr ⟨_, hmem, rfl⟩)

theorem kept {V : Type*} (pre : Str) (item : Str → ℕ → Entry V → Str × Conf V)
    (hk : KeyForm pre item) (adict : List (Str × Entry V)) (hl : (longNames adict).Nodup)
    (hs : ∀ n ∈ longNames adict, ∀ x i, n ≠ x ++ '_' :: '_' :: Nat.toDigits 10 i) :
    transform item adict = adict.zipIdx.map (fun p => item p.1.1 p.2 p.1.2) ∧
      ((transform item adict).map Prod.fst).Nodup ∧ (transform item adict).length = adict.length := by
  have hn := nodup_keys pre item hk adict hl hs 0
  have h : transform item adict = adict.zipIdx.map (fun p => item p.1.1 p.2 p.1.2) := by
    unfold transform
    rw [foldl_dictSet (fun p : (Str × Entry V) × ℕ => item p.1.1 p.2 p.1.2)]
    · simp
    · simpa using hn
  refine ⟨h, ?_, ?_⟩
  · rw [h, List.map_map]; exact hn
  · rw [h]; simp

/-- **C121 (nothing is lost, order kept).**  The configuration dictionary of essential (initial)
conditions keeps every item of the input, in its order, under pairwise different keys - for any mixture
of the short and the long syntax - provided the long-syntax names are different and none of them ends in
`__<number>`. -/
theorem C121_kept {V : Type*} (pre : Str) (adict : List (Str × Entry V)) (hl : (longNames adict).Nodup)
    (hs : ∀ n ∈ longNames adict, ∀ x i, n ≠ x ++ '_' :: '_' :: Nat.toDigits 10 i) :
    transform (condItem pre) adict = adict.zipIdx.map (fun p => condItem pre p.1.1 p.2 p.1.2) ∧
      ((transform (condItem pre) adict).map Prod.fst).Nodup ∧
      (transform (condItem pre) adict).length = adict.length :=
  kept pre _ (keyForm_cond pre) adict hl hs

/-- **C121 (periodic conditions).**  The same for periodic conditions. -/
theorem C121_kept_epbc {V : Type*} (pre : Str) (adict : List (Str × Entry V))
    (hl : (longNames adict).Nodup)
    (hs : ∀ n ∈ longNames adict, ∀ x i, n ≠ x ++ '_' :: '_' :: Nat.toDigits 10 i) :
    transform (epbcItem pre) adict = adict.zipIdx.map (fun p => epbcItem pre p.1.1 p.2 p.1.2) ∧
      ((transform (epbcItem pre) adict).map Prod.fst).Nodup ∧
      (transform (epbcItem pre) adict).length = adict.length :=
  kept pre _ (keyForm_epbc pre) adict hl hs

/-- **C121 (short syntax).**  A dictionary of short-syntax essential (or initial) conditions is never
subject to any clash of keys. -/
theorem C121_short {V : Type*} (pre : Str) (l : List (Str × List V)) :
    (transform (condItem pre) (l.map fun p => (p.1, Entry.tuple p.2))).map (fun c => (c.1, c.2.name)) =
      l.zipIdx.map fun p => (shortKey pre p.1.1 p.2, p.1.1) := by
  have hl : longNames (l.map fun p => (p.1, Entry.tuple p.2)) = [] := by
    unfold longNames
    rw [List.filterMap_map, List.filterMap_eq_nil_iff]
    intro p _; rfl
  rw [(kept pre _ (keyForm_cond pre) _ (by rw [hl]; exact List.nodup_nil)
    (by rw [hl]; simp)).1]
  rw [List.zipIdx_map, List.map_map, List.map_map]
  apply List.map_congr_left
  rintro ⟨⟨k, v⟩, i⟩ _
  simp only [Function.comp, Prod.map, condItem]
  split_ifs <;> rfl

/-- **C121 (attributes).**  A two-tuple gives the region and the dofs, a three-tuple the region, the
times and the dofs. -/
theorem C121_attributes {V : Type*} (pre key : Str) (ii : ℕ) (region times dofs : V) :
    (condItem pre key ii (.tuple [region, dofs])).2.attrs =
        [("region".toList, region), ("dofs".toList, dofs)] ∧
      (condItem pre key ii (.tuple [region, times, dofs])).2.attrs =
        [("region".toList, region), ("times".toList, times), ("dofs".toList, dofs)] := ⟨rfl, rfl⟩

/-- **C121 (attributes of periodic conditions).** -/
theorem C121_attributes_epbc {V : Type*} (pre key : Str) (ii : ℕ) (region times dofs mtch : V) :
    (epbcItem pre key ii (.tuple [region, dofs, mtch])).2.attrs =
        [("region".toList, region), ("dofs".toList, dofs), ("match".toList, mtch)] ∧
      (epbcItem pre key ii (.tuple [region, times, dofs, mtch])).2.attrs =
        [("region".toList, region), ("times".toList, times), ("dofs".toList, dofs),
          ("match".toList, mtch)] := ⟨rfl, rfl⟩

/-- **C121 (finding).**  Two long-syntax conditions with the same `name` share a key: the first one is
silently dropped. -/
theorem C121_same_name_lost {V : Type*} (pre k1 k2 name : Str) (f1 f2 : List (Str × V)) :
    transform (condItem pre) [(k1, .full name f1), (k2, .full name f2)] =
      [(longKey pre name, ⟨name, f2⟩)] := by
  simp [transform, condItem, dictSet, List.zipIdx]

/-! ### Dispatch -/

/-- The prefix used by the configuration for each class of conditions -
`/repo/sfepy/base/conf.py:92-99,122,148-149`. -/
def prefixOf : Kind → Str
  | .ebc => "ebc".toList
  | .epbc => "epbc".toList
  | .lcbc => "lcbc".toList
  | .dgebc => "dgebc".toList
  | .dgepbc => "dgepbc".toList
  | .ic => "ic".toList

/-- **C122 (dispatch).**  Whatever the name of a condition - it may itself contain `ebc`, `ic` or
underscores - the configuration key made for its class is recognized as that class. -/
theorem C122_dispatch (k : Kind) (name : Str) (ii : ℕ) :
    kindOf (shortKey (prefixOf k) name ii) = some k ∧ kindOf (longKey (prefixOf k) name) = some k := by
  constructor <;> cases k <;>
    simp [shortKey, longKey, prefixOf, kindOf, List.isPrefixOf, contains]

/-- **C122 (finding).**  A key of none of the known classes that contains `ic` anywhere is taken for an
initial condition (e.g. `dynamic_bc_1`), instead of being rejected. -/
theorem C122_ic_anywhere (a b : Str) (h : ∀ k : Kind, k ≠ .ic → ¬ prefixOf k <+: a ++ 'i' :: 'c' :: b) :
    kindOf (a ++ 'i' :: 'c' :: b) = some .ic := by
  have hc : contains "ic".toList (a ++ 'i' :: 'c' :: b) = true := by
    induction a with
    | nil => simp [contains, List.isPrefixOf]
    | cons c a ih =>
      rw [List.cons_append, contains, Bool.or_eq_true]
      right
      have aux : ∀ a : Str, contains "ic".toList (a ++ 'i' :: 'c' :: b) = true := by
        intro a
        induction a with
        | nil => simp [contains, List.isPrefixOf]
        | cons c a ih => rw [List.cons_append, contains, ih, Bool.or_true]
      exact aux a
  unfold kindOf
  have g : ∀ k : Kind, k ≠ .ic → (prefixOf k).isPrefixOf (a ++ 'i' :: 'c' :: b) = false := by
    intro k hk
    rw [Bool.eq_false_iff, ne_eq, List.isPrefixOf_iff_prefix]
    exact h k hk
  have h1 := g .ebc (by decide)
  have h2 := g .epbc (by decide)
  have h3 := g .lcbc (by decide)
  have h4 := g .dgebc (by decide)
  have h5 := g .dgepbc (by decide)
  simp only [prefixOf] at h1 h2 h3 h4 h5
  simp only [h1, h2, h3, h4, h5, hc, if_true]
  rfl

/-! ### Non-vacuity -/

example : shortKey "ebc".toList "fix_left".toList 12 = "ebc_fix_left__12".toList := by decide +kernel

example : (transform (condItem "ebc".toList)
    [("a".toList, .tuple [1, 2]), ("x".toList, .full "b".toList []), ("a".toList, .tuple [3, 4, 5])]).map
      (fun c => (String.ofList c.1, c.2.attrs.map Prod.snd)) =
    [("ebc_a__0", [1, 2]), ("ebc_b", []), ("ebc_a__2", [3, 4, 5])] := by decide +kernel

example : (∀ k : Kind, k ≠ .ic → ¬ prefixOf k <+: "dynam".toList ++ 'i' :: 'c' :: "_bc_1".toList) := by
  intro k hk; cases k <;> simp_all [prefixOf, ← List.isPrefixOf_iff_prefix, List.isPrefixOf]

end Verif.Cond
