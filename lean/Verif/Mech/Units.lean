/-
C98: units of physical quantities (sfepy/mechanics/units.py).

Names are lists of characters, rational numbers stand for floats; sympy expressions are modelled by a small
syntax of products, quotients and powers.
-/
import Mathlib.Algebra.Order.Field.Rat
import Mathlib.Algebra.Order.Field.Power
import Mathlib.Algebra.BigOperators.Group.List.Basic
import Mathlib.Tactic.Linarith
import Mathlib.Tactic.FieldSimp
import Mathlib.Tactic.NormNum
import Mathlib.Tactic.Ring
import Mathlib.Tactic.LinearCombination

namespace Verif.Units

/-! ## Model -/

/-- A string. -/
abbrev Name := List Char

/-- The table `prefixes` before the update, sfepy/mechanics/units.py:35-47. -/
def namedPrefixes : List (Name × ℚ) :=
  [(['p'], 1 / 10 ^ 12), (['n'], 1 / 10 ^ 9), (['m', 'u'], 1 / 10 ^ 6), (['m'], 1 / 10 ^ 3), (['c'], 1 / 10 ^ 2),
   ([], 1), (['d'], 10), (['k'], 10 ^ 3), (['M'], 10 ^ 6), (['G'], 10 ^ 9), (['T'], 10 ^ 12)]

/-- The decimal digits of a number below 100. -/
def digits (k : ℕ) : Name :=
  if k < 10 then [Char.ofNat (48 + k)] else [Char.ofNat (48 + k / 10), Char.ofNat (48 + k % 10)]

/-- `num_prefixes` with the values, sfepy/mechanics/units.py:51-52. -/
def numPrefixes : List (Name × ℚ) :=
  ((List.range 20).map fun k : ℕ => ('-' :: digits (20 - k), (1 : ℚ) / 10 ^ (20 - k))) ++
    (List.range 21).map fun k : ℕ => (digits k, (10 : ℚ) ^ k)

/-- `prefixes` after the update. -/
def prefixes : List (Name × ℚ) := namedPrefixes ++ numPrefixes

/-- The lookup in a dictionary. -/
def look {α β : Type} [DecidableEq α] (d : List (α × β)) (k : α) : Option β :=
  (d.find? fun e => decide (e.1 = k)).map Prod.snd

/-- A unit. -/
structure Unt where
  name : Name
  pre : Name
  unit : Name
  coef : ℚ

/-- The loop of `Unit.__init__`, sfepy/mechanics/units.py:125-128; `last` is the value of the loop variable. -/
def pickPrefix (name : Name) : List Name → Name → Name
  | [], last => last
  | p :: ps, _ => if p = name.take p.length ∧ p.length < name.length then p else pickPrefix name ps p

/-- `sorted(keys, reverse=True)`. -/
def sortedKeys (d : List (Name × ℚ)) : List Name :=
  (d.map Prod.fst).mergeSort fun a b => decide (b ≤ a)

/-- `Unit.__init__`, sfepy/mechanics/units.py:122-134, with the table of prefixes `d`. -/
def mkUnit (d : List (Name × ℚ)) (name : Name) : Option Unt :=
  let p := pickPrefix name (sortedKeys d) []
  (look d p).map fun c => { name := name, pre := p, unit := name.drop p.length, coef := c }

/-- `nm.searchsorted(coefs, x, side='left')`: the number of smaller items. -/
def searchLeft (coefs : List ℚ) (x : ℚ) : ℕ := coefs.countP fun c => decide (c < x)

/-- `Unit.get_prefix`, sfepy/mechanics/units.py:99-120; `inv_prefixes` is the inverse of the table without the
numbers; `none` is an IndexError or a KeyError. -/
def getPrefix (coef bias : ℚ) (om : List Name) : Option (Name × ℚ) :=
  let values := (prefixes.filter fun e => !decide (e.1 ∈ om)).map Prod.snd
  let coefs := values.mergeSort fun a b => decide (a ≤ b)
  let ii := searchLeft coefs (bias * coef)
  let ii := if ii = coefs.length then ii - 1 else ii
  coefs[ii]?.bind fun cc => (look (namedPrefixes.map fun e => (e.2, e.1)) cc).map fun p => (p, coef / cc)

/-- The default `omit`, sfepy/mechanics/units.py:105-106. -/
def omitDefault : List Name := numPrefixes.map Prod.fst

/-- Expressions of units. -/
inductive Expr where
  | sym (s : Name)
  | mul (a b : Expr)
  | div (a b : Expr)
  | pow (a : Expr) (k : ℕ)

/-- `subs` by expressions. -/
def Expr.subs (d : List (Name × Expr)) : Expr → Expr
  | .sym s => (look d s).getD (.sym s)
  | .mul a b => .mul (a.subs d) (b.subs d)
  | .div a b => .div (a.subs d) (b.subs d)
  | .pow a k => .pow (a.subs d) k

/-- `float(value.subs(dict))`; `none` is the error of a symbol that is left. -/
def Expr.eval (d : List (Name × ℚ)) : Expr → Option ℚ
  | .sym s => look d s
  | .mul a b => (a.eval d).bind fun x => (b.eval d).map fun y => x * y
  | .div a b => (a.eval d).bind fun x => (b.eval d).map fun y => x / y
  | .pow a k => (a.eval d).map fun x => x ^ k

/-- `atoms`. -/
def Expr.atoms : Expr → List Name
  | .sym s => [s]
  | .mul a b => a.atoms ++ b.atoms
  | .div a b => a.atoms ++ b.atoms
  | .pow a _ => a.atoms

def kg : Name := ['k', 'g']
def m : Name := ['m']
def s : Name := ['s']
def C : Name := ['C']
def newton : Name := ['N', 'e', 'w', 't', 'o', 'n']
def pa : Name := ['P', 'a']
def joule : Name := ['J']

/-- `derived_units`, sfepy/mechanics/units.py:21-25. -/
def derivedUnits : List (Name × Expr) :=
  [(newton, .div (.mul (.sym kg) (.sym m)) (.pow (.sym s) 2)),
   (pa, .div (.sym kg) (.mul (.sym m) (.pow (.sym s) 2))),
   (joule, .div (.mul (.sym kg) (.pow (.sym m) 2)) (.pow (.sym s) 2))]

/-- The quantities. -/
inductive Qty where
  | density | force | stress | energy | thermalExpandability
  deriving DecidableEq

/-- `units_of_quantities`, sfepy/mechanics/units.py:27-33. -/
def unitsOf : Qty → Expr
  | .density => .div (.sym kg) (.pow (.sym m) 3)
  | .force => .sym newton
  | .stress => .sym pa
  | .energy => .sym joule
  | .thermalExpandability => .div (.sym pa) (.sym C)

/-- `Quantity.__init__`, sfepy/mechanics/units.py:183-221: the coefficient; later units of a unit set overwrite
the earlier ones with the same base unit. -/
def quantityCoef (q : Qty) (unitSet : List Unt) : Option ℚ :=
  let value := (unitsOf q).subs derivedUnits
  let defUnits := value.atoms.filterMap (mkUnit prefixes)
  let defNames := defUnits.map fun u => (u.name, u.coef)
  let units := unitSet.reverse.map fun u => (u.unit, u.coef)
  let coefDict := defUnits.filterMap fun u => (look units u.unit).map fun c => (u.name, c)
  (value.eval defNames).bind fun dc => (value.eval coefDict).map fun rc => rc / dc

/-- `Quantity.__call__`, sfepy/mechanics/units.py:223-234: the multiplier and the prefix. -/
def quantityCall (coef : ℚ) (pre : Option Name) : Option (Name × ℚ) :=
  match pre with
  | none => getPrefix coef (1 / 10) ([['c'], ['d']] ++ omitDefault)
  | some p => (look prefixes p).map fun c => (p, coef / c)

/-- The kinds of `apply_unit_multipliers`. -/
inductive Kind where
  | one | time | length | mass | frequency | waveNumber | velocity | acceleration | density | force | stress
  | dynViscosity | compressibility | energy
  deriving DecidableEq

/-- `coefs`, sfepy/mechanics/units.py:271-286. -/
def kindCoef (a b c : ℚ) : Kind → ℚ
  | .one => 1 / 1
  | .time => 1 / a
  | .length => 1 / b
  | .mass => 1 / c
  | .frequency => 1 / (1 / a)
  | .waveNumber => 1 / (1 / b)
  | .velocity => 1 / (b / a)
  | .acceleration => 1 / (b / a ^ 2)
  | .density => 1 / (c / b ^ 3)
  | .force => 1 / ((c * b) / a ^ 2)
  | .stress => 1 / (c / (b * a ^ 2))
  | .dynViscosity => 1 / (c / (b * a))
  | .compressibility => 1 / ((b * a ^ 2) / c)
  | .energy => 1 / (c * b ^ 2 / a ^ 2)

/-- `apply_unit_multipliers`, sfepy/mechanics/units.py:259-291; an index error is `none`. -/
def applyMultipliers (values : List ℚ) (kinds : List Kind) (a b c : ℚ) : Option (List ℚ) :=
  if kinds.length ≤ values.length then
    some (List.zipWith (fun k v => kindCoef a b c k * v) kinds values)
  else none

/-- `apply_units_to_pars`, sfepy/mechanics/units.py:293-319. -/
def applyToPars {K : Type} [DecidableEq K] (pars : List (K × ℚ)) (parsKinds : List (K × Kind)) (a b c : ℚ) :
    Option (List (K × ℚ)) :=
  (pars.mapM fun e => look parsKinds e.1).bind fun kinds =>
    (applyMultipliers (pars.map Prod.snd) kinds a b c).map fun vs => List.zip (pars.map Prod.fst) vs

/-! ## Names of units -/

theorem look_isSome {α β : Type} [DecidableEq α] (d : List (α × β)) (k : α) (h : k ∈ d.map Prod.fst) :
    ∃ v, look d k = some v ∧ (k, v) ∈ d := by
  unfold look
  cases hf : d.find? fun e => decide (e.1 = k) with
  | none =>
    obtain ⟨e, he, rfl⟩ := List.mem_map.1 h
    have := List.find?_eq_none.1 hf e he
    simp at this
  | some e =>
    have h1 := List.find?_some hf
    have h2 := List.mem_of_find?_eq_some hf
    rw [decide_eq_true_eq] at h1
    exact ⟨e.2, rfl, by rw [← h1]; exact h2⟩

theorem le_of_prefix (a b : Name) (h : a <+: b) : a ≤ b := by
  obtain ⟨t, rfl⟩ := h
  exact List.le_append_left

theorem sortedKeys_spec (d : List (Name × ℚ)) :
    (sortedKeys d).Pairwise (fun a b => b ≤ a) ∧ ∀ k, k ∈ sortedKeys d ↔ k ∈ d.map Prod.fst := by
  constructor
  · have := List.pairwise_mergeSort (le := fun a b : Name => decide (b ≤ a))
      (fun a b c h1 h2 => by
        rw [decide_eq_true_eq] at *
        exact List.le_trans h2 h1)
      (fun a b => by
        rw [Bool.or_eq_true, decide_eq_true_eq, decide_eq_true_eq]
        exact List.le_total b a)
      (d.map Prod.fst)
    exact this.imp fun h => by simpa using h
  · intro k
    exact (List.mergeSort_perm _ _).mem_iff

theorem pickPrefix_spec (name : Name) (hn : name ≠ []) (l : List Name) (hs : l.Pairwise fun a b => b ≤ a)
    (h0 : [] ∈ l) (last : Name) :
    pickPrefix name l last ∈ l ∧ pickPrefix name l last <+: name ∧ pickPrefix name l last ≠ name ∧
    ∀ p ∈ l, p <+: name → p ≠ name → p.length ≤ (pickPrefix name l last).length := by
  induction l generalizing last with
  | nil => simp at h0
  | cons q l ih =>
    rw [List.pairwise_cons] at hs
    unfold pickPrefix
    split
    · rename_i hq
      have hpre : q <+: name := by rw [hq.1]; exact List.take_prefix _ _
      refine ⟨List.mem_cons_self, hpre, fun h => by rw [h] at hq; exact lt_irrefl _ hq.2, ?_⟩
      intro p hp h1 h2
      rcases List.mem_cons.1 hp with rfl | hp
      · exact le_refl _
      · have h3 := hs.1 p hp
        by_contra hlt
        rw [not_le] at hlt
        have h4 : q <+: p := List.prefix_of_prefix_length_le hpre h1 (le_of_lt hlt)
        have h5 := le_of_prefix q p h4
        have h6 : p = q := List.le_antisymm h3 h5
        rw [h6] at hlt
        exact lt_irrefl _ hlt
    · rename_i hq
      have hq' : q <+: name → q = name := by
        intro h1
        by_contra h2
        apply hq
        refine ⟨(List.prefix_iff_eq_take.1 h1), ?_⟩
        exact lt_of_le_of_ne h1.length_le fun h => h2 (h1.eq_of_length h)
      have h0' : [] ∈ l := by
        rcases List.mem_cons.1 h0 with h | h
        · exact absurd (hq' (h ▸ List.nil_prefix)) (fun he => hn (by rw [← he, ← h]))
        · exact h
      obtain ⟨i1, i2, i3, i4⟩ := ih hs.2 h0' q
      refine ⟨List.mem_cons_of_mem _ i1, i2, i3, fun p hp h1 h2 => ?_⟩
      rcases List.mem_cons.1 hp with rfl | hp
      · exact absurd (hq' h1) h2
      · exact i4 p hp h1 h2

/-- **C98.**  For every table of prefixes containing the empty one, and every nonempty name, a unit is the longest
prefix of the table that leaves something of the name, with its coefficient, and the rest of the name. -/
theorem C98_unit (d : List (Name × ℚ)) (hd : [] ∈ d.map Prod.fst) (name : Name) (hn : name ≠ []) :
    ∃ u, mkUnit d name = some u ∧ u.name = name ∧ u.pre ++ u.unit = name ∧ u.unit ≠ [] ∧
      (u.pre, u.coef) ∈ d ∧
      ∀ p ∈ d.map Prod.fst, ∀ rest, p ++ rest = name → rest ≠ [] → p.length ≤ u.pre.length := by
  obtain ⟨hs, hm⟩ := sortedKeys_spec d
  obtain ⟨i1, i2, i3, i4⟩ := pickPrefix_spec name hn (sortedKeys d) hs ((hm _).2 hd) []
  obtain ⟨v, hv, hv'⟩ := look_isSome d _ ((hm _).1 i1)
  obtain ⟨t, ht⟩ := i2
  refine ⟨⟨name, pickPrefix name (sortedKeys d) [], name.drop (pickPrefix name (sortedKeys d) []).length, v⟩,
    by unfold mkUnit; simp only [hv, Option.map_some], rfl, ?_, ?_, hv', ?_⟩
  · change pickPrefix name (sortedKeys d) [] ++ name.drop (pickPrefix name (sortedKeys d) []).length = name
    generalize pickPrefix name (sortedKeys d) [] = p at ht
    subst ht
    simp
  · simp only [ne_eq, List.drop_eq_nil_iff, not_le]
    refine lt_of_le_of_ne (List.IsPrefix.length_le ⟨t, ht⟩) fun h => i3 ?_
    exact List.IsPrefix.eq_of_length ⟨t, ht⟩ h
  · intro p hp rest hr hne
    refine i4 p ((hm _).2 hp) ⟨rest, hr⟩ fun h => hne ?_
    rw [h] at hr
    exact List.append_right_eq_self.1 hr

/-! ## Prefixes of coefficients -/

theorem search_spec (l : List ℚ) (hs : l.Pairwise (· ≤ ·)) (hl : l ≠ []) (x : ℚ) :
    ∃ cc, l[if searchLeft l x = l.length then searchLeft l x - 1 else searchLeft l x]? = some cc ∧ cc ∈ l ∧
      ((x ≤ cc ∧ ∀ c ∈ l, x ≤ c → cc ≤ c) ∨ (cc < x ∧ ∀ c ∈ l, c ≤ cc)) := by
  have split : ∀ l : List ℚ, l.Pairwise (· ≤ ·) → ∀ i (h : i < l.length), l[i] < x ↔ i < searchLeft l x := by
    intro l
    induction l with
    | nil => intro _ i h; simp at h
    | cons a l ih =>
      intro hs i h
      rw [List.pairwise_cons] at hs
      have hcount : searchLeft (a :: l) x = searchLeft l x + if a < x then 1 else 0 := by
        unfold searchLeft
        rw [List.countP_cons]
        simp
      rw [hcount]
      cases i with
      | zero =>
        rw [List.getElem_cons_zero]
        by_cases ha : a < x
        · simp [ha]
        · have : searchLeft l x = 0 := by
            unfold searchLeft
            rw [List.countP_eq_zero]
            intro c hc
            rw [decide_eq_true_eq]
            exact not_lt.2 (le_trans (not_lt.1 ha) (hs.1 c hc))
          simp [ha, this]
      | succ i =>
        rw [List.getElem_cons_succ]
        have hi : i < l.length := by simpa using h
        rw [ih hs.2 i hi]
        by_cases ha : a < x
        · simp [ha]
        · have hx : x ≤ l[i] := le_trans (not_lt.1 ha) (hs.1 _ (List.getElem_mem hi))
          have h0 : ¬ i < searchLeft l x := by
            rw [← ih hs.2 i hi]; exact not_lt.2 hx
          simp only [ha, if_false, add_zero]
          constructor
          · intro h1; exact absurd h1 h0
          · intro h1; omega
  have hle : searchLeft l x ≤ l.length := List.countP_le_length
  have hpos : 0 < l.length := List.length_pos_iff.2 hl
  have mono : ∀ i j (hi : i < l.length) (hj : j < l.length), i ≤ j → l[i] ≤ l[j] := by
    intro i j hi hj hij
    rcases Nat.lt_or_eq_of_le hij with h | h
    · exact List.pairwise_iff_getElem.1 hs i j hi hj h
    · subst h; exact le_refl _
  by_cases h : searchLeft l x = l.length
  · rw [if_pos h]
    have hi : searchLeft l x - 1 < l.length := by omega
    refine ⟨l[searchLeft l x - 1], List.getElem?_eq_getElem hi, List.getElem_mem hi, Or.inr ⟨?_, ?_⟩⟩
    · rw [split l hs _ hi]; omega
    · intro c hc
      obtain ⟨j, hj, rfl⟩ := List.getElem_of_mem hc
      exact mono _ _ hj hi (by omega)
  · rw [if_neg h]
    have hi : searchLeft l x < l.length := by omega
    refine ⟨l[searchLeft l x], List.getElem?_eq_getElem hi, List.getElem_mem hi, Or.inl ⟨?_, ?_⟩⟩
    · rw [← not_lt, split l hs _ hi]; omega
    · intro c hc hxc
      obtain ⟨j, hj, rfl⟩ := List.getElem_of_mem hc
      refine mono _ _ hi hj ?_
      by_contra hlt
      exact absurd ((split l hs j hj).2 (by omega)) (not_lt.2 hxc)

theorem named_inj : ∀ e ∈ namedPrefixes, ∀ f ∈ namedPrefixes, e.2 = f.2 → e = f := by decide +kernel

theorem named_pos : ∀ e ∈ namedPrefixes, 0 < e.2 := by decide +kernel

theorem prefixes_pos : ∀ e ∈ prefixes, 0 < e.2 := by decide +kernel

/-- **C98.**  If the numbers are omitted (as by default) and some prefix is left, `get_prefix` returns a prefix
that is not omitted, with the multiplier that gives the coefficient back; its value is the smallest one not
below `bias` times the coefficient, or the largest one if all are below. -/
theorem C98_get_prefix (coef bias : ℚ) (om : List Name) (hnum : ∀ e ∈ numPrefixes, e.1 ∈ om)
    (hsome : ∃ e ∈ namedPrefixes, e.1 ∉ om) :
    ∃ p mul c, getPrefix coef bias om = some (p, mul) ∧ p ∉ om ∧ (p, c) ∈ namedPrefixes ∧ mul * c = coef ∧
      ((bias * coef ≤ c ∧ ∀ e ∈ namedPrefixes, e.1 ∉ om → bias * coef ≤ e.2 → c ≤ e.2) ∨
        (c < bias * coef ∧ ∀ e ∈ namedPrefixes, e.1 ∉ om → e.2 ≤ c)) := by
  have hf : (prefixes.filter fun e => !decide (e.1 ∈ om)) = namedPrefixes.filter fun e => !decide (e.1 ∈ om) := by
    unfold prefixes
    rw [List.filter_append]
    have : numPrefixes.filter (fun e => !decide (e.1 ∈ om)) = [] := by
      rw [List.filter_eq_nil_iff]
      intro e he
      simp [hnum e he]
    rw [this, List.append_nil]
  set values := (namedPrefixes.filter fun e => !decide (e.1 ∈ om)).map Prod.snd with hv
  have hmem : ∀ c, c ∈ values ↔ ∃ e ∈ namedPrefixes, e.1 ∉ om ∧ e.2 = c := by
    intro c
    rw [hv]
    simp only [List.mem_map, List.mem_filter, Bool.not_eq_true', decide_eq_false_iff_not]
    constructor
    · rintro ⟨e, ⟨h1, h2⟩, h3⟩; exact ⟨e, h1, h2, h3⟩
    · rintro ⟨e, h1, h2, h3⟩; exact ⟨e, ⟨h1, h2⟩, h3⟩
  set coefs := values.mergeSort fun a b => decide (a ≤ b) with hc
  have hcm : ∀ c, c ∈ coefs ↔ c ∈ values := fun c => (List.mergeSort_perm _ _).mem_iff
  have hsorted : coefs.Pairwise (· ≤ ·) := by
    have := List.pairwise_mergeSort (le := fun a b : ℚ => decide (a ≤ b))
      (fun a b c h1 h2 => by
        rw [decide_eq_true_eq] at *
        exact le_trans h1 h2)
      (fun a b => by
        rw [Bool.or_eq_true, decide_eq_true_eq, decide_eq_true_eq]
        exact le_total a b)
      values
    exact this.imp fun h => by simpa using h
  have hne : coefs ≠ [] := by
    obtain ⟨e, he, ho⟩ := hsome
    intro h
    have := (hcm e.2).2 ((hmem e.2).2 ⟨e, he, ho, rfl⟩)
    rw [h] at this
    simp at this
  obtain ⟨cc, h1, h2, h3⟩ := search_spec coefs hsorted hne (bias * coef)
  obtain ⟨e, he, ho, hecc⟩ := (hmem cc).1 ((hcm cc).1 h2)
  obtain ⟨p, hp, hp'⟩ := look_isSome (namedPrefixes.map fun e => (e.2, e.1)) cc (by
    rw [List.map_map]
    exact List.mem_map.2 ⟨e, he, hecc⟩)
  obtain ⟨f, hfm, hfe⟩ := List.mem_map.1 hp'
  have hef : f = e := named_inj f hfm e he (by rw [hecc]; exact congrArg Prod.fst hfe)
  have hpe : p = e.1 := by rw [← hef]; exact (congrArg Prod.snd hfe).symm
  have hpos := named_pos e he
  refine ⟨p, coef / cc, cc, ?_, hpe ▸ ho, ?_, ?_, ?_⟩
  · unfold getPrefix
    simp only [hf, ← hv, ← hc, h1, Option.bind_some, hp, Option.map_some]
  · rw [hpe, ← hecc]; exact he
  · rw [← hecc, div_mul_cancel₀ _ (ne_of_gt hpos)]
  · rcases h3 with ⟨h4, h5⟩ | ⟨h4, h5⟩
    · refine Or.inl ⟨h4, fun e' he' ho' hb => h5 _ ((hcm _).2 ((hmem _).2 ⟨e', he', ho', rfl⟩)) hb⟩
    · exact Or.inr ⟨h4, fun e' he' ho' => h5 _ ((hcm _).2 ((hmem _).2 ⟨e', he', ho', rfl⟩))⟩

/-- **C98.**  The printed form of a quantity: the multiplier times the value of the prefix is the coefficient,
for the automatic prefix and for every given one; the automatic one is neither `c` nor `d`. -/
theorem C98_quantity_call (coef : ℚ) :
    (∃ p mul c, quantityCall coef none = some (p, mul) ∧ (p, c) ∈ namedPrefixes ∧ mul * c = coef ∧
      p ≠ ['c'] ∧ p ≠ ['d'] ∧ (0 < coef → coef ≤ 10 ^ 13 → mul ≤ 10)) ∧
    ∀ p ∈ prefixes.map Prod.fst, ∃ mul c, quantityCall coef (some p) = some (p, mul) ∧ (p, c) ∈ prefixes ∧
      mul * c = coef := by
  constructor
  · obtain ⟨p, mul, c, h1, h2, h3, h4, h5⟩ := C98_get_prefix coef (1 / 10) ([['c'], ['d']] ++ omitDefault)
      (fun e he => List.mem_append_right _ (List.mem_map.2 ⟨e, he, rfl⟩)) ⟨(['k'], 10 ^ 3), by decide +kernel,
        by decide +kernel⟩
    refine ⟨p, mul, c, h1, h3, h4, ?_, ?_, ?_⟩
    · rintro rfl; exact h2 (by simp)
    · rintro rfl; exact h2 (by simp)
    · intro hp hle
      have hc := named_pos _ h3
      simp only at hc
      have hb : 1 / 10 * coef ≤ c := by
        rcases h5 with ⟨h6, -⟩ | ⟨h6, h7⟩
        · exact h6
        · have := h7 (['T'], 10 ^ 12) (by decide +kernel) (by decide +kernel)
          simp only at this
          linarith
      by_contra hm
      rw [not_le] at hm
      nlinarith
  · intro p hp
    obtain ⟨c, h1, h2⟩ := look_isSome prefixes p hp
    refine ⟨coef / c, c, by simp [quantityCall, h1], h2, ?_⟩
    exact div_mul_cancel₀ _ (ne_of_gt (prefixes_pos _ h2))

/-! ## Quantities -/

theorem look_self {α β : Type} [DecidableEq α] (a : α) (v : β) (d : List (α × β)) :
    look ((a, v) :: d) a = some v := by simp [look]

theorem look_other {α β : Type} [DecidableEq α] (a b : α) (v : β) (d : List (α × β)) (h : a ≠ b) :
    look ((a, v) :: d) b = look d b := by simp [look, h]

theorem keys_inj : ∀ e ∈ prefixes, ∀ f ∈ prefixes, e.1 = f.1 → e.2 = f.2 := by decide +kernel

theorem mkUnit_eq (name p rest : Name) (c : ℚ) (h : p ++ rest = name) (hr : rest ≠ []) (hp : (p, c) ∈ prefixes)
    (hmax : ∀ k ∈ prefixes.map Prod.fst, k <+: name → k ≠ name → k.length ≤ p.length) :
    mkUnit prefixes name = some ⟨name, p, rest, c⟩ := by
  have hn : name ≠ [] := by
    intro hn
    rw [hn] at h
    exact hr (List.append_eq_nil_iff.1 h).2
  obtain ⟨u, h1, h2, h3, h4, h5, h6⟩ := C98_unit prefixes (by decide +kernel) name hn
  have l1 := h6 p (List.mem_map.2 ⟨_, hp, rfl⟩) rest h hr
  have l2 := hmax u.pre (List.mem_map.2 ⟨_, h5, rfl⟩) ⟨u.unit, h3⟩ (by
    intro hx
    rw [hx] at h3
    exact h4 (List.append_right_eq_self.1 h3))
  have hpre : u.pre = p := (List.append_inj (h3.trans h.symm) (le_antisymm l2 l1)).1
  have hrest : u.unit = rest := (List.append_inj (h3.trans h.symm) (le_antisymm l2 l1)).2
  have hcoef : u.coef = c := keys_inj _ h5 _ hp hpre
  rw [h1]
  cases u
  simp only at h2 hpre hrest hcoef
  subst h2 hpre hrest hcoef
  rfl

theorem unit_kg : mkUnit prefixes kg = some ⟨kg, ['k'], ['g'], 10 ^ 3⟩ :=
  mkUnit_eq _ _ _ _ rfl (by decide) (by decide +kernel) (by decide +kernel)

theorem unit_m : mkUnit prefixes m = some ⟨m, [], ['m'], 1⟩ :=
  mkUnit_eq _ _ _ _ rfl (by decide) (by decide +kernel) (by decide +kernel)

theorem unit_s : mkUnit prefixes s = some ⟨s, [], ['s'], 1⟩ :=
  mkUnit_eq _ _ _ _ rfl (by decide) (by decide +kernel) (by decide +kernel)

theorem unit_C : mkUnit prefixes C = some ⟨C, [], ['C'], 1⟩ :=
  mkUnit_eq _ _ _ _ rfl (by decide) (by decide +kernel) (by decide +kernel)

/-- **C98.**  The coefficients of the derived quantities in any unit set, in the units of the definitions (kg, m,
s, C): with the base units of the set equal to `l` meters, `t` seconds, `g` grams and `th` degrees they are the
products of powers given by the physical dimensions. -/
theorem C98_quantity_coef (unitSet : List Unt) (l t g th : ℚ)
    (hl : look (unitSet.reverse.map fun u => (u.unit, u.coef)) ['m'] = some l)
    (ht : look (unitSet.reverse.map fun u => (u.unit, u.coef)) ['s'] = some t)
    (hg : look (unitSet.reverse.map fun u => (u.unit, u.coef)) ['g'] = some g)
    (hth : look (unitSet.reverse.map fun u => (u.unit, u.coef)) ['C'] = some th) :
    quantityCoef .density unitSet = some (g / 1000 / l ^ 3) ∧
    quantityCoef .force unitSet = some (g / 1000 * l / t ^ 2) ∧
    quantityCoef .stress unitSet = some (g / 1000 / (l * t ^ 2)) ∧
    quantityCoef .energy unitSet = some (g / 1000 * l ^ 2 / t ^ 2) ∧
    quantityCoef .thermalExpandability unitSet = some (g / 1000 / (l * t ^ 2) / th) := by
  have e1 : (unitsOf .density).subs derivedUnits = .div (.sym kg) (.pow (.sym m) 3) := by rfl
  have e2 : (unitsOf .force).subs derivedUnits = .div (.mul (.sym kg) (.sym m)) (.pow (.sym s) 2) := by rfl
  have e3 : (unitsOf .stress).subs derivedUnits = .div (.sym kg) (.mul (.sym m) (.pow (.sym s) 2)) := by rfl
  have e4 : (unitsOf .energy).subs derivedUnits = .div (.mul (.sym kg) (.pow (.sym m) 2)) (.pow (.sym s) 2) := by rfl
  have e5 : (unitsOf .thermalExpandability).subs derivedUnits =
      .div (.div (.sym kg) (.mul (.sym m) (.pow (.sym s) 2))) (.sym C) := by rfl
  have k1 : kg ≠ m := by decide
  have k2 : kg ≠ s := by decide
  have k3 : kg ≠ C := by decide
  have k4 : m ≠ s := by decide
  have k5 : m ≠ C := by decide
  have k6 : s ≠ C := by decide
  refine ⟨?_, ?_, ?_, ?_, ?_⟩
  · simp only [quantityCoef, e1, Expr.atoms, List.filterMap_append, List.filterMap_cons, List.filterMap_nil, unit_kg,
      unit_m, List.map_cons, List.map_nil, List.cons_append, List.nil_append, hl, hg, Option.map_some,
      Expr.eval, look_self, look_other _ _ _ _ k1, Option.bind_some]
    congr 1; ring
  · simp only [quantityCoef, e2, Expr.atoms, List.filterMap_append, List.filterMap_cons, List.filterMap_nil, unit_kg,
      unit_m, unit_s, List.map_cons, List.map_nil, List.cons_append, List.nil_append, hl, hg, ht, Option.map_some,
      Expr.eval, look_self, look_other _ _ _ _ k1, look_other _ _ _ _ k2, look_other _ _ _ _ k4, Option.bind_some]
    congr 1; ring
  · simp only [quantityCoef, e3, Expr.atoms, List.filterMap_append, List.filterMap_cons, List.filterMap_nil, unit_kg,
      unit_m, unit_s, List.map_cons, List.map_nil, List.cons_append, List.nil_append, hl, hg, ht, Option.map_some,
      Expr.eval, look_self, look_other _ _ _ _ k1, look_other _ _ _ _ k2, look_other _ _ _ _ k4, Option.bind_some]
    congr 1; ring
  · simp only [quantityCoef, e4, Expr.atoms, List.filterMap_append, List.filterMap_cons, List.filterMap_nil, unit_kg,
      unit_m, unit_s, List.map_cons, List.map_nil, List.cons_append, List.nil_append, hl, hg, ht, Option.map_some,
      Expr.eval, look_self, look_other _ _ _ _ k1, look_other _ _ _ _ k2, look_other _ _ _ _ k4, Option.bind_some]
    congr 1; ring
  · simp only [quantityCoef, e5, Expr.atoms, List.filterMap_append, List.filterMap_cons, List.filterMap_nil, unit_kg,
      unit_m, unit_s, unit_C, List.map_cons, List.map_nil, List.cons_append, List.nil_append, hl, hg, ht, hth,
      Option.map_some, Expr.eval, look_self, look_other _ _ _ _ k1, look_other _ _ _ _ k2, look_other _ _ _ _ k3, look_other _ _ _ _ k4, look_other _ _ _ _ k5, look_other _ _ _ _ k6, Option.bind_some]
    congr 1; ring

/-! ## Multipliers -/

/-- The physical dimensions of the kinds: the exponents of time, length and mass. -/
def dim : Kind → ℤ × ℤ × ℤ
  | .one => (0, 0, 0)
  | .time => (1, 0, 0)
  | .length => (0, 1, 0)
  | .mass => (0, 0, 1)
  | .frequency => (-1, 0, 0)
  | .waveNumber => (0, -1, 0)
  | .velocity => (-1, 1, 0)
  | .acceleration => (-2, 1, 0)
  | .density => (0, -3, 1)
  | .force => (-2, 1, 1)
  | .stress => (-2, -1, 1)
  | .dynViscosity => (-1, -1, 1)
  | .compressibility => (2, 1, -1)
  | .energy => (-2, 2, 1)

/-- **C98.**  Each coefficient is the product of powers of the multipliers by the physical dimension of the kind:
a value in the old units is expressed in units that are `a`, `b`, `c` times larger. -/
theorem C98_kind_dimension (a b c : ℚ) (ha : a ≠ 0) (hb : b ≠ 0) (hc : c ≠ 0) (k : Kind) :
    kindCoef a b c k = (a ^ (dim k).1 * b ^ (dim k).2.1 * c ^ (dim k).2.2)⁻¹ := by
  cases k <;> simp only [kindCoef, dim, zpow_neg, zpow_ofNat, zpow_zero, zpow_one] <;> field_simp

/-- **C98.**  Values are multiplied one by one by the coefficients of their kinds; too many kinds are an error,
values without a kind are dropped. -/
theorem C98_apply_multipliers (values : List ℚ) (kinds : List Kind) (a b c : ℚ) :
    (values.length < kinds.length → applyMultipliers values kinds a b c = none) ∧
    (kinds.length ≤ values.length → ∃ vs : List ℚ, applyMultipliers values kinds a b c = some vs ∧
      vs.length = kinds.length ∧
      ∀ (i : ℕ) (k : Kind) (v : ℚ), kinds[i]? = some k → values[i]? = some v → vs[i]? = some (kindCoef a b c k * v)) := by
  constructor
  · intro h
    rw [applyMultipliers, if_neg (by omega)]
  · intro h
    refine ⟨_, by rw [applyMultipliers, if_pos h], by simp [h], ?_⟩
    intro i k v hk hv
    rw [List.getElem?_zipWith, hk, hv]

/-- A product of powers of values. -/
def monomial : List ℤ → List ℚ → ℚ
  | e :: es, v :: vs => v ^ e * monomial es vs
  | _, _ => 1

/-- The dimension of a product of powers. -/
def totalDim : List ℤ → List Kind → ℤ × ℤ × ℤ
  | e :: es, k :: ks =>
    (e * (dim k).1 + (totalDim es ks).1, e * (dim k).2.1 + (totalDim es ks).2.1,
      e * (dim k).2.2 + (totalDim es ks).2.2)
  | _, _ => (0, 0, 0)

/-- **C98.**  Products of powers of the values are converted by their total dimension; in particular the
dimensionless ones do not depend on the units. -/
theorem C98_dimensionless (values : List ℚ) (kinds : List Kind) (es : List ℤ) (a b c : ℚ) (ha : a ≠ 0) (hb : b ≠ 0)
    (hc : c ≠ 0) (hlen : kinds.length = values.length) (hes : es.length = values.length) :
    ∃ vs : List ℚ, applyMultipliers values kinds a b c = some vs ∧
      monomial es vs * (a ^ (totalDim es kinds).1 * b ^ (totalDim es kinds).2.1 * c ^ (totalDim es kinds).2.2) =
        monomial es values ∧
      (totalDim es kinds = (0, 0, 0) → monomial es vs = monomial es values) := by
  have key : ∀ (values : List ℚ) (kinds : List Kind) (es : List ℤ), kinds.length = values.length →
      es.length = values.length →
      monomial es (List.zipWith (fun k v => kindCoef a b c k * v) kinds values) *
        (a ^ (totalDim es kinds).1 * b ^ (totalDim es kinds).2.1 * c ^ (totalDim es kinds).2.2) =
        monomial es values := by
    intro values
    induction values with
    | nil =>
      intro kinds es h1 h2
      rw [List.length_eq_zero_iff.1 (h1.trans rfl), List.length_eq_zero_iff.1 (h2.trans rfl)]
      simp [monomial, totalDim]
    | cons v vs ih =>
      intro kinds es h1 h2
      cases kinds with
      | nil => simp at h1
      | cons k ks =>
        cases es with
        | nil => simp at h2
        | cons e es =>
          have hi := ih ks es (by simpa using h1) (by simpa using h2)
          simp only [List.zipWith_cons_cons, monomial, totalDim]
          rw [zpow_add₀ ha, zpow_add₀ hb, zpow_add₀ hc, mul_zpow, C98_kind_dimension a b c ha hb hc, inv_zpow,
            mul_zpow, mul_zpow, ← hi, mul_comm e (dim k).1, mul_comm e (dim k).2.1, mul_comm e (dim k).2.2,
            zpow_mul, zpow_mul, zpow_mul]
          have h3 : (a ^ (dim k).1) ^ e ≠ 0 := zpow_ne_zero _ (zpow_ne_zero _ ha)
          have h4 : (b ^ (dim k).2.1) ^ e ≠ 0 := zpow_ne_zero _ (zpow_ne_zero _ hb)
          have h5 : (c ^ (dim k).2.2) ^ e ≠ 0 := zpow_ne_zero _ (zpow_ne_zero _ hc)
          generalize (a ^ (dim k).1) ^ e = A at *
          generalize (b ^ (dim k).2.1) ^ e = B at *
          generalize (c ^ (dim k).2.2) ^ e = G at *
          field_simp
  refine ⟨_, by rw [applyMultipliers, if_pos (le_of_eq hlen)], key values kinds es hlen hes, fun h0 => ?_⟩
  have := key values kinds es hlen hes
  rw [h0] at this
  simpa using this

/-- **C98.**  `apply_units_to_pars` keeps the names and their order and multiplies each parameter by the
coefficient of its kind; a parameter without a kind is an error. -/
theorem C98_apply_to_pars {K : Type} [DecidableEq K] (pars : List (K × ℚ)) (parsKinds : List (K × Kind))
    (a b c : ℚ) :
    (∀ out, applyToPars pars parsKinds a b c = some out ↔
      List.Forall₂ (fun (e o : K × ℚ) => o.1 = e.1 ∧ ∃ k, look parsKinds e.1 = some k ∧
        o.2 = kindCoef a b c k * e.2) pars out) ∧
    (applyToPars pars parsKinds a b c = none ↔ ∃ e ∈ pars, look parsKinds e.1 = none) := by
  have main : ∀ pars : List (K × ℚ),
      (∀ kinds, (pars.mapM fun e => look parsKinds e.1) = some kinds →
        kinds.length = pars.length ∧
        List.Forall₂ (fun (e o : K × ℚ) => o.1 = e.1 ∧ ∃ k, look parsKinds e.1 = some k ∧
          o.2 = kindCoef a b c k * e.2) pars
          (List.zip (pars.map Prod.fst) (List.zipWith (fun k v => kindCoef a b c k * v) kinds (pars.map Prod.snd)))) ∧
      ((pars.mapM fun e => look parsKinds e.1) = none ↔ ∃ e ∈ pars, look parsKinds e.1 = none) := by
    intro pars
    induction pars with
    | nil =>
      constructor
      · intro kinds h
        simp at h
        subst h
        simp
      · simp
    | cons e pars ih =>
      obtain ⟨ih1, ih2⟩ := ih
      rw [List.mapM_cons]
      cases hk : look parsKinds e.1 with
      | none =>
        constructor
        · intro kinds h; cases h
        · simp [hk]
      | some k =>
        cases hm : (pars.mapM fun e => look parsKinds e.1) with
        | none =>
          constructor
          · intro kinds h; cases h
          · obtain ⟨e', he', h'⟩ := ih2.1 hm
            exact ⟨fun _ => ⟨e', List.mem_cons_of_mem _ he', h'⟩, fun _ => rfl⟩
        | some ks =>
          obtain ⟨h1, h2⟩ := ih1 ks hm
          constructor
          · intro kinds h
            cases h
            refine ⟨by simp [h1], ?_⟩
            simp only [List.map_cons, List.zipWith_cons_cons, List.zip_cons_cons]
            exact List.Forall₂.cons ⟨rfl, k, hk, rfl⟩ h2
          · constructor
            · intro h; cases h
            · rintro ⟨e', he', h'⟩
              rcases List.mem_cons.1 he' with rfl | he'
              · rw [hk] at h'; cases h'
              · rw [ih2.2 ⟨e', he', h'⟩] at hm; cases hm
  obtain ⟨m1, m2⟩ := main pars
  unfold applyToPars
  cases hm : (pars.mapM fun e => look parsKinds e.1) with
  | none =>
    obtain ⟨e', he', h'⟩ := m2.1 hm
    constructor
    · intro out
      constructor
      · intro h; cases h
      · intro h
        exfalso
        clear m1 m2 hm main
        induction h with
        | nil => simp at he'
        | cons h1 _ ih =>
          rcases List.mem_cons.1 he' with rfl | he'
          · obtain ⟨_, k, hk, _⟩ := h1
            rw [hk] at h'; cases h'
          · exact ih he'
    · simp only [Option.bind_none, true_iff]
      exact ⟨e', he', h'⟩
  | some kinds =>
    obtain ⟨h1, h2⟩ := m1 kinds hm
    have hval : ((some kinds).bind fun kinds =>
        (applyMultipliers (pars.map Prod.snd) kinds a b c).map fun vs => List.zip (pars.map Prod.fst) vs) =
        some (List.zip (pars.map Prod.fst)
          (List.zipWith (fun k v => kindCoef a b c k * v) kinds (pars.map Prod.snd))) := by
      simp [applyMultipliers, h1]
    rw [hval]
    constructor
    · intro out
      constructor
      · intro h; cases h; exact h2
      · intro h
        congr 1
        clear hval h1 hm main m1 m2
        revert h2
        generalize List.zip (pars.map Prod.fst)
          (List.zipWith (fun k v => kindCoef a b c k * v) kinds (pars.map Prod.snd)) = q
        intro h2
        induction h generalizing q with
        | nil => cases h2; rfl
        | cons g1 _ ih =>
          cases h2 with
          | cons f1 f2 =>
            obtain ⟨g2, k, g3, g4⟩ := g1
            obtain ⟨f2', k', f3, f4⟩ := f1
            rw [ih _ f2]
            rw [g3] at f3
            cases f3
            congr 1
            exact Prod.ext (f2'.trans g2.symm) (f4.trans g4.symm)
    · constructor
      · intro h; cases h
      · intro h
        rw [m2.2 h] at hm; cases hm

/-! ## Examples -/

/-- C98: the documented units. -/
example : (mkUnit prefixes ['m', 'm']).map (fun u => (u.pre, u.unit, u.coef)) = some (['m'], ['m'], 1 / 10 ^ 3) := by
  rw [mkUnit_eq ['m', 'm'] ['m'] ['m'] (1 / 10 ^ 3) rfl (by decide) (by decide +kernel) (by decide +kernel)]
  rfl

/-- C98: micrometers, the prefix `mu` wins over `m`. -/
example : (mkUnit prefixes ['m', 'u', 'm']).map (fun u => (u.pre, u.unit, u.coef)) =
    some (['m', 'u'], ['m'], 1 / 10 ^ 6) := by
  rw [mkUnit_eq ['m', 'u', 'm'] ['m', 'u'] ['m'] (1 / 10 ^ 6) rfl (by decide) (by decide +kernel)
    (by decide +kernel)]
  rfl

/-- C98: moles are read as milli-`ol`. -/
example : (mkUnit prefixes ['m', 'o', 'l']).map (fun u => (u.pre, u.unit)) = some (['m'], ['o', 'l']) := by
  rw [mkUnit_eq ['m', 'o', 'l'] ['m'] ['o', 'l'] (1 / 10 ^ 3) rfl (by decide) (by decide +kernel)
    (by decide +kernel)]
  rfl

/-- C98: the consistent set mm, s, kg, C meets the hypotheses; the stress is in kPa. -/
example : quantityCoef .stress [⟨['m', 'm'], ['m'], ['m'], 1 / 10 ^ 3⟩, ⟨['s'], [], ['s'], 1⟩,
    ⟨['k', 'g'], ['k'], ['g'], 10 ^ 3⟩, ⟨['C'], [], ['C'], 1⟩] = some 1000 := by
  rw [(C98_quantity_coef _ (1 / 10 ^ 3) 1 (10 ^ 3) 1 rfl rfl rfl rfl).2.2.1]
  norm_num

/-- C98: the Reynolds number. -/
example : totalDim [1, 1, 1, -1] [.density, .velocity, .length, .dynViscosity] = (0, 0, 0) := by decide

end Verif.Units
