import Verif.Coef.Model
import Mathlib.Tactic.Common
import Mathlib.Tactic.Linarith
import Mathlib.Tactic.Ring
import Mathlib.Data.List.Nodup
import Mathlib.Data.List.Range

/-!
# C140: loops over correctors and coefficients
-/

namespace Verif.Coef

/-! ## Index sets -/

/-- `iter_sym()` gives every pair `r <= c < dim` once. -/
theorem C140_iter_sym (dim : ℕ) :
    (∀ r c, (r, c) ∈ iterSym dim ↔ r ≤ c ∧ c < dim) ∧ (iterSym dim).Nodup := by
  constructor
  · intro r c
    simp only [iterSym, List.mem_append, List.mem_map, List.mem_range, Prod.mk.injEq, List.mem_flatMap,
      List.mem_range'_1]
    constructor
    · rintro (⟨i, hi, rfl, rfl⟩ | ⟨a, ha, b, hb, rfl, rfl⟩)
      · omega
      · omega
    · rintro ⟨h1, h2⟩
      rcases Nat.lt_or_ge r c with h | h
      · right; exact ⟨r, by omega, c, by omega, rfl, rfl⟩
      · left; exact ⟨r, by omega, rfl, by omega⟩
  · unfold iterSym
    rw [List.nodup_append]
    refine ⟨?_, ?_, ?_⟩
    · exact List.Nodup.map (fun a b h => (Prod.mk.inj h).1) List.nodup_range
    · rw [List.nodup_flatMap]
      refine ⟨fun r _ => List.Nodup.map (fun a b h => (Prod.mk.inj h).2) List.nodup_range', ?_⟩
      refine List.Pairwise.imp ?_ (List.nodup_range (n := dim))
      intro a b hab
      simp only [Function.onFun, List.disjoint_left, List.mem_map, not_exists, not_and]
      rintro x ⟨c, _, rfl⟩ d _ h
      exact hab (Prod.mk.inj h).1.symm
    · rintro ⟨a, b⟩ h1 ⟨c, d⟩ h2 h
      simp only [List.mem_map, List.mem_range, Prod.mk.injEq, List.mem_flatMap, List.mem_range'_1] at h1 h2 h
      obtain ⟨i, _, rfl, rfl⟩ := h1
      obtain ⟨r, _, e, he, rfl, rfl⟩ := h2
      omega

/-- The first indices are the normal components, in order. -/
theorem C140_iter_sym_normal (dim i : ℕ) (h : i < dim) : (iterSym dim)[i]? = some (i, i) := by
  unfold iterSym
  rw [List.getElem?_append_left (by simpa using h)]
  simp [h]

/-- `iter_nonsym()` gives the pair `(r, c)` at the position `dim * r + c`. -/
theorem C140_iter_nonsym (dim r c : ℕ) (hr : r < dim) (hc : c < dim) :
    (iterNonsym dim)[dim * r + c]? = some (r, c) := by
  have key : ∀ n, r < n → ((List.range n).flatMap fun r => (List.range dim).map fun c => (r, c))[dim * r + c]? =
      some (r, c) := by
    intro n
    induction n with
    | zero => intro h; omega
    | succ n ih =>
      intro h
      have hlen : ((List.range n).flatMap fun r => (List.range dim).map fun c => (r, c)).length = dim * n := by
        clear ih h
        induction n with
        | zero => simp
        | succ n ih => rw [List.range_succ, List.flatMap_append, List.length_append, ih]; simp; ring
      rw [List.range_succ, List.flatMap_append]
      rcases Nat.lt_or_ge r n with h' | h'
      · rw [List.getElem?_append_left, ih h']
        rw [hlen]
        calc dim * r + c < dim * r + dim := by omega
          _ = dim * (r + 1) := by ring
          _ ≤ dim * n := Nat.mul_le_mul_left _ h'
      · have : r = n := by omega
        subst this
        rw [List.getElem?_append_right (by rw [hlen]; omega), hlen]
        simp [hc]
  exact key dim hr

/-- `coor_to_sym()` gives the position of the pair, in any order, in `iter_sym()`. -/
theorem C140_coor_to_sym (dim : ℕ) (hd : dim = 2 ∨ dim = 3) (r c : ℕ) (hr : r < dim) (hc : c < dim) :
    ∃ k, coorToSym r c dim = some k ∧ (iterSym dim)[k]? = some (min r c, max r c) := by
  have h2 : ∀ r < 2, ∀ c < 2, ∃ k, k < 3 ∧ coorToSym r c 2 = some k ∧
      (iterSym 2)[k]? = some (min r c, max r c) := by decide
  have h3 : ∀ r < 3, ∀ c < 3, ∃ k, k < 6 ∧ coorToSym r c 3 = some k ∧
      (iterSym 3)[k]? = some (min r c, max r c) := by decide
  rcases hd with rfl | rfl
  · obtain ⟨k, _, h⟩ := h2 r hr c hc; exact ⟨k, h⟩
  · obtain ⟨k, _, h⟩ := h3 r hr c hc; exact ⟨k, h⟩

/-! ## Values of the variables -/

variable {U : Type} [AddCommGroup U]

/-- The value of an item: the sum over its required correctors. -/
theorem C140_sum (data : String → Option (Corr U)) (ix : Idx) (it : Item) (vals : String → U)
    (h : ∀ r, r = it.req ∨ r ∈ it.more → ∃ c, data r = some c ∧ corrState c ix it.comp = some (vals r)) :
    itemVal data ix it = some (vals it.req + (it.more.map vals).sum) := by
  have key : ∀ (l : List String) (v : U),
      (∀ r ∈ l, ∃ c, data r = some c ∧ corrState c ix it.comp = some (vals r)) →
      l.foldl (fun acc r => acc.bind fun v => (data r).bind fun c => (corrState c ix it.comp).map (v + ·))
        (some v) = some (v + (l.map vals).sum) := by
    intro l
    induction l with
    | nil => intro v _; simp
    | cons r l ih =>
      intro v hl
      obtain ⟨c, h1, h2⟩ := hl r (by simp)
      rw [List.foldl_cons]
      simp only [Option.bind_some, h1, h2, Option.map_some]
      rw [ih _ fun r' hr' => hl r' (by simp [hr'])]
      simp [add_assoc]
  obtain ⟨c, h1, h2⟩ := h it.req (Or.inl rfl)
  unfold itemVal
  rw [h1]
  simp only [Option.bind_some]
  rw [h2]
  exact key it.more _ fun r hr => h r (Or.inr hr)

/-- The item of a list that determines a variable: the last one with its name. -/
def lastItem (its : List Item) (name : String) : Option Item := its.reverse.find? fun it => it.var = name

theorem setVars_eq (data : String → Option (Corr U)) (ix : Idx) (its : List Item) :
    ∀ vs out, setVars data ix its vs = some out → ∀ name,
      out name = match lastItem its name with
        | some it => itemVal data ix it
        | none => vs name := by
  induction its with
  | nil => intro vs out h name; simp only [setVars, Option.some.injEq] at h; simp [lastItem, h]
  | cons it its ih =>
    intro vs out h name
    simp only [setVars, Option.bind_eq_some_iff] at h
    obtain ⟨v, hv, h⟩ := h
    rw [ih _ _ h name]
    unfold lastItem
    rw [List.reverse_cons, List.find?_append]
    cases its.reverse.find? fun it => it.var = name with
    | some x => simp
    | none =>
      by_cases hn : name = it.var
      · subst hn; simp [hv]
      · have : ¬ it.var = name := fun e => hn e.symm
        simp [hn, this]

/-- The values with which the entry of the row index `i` and the column index `j` is evaluated: items for
columns and common ones at `j`, then those for rows at `i`, then what was there before. -/
def entryVars (sv : SetVar) (data : String → Option (Corr U)) (vs : Vars U) (i j : Idx) : Vars U := fun name =>
  match lastItem (sv.col ++ sv.extra) name with
  | some it => itemVal data j it
  | none => match lastItem (sv.row ++ sv.extra) name with
    | some it => itemVal data i it
    | none => vs name

/-- Two sets of values differ only in variables that are set for columns. -/
def SameButCols (sv : SetVar) (a b : Vars U) : Prop :=
  ∀ name, lastItem (sv.col ++ sv.extra) name = none → a name = b name

theorem colLoop_eq (eval : Vars U → ℝ) (sv : SetVar) (data : String → Option (Corr U)) (vs : Vars U) (i : Idx)
    (js : List Idx) : ∀ cur out fin, colLoop eval sv data js cur = some (out, fin) →
      SameButCols sv cur (fun name => match lastItem (sv.row ++ sv.extra) name with
        | some it => itemVal data i it
        | none => vs name) →
      out = js.map (fun j => eval (entryVars sv data vs i j)) ∧ SameButCols sv fin cur := by
  induction js with
  | nil =>
    intro cur out fin h _
    simp only [colLoop, Option.some.injEq, Prod.mk.injEq] at h
    obtain ⟨rfl, rfl⟩ := h
    exact ⟨rfl, fun _ _ => rfl⟩
  | cons j js ih =>
    intro cur out fin h hc
    simp only [colLoop, Option.bind_eq_some_iff, Option.map_eq_some_iff, Prod.mk.injEq] at h
    obtain ⟨nxt, h1, ⟨o, f⟩, h2, rfl, rfl⟩ := h
    have hset := setVars_eq data j _ _ _ h1
    have hn : nxt = entryVars sv data vs i j := by
      funext name
      rw [hset name]
      unfold entryVars
      cases hl : lastItem (sv.col ++ sv.extra) name with
      | some it => rfl
      | none => exact hc name hl
    have hcur : SameButCols sv nxt cur := by
      intro name hl
      rw [hset name, hl]
    obtain ⟨i1, i2⟩ := ih nxt o f h2 fun name hl => (hcur name hl).trans (hc name hl)
    refine ⟨?_, fun name hl => (i2 name hl).trans (hcur name hl)⟩
    simp only [List.map_cons]
    rw [← i1, ← hn]

theorem rowLoop_eq (eval : Vars U → ℝ) (sv : SetVar) (data : String → Option (Corr U)) (cols : List Idx)
    (vs : Vars U) (rows : List Idx) : ∀ cur M, rowLoop eval sv data cols rows cur = some M →
      (∀ name, lastItem (sv.row ++ sv.extra) name = none → lastItem (sv.col ++ sv.extra) name = none →
        cur name = vs name) →
      M = rows.map fun i => cols.map fun j => eval (entryVars sv data vs i j) := by
  induction rows with
  | nil => intro cur M h _; simp only [rowLoop, Option.some.injEq] at h; simp [← h]
  | cons i is ih =>
    intro cur M h hc
    simp only [rowLoop, Option.bind_eq_some_iff, Option.map_eq_some_iff] at h
    obtain ⟨nxt, h1, ⟨o, f⟩, h2, rest, h3, rfl⟩ := h
    have hset := setVars_eq data i _ _ _ h1
    obtain ⟨c1, c2⟩ := colLoop_eq eval sv data vs i cols nxt o f h2 (by
      intro name hl
      rw [hset name]
      cases hr : lastItem (sv.row ++ sv.extra) name with
      | some it => simp [hr]
      | none => simpa [hr] using hc name hr hl)
    simp only [List.map_cons]
    rw [← c1, ih f rest h3]
    intro name hr hl
    rw [c2 name hl, hset name, hr]
    exact hc name hr hl

/-- The entry of a coefficient in the row of the index `i` and the column of the index `j` is the expression,
divided by the volume, with the variables for rows set to the correctors with the index `i` and those for
columns to the ones with the index `j`: nothing is left over from other entries. -/
theorem C140_entries (eval : Vars U → ℝ) (sv : SetVar) (data : String → Option (Corr U)) (rows cols : List Idx)
    (vs : Vars U) (volume : ℝ) (M : List (List ℝ)) (h : getCoef eval sv data rows cols vs volume = some M) :
    M = rows.map fun i => cols.map fun j => eval (entryVars sv data vs i j) / volume := by
  simp only [getCoef, Option.map_eq_some_iff] at h
  obtain ⟨N, h1, rfl⟩ := h
  rw [rowLoop_eq eval sv data cols vs rows vs N h1 fun _ _ _ => rfl]
  simp [Function.comp_def]

/-- The bilinear case: with the sums `u r c` of the correctors in the variable `P` for rows and in the
variable `Q` for columns, the coefficient has the entries `a (u i) (u j) / volume`. -/
theorem C140_bilinear (a : U → U → ℝ) (P Q : String) (hPQ : P ≠ Q) (sv : SetVar) (ip iq : Item)
    (hrow : sv.row = [ip]) (hcol : sv.col = [iq]) (hext : sv.extra = []) (hp : ip.var = P) (hq : iq.var = Q)
    (data : String → Option (Corr U)) (vs : Vars U) (volume : ℝ) (dim : ℕ) (u : ℕ × ℕ → U)
    (hu : ∀ p ∈ iterSym dim, itemVal data (pairIdx p) ip = some (u p) ∧ itemVal data (pairIdx p) iq = some (u p))
    (M : List (List ℝ))
    (h : coefSymSym (fun v => match v P, v Q with
      | some x, some y => a x y
      | _, _ => 0) sv data dim vs volume = some M) :
    M = (iterSym dim).map fun i => (iterSym dim).map fun j => a (u i) (u j) / volume := by
  rw [C140_entries _ _ _ _ _ _ _ _ h, List.map_map]
  apply List.map_congr_left
  intro i hi
  simp only [Function.comp_apply, List.map_map]
  apply List.map_congr_left
  intro j hj
  have hQP : ¬ iq.var = P := by rw [hq]; exact fun e => hPQ e.symm
  have h1 : entryVars sv data vs (pairIdx i) (pairIdx j) P = some (u i) := by
    simp [entryVars, lastItem, hrow, hcol, hext, hp, hQP, (hu i hi).1]
  have h2 : entryVars sv data vs (pairIdx i) (pairIdx j) Q = some (u j) := by
    simp [entryVars, lastItem, hcol, hext, hq, (hu j hj).2]
  simp only [Function.comp_apply, h1, h2]

/-- The evaluation fails only if a value is missing. -/
theorem C140_succeeds (eval : Vars U → ℝ) (sv : SetVar) (data : String → Option (Corr U)) (rows cols : List Idx)
    (vs : Vars U) (volume : ℝ)
    (hr : ∀ i ∈ rows, ∀ it ∈ sv.row ++ sv.extra, (itemVal data i it).isSome)
    (hc : ∀ j ∈ cols, ∀ it ∈ sv.col ++ sv.extra, (itemVal data j it).isSome) :
    (getCoef eval sv data rows cols vs volume).isSome := by
  have hset : ∀ ix its, (∀ it ∈ its, (itemVal data ix it).isSome) → ∀ vs, ∃ o, setVars data ix its vs = some o := by
    intro ix its
    induction its with
    | nil => intro _ vs; exact ⟨vs, rfl⟩
    | cons it its ih =>
      intro h vs
      obtain ⟨v, hv⟩ := Option.isSome_iff_exists.1 (h it (by simp))
      obtain ⟨o, ho⟩ := ih (fun x hx => h x (by simp [hx])) fun name => if name = it.var then some v else vs name
      exact ⟨o, by simp [setVars, hv, ho]⟩
  have hcol : ∀ js : List Idx, (∀ j ∈ js, ∀ it ∈ sv.col ++ sv.extra, (itemVal data j it).isSome) →
      ∀ vs, ∃ o, colLoop eval sv data js vs = some o := by
    intro js
    induction js with
    | nil => intro _ vs; exact ⟨_, rfl⟩
    | cons j js ih =>
      intro h vs
      obtain ⟨o, ho⟩ := hset j _ (h j List.mem_cons_self) vs
      obtain ⟨p, hp⟩ := ih (fun x hx => h x (List.mem_cons_of_mem _ hx)) o
      exact ⟨(eval o :: p.1, p.2), by simp only [colLoop, ho, Option.bind_some, hp, Option.map_some]⟩
  have hrow : ∀ is : List Idx, (∀ j ∈ is, ∀ it ∈ sv.row ++ sv.extra, (itemVal data j it).isSome) →
      ∀ vs, ∃ o, rowLoop eval sv data cols is vs = some o := by
    intro is
    induction is with
    | nil => intro _ vs; exact ⟨_, rfl⟩
    | cons i is ih =>
      intro h vs
      obtain ⟨o, ho⟩ := hset i _ (h i List.mem_cons_self) vs
      obtain ⟨p, hp⟩ := hcol cols hc o
      obtain ⟨q, hq⟩ := ih (fun x hx => h x (List.mem_cons_of_mem _ hx)) p.2
      exact ⟨p.1 :: q, by simp only [rowLoop, ho, Option.bind_some, hp, hq, Option.map_some]⟩
  obtain ⟨o, ho⟩ := hrow rows hr vs
  simp [getCoef, ho]

/-! ## Corrector problems -/

theorem corrLoop_mem {I : Type} (solve : U → U → U) (pi : I → U) (Good : I → U → Prop)
    (hs : ∀ x i, Good i (solve x (pi i))) : ∀ (is : List I) (x : U),
    (∀ p ∈ corrLoop solve pi is x, Good p.1 p.2) ∧ (corrLoop solve pi is x).map Prod.fst = is
  | [], _ => by simp [corrLoop]
  | i :: is, x => by
    obtain ⟨h1, h2⟩ := corrLoop_mem solve pi Good hs is (solve x (pi i))
    refine ⟨?_, by simp [corrLoop, h2]⟩
    intro p hp
    simp only [corrLoop, List.mem_cons] at hp
    rcases hp with rfl | hp
    · exact hs x i
    · exact h1 p hp

/-- If the solver solves the problem for the given data from any initial state, each stored corrector is a
solution for the data of its own index: the states left by the other problems do not matter. -/
theorem C140_correctors {I : Type} [DecidableEq I] (solve : U → U → U) (pi : I → U) (Sol : U → U → Prop)
    (hs : ∀ x p, Sol p (solve x p)) (is : List I) (x : U) (i : I) (hi : i ∈ is) :
    ∃ w, corrStates solve pi is x i = some w ∧ Sol (pi i) w := by
  obtain ⟨h1, h2⟩ := corrLoop_mem solve pi (fun i w => Sol (pi i) w) (fun x i => hs x (pi i)) is x
  have hsome : ((corrLoop solve pi is x).reverse.find? fun p => p.1 = i).isSome := by
    rw [List.find?_isSome]
    rw [← h2] at hi
    obtain ⟨p, hp, e⟩ := List.mem_map.1 hi
    exact ⟨p, by simpa using hp, by simp [e]⟩
  obtain ⟨p, hp⟩ := Option.isSome_iff_exists.1 hsome
  refine ⟨p.2, by simp [corrStates, hp], ?_⟩
  have hm := List.mem_of_find?_eq_some hp
  have he := List.find?_some hp
  simp only [decide_eq_true_eq] at he
  rw [← he]
  exact h1 p (by simpa using hm)

/-- With an exact solver of regular problems the stored corrector does not depend on the order of the
problems and on the initial state. -/
theorem C140_correctors_history {I : Type} [DecidableEq I] (solve : U → U → U) (pi : I → U) (sol : U → U)
    (hs : ∀ x p, solve x p = sol p) (is : List I) (x : U) (i : I) (hi : i ∈ is) :
    corrStates solve pi is x i = some (sol (pi i)) := by
  obtain ⟨w, h1, h2⟩ := C140_correctors solve pi (fun p w => w = sol p) (fun x p => hs x p) is x i hi
  rw [h1, h2]

/-- The polynomials: `pi[node, i] = y_s delta_ir`, linear in the coordinates with the gradient `e_r` times `e_s`. -/
theorem C140_pis {n : ℕ} (coor : Fin n → ℕ → ℝ) (r s : ℕ) (node node' : Fin n) (i : ℕ) :
    buildPi coor r s node i - buildPi coor r s node' i = (if i = r then 1 else 0) * (coor node s - coor node' s) := by
  unfold buildPi
  split_ifs <;> ring

example : iterSym 3 = [(0, 0), (1, 1), (2, 2), (0, 1), (0, 2), (1, 2)] := by decide

/-- Two columns, a variable `p` for rows and `q` for columns: the entries are the products. -/
example : ∃ M, coefMN (U := ℝ) (fun v => (v "p").getD 0 * (v "q").getD 0)
    ⟨[⟨"p", "c", ["d"], "u"⟩], [⟨"q", "c", [], "u"⟩], []⟩
    (fun r => if r = "c" then some (.states1 2 fun k _ => some (k + 1))
      else if r = "d" then some (.state fun _ => some 10) else none) 2 2 (fun _ => none) 2 = some M := by
  apply Option.isSome_iff_exists.1
  apply C140_succeeds
  · intro i hi it hit
    simp only [List.mem_map, List.mem_range] at hi
    obtain ⟨k, hk, rfl⟩ := hi
    simp only [List.append_nil, List.mem_singleton] at hit
    subst hit
    simp [itemVal, corrState, hk]
  · intro i hi it hit
    simp only [List.mem_map, List.mem_range] at hi
    obtain ⟨k, hk, rfl⟩ := hi
    simp only [List.append_nil, List.mem_singleton] at hit
    subst hit
    simp [itemVal, corrState, hk]

end Verif.Coef
