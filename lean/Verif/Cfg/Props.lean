import Verif.Cfg.Model
import Mathlib.Tactic.Common

/-!
# C137: containers keep the objects and the names together
-/

namespace Verif.Cfg

variable {α : Type} (nm : α → String)

/-! ## Specification: the same operations on a plain list of objects -/

/-- Replacing the item at an index that may count from the end. -/
def listSet (l : List α) (i : ℤ) (x : α) : List α :=
  if 0 ≤ i then l.set i.toNat x else if -i ≤ l.length then l.set (l.length - (-i).toNat) x else l

/-- What each operation does with the plain list of objects: an assignment by name replaces the first object
of the name, or appends; an assignment by an index past the end appends; removing takes the first
object of the name away. -/
def listStep (l : List α) : Op α → List α
  | .set (.str s) o => if ∃ x ∈ l, nm x = s then l.set (l.findIdx fun x => nm x == s) o else l ++ [o]
  | .set (.int i) o => if (l.length : ℤ) ≤ i then l ++ [o] else listSet l i o
  | .insert i o =>
    let k := if 0 ≤ i then min i.toNat l.length else l.length - (-i).toNat
    l.take k ++ o :: l.drop k
  | .append o => l ++ [o]
  | .extend os => l ++ os
  | .iadd os => l ++ os
  | .remove s => l.eraseP fun x => nm x == s
  | .update os => os

/-! ## Proofs -/

theorem update_ok (l : List α) : Cont.update nm l = ⟨l, l.map nm⟩ := rfl

theorem pyIndex_map (l : List α) (s : String) :
    pyIndex (l.map nm) s = if ∃ x ∈ l, nm x = s then some (l.findIdx fun x => nm x == s) else none := by
  unfold pyIndex
  rw [List.findIdx?_map]
  split_ifs with h
  · rw [List.findIdx?_eq_some_iff_findIdx_eq]
    refine ⟨?_, ?_⟩
    · rw [List.findIdx_lt_length]
      obtain ⟨x, hx, e⟩ := h
      exact ⟨x, hx, by simp [e]⟩
    · rfl
  · rw [List.findIdx?_eq_none_iff]
    intro x hx
    have : nm x ≠ s := fun e => h ⟨x, hx, e⟩
    simpa using this

theorem pySet_map (l : List α) (i : ℤ) (o : α) :
    pySet (l.map nm) i (nm o) = (pySet l i o).map (List.map nm) := by
  unfold pySet
  rw [List.length_map]
  cases pyIdx l.length i <;> simp [List.map_set]

theorem pySet_eq (l : List α) (i : ℤ) (hi : i < l.length) (o : α) :
    (pySet l i o).getD l = listSet l i o := by
  unfold pySet pyIdx listSet
  split_ifs with h1 h2 h3 <;> first | rfl | (exfalso; omega)

theorem setItem_int (l : List α) (i : ℤ) (o : α) :
    ((Cont.update nm l).setItem nm (.int i) o).getD (Cont.update nm l) =
      Cont.update nm (if (l.length : ℤ) ≤ i then l ++ [o] else listSet l i o) := by
  unfold Cont.setItem Cont.update
  simp only [List.length_map, ge_iff_le]
  split_ifs with h
  · simp
  · rw [pySet_map, ← pySet_eq l i (by omega) o]
    cases pySet l i o <;> simp

theorem setItem_str (l : List α) (s : String) (o : α) :
    ((Cont.update nm l).setItem nm (.str s) o).getD (Cont.update nm l) =
      Cont.update nm (if ∃ x ∈ l, nm x = s then l.set (l.findIdx fun x => nm x == s) o else l ++ [o]) := by
  unfold Cont.setItem Cont.update
  simp only [pyIndex_map, List.length_map, ge_iff_le]
  by_cases h : ∃ x ∈ l, nm x = s
  · have hlt : (l.findIdx fun x => nm x == s) < l.length := by
      rw [List.findIdx_lt_length]
      obtain ⟨x, hx, e⟩ := h
      exact ⟨x, hx, by simp [e]⟩
    simp only [if_pos h]
    rw [if_neg (by omega), pySet_map]
    unfold pySet pyIdx
    rw [if_pos (by omega), if_pos (by simpa using hlt)]
    simp
  · simp only [if_neg h]
    simp

theorem append_eq (l : List α) (o : α) :
    (Cont.update nm l).append nm o = Cont.update nm (l ++ [o]) := by
  unfold Cont.append
  rw [setItem_int]
  simp [Cont.update]

theorem extend_eq (os : List α) : ∀ l : List α,
    (Cont.update nm l).extend nm os = Cont.update nm (l ++ os) := by
  unfold Cont.extend
  induction os with
  | nil => intro l; simp
  | cons o os ih => intro l; rw [List.foldl_cons, append_eq, ih]; simp

theorem insertIdx_eq {β : Type} (x : β) : ∀ (l : List β) (k : ℕ), k ≤ l.length →
    l.insertIdx k x = l.take k ++ x :: l.drop k
  | _, 0, _ => by simp
  | [], k + 1, h => by simp at h
  | a :: l, k + 1, h => by
    rw [List.insertIdx_succ_cons, insertIdx_eq x l k (by simpa using h)]
    simp

theorem map_eraseIdx' (l : List α) : ∀ k : ℕ, (l.eraseIdx k).map nm = (l.map nm).eraseIdx k := by
  induction l with
  | nil => intro k; simp
  | cons a l ih =>
    intro k
    cases k with
    | zero => simp
    | succ k => simp [ih]

theorem insert_eq (l : List α) (i : ℤ) (o : α) :
    (Cont.update nm l).insert nm i o = Cont.update nm (listStep nm l (.insert i o)) := by
  have key : ∀ k, k ≤ l.length → l.insertIdx k o = l.take k ++ o :: l.drop k := by
    intro k hk
    exact insertIdx_eq o l k hk
  have key2 : ∀ k, k ≤ l.length → (l.map nm).insertIdx k (nm o) = (l.take k ++ o :: l.drop k).map nm := by
    intro k hk
    rw [insertIdx_eq _ _ k (by simpa using hk)]
    simp [List.map_take, List.map_drop]
  have hk : (if 0 ≤ i then min i.toNat l.length else l.length - (-i).toNat) ≤ l.length := by
    split_ifs <;> omega
  simp only [Cont.insert, Cont.update, pyInsert, listStep, List.length_map]
  rw [key _ hk, key2 _ hk]

theorem eraseP_eq (l : List α) (s : String) :
    l.eraseP (fun x => nm x == s) = l.eraseIdx (l.findIdx fun x => nm x == s) := by
  induction l with
  | nil => rfl
  | cons a l ih =>
    rw [List.eraseP_cons, List.findIdx_cons]
    by_cases h : (nm a == s) = true
    · simp [h]
    · simp only [Bool.not_eq_true] at h
      simp [h, ih]

theorem remove_eq (l : List α) (s : String) :
    ((Cont.update nm l).removeName s).getD (Cont.update nm l) =
      Cont.update nm (listStep nm l (.remove s)) := by
  simp only [Cont.removeName, Cont.update, listStep, pyIndex_map]
  split_ifs with h
  · simp [eraseP_eq, map_eraseIdx']
  · have : l.eraseP (fun x => nm x == s) = l := by
      apply List.eraseP_of_forall_not
      intro x hx
      have : nm x ≠ s := fun e => h ⟨x, hx, e⟩
      simpa using this
    simp [this]

/-- Every operation of a container that is consistent (its names are the names of its objects) is the
operation of a plain list of objects, and the container stays consistent. -/
theorem C137_step (l : List α) (op : Op α) :
    (Cont.update nm l).step nm op = ⟨listStep nm l op, (listStep nm l op).map nm⟩ := by
  cases op with
  | set k o =>
    cases k with
    | str s => exact setItem_str nm l s o
    | int i => exact setItem_int nm l i o
  | insert i o => exact insert_eq nm l i o
  | append o => exact append_eq nm l o
  | extend os => exact extend_eq nm os l
  | iadd os =>
    show Cont.update nm ((Cont.update nm l).extend nm os).objs = _
    rw [extend_eq]; rfl
  | remove s => exact remove_eq nm l s
  | update os => rfl

/-- After any history of operations - failed ones included - the names of a container are the names of its
objects in the same order, and the objects are those of a plain list that went through the same history. -/
theorem C137_history (l : List α) (ops : List (Op α)) :
    let c := ops.foldl (Cont.step nm) (Cont.update nm l)
    c.names = c.objs.map nm ∧ c.objs = ops.foldl (listStep nm) l := by
  have : ∀ (ops : List (Op α)) (l : List α),
      ops.foldl (Cont.step nm) (Cont.update nm l) = Cont.update nm (ops.foldl (listStep nm) l) := by
    intro ops
    induction ops with
    | nil => intro l; rfl
    | cons o ops ih =>
      intro l
      rw [List.foldl_cons, C137_step, List.foldl_cons]
      exact ih _
  simp only
  rw [this]
  exact ⟨rfl, rfl⟩

/-- A name gives the first object of that name, and nothing else. -/
theorem C137_get_name (l : List α) (s : String) :
    (Cont.update nm l).getItem (.str s) = l.find? (fun x => nm x == s) := by
  simp only [Cont.getItem, Cont.update, pyIndex_map]
  split_ifs with h
  · have hlt : (l.findIdx fun x => nm x == s) < l.length := by
      rw [List.findIdx_lt_length]
      obtain ⟨x, hx, e⟩ := h
      exact ⟨x, hx, by simp [e]⟩
    simp only [Option.bind_some, pyGet, pyIdx]
    rw [if_pos (by omega), if_pos (by simpa using hlt)]
    simp only [Option.bind_some, Int.toNat_natCast]
    rw [List.find?_eq_getElem?_findIdx]
  · symm
    simp only [Option.bind_none, List.find?_eq_none]
    intro x hx
    have : nm x ≠ s := fun e => h ⟨x, hx, e⟩
    simpa using this

/-- An index counts from the front, a negative one from the end; others are errors. -/
theorem C137_get_index (l : List α) :
    (∀ k : ℕ, (Cont.update nm l).getItem (.int k) = l[k]?) ∧
      (∀ k : ℕ, (Cont.update nm l).getItem (.int (-(k : ℤ) - 1)) = l.reverse[k]?) := by
  constructor
  · intro k
    show (pyIdx l.length k).bind (fun j => l[j]?) = _
    unfold pyIdx
    rw [if_pos (by omega)]
    by_cases h : k < l.length
    · rw [if_pos (by simpa using h)]
      simp
    · rw [if_neg (by simpa using h), List.getElem?_eq_none (by omega)]
      rfl
  · intro k
    show (pyIdx l.length (-(k : ℤ) - 1)).bind (fun j => l[j]?) = _
    unfold pyIdx
    rw [if_neg (by omega)]
    by_cases h : k < l.length
    · rw [if_pos (by omega), List.getElem?_reverse h]
      show l[_]? = _
      congr 1
      omega
    · rw [if_neg (by omega), List.getElem?_eq_none (by rw [List.length_reverse]; omega)]
      rfl

/-- `c.has_key(k)` says exactly if `c[k]` succeeds. -/
theorem C137_has_key (l : List α) (k : Key) :
    (Cont.update nm l).hasKey k = ((Cont.update nm l).getItem k).isSome := by
  cases k with
  | str s =>
    rw [C137_get_name]
    simp only [Cont.hasKey, Cont.update, pyIndex_map]
    rw [Bool.eq_iff_iff]
    split_ifs with h
    · obtain ⟨x, hx, e⟩ := h
      simp only [Option.isSome_some, List.find?_isSome, true_iff]
      exact ⟨x, hx, by simp [e]⟩
    · simp only [Option.isSome_none, List.find?_isSome]
      constructor
      · intro h'; cases h'
      · rintro ⟨x, hx, e⟩
        exact absurd ⟨x, hx, by simpa using e⟩ h
  | int i =>
    show decide (i < (l.length : ℤ) ∧ i ≥ -(l.length : ℤ)) = ((pyIdx l.length i).bind fun j => l[j]?).isSome
    unfold pyIdx
    by_cases h1 : 0 ≤ i
    · rw [if_pos h1]
      by_cases h2 : i.toNat < l.length
      · rw [if_pos h2]
        show _ = (l[_]?).isSome
        rw [List.getElem?_eq_getElem h2, decide_eq_true (by omega)]
        rfl
      · rw [if_neg h2, decide_eq_false (by omega)]
        rfl
    · rw [if_neg h1]
      by_cases h2 : -i ≤ l.length
      · rw [if_pos h2]
        show _ = (l[_]?).isSome
        rw [List.getElem?_eq_getElem (by omega), decide_eq_true (by omega)]
        rfl
      · rw [if_neg h2, decide_eq_false (by omega)]
        rfl

/-- After `c[obj.name] = obj` the name gives `obj`, and every other name gives what it gave before. -/
theorem C137_set_get (l : List α) (o : α) (t : String) :
    ((Cont.update nm l).step nm (.set (.str (nm o)) o)).getItem (.str t) =
      if t = nm o then some o else (Cont.update nm l).getItem (.str t) := by
  rw [C137_step]
  show (Cont.update nm (listStep nm l (.set (.str (nm o)) o))).getItem (.str t) = _
  rw [C137_get_name, C137_get_name]
  have key : ∀ l : List α, listStep nm l (.set (.str (nm o)) o) =
      match l with
      | [] => [o]
      | a :: l' => if nm a = nm o then o :: l' else a :: listStep nm l' (.set (.str (nm o)) o) := by
    intro l
    cases l with
    | nil => simp [listStep]
    | cons a l' =>
      simp only [listStep, List.findIdx_cons]
      by_cases h : nm a = nm o
      · simp [h]
      · have hb : (nm a == nm o) = false := by simpa using h
        simp only [hb, cond_false, List.mem_cons, exists_eq_or_imp, h, false_or, if_false, List.set_cons_succ]
        split_ifs <;> simp
  induction l with
  | nil =>
    rw [key]
    by_cases h : t = nm o
    · simp [h]
    · have : ¬ nm o = t := fun e => h e.symm
      simp [h, this]
  | cons a l ih =>
    rw [key]
    simp only
    by_cases h : nm a = nm o
    · rw [if_pos h]
      by_cases ht : t = nm o
      · simp [ht]
      · have h1 : ¬ nm o = t := fun e => ht e.symm
        have h2 : ¬ nm a = t := fun e => ht (e.symm.trans h)
        simp [h1, h2, ht]
    · rw [if_neg h]
      by_cases hat : nm a = t
      · have : ¬ t = nm o := fun e => h (hat.trans e)
        simp [hat, this]
      · have hb : (nm a == t) = false := by simpa using hat
        rw [List.find?_cons, List.find?_cons, hb, ih]

/-- An assignment under a name that no object has appends the object under its own name: the key is not
used, and the name need not be found afterwards. -/
theorem C137_set_other :
    ∃ (l : List (String × ℕ)) (o : String × ℕ),
      ((Cont.update Prod.fst l).step Prod.fst (.set (.str "u") o)).getItem (.str "u") = none ∧
      ((Cont.update Prod.fst l).step Prod.fst (.set (.str "u") o)).getItem (.str "v") = some o :=
  ⟨[], ("v", 1), by rw [C137_step]; decide, by rw [C137_step]; decide⟩

example : ((([Op.append ("u", 1), .set (.str "p") ("p", 2), .insert (-1) ("q", 3), .remove "u",
      .set (.int 7) ("w", 4), .set (.int (-9)) ("z", 5)] : List (Op (String × ℕ))).foldl (Cont.step Prod.fst)
    (Cont.update Prod.fst [])).objs) = [("q", 3), ("p", 2), ("w", 4)] := by decide

end Verif.Cfg
