import Verif.Ml.Closed
import Verif.Ml.Spec
import Mathlib.Algebra.BigOperators.Fin
import Mathlib.Tactic.FieldSimp
import Mathlib.Tactic.FinCases

/-!
# The value of the operands of one argument
-/

namespace Ml

set_option linter.unusedSectionVars false
set_option linter.unusedSimpArgs false

variable {K : Type*} [Field K]

def toOp (env : Env K) (i : Item) : Operand K where
  sub := i.2.1
  val := opVal env i.1 i.2.2

theorem argLetters_eq (a : Arg) : argLetters a =
    match a.kind, a.mod with
    | .ndarray, _ => matLetters a.ein
    | _, some _ => [e0 a.ein]
    | _, none => (if a.nc > 1 then [e0 a.ein] else []) ++ (if isDer a.ein then [e2 a.ein] else []) := rfl

theorem argVal_eq (env : Env K) (fe : Bool) (c q : ℕ) (a : Arg) (w : ℕ → ℕ → K) (ρ : Char → ℕ) :
    argVal env fe c q a w ρ =
      match a.kind, a.mod with
      | .ndarray, _ => env.mat a.name c q (a.ein.map fun ch => if ch.isDigit then ch.toNat - 48 else ρ ch)
      | _, some .s => strainVec env.dim (gradVal env a.name c q w) (ρ (e0 a.ein))
      | _, some .v => gradVec env.dim (gradVal env a.name c q w) (ρ (e0 a.ein))
      | _, none =>
        if isDer a.ein then gradVal env a.name c q w (if a.nc > 1 then ρ (e0 a.ein) else 0) (ρ (e2 a.ein))
        else fieldVal env fe a.name c q w (if a.nc > 1 then ρ (e0 a.ein) else 0) := rfl

theorem fillComps_mat (ein : List Char) (ρ : Char → ℕ) :
    fillComps (matComps ein) ((matLetters ein).map ρ) =
      ein.map fun ch => if ch.isDigit then ch.toNat - 48 else ρ ch := by
  induction ein with
  | nil => rfl
  | cons c ein ih =>
    by_cases h : c.isDigit
    · have e1 : matComps (c :: ein) = some (c.toNat - 48) :: matComps ein := by simp [matComps, isNum, h]
      have e2 : matLetters (c :: ein) = matLetters ein := by simp [matLetters, isNum, h]
      rw [e1, e2, fillComps, ih]
      simp [h]
    · have e1 : matComps (c :: ein) = none :: matComps ein := by simp [matComps, isNum, h]
      have e2 : matLetters (c :: ein) = c :: matLetters ein := by simp [matLetters, isNum, h]
      rw [e1, e2, List.map_cons, fillComps]
      simp only [List.headD_cons, List.tail_cons, ih, List.map_cons]
      simp [h]

/-- The table of `make_psg()` gives the strain vector. -/
theorem psg_sum (dim : ℕ) (hd : dim = 2 ∨ dim = 3) (G : ℕ → ℕ → K) (s : ℕ) :
    ∑ j ∈ Finset.range dim, ∑ k ∈ Finset.range dim, psg dim k j s * G k j = strainVec dim G s := by
  rcases hd with rfl | rfl
  · by_cases hs : s < 3
    · have : s = 0 ∨ s = 1 ∨ s = 2 := by omega
      rcases this with rfl | rfl | rfl <;>
        (simp [Finset.sum_range_succ, psg, strainVec, symPairs]; try ring)
    · have h : (symPairs 2)[s]? = none := by
        rw [List.getElem?_eq_none_iff]; simp [symPairs]; omega
      have h0 : ¬ (0 = s) := by omega
      have h1 : ¬ (1 = s) := by omega
      have h2 : ¬ (2 = s) := by omega
      simp [Finset.sum_range_succ, psg, strainVec, h, h0, h1, h2]
  · by_cases hs : s < 6
    · have : s = 0 ∨ s = 1 ∨ s = 2 ∨ s = 3 ∨ s = 4 ∨ s = 5 := by omega
      rcases this with rfl | rfl | rfl | rfl | rfl | rfl <;>
        (simp [Finset.sum_range_succ, psg, strainVec, symPairs]; try ring)
    · have h : (symPairs 3)[s]? = none := by
        rw [List.getElem?_eq_none_iff]; simp [symPairs]; omega
      have h0 : ¬ (0 = s) := by omega
      have h1 : ¬ (1 = s) := by omega
      have h2 : ¬ (2 = s) := by omega
      have h3 : ¬ (3 = s) := by omega
      have h4 : ¬ (4 = s) := by omega
      have h5 : ¬ (5 = s) := by omega
      simp [Finset.sum_range_succ, psg, strainVec, h, h0, h1, h2, h3, h4, h5]

theorem pvg_sum (dim : ℕ) (hd : dim = 2 ∨ dim = 3) (G : ℕ → ℕ → K) (s : ℕ) :
    ∑ j ∈ Finset.range dim, ∑ k ∈ Finset.range dim, pvg dim k j s * G k j = gradVec dim G s := by
  rcases hd with rfl | rfl
  · by_cases hs : s < 4
    · have : s = 0 ∨ s = 1 ∨ s = 2 ∨ s = 3 := by omega
      rcases this with rfl | rfl | rfl | rfl <;>
        simp [Finset.sum_range_succ, pvg, gradVec]
    · have h0 : ¬ (0 = s) := by omega
      have h1 : ¬ (1 = s) := by omega
      have h2 : ¬ (2 = s) := by omega
      have h3 : ¬ (3 = s) := by omega
      simp [Finset.sum_range_succ, pvg, gradVec, hs, h0, h1, h2, h3]
  · by_cases hs : s < 9
    · have : s = 0 ∨ s = 1 ∨ s = 2 ∨ s = 3 ∨ s = 4 ∨ s = 5 ∨ s = 6 ∨ s = 7 ∨ s = 8 := by omega
      rcases this with rfl | rfl | rfl | rfl | rfl | rfl | rfl | rfl | rfl <;>
        simp [Finset.sum_range_succ, pvg, gradVec]
    · have h0 : ¬ (0 = s) := by omega
      have h1 : ¬ (1 = s) := by omega
      have h2 : ¬ (2 = s) := by omega
      have h3 : ¬ (3 = s) := by omega
      have h4 : ¬ (4 = s) := by omega
      have h5 : ¬ (5 = s) := by omega
      have h6 : ¬ (6 = s) := by omega
      have h7 : ¬ (7 = s) := by omega
      have h8 : ¬ (8 = s) := by omega
      simp [Finset.sum_range_succ, pvg, gradVec, hs, h0, h1, h2, h3, h4, h5, h6, h7, h8]

/-- The letters of an annotated argument that are summed inside of its operands. -/
def priv (x : Ann) : List Char :=
  match x.role with
  | .mat => []
  | .plain => [x.node]
  | .dofs => if x.arg.mod.isSome then [e2 x.arg.ein, x.aux, x.node] else [x.node]
  | .unit => if x.arg.mod.isSome then [e2 x.arg.ein] else []

/-- The DOFs standing for an annotated argument. -/
def annDofs (env : Env K) (x : Ann) (ρ : Char → ℕ) : ℕ → ℕ → K :=
  match x.role with
  | .unit => unitDofs (if x.arg.nc > 1 then ρ x.aux else 0) (ρ x.node)
  | _ => env.dofs x.arg.name (ρ 'c')

/-- The conditions on one annotated argument. -/
structure AnnOK (size : Char → ℕ) (env : Env K) (x : Ann) : Prop where
  kindMat : x.role = .mat ↔ x.arg.kind = .ndarray
  node : x.node ∈ nodeLetters ∨ x.role = .mat
  aux : x.aux ∈ auxLetters ∨ ((x.role = .unit → ¬ x.arg.nc > 1) ∧ (x.role = .dofs → x.arg.mod = none))
  letters : ∀ l ∈ argLetters x.arg ++ innerLetters x.arg, l ∉ reserved
  innerNot : ∀ l ∈ innerLetters x.arg, l ∉ argLetters x.arg
  mods : x.role ≠ .mat → x.arg.mod.isSome → x.arg.nc > 1 ∧ isDer x.arg.ein = true ∧ (env.dim = 2 ∨ env.dim = 3)
  plain : x.role = .plain → x.arg.mod = none
  szNode : x.role ≠ .mat → size x.node = env.nn x.arg.name
  szAux : x.role = .dofs → x.arg.mod.isSome → size x.aux = env.dim
  szInner : x.role ≠ .mat → x.arg.mod.isSome → size (e2 x.arg.ein) = env.dim

theorem reserved_node {l : Char} (h : l ∈ nodeLetters) : l ∈ reserved := by
  simp [nodeLetters] at h
  rcases h with h | h | h | h | h <;> subst h <;> decide

theorem reserved_aux {l : Char} (h : l ∈ auxLetters) : l ∈ reserved := by
  simp [auxLetters] at h
  rcases h with h | h | h | h | h | h | h | h | h <;> subst h <;> decide

theorem node_ne_c {l : Char} (h : l ∈ nodeLetters) : l ≠ 'c' ∧ l ≠ 'q' := by
  simp [nodeLetters] at h
  rcases h with h | h | h | h | h <;> subst h <;> decide

theorem aux_ne_c {l : Char} (h : l ∈ auxLetters) : l ≠ 'c' ∧ l ≠ 'q' := by
  simp [auxLetters] at h
  rcases h with h | h | h | h | h | h | h | h | h <;> subst h <;> decide

theorem node_ne_aux {l m : Char} (h : l ∈ nodeLetters) (h' : m ∈ auxLetters) : l ≠ m := by
  simp [nodeLetters] at h
  simp [auxLetters] at h'
  rcases h with h | h | h | h | h <;> rcases h' with h' | h' | h' | h' | h' | h' | h' | h' | h' <;> subst h <;> subst h' <;> decide

theorem sum_unit (N n : ℕ) (hn : n < N) (f : ℕ → K) (p : Prop) [Decidable p] :
    ∑ m ∈ Finset.range N, f m * (if p ∧ m = n then (1 : K) else 0) = f n * (if p then 1 else 0) := by
  by_cases hp : p
  · simp [hp, hn]
  · simp [hp]

/-- Summing the own letters of the operands of an argument gives its value. -/
theorem group_val (size : Char → ℕ) (env : Env K) (fe : Bool) (x : Ann) (h : AnnOK size env x) (ρ : Char → ℕ)
    (hn : x.role = .unit → ρ x.node < env.nn x.arg.name)
    (hk : x.role = .unit → x.arg.mod.isSome → ρ x.aux < env.dim) :
    sumOver size (priv x) ρ (prodAt ((groupItems fe x).map (toOp env))) =
      argVal env fe (ρ 'c') (ρ 'q') x.arg (annDofs env x ρ) ρ := by
  have hcq : ('c' : Char) ≠ 'q' := by decide
  cases hr : x.role with
  | mat =>
    have hkd := h.kindMat.mp hr
    simp only [priv, groupItems, hr, sumOver, prodAt, List.map_cons, List.map_nil, List.prod_cons, List.prod_nil,
      mul_one, toOp, opVal, argVal, hkd]
    congr 1
    exact fillComps_mat x.arg.ein ρ
  | plain =>
    have hkd : x.arg.kind ≠ .ndarray := fun e => by simp [h.kindMat.mpr e] at hr
    have hm := h.plain hr
    have hnode : x.node ∈ nodeLetters := h.node.resolve_right (by simp [hr])
    have hres := reserved_node hnode
    have hl : ∀ l ∈ argLetters x.arg, l ≠ x.node := fun l hl e =>
      h.letters l (List.mem_append_left _ hl) (e ▸ hres)
    have hnc := node_ne_c hnode
    rw [argLetters_eq] at hl
    cases hkind : x.arg.kind with
    | ndarray => exact absurd hkind hkd
    | _ =>
      simp only [hm, hkind] at hl
      simp only [priv, groupItems, hr, sumOver, prodAt, List.map_cons, List.map_nil, List.prod_cons, List.prod_nil,
        mul_one, toOp, argVal_eq, hkind, hm, annDofs, h.szNode (by simp [hr])]
      by_cases hd : isDer x.arg.ein <;> by_cases hc : x.arg.nc > 1 <;> cases fe
      all_goals
        simp only [hd, hc, if_true, if_false, Bool.false_eq_true, List.mem_append, List.mem_singleton, List.not_mem_nil, or_false,
          false_or, forall_eq_or_imp, forall_eq, List.append_nil, List.nil_append] at hl ⊢
        simp [basisItem, dofsItem, hd, hc, opVal, gradVal, fieldVal, Function.update_of_ne hnc.1.symm,
          Function.update_of_ne hnc.2.symm, Function.update_of_ne, hl]
  | dofs =>
    have hkd : x.arg.kind ≠ .ndarray := fun e => by simp [h.kindMat.mpr e] at hr
    have hnode : x.node ∈ nodeLetters := h.node.resolve_right (by simp [hr])
    have hres := reserved_node hnode
    have hl : ∀ l ∈ argLetters x.arg, l ≠ x.node := fun l hl e =>
      h.letters l (List.mem_append_left _ hl) (e ▸ hres)
    have hnc := node_ne_c hnode
    rw [argLetters_eq] at hl
    cases hkind : x.arg.kind with
    | ndarray => exact absurd hkind hkd
    | _ =>
      cases hm : x.arg.mod with
      | none =>
        simp only [hm, hkind] at hl
        simp only [priv, groupItems, hr, hm, sumOver, prodAt, List.map_cons, List.map_nil, List.prod_cons, List.prod_nil,
          mul_one, toOp, argVal_eq, hkind, annDofs, h.szNode (by simp [hr]), Option.isSome_none, Bool.false_eq_true,
          if_false]
        by_cases hd : isDer x.arg.ein <;> by_cases hc : x.arg.nc > 1 <;> cases fe
        all_goals
          simp only [hd, hc, if_true, if_false, Bool.false_eq_true, List.mem_append, List.mem_singleton, List.not_mem_nil, or_false,
            false_or, forall_eq_or_imp, forall_eq, List.append_nil, List.nil_append] at hl ⊢
          simp [basisItem, dofsItem, hd, hc, opVal, gradVal, fieldVal, Function.update_of_ne hnc.1.symm,
            Function.update_of_ne hnc.2.symm, Function.update_of_ne, hl]
      | some md =>
        have hms : x.arg.mod.isSome := by simp [hm]
        obtain ⟨hc, hd, hdim⟩ := h.mods (by simp [hr]) hms
        have haux : x.aux ∈ auxLetters := by
          rcases h.aux with e | ⟨_, e⟩
          · exact e
          · rw [e hr] at hm; simp at hm
        have hxc := aux_ne_c haux
        have hna := node_ne_aux hnode haux
        have hin : innerLetters x.arg = [e2 x.arg.ein] := by
          unfold innerLetters; simp only [hm, hkind]; rfl
        have hal : argLetters x.arg = [e0 x.arg.ein] := by
          rw [argLetters_eq]; simp only [hm, hkind]
        have h2 := h.letters (e2 x.arg.ein) (by simp [hin])
        have h0 := h.letters (e0 x.arg.ein) (by simp [hal])
        have h02 : e0 x.arg.ein ≠ e2 x.arg.ein := by
          intro e
          have := h.innerNot (e2 x.arg.ein) (by simp [hin])
          rw [hal] at this
          simp [e] at this
        have a1 : e2 x.arg.ein ≠ x.node := fun e => h2 (e ▸ hres)
        have a2 : e2 x.arg.ein ≠ x.aux := fun e => h2 (e ▸ reserved_aux haux)
        have a3 : e0 x.arg.ein ≠ x.node := fun e => h0 (e ▸ hres)
        have a4 : e0 x.arg.ein ≠ x.aux := fun e => h0 (e ▸ reserved_aux haux)
        have a5 : e2 x.arg.ein ≠ 'c' := fun e => h2 (e ▸ by decide)
        have a6 : e2 x.arg.ein ≠ 'q' := fun e => h2 (e ▸ by decide)
        have hG : ∀ j k, ∑ n ∈ Finset.range (env.nn x.arg.name),
            env.bfg x.arg.name (ρ 'c') (ρ 'q') j n * env.dofs x.arg.name (ρ 'c') k n =
              gradVal env x.arg.name (ρ 'c') (ρ 'q') (env.dofs x.arg.name (ρ 'c')) k j := fun j k => rfl
        simp only [priv, groupItems, hr, hm, sumOver, prodAt, List.map_cons, List.map_nil, List.prod_cons, List.prod_nil,
          mul_one, toOp, argVal_eq, hkind, annDofs, h.szNode (by simp [hr]), h.szAux hr hms, h.szInner (by simp [hr]) hms,
          Option.isSome_some, if_true]
        cases md with
        | s =>
          show _ = strainVec env.dim _ (ρ (e0 x.arg.ein))
          rw [← psg_sum env.dim hdim]
          refine Finset.sum_congr rfl fun j _ => Finset.sum_congr rfl fun k _ => ?_
          rw [← hG, Finset.mul_sum]
          refine Finset.sum_congr rfl fun n _ => ?_
          simp [basisItem, dofsItem, unitItem, hm, hd, hc, opVal, Function.update_of_ne, hnc.1.symm, hnc.2.symm,
            hxc.1.symm, hxc.2.symm, hna, hna.symm, a1, a2, a3, a4, a5.symm, a6.symm, a1.symm, a2.symm, h02]
          ring
        | v =>
          show _ = gradVec env.dim _ (ρ (e0 x.arg.ein))
          rw [← pvg_sum env.dim hdim]
          refine Finset.sum_congr rfl fun j _ => Finset.sum_congr rfl fun k _ => ?_
          rw [← hG, Finset.mul_sum]
          refine Finset.sum_congr rfl fun n _ => ?_
          simp [basisItem, dofsItem, unitItem, hm, hd, hc, opVal, Function.update_of_ne, hnc.1.symm, hnc.2.symm,
            hxc.1.symm, hxc.2.symm, hna, hna.symm, a1, a2, a3, a4, a5.symm, a6.symm, a1.symm, a2.symm, h02]
          ring
  | unit =>
    have hkd : x.arg.kind ≠ .ndarray := fun e => by simp [h.kindMat.mpr e] at hr
    have hnode : x.node ∈ nodeLetters := h.node.resolve_right (by simp [hr])
    have hres := reserved_node hnode
    have hnc := node_ne_c hnode
    have hN := hn hr
    cases hkind : x.arg.kind with
    | ndarray => exact absurd hkind hkd
    | _ =>
      cases hm : x.arg.mod with
      | none =>
        simp only [priv, groupItems, hr, hm, sumOver, prodAt, argVal_eq, hkind, annDofs, Option.isSome_none,
          Bool.false_eq_true, if_false]
        by_cases hd : isDer x.arg.ein <;> by_cases hc : x.arg.nc > 1 <;> cases fe
        all_goals
          simp only [hd, hc, if_true, if_false, Bool.false_eq_true, gradVal, fieldVal, unitDofs]
          rw [sum_unit _ _ hN]
          simp [basisItem, unitItem, hm, toOp, hd, hc, opVal]
      | some md =>
        have hms : x.arg.mod.isSome := by simp [hm]
        obtain ⟨hc, hd, hdim⟩ := h.mods (by simp [hr]) hms
        have haux : x.aux ∈ auxLetters := by
          rcases h.aux with e | ⟨e, _⟩
          · exact e
          · exact absurd hc (e hr)
        have hK := hk hr hms
        have hin : innerLetters x.arg = [e2 x.arg.ein] := by
          unfold innerLetters; simp only [hm, hkind]; rfl
        have hal : argLetters x.arg = [e0 x.arg.ein] := by
          rw [argLetters_eq]; simp only [hm, hkind]
        have h2 := h.letters (e2 x.arg.ein) (by simp [hin])
        have h02 : e0 x.arg.ein ≠ e2 x.arg.ein := by
          intro e
          have := h.innerNot (e2 x.arg.ein) (by simp [hin])
          rw [hal] at this
          simp [e] at this
        have a1 : x.node ≠ e2 x.arg.ein := fun e => h2 (e ▸ hres)
        have a2 : x.aux ≠ e2 x.arg.ein := fun e => h2 (e ▸ reserved_aux haux)
        have a5 : 'c' ≠ e2 x.arg.ein := fun e => h2 (e ▸ by decide)
        have a6 : 'q' ≠ e2 x.arg.ein := fun e => h2 (e ▸ by decide)
        have hG : ∀ j k, gradVal env x.arg.name (ρ 'c') (ρ 'q') (unitDofs (ρ x.aux) (ρ x.node)) k j =
            env.bfg x.arg.name (ρ 'c') (ρ 'q') j (ρ x.node) * if k = ρ x.aux then 1 else 0 := by
          intro j k
          unfold gradVal unitDofs
          exact sum_unit _ _ hN _ _
        simp only [priv, groupItems, hr, hm, sumOver, prodAt, List.map_cons, List.map_nil, List.prod_cons, List.prod_nil,
          mul_one, toOp, argVal_eq, hkind, annDofs, h.szInner (by simp [hr]) hms, hc, if_true,
          Option.isSome_some]
        cases md with
        | s =>
          show _ = strainVec env.dim _ (ρ (e0 x.arg.ein))
          rw [← psg_sum env.dim hdim]
          refine Finset.sum_congr rfl fun j _ => ?_
          simp only [hG]
          have : ∀ k, (psg env.dim k j (ρ (e0 x.arg.ein)) : K) * (env.bfg x.arg.name (ρ 'c') (ρ 'q') j (ρ x.node) *
              if k = ρ x.aux then 1 else 0) = if k = ρ x.aux then psg env.dim (ρ x.aux) j (ρ (e0 x.arg.ein)) *
                env.bfg x.arg.name (ρ 'c') (ρ 'q') j (ρ x.node) else 0 := by
            intro k
            by_cases e : k = ρ x.aux
            · subst e; simp
            · simp [e]
          simp only [this]
          rw [Finset.sum_ite_eq' (Finset.range env.dim) (ρ x.aux), if_pos (Finset.mem_range.mpr hK)]
          simp [basisItem, unitItem, hm, hd, opVal, Function.update_of_ne, a1, a2, a5, a6, h02]
          ring
        | v =>
          show _ = gradVec env.dim _ (ρ (e0 x.arg.ein))
          rw [← pvg_sum env.dim hdim]
          refine Finset.sum_congr rfl fun j _ => ?_
          simp only [hG]
          have : ∀ k, (pvg env.dim k j (ρ (e0 x.arg.ein)) : K) * (env.bfg x.arg.name (ρ 'c') (ρ 'q') j (ρ x.node) *
              if k = ρ x.aux then 1 else 0) = if k = ρ x.aux then pvg env.dim (ρ x.aux) j (ρ (e0 x.arg.ein)) *
                env.bfg x.arg.name (ρ 'c') (ρ 'q') j (ρ x.node) else 0 := by
            intro k
            by_cases e : k = ρ x.aux
            · subst e; simp
            · simp [e]
          simp only [this]
          rw [Finset.sum_ite_eq' (Finset.range env.dim) (ρ x.aux), if_pos (Finset.mem_range.mpr hK)]
          simp [basisItem, unitItem, hm, hd, opVal, Function.update_of_ne, a1, a2, a5, a6, h02]
          ring

end Ml
