import Verif.Region.Sort
import Mathlib.Logic.Relation
import Mathlib.Data.List.Perm.Subperm
import Mathlib.Data.List.Nodup
import Mathlib.Data.Fintype.Card
import Mathlib.Order.WellFounded
import Mathlib.Data.Fintype.Order
import Mathlib.Algebra.BigOperators.Group.List.Basic
/-
C16: region definitions are ordered by dependency.
-/
namespace Verif.Region

/-! ### Specification -/

/-- All dependencies are defined. -/
def AllDefined (names : List String) (D : String → List String) : Prop :=
  ∀ n ∈ names, ∀ d ∈ D n, d ∈ names

/-- `n` directly depends on `d`. -/
def DependsOn (names : List String) (D : String → List String) (n d : String) : Prop :=
  n ∈ names ∧ d ∈ D n

/-- Some region depends, directly or indirectly, on itself. -/
def Cyclic (names : List String) (D : String → List String) : Prop :=
  ∃ x, Relation.TransGen (DependsOn names D) x x

/-- Each region comes after all regions it depends on. -/
def Topological (D : String → List String) (out : List String) : Prop :=
  ∀ pre x post, out = pre ++ x :: post → ∀ d ∈ D x, d ∈ pre

/-! ### Invariant -/

structure Inv (names : List String) (D : String → List String) (s : SortState) : Prop where
  nodup : s.out.Nodup
  sub : ∀ x ∈ s.out, x ∈ names
  done : ∀ x, s.done x = true ↔ x ∈ s.out
  deps : ∀ x, ∀ d ∈ s.deps x, d ∈ D x
  rest : ∀ x, ∀ d ∈ D x, d ∈ s.deps x ∨ d ∈ s.out
  topo : Topological D s.out

def weight (names : List String) (s : SortState) : Nat :=
  (names.map fun x => (s.deps x).length).sum

theorem sum_upd (names : List String) (hn : names.Nodup) (f g : String → Nat) (node : String)
    (hnode : node ∈ names) (h : ∀ x, x ≠ node → f x = g x) (k : Nat) (hk : f node + k = g node) :
    (names.map f).sum + k = (names.map g).sum := by
  induction names with
  | nil => simp at hnode
  | cons a l ih =>
    rw [List.nodup_cons] at hn
    rw [List.map_cons, List.map_cons, List.sum_cons, List.sum_cons]
    by_cases e : a = node
    · subst e
      have : l.map f = l.map g := by
        apply List.map_congr_left
        intro x hx
        exact h x (fun e => hn.1 (e ▸ hx))
      rw [this]; omega
    · rcases List.mem_cons.1 hnode with h' | h'
      · exact absurd h'.symm e
      · have := ih hn.2 h'
        have := h a e
        omega

theorem scanDeps_ok (names : List String) (node : String) (rest : List String) (s s' : SortState)
    (hc : ∀ a, rest.count a ≤ (s.deps node).count a)
    (h : scanDeps names node rest s = .ok s') :
    s'.out = s.out ∧ s'.done = s.done ∧ (∀ x, x ≠ node → s'.deps x = s.deps x) ∧
    s.removed ≤ s'.removed ∧
    (s'.deps node).length + (s'.removed - s.removed) = (s.deps node).length ∧
    (∀ d ∈ s'.deps node, d ∈ s.deps node) ∧
    (∀ d ∈ s.deps node, d ∈ s'.deps node ∨ s.done d = true) ∧
    (s'.removed = s.removed → s' = s ∧ ∀ d ∈ rest, d ∈ names ∧ s.done d = false) := by
  induction rest generalizing s with
  | nil =>
    unfold scanDeps at h
    cases h
    simp
    intro d hd; exact .inl hd
  | cons dep rest ih =>
    unfold scanDeps at h
    by_cases hm : dep ∈ names
    · rw [if_pos hm] at h
      by_cases hd : s.done dep = true
      · rw [if_pos hd] at h
        have hmem : dep ∈ s.deps node := by
          have := hc dep
          rw [List.count_cons_self] at this
          exact List.count_pos_iff.1 (by omega)
        have hlen : 0 < (s.deps node).length := List.length_pos_of_mem hmem
        have ih' := ih _ ?_ h
        · simp only [if_true] at ih'
          obtain ⟨h1, h2, h3, h4, h5, h6, h7, h8⟩ := ih'
          rw [List.length_erase_of_mem hmem] at h5
          refine ⟨h1, h2, ?_, by omega, by omega, ?_, ?_, ?_⟩
          · intro x hx
            rw [h3 x hx, if_neg hx]
          · intro d hd'
            exact List.mem_of_mem_erase (h6 d hd')
          · intro d hd'
            by_cases e : d = dep
            · subst e; exact .inr hd
            · exact h7 d ((List.mem_erase_of_ne e).2 hd')
          · intro e; omega
        · intro a
          simp only [if_true]
          have := hc a
          rw [List.count_cons] at this
          rw [List.count_erase]
          split at this
          · next e => simp only [beq_iff_eq] at e; subst e; simp; omega
          · next e =>
            have e'' : (dep == a) = false := by simpa using e
            rw [e'']; simp; omega
      · rw [if_neg hd] at h
        have hc' : ∀ a, rest.count a ≤ (s.deps node).count a := fun a =>
          Nat.le_trans (List.count_le_count_cons) (hc a)
        obtain ⟨h1, h2, h3, h4, h5, h6, h7, h8⟩ := ih s hc' h
        refine ⟨h1, h2, h3, h4, h5, h6, h7, ?_⟩
        intro e
        obtain ⟨e1, e2⟩ := h8 e
        refine ⟨e1, ?_⟩
        intro d hd'
        rcases List.mem_cons.1 hd' with rfl | hd'
        · exact ⟨hm, by simpa using hd⟩
        · exact e2 d hd'
    · rw [if_neg hm] at h; cases h

theorem scanDeps_error (names : List String) (node : String) (rest : List String) (s : SortState)
    (d : String) (h : scanDeps names node rest s = .error d) : d ∈ rest ∧ d ∉ names := by
  induction rest generalizing s with
  | nil => unfold scanDeps at h; cases h
  | cons dep rest ih =>
    unfold scanDeps at h
    split at h
    · split at h
      · exact ⟨List.mem_cons_of_mem _ (ih _ h).1, (ih _ h).2⟩
      · exact ⟨List.mem_cons_of_mem _ (ih _ h).1, (ih _ h).2⟩
    · next hm => cases h; exact ⟨List.mem_cons_self, hm⟩

/-- One visit. -/
theorem visitNode_ok (names : List String) (hn : names.Nodup) (D : String → List String)
    (s s' : SortState) (node : String) (hnode : node ∈ names) (hi : Inv names D s)
    (h : visitNode names s node = .ok s') :
    Inv names D s' ∧ weight names s' + (s'.removed - s.removed) = weight names s ∧
    s.removed ≤ s'.removed ∧ s.out.length ≤ s'.out.length ∧
    (s'.out.length = s.out.length → s'.removed = s.removed → s' = s ∧
      (node ∈ s.out ∨ (s.deps node ≠ [] ∧ ∀ d ∈ s.deps node, d ∈ names ∧ d ∉ s.out))) := by
  unfold visitNode at h
  split at h
  · next hc =>
    simp only [Bool.and_eq_true, List.isEmpty_iff, Bool.not_eq_true'] at hc
    cases h
    have hno : node ∉ s.out := fun h => by
      have := (hi.done node).2 h
      rw [hc.2] at this; cases this
    refine ⟨?_, by simp [weight], by simp, by simp, by simp⟩
    constructor
    · exact List.nodup_append.2 ⟨hi.nodup, by simp, by
        intro a ha b hb; simp at hb; subst hb; exact fun e => hno (e ▸ ha)⟩
    · intro x hx
      rcases List.mem_append.1 hx with hx | hx
      · exact hi.sub x hx
      · simp at hx; subst hx; exact hnode
    · intro x
      simp only [List.mem_append, List.mem_singleton]
      by_cases e : x = node
      · simp [e]
      · simp [e, hi.done x]
    · exact hi.deps
    · intro x d hd
      rcases hi.rest x d hd with h | h
      · exact .inl h
      · exact .inr (List.mem_append_left _ h)
    · intro pre x post e d hd
      rcases List.eq_nil_or_concat post with hp | ⟨q, b, hp⟩
      · subst hp
        have e' : s.out ++ [node] = pre ++ [x] := by simpa using e
        obtain ⟨e1, e2⟩ := List.append_inj' e' rfl
        simp at e2; subst e2; subst e1
        rcases hi.rest _ d hd with h | h
        · rw [hc.1] at h; simp at h
        · exact h
      · subst hp
        have e' : s.out ++ [node] = (pre ++ x :: q) ++ [b] := by simpa using e
        obtain ⟨e1, e2⟩ := List.append_inj' e' rfl
        exact hi.topo pre x q e1 d hd
  · next hc =>
    split at h
    · next hd =>
      simp only [Bool.not_eq_true'] at hd
      have hno : node ∉ s.out := fun h => by
        have := (hi.done node).2 h
        rw [hd] at this; cases this
      split at h
      · next s1 hs1 =>
        cases h
        obtain ⟨h1, h2, h3, h4, h5, h6, h7, h8⟩ :=
          scanDeps_ok names node _ s s' (fun a => Nat.le_refl _) hs1
        refine ⟨?_, ?_, h4, by rw [h1], ?_⟩
        · constructor
          · rw [h1]; exact hi.nodup
          · rw [h1]; exact hi.sub
          · rw [h1, h2]; exact hi.done
          · intro x d hdx
            by_cases e : x = node
            · subst e; exact hi.deps _ _ (h6 d hdx)
            · rw [h3 x e] at hdx; exact hi.deps _ _ hdx
          · intro x d hdx
            rw [h1]
            rcases hi.rest x d hdx with h | h
            · by_cases e : x = node
              · subst e
                rcases h7 d h with h | h
                · exact .inl h
                · exact .inr ((hi.done d).1 h)
              · rw [h3 x e]; exact .inl h
            · exact .inr h
          · rw [h1]; exact hi.topo
        · unfold weight
          exact sum_upd names hn _ _ node hnode (fun x hx => by rw [h3 x hx]) _ h5
        · intro _ e
          obtain ⟨e1, e2⟩ := h8 e
          refine ⟨e1, .inr ⟨?_, ?_⟩⟩
          · intro hnil
            apply hc
            simp [hnil, hd]
          · intro d hdx
            refine ⟨(e2 d hdx).1, fun h => ?_⟩
            have := (hi.done d).2 h
            rw [(e2 d hdx).2] at this; cases this
      · cases h
    · next hd =>
      cases h
      simp only [Bool.not_eq_true', Bool.not_eq_false] at hd
      exact ⟨hi, by simp, by simp, by simp, fun _ _ => ⟨rfl, .inl ((hi.done node).1 hd)⟩⟩

theorem visitNode_error (names : List String) (s : SortState) (node d n : String)
    (h : visitNode names s node = .error (d, n)) : n = node ∧ d ∈ s.deps node ∧ d ∉ names := by
  unfold visitNode at h
  split at h
  · cases h
  · split at h
    · split at h
      · cases h
      · next hd =>
        cases h
        exact ⟨rfl, (scanDeps_error _ _ _ _ _ hd).1, (scanDeps_error _ _ _ _ _ hd).2⟩
    · cases h

theorem fold_ok (names : List String) (hn : names.Nodup) (D : String → List String)
    (l : List String) (hl : ∀ x ∈ l, x ∈ names) (s s' : SortState) (hi : Inv names D s)
    (h : l.foldlM (visitNode names) s = .ok s') :
    Inv names D s' ∧ weight names s' + (s'.removed - s.removed) = weight names s ∧
    s.removed ≤ s'.removed ∧ s.out.length ≤ s'.out.length ∧
    (s'.out.length = s.out.length → s'.removed = s.removed → s' = s ∧
      ∀ x ∈ l, x ∈ s.out ∨ (s.deps x ≠ [] ∧ ∀ d ∈ s.deps x, d ∈ names ∧ d ∉ s.out)) := by
  induction l generalizing s with
  | nil => cases h; exact ⟨hi, by simp, by simp, by simp, fun _ _ => ⟨rfl, by simp⟩⟩
  | cons a l ih =>
    rw [List.foldlM_cons] at h
    cases hv : visitNode names s a with
    | error e => rw [hv] at h; cases h
    | ok s1 =>
      rw [hv] at h
      have h' : l.foldlM (visitNode names) s1 = .ok s' := h
      obtain ⟨a1, a2, a3, a4, a5⟩ := visitNode_ok names hn D s s1 a (hl a List.mem_cons_self) hi hv
      obtain ⟨b1, b2, b3, b4, b5⟩ := ih (fun x hx => hl x (List.mem_cons_of_mem _ hx)) s1 a1 h'
      refine ⟨b1, by omega, by omega, by omega, ?_⟩
      intro e1 e2
      obtain ⟨c1, c2⟩ := a5 (by omega) (by omega)
      subst c1
      obtain ⟨d1, d2⟩ := b5 e1 e2
      refine ⟨d1, ?_⟩
      intro x hx
      rcases List.mem_cons.1 hx with rfl | hx
      · exact c2
      · exact d2 x hx

theorem fold_error (names : List String) (hn : names.Nodup) (D : String → List String)
    (l : List String) (hl : ∀ x ∈ l, x ∈ names) (s : SortState) (hi : Inv names D s) (d n : String)
    (h : l.foldlM (visitNode names) s = .error (d, n)) : n ∈ names ∧ d ∈ D n ∧ d ∉ names := by
  induction l generalizing s with
  | nil => cases h
  | cons a l ih =>
    rw [List.foldlM_cons] at h
    cases hv : visitNode names s a with
    | error e =>
      rw [hv] at h
      cases h
      obtain ⟨rfl, h1, h2⟩ := visitNode_error names s a d n hv
      exact ⟨hl _ List.mem_cons_self, hi.deps _ _ h1, h2⟩
    | ok s1 =>
      rw [hv] at h
      exact ih (fun x hx => hl x (List.mem_cons_of_mem _ hx)) s1
        (visitNode_ok names hn D s s1 a (hl a List.mem_cons_self) hi hv).1 h

theorem inv_length {names : List String} {D : String → List String} {s : SortState}
    (hi : Inv names D s) : s.out.length ≤ names.length :=
  (List.subperm_of_subset hi.nodup hi.sub).length_le

theorem Inv.reset {names : List String} {D : String → List String} {s : SortState}
    (hi : Inv names D s) : Inv names D { s with removed := 0 } :=
  ⟨hi.nodup, hi.sub, hi.done, hi.deps, hi.rest, hi.topo⟩

/-- Finite set of names where each one depends on another one: a cycle. -/
theorem cycle_of_stuck (names : List String) (D : String → List String) (S : List String)
    (hS : ∀ x ∈ S, x ∈ names) (hne : ∃ x, x ∈ S) (h : ∀ x ∈ S, ∃ d ∈ S, d ∈ D x) :
    Cyclic names D := by
  classical
  by_contra hac
  let r : {x // x ∈ S} → {x // x ∈ S} → Prop := fun a b =>
    Relation.TransGen (DependsOn names D) b.1 a.1
  have : Finite {x // x ∈ S} := by
    have : Finite {x // x ∈ S.toFinset} := inferInstance
    exact Finite.of_injective (fun x : {x // x ∈ S} => (⟨x.1, by simpa using x.2⟩ : {x // x ∈ S.toFinset}))
      (fun a b e => Subtype.ext (by simpa using e))
  have : IsTrans _ r := ⟨fun a b c h1 h2 => Relation.TransGen.trans h2 h1⟩
  have : Std.Irrefl r := ⟨fun a h => hac ⟨a.1, h⟩⟩
  have wf : WellFounded r := Finite.wellFounded_of_trans_of_irrefl r
  obtain ⟨x, hx⟩ := hne
  obtain ⟨m, _, hm⟩ := wf.has_min Set.univ ⟨⟨x, hx⟩, trivial⟩
  obtain ⟨d, hd, hdx⟩ := h m.1 m.2
  exact hm ⟨d, hd⟩ trivial (Relation.TransGen.single ⟨hS _ m.2, hdx⟩)

theorem topo_acyclic (names : List String) (D : String → List String) (out : List String)
    (hp : ∀ x ∈ names, x ∈ out) (ht : Topological D out) (hn : out.Nodup) : ¬ Cyclic names D := by
  have hidx : ∀ a b, DependsOn names D a b → out.idxOf b < out.idxOf a := by
    rintro a b ⟨ha, hb⟩
    obtain ⟨pre, post, e⟩ := List.append_of_mem (hp a ha)
    have hb' := ht pre a post e b hb
    subst e
    have hap : a ∉ pre := fun h => by
      have := (List.nodup_append.1 hn).2.2 a h a List.mem_cons_self
      exact this rfl
    rw [List.idxOf_append_of_mem hb', List.idxOf_append_of_notMem hap]
    have := List.idxOf_lt_length_iff.2 hb'
    omega
  have htr : ∀ a b, Relation.TransGen (DependsOn names D) a b → out.idxOf b < out.idxOf a := by
    intro a b h
    induction h with
    | single h => exact hidx _ _ h
    | tail _ h ih => exact Nat.lt_trans (hidx _ _ h) ih
  rintro ⟨x, hx⟩
  exact Nat.lt_irrefl _ (htr x x hx)

/-- What each outcome means. -/
def Correct (names : List String) (D : String → List String) : SortResult → Prop
  | .ok out => out.Perm names ∧ Topological D out ∧ AllDefined names D ∧ ¬ Cyclic names D
  | .missing d n => n ∈ names ∧ d ∈ D n ∧ d ∉ names
  | .circular => AllDefined names D ∧ Cyclic names D

theorem loop_correct (names : List String) (hn : names.Nodup) (D : String → List String)
    (fuel : Nat) (idone0 : Int) (s : SortState) (hi : Inv names D s)
    (hid : idone0 = -1 ∨ idone0 = s.out.length)
    (hf : (names.length - s.out.length) + weight names s + (if idone0 = -1 then 1 else 0) < fuel) :
    ∃ r, sortLoop names fuel idone0 s = some r ∧ Correct names D r := by
  induction fuel generalizing idone0 s with
  | zero => omega
  | succ fuel ih =>
    unfold sortLoop
    have hlen := inv_length hi
    by_cases hlt : s.out.length < names.length
    · rw [if_pos hlt]
      cases hp : sortPass names s with
      | error e =>
        obtain ⟨d, n⟩ := e
        exact ⟨_, rfl, fold_error names hn D names (fun _ h => h) _ hi.reset d n hp⟩
      | ok s' =>
        obtain ⟨h1, h2, h3, h4, h5⟩ := fold_ok names hn D names (fun _ h => h) _ s' hi.reset hp
        simp only at h2 h4 h5 ⊢
        have hw : weight names { s with removed := 0 } = weight names s := rfl
        rw [hw] at h2
        by_cases hc : (s'.out.length : Int) ≤ idone0 ∧ s'.removed = 0
        · rw [if_pos hc]
          refine ⟨_, rfl, ?_⟩
          have hidone : idone0 = s.out.length := by
            rcases hid with h | h
            · omega
            · exact h
          obtain ⟨e1, e2⟩ := h5 (by omega) hc.2
          have hdef : AllDefined names D := by
            intro x hx d hd
            rcases hi.rest x d hd with h | h
            · rcases e2 x hx with h' | h'
              · obtain ⟨pre, post, e⟩ := List.append_of_mem h'
                have := hi.topo pre x post e d hd
                exact hi.sub d (by rw [e]; exact List.mem_append_left _ this)
              · exact (h'.2 d h).1
            · exact hi.sub d h
          refine ⟨hdef, cycle_of_stuck names D (names.filter fun x => decide (x ∉ s.out)) ?_ ?_ ?_⟩
          · intro x hx; exact (List.mem_filter.1 hx).1
          · by_contra hno
            have : ∀ x ∈ names, x ∈ s.out := by
              intro x hx
              by_contra hx'
              exact hno ⟨x, List.mem_filter.2 ⟨hx, by simpa using hx'⟩⟩
            have := (List.subperm_of_subset hn this).length_le
            omega
          · intro x hx
            obtain ⟨hx1, hx2⟩ := List.mem_filter.1 hx
            simp only [decide_eq_true_eq] at hx2
            rcases e2 x hx1 with h | ⟨h, h'⟩
            · exact absurd h hx2
            · obtain ⟨d, hd⟩ := List.exists_mem_of_ne_nil _ h
              exact ⟨d, List.mem_filter.2 ⟨(h' d hd).1, by simpa using (h' d hd).2⟩, hi.deps x d hd⟩
        · rw [if_neg hc]
          apply ih _ _ h1 (.inr rfl)
          have hlen' := inv_length h1
          have hne : ((s'.out.length : Int) = -1) = False := by
            simp only [eq_iff_iff, iff_false]; omega
          rw [if_neg (by omega)]
          have : s.out.length < s'.out.length ∨ 0 < s'.removed ∨ idone0 = -1 := by
            by_contra hno
            apply hc
            rcases hid with h | h
            · omega
            · constructor <;> omega
          split at hf <;> omega
    · rw [if_neg hlt]
      refine ⟨_, rfl, ?_⟩
      have hperm : s.out.Perm names :=
        (List.subperm_of_subset hi.nodup hi.sub).perm_of_length_le (by omega)
      refine ⟨hperm, hi.topo, ?_, topo_acyclic names D s.out (fun x hx => hperm.mem_iff.2 hx)
        hi.topo hi.nodup⟩
      intro x hx d hd
      obtain ⟨pre, post, e⟩ := List.append_of_mem (hperm.mem_iff.2 hx)
      have := hi.topo pre x post e d hd
      exact hi.sub d (by rw [e]; exact List.mem_append_left _ this)

/-- C16: for any definitions with distinct names the sorting stops (after at most
`#regions + #dependencies + 2` passes) and: if it returns an order, the order contains
each region exactly once, after all the regions it depends on; a "does not exist" error
names a real dependency that is not defined; a "circular dependency" error means that all
dependencies exist and there is a dependency cycle. -/
theorem C16_sort_by_dependency (names : List String) (hn : names.Nodup) (D : String → List String)
    (fuel : Nat) (hf : names.length + (names.map fun x => (D x).length).sum + 2 ≤ fuel) :
    ∃ r, sortByDependency fuel names D = some r ∧ Correct names D r := by
  apply loop_correct names hn D fuel (-1) _ _ (.inl rfl)
  · simp only [weight, List.length_nil, if_true]; omega
  · constructor
    · simp
    · simp
    · simp
    · intro x d h; exact h
    · intro x d h; exact .inl h
    · intro pre x post h; simp at h

/-- C16: the definitions are accepted iff all dependencies are defined and acyclic. -/
theorem C16_accepts_iff (names : List String) (hn : names.Nodup) (D : String → List String)
    (fuel : Nat) (hf : names.length + (names.map fun x => (D x).length).sum + 2 ≤ fuel) :
    (∃ out, sortByDependency fuel names D = some (.ok out)) ↔
      AllDefined names D ∧ ¬ Cyclic names D := by
  obtain ⟨r, hr, hc⟩ := C16_sort_by_dependency names hn D fuel hf
  rw [hr]
  cases r with
  | ok out => exact ⟨fun _ => ⟨hc.2.2.1, hc.2.2.2⟩, fun _ => ⟨out, rfl⟩⟩
  | missing d n =>
    constructor
    · rintro ⟨o, h⟩; cases h
    · rintro ⟨h, _⟩; exact absurd (h n hc.1 d hc.2.1) hc.2.2
  | circular =>
    constructor
    · rintro ⟨o, h⟩; cases h
    · rintro ⟨_, h⟩; exact absurd hc.2 h

/-- C16: the dependency graph records the selector references and the parent of each
definition, and duplicated names are rejected. -/
theorem C16_dependency_graph (defs : List RegionDef) :
    ((defs.map (·.name)).Nodup ↔ (dependencyGraph defs).isSome) ∧
    ∀ names D, dependencyGraph defs = some (names, D) → names = defs.map (·.name) ∧
      ∀ d ∈ defs, ∀ p, p ∈ D d.name ↔ p ∈ d.parents ∨ d.parent = some p := by
  unfold dependencyGraph
  constructor
  · split <;> simp_all
  · intro names D h
    split at h
    · next hn =>
      cases h
      refine ⟨rfl, ?_⟩
      intro d hd p
      have : defs.find? (fun e => e.name == d.name) = some d := by
        cases hf : defs.find? (fun e => e.name == d.name) with
        | none => exact absurd (List.find?_eq_none.1 hf d hd) (by simp)
        | some e =>
          have h1 := List.mem_of_find?_eq_some hf
          have h2 := List.find?_some hf
          simp only [beq_iff_eq] at h2
          rw [List.inj_on_of_nodup_map hn h1 hd h2]
      simp only [this, List.mem_append, Option.mem_toList]
    · cases h

/-- Non-vacuity: a definition list with a diamond of dependencies, one with a cycle, one
with an undefined region. -/
example :
    sortByDependency 12 ["D", "B", "C", "A"] (fun x => if x = "D" then ["B", "C", "B"] else
      if x = "B" ∨ x = "C" then ["A"] else []) = some (.ok ["A", "B", "C", "D"]) ∧
    sortByDependency 12 ["D", "B", "A"] (fun x => if x = "D" then ["B"] else
      if x = "B" then ["D"] else []) = some .circular ∧
    sortByDependency 12 ["D", "A"] (fun x => if x = "D" then ["A", "X"] else [])
      = some (.missing "X" "D") := by
  refine ⟨?_, ?_, ?_⟩ <;> decide

end Verif.Region
