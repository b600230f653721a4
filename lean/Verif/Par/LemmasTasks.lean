import Verif.Par.LemmasMaps
import Mathlib.Logic.Relation

/-!
# The loop over the tasks
-/

namespace Par

open Verif.Np

variable {ov : Bool} {m : FEMesh} {ct : ℕ → ℕ} {nc : ℕ} {done : List ℕ} {s : St}

/-- `ntasks` are the interfaces of the task `ir`. -/
structure IsInterfaces (m : FEMesh) (ct : ℕ → ℕ) (ir : ℕ) (ntasks : Dict (List ℕ)) : Prop where
  sound : ∀ p ∈ ntasks, ∀ f ∈ p.2, InterOf m ct ir f ∧ InterOf m ct p.1 f
  complete : ∀ f, InterOf m ct ir f → ∃ p ∈ ntasks, f ∈ p.2

theorem mem_taskDofs {d ir : ℕ} :
    d ∈ taskDofs m ct nc ir ↔ 0 < nc ∧ ∃ c < m.nCell, ct c = ir ∧ d / nc ∈ m.econn c := by
  simp only [taskDofs, taskCells, mem_expandDofs, List.mem_flatMap, List.mem_filter,
    List.mem_range, decide_eq_true_eq, and_assoc]

theorem mem_interDofs {ir : ℕ} {nt : Dict (List ℕ)} (h : IsInterfaces m ct ir nt) {d : ℕ} :
    d ∈ interDofs m nc nt ↔ 0 < nc ∧ ∃ f, InterOf m ct ir f ∧ d / nc ∈ m.fdofs f := by
  simp only [interDofs, List.mem_flatMap, mem_ditems, mem_expandDofs]
  constructor
  · rintro ⟨p, hp, hnc, f, hf, hd⟩
    exact ⟨hnc, f, (h.sound p hp f hf).1, hd⟩
  · rintro ⟨hnc, f, hf, hd⟩
    obtain ⟨p, hp, hf⟩ := h.complete f hf
    exact ⟨p, hp, hnc, f, hf, hd⟩

/-- The state in which the inner DOFs of a task are determined. -/
def beforeInner (ov : Bool) (m : FEMesh) (ct : ℕ → ℕ) (nc : ℕ) (s : St)
    (p : ℕ × Dict (List ℕ)) : St :=
  (ditems p.2).foldl (pairStep ov m nc p.1)
    (ensure { s with parts := s.parts ++ [taskCells m ct p.1] } p.1)

theorem inv_parts (h : Inv ov m ct nc done s) (q : List (List ℕ)) :
    Inv ov m ct nc done { s with parts := q } :=
  ⟨h.keys, h.nodup, h.mark, h.count, h.own, h.inner, h.done⟩

theorem beforeInner_inv (h : Inv ov m ct nc done s) (p : ℕ × Dict (List ℕ))
    (hi : IsInterfaces m ct p.1 p.2) :
    Inv ov m ct nc done (beforeInner ov m ct nc s p) ∧
      (∀ d, s.mark d ≠ 0 → (beforeInner ov m ct nc s p).mark d ≠ 0) ∧
      (∀ f, InterOf m ct p.1 f → ∀ d, 0 < nc → d / nc ∈ m.fdofs f →
        (beforeInner ov m ct nc s p).mark d ≠ 0) ∧
      (∀ k ∈ dkeys (beforeInner ov m ct nc s p).maps,
        k = p.1 ∨ (∃ q ∈ p.2, k = q.1) ∨ k ∈ dkeys s.maps) ∧
      (∀ k, k = p.1 ∨ k ∈ dkeys s.maps → k ∈ dkeys (beforeInner ov m ct nc s p).maps) := by
  obtain ⟨h1, e1, k1⟩ := ensure_inv (inv_parts h (s.parts ++ [taskCells m ct p.1])) p.1
  obtain ⟨h2, m2, c2, k2, k2'⟩ := pairs_inv p.1 (ditems p.2) h1
    (fun q hq f hf => hi.sound q (mem_ditems.1 hq) f hf)
  refine ⟨h2, fun d hd => m2 d (by rw [e1]; exact hd), ?_, ?_, ?_⟩
  · intro f hf d hnc hd
    obtain ⟨q, hq, hf⟩ := hi.complete f hf
    exact c2 q (mem_ditems.2 hq) f hf d hnc hd
  · intro k hk
    rcases k2 k hk with hk | ⟨q, hq, hk⟩ | hk
    · exact Or.inl hk
    · exact Or.inr (Or.inl ⟨q, mem_ditems.1 hq, hk⟩)
    · rcases (k1 k).1 hk with hk | hk
      · exact Or.inl hk
      · exact Or.inr (Or.inr hk)
  · intro k hk
    exact k2' k ((k1 k).2 hk)

theorem pairs_parts (ir : ℕ) (l : List (ℕ × List ℕ)) (s : St) :
    (l.foldl (pairStep ov m nc ir) s).parts = s.parts := by
  have hc : ∀ (s : St) t fs, (claim ov m nc s t fs).parts = s.parts := by
    intro s t fs; unfold claim; simp only; split <;> rfl
  induction l generalizing s with
  | nil => rfl
  | cons p r ih =>
    rw [List.foldl_cons, ih]
    unfold pairStep
    simp only [hc]; rfl

theorem taskStep_inv (h : Inv ov m ct nc done s) (p : ℕ × Dict (List ℕ))
    (hi : IsInterfaces m ct p.1 p.2) (hnd : p.1 ∉ done) {s' : St}
    (hs : taskStep ov m ct nc s p = some s') :
    Inv ov m ct nc (p.1 :: done) s' ∧
      (∀ d, s.mark d ≠ 0 → s'.mark d ≠ 0) ∧
      (∀ d, 0 < nc → (∃ c < m.nCell, ct c = p.1 ∧ d / nc ∈ m.econn c) → s'.mark d ≠ 0) ∧
      (∀ k ∈ dkeys s'.maps, k = p.1 ∨ (∃ q ∈ p.2, k = q.1) ∨ k ∈ dkeys s.maps) ∧
      s'.parts = s.parts ++ [taskCells m ct p.1] := by
  obtain ⟨h1, m1, c1, k1, k1'⟩ := beforeInner_inv h p hi
  have hparts : (beforeInner ov m ct nc s p).parts = s.parts ++ [taskCells m ct p.1] :=
    pairs_parts p.1 _ _
  unfold taskStep at hs
  simp only at hs
  change (if (setdiff1d (taskDofs m ct nc p.1) (interDofs m nc p.2)).all
      (fun d => decide ((beforeInner ov m ct nc s p).mark d = 0)) = true then
    some { beforeInner ov m ct nc s p with
      mark := scatterConst (beforeInner ov m ct nc s p).mark
        (setdiff1d (taskDofs m ct nc p.1) (interDofs m nc p.2)) 1
      maps := dupd (beforeInner ov m ct nc s p).maps p.1 DMap.empty fun v =>
        { v with inner := some (setdiff1d (taskDofs m ct nc p.1) (interDofs m nc p.2)),
                 n := v.n + (setdiff1d (taskDofs m ct nc p.1) (interDofs m nc p.2)).length } }
    else none) = some s' at hs
  generalize hb : beforeInner ov m ct nc s p = b at *
  generalize hin : setdiff1d (taskDofs m ct nc p.1) (interDofs m nc p.2) = inner at *
  have hmem : ∀ d, d ∈ inner ↔ (0 < nc ∧ ∃ c < m.nCell, ct c = p.1 ∧ d / nc ∈ m.econn c) ∧
      ∀ f, InterOf m ct p.1 f → d / nc ∉ m.fdofs f := by
    intro d
    rw [← hin, mem_setdiff1d, mem_taskDofs, mem_interDofs hi]
    constructor
    · rintro ⟨a, b⟩
      exact ⟨a, fun f hf hd => b ⟨a.1, f, hf, hd⟩⟩
    · rintro ⟨a, b⟩
      exact ⟨a, fun ⟨_, f, hf, hd⟩ => b f hf hd⟩
  have hndi : inner.Nodup := by rw [← hin]; exact nodup_setdiff1d _ _
  by_cases ha : inner.all (fun d => decide (b.mark d = 0)) = true
  swap
  · rw [if_neg ha] at hs; exact absurd hs (by simp)
  rw [if_pos ha] at hs
  have hs := (Option.some.inj hs).symm
  subst hs
  have hz : ∀ d ∈ inner, b.mark d = 0 := by
    intro d hd
    simpa using List.all_eq_true.1 ha d hd
  set F : DMap → DMap := fun v => { v with inner := some inner, n := v.n + inner.length } with hF
  have hnone : ((dget b.maps p.1).getD DMap.empty).inner = none := by
    rcases dget_getD_cases b.maps p.1 DMap.empty with ⟨w, hw, e⟩ | ⟨_, e⟩
    · rw [e]
      by_contra hne
      exact hnd ((h1.done p.1).2 ⟨w, hw, Option.isSome_iff_ne_none.2 hne⟩)
    · rw [e]; rfl
  have hp : (allOwned (dupd b.maps p.1 DMap.empty F)).Perm (allOwned b.maps ++ inner) := by
    refine dupd_flatMap_perm DMap.owned b.maps p.1 DMap.empty F inner rfl ?_
    simp only [DMap.owned, hF, hnone, Option.getD_some, Option.getD_none, List.nil_append]
    exact List.perm_append_comm
  have hdisj : ∀ d ∈ allOwned b.maps, d ∉ inner := by
    intro d hd hn
    have := hz d hn
    rw [h1.mark, if_pos hd] at this
    exact absurd this (by simp)
  refine ⟨⟨nodup_dkeys_dupd _ _ _ _ h1.keys, ?_, ?_, ?_, ?_, ?_, ?_⟩, ?_, ?_, ?_, hparts⟩
  · rw [hp.nodup_iff]
    exact List.nodup_append.2 ⟨h1.nodup, hndi, fun a ha b hb e => hdisj a ha (e ▸ hb)⟩
  · intro d
    show scatterConst b.mark inner 1 d = _
    rw [scatterConst_apply, h1.mark]
    simp only [hp.mem_iff, List.mem_append]
    by_cases h1 : d ∈ inner <;> by_cases h2 : d ∈ allOwned b.maps <;> simp [h1, h2]
  · intro k v hv
    rcases dget_dupd_cases hv with ⟨rfl, rfl⟩ | ⟨_, hv⟩
    · have hc : ((dget b.maps p.1).getD DMap.empty).n
          = ((dget b.maps p.1).getD DMap.empty).owned.length := by
        rcases dget_getD_cases b.maps p.1 DMap.empty with ⟨w, hw, e⟩ | ⟨_, e⟩
        · rw [e, h1.count p.1 w hw]
        · rw [e]; rfl
      show _ + inner.length = _
      rw [hc]
      simp only [DMap.owned, hF, hnone, Option.getD_some, Option.getD_none, List.nil_append,
        List.length_append]
      omega
    · exact h1.count k v hv
  · intro k v hv
    rcases dget_dupd_cases hv with ⟨rfl, rfl⟩ | ⟨_, hv⟩
    · rcases dget_getD_cases b.maps p.1 DMap.empty with ⟨w, hw, e⟩ | ⟨_, e⟩
      · rw [e]; exact h1.own p.1 w hw
      · rw [e]; intro d hd; simp [hF, DMap.empty] at hd
    · exact h1.own k v hv
  · intro k v hv
    rcases dget_dupd_cases hv with ⟨rfl, rfl⟩ | ⟨_, hv⟩
    · intro l hl d hd
      have hl : inner = l := by simpa [hF] using hl
      subst hl
      have := (hmem d).1 hd
      exact ⟨this.1.1, this.1.2, this.2⟩
    · exact h1.inner k v hv
  · intro k
    show _ ↔ ∃ v, dget (dupd b.maps p.1 DMap.empty F) k = some v ∧ _
    rw [dget_dupd, List.mem_cons, h1.done k]
    by_cases hk : k = p.1
    · subst hk
      simp [hF]
    · simp [hk]
  · intro d hd
    show scatterConst b.mark inner 1 d ≠ 0
    rw [scatterConst_apply]
    have := m1 d hd
    split <;> simp_all
  · intro d hnc hd
    show scatterConst b.mark inner 1 d ≠ 0
    rw [scatterConst_apply]
    by_cases hdi : d ∈ inner
    · simp [hdi]
    · rw [if_neg hdi]
      have : ∃ f, InterOf m ct p.1 f ∧ d / nc ∈ m.fdofs f := by
        by_contra hcon
        exact hdi ((hmem d).2 ⟨⟨hnc, hd⟩, fun f hf hdf => hcon ⟨f, hf, hdf⟩⟩)
      obtain ⟨f, hf, hdf⟩ := this
      exact c1 f hf d hnc hdf
  · intro k hk
    rcases (mem_dkeys_dupd _ _ _ _ _).1 hk with hk | hk
    · exact Or.inl hk
    · exact k1 k hk

/-- The result of the whole first loop. -/
theorem tasksLoop_inv (l : List (ℕ × Dict (List ℕ))) (h : Inv ov m ct nc done s)
    (hi : ∀ p ∈ l, IsInterfaces m ct p.1 p.2) (hnd : (l.map Prod.fst).Nodup)
    (hd : ∀ p ∈ l, p.1 ∉ done) {s' : St} (hs : tasksLoop ov m ct nc l s = some s') :
    (∃ done', Inv ov m ct nc done' s' ∧ ∀ k, k ∈ done' ↔ k ∈ done ∨ k ∈ l.map Prod.fst) ∧
      (∀ d, s.mark d ≠ 0 → s'.mark d ≠ 0) ∧
      (∀ p ∈ l, ∀ d, 0 < nc → (∃ c < m.nCell, ct c = p.1 ∧ d / nc ∈ m.econn c) → s'.mark d ≠ 0) ∧
      (∀ k ∈ dkeys s'.maps, k ∈ l.map Prod.fst ∨ (∃ p ∈ l, ∃ q ∈ p.2, k = q.1) ∨ k ∈ dkeys s.maps) ∧
      s'.parts = s.parts ++ l.map (fun p => taskCells m ct p.1) := by
  induction l generalizing s done with
  | nil =>
    simp only [tasksLoop, Option.some.injEq] at hs
    subst hs
    exact ⟨⟨done, h, by simp⟩, fun _ hd => hd, by simp, fun k hk => Or.inr (Or.inr hk), by simp⟩
  | cons p r ih =>
    simp only [tasksLoop] at hs
    rcases hs1 : taskStep ov m ct nc s p with _ | s1
    · rw [hs1] at hs; simp at hs
    · rw [hs1] at hs
      simp only [Option.bind_some] at hs
      obtain ⟨h1, m1, c1, k1, p1⟩ := taskStep_inv h p (hi p List.mem_cons_self)
        (hd p List.mem_cons_self) hs1
      have hnd' := List.nodup_cons.1 (by simpa using hnd : (p.1 :: r.map Prod.fst).Nodup)
      obtain ⟨⟨done', h2, hd2⟩, m2, c2, k2, p2⟩ := ih h1
        (fun q hq => hi q (List.mem_cons_of_mem _ hq)) hnd'.2 (by
          intro q hq hmem
          rcases List.mem_cons.1 hmem with e | e
          · exact hnd'.1 (e ▸ List.mem_map.2 ⟨q, hq, rfl⟩)
          · exact hd q (List.mem_cons_of_mem _ hq) e) hs
      refine ⟨⟨done', h2, ?_⟩, fun d hd => m2 d (m1 d hd), ?_, ?_, ?_⟩
      · intro k
        rw [hd2 k, List.map_cons]
        simp only [List.mem_cons]; tauto
      · intro q hq d hnc hx
        rcases List.mem_cons.1 hq with rfl | hq
        · exact m2 d (c1 d hnc hx)
        · exact c2 q hq d hnc hx
      · intro k hk
        rcases k2 k hk with hk | ⟨q, hq, hk⟩ | hk
        · exact Or.inl (by rw [List.map_cons]; exact List.mem_cons_of_mem _ hk)
        · exact Or.inr (Or.inl ⟨q, List.mem_cons_of_mem _ hq, hk⟩)
        · rcases k1 k hk with hk | hk | hk
          · exact Or.inl (by rw [List.map_cons, hk]; exact List.mem_cons_self)
          · exact Or.inr (Or.inl ⟨p, List.mem_cons_self, hk⟩)
          · exact Or.inr (Or.inr hk)
      · rw [p2, p1]; simp

/-! ### The mesh hypotheses -/

/-- Two cells share a facet on which the node `x` lies. -/
def AdjAt (m : FEMesh) (x a b : ℕ) : Prop :=
  ∃ f < m.nFacet, (m.fc f = [a, b] ∨ m.fc f = [b, a]) ∧ x ∈ m.fdofs f

/-- A conforming mesh: facets have one or two cells, the nodes of a facet are nodes of its cells,
and a cell with a node of a facet contains a vertex of the facet. -/
structure Conforming (m : FEMesh) : Prop where
  fc : ∀ f < m.nFacet, (m.fc f).length = 1 ∨ (m.fc f).length = 2
  cells : ∀ f < m.nFacet, ∀ c ∈ m.fc f, c < m.nCell
  sub : ∀ f < m.nFacet, ∀ c ∈ m.fc f, ∀ x ∈ m.fdofs f, x ∈ m.econn c
  star : ∀ f < m.nFacet, ∀ x ∈ m.fdofs f, ∀ c < m.nCell, x ∈ m.econn c →
    ∃ v ∈ m.fverts f, c ∈ m.vcells v

/-- Any two cells with a common node are connected by a chain of cells, all containing the node,
in which neighbours share a facet containing the node: no two parts of the mesh touch only in a
vertex (in an edge, in 3D). -/
def FacetConnected (m : FEMesh) : Prop :=
  ∀ x, ∀ a < m.nCell, ∀ b < m.nCell, x ∈ m.econn a → x ∈ m.econn b →
    Relation.ReflTransGen (AdjAt m x) a b

/-- All cells of a chain around an inner node of a task belong to the task. -/
theorem chain_task {x a c : ℕ} (hx : ∀ f, InterOf m ct (ct a) f → x ∉ m.fdofs f)
    (h : Relation.ReflTransGen (AdjAt m x) a c) : ct c = ct a := by
  induction h with
  | refl => rfl
  | @tail c d _ hcd ih =>
    obtain ⟨f, hfl, hfc, hxf⟩ := hcd
    by_contra hne
    refine hx f ⟨hfl, ?_⟩ hxf
    rcases hfc with e | e
    · exact ⟨c, d, e, by rw [ih]; exact fun h => hne h.symm, Or.inl ih⟩
    · exact ⟨d, c, e, by rw [ih]; exact hne, Or.inr ih⟩

/-- An inner DOF of a task belongs to no cell of another task. -/
theorem inner_only (hf : FacetConnected m) {x a b : ℕ} (ha : a < m.nCell) (hb : b < m.nCell)
    (hxa : x ∈ m.econn a) (hxb : x ∈ m.econn b)
    (hx : ∀ f, InterOf m ct (ct a) f → x ∉ m.fdofs f) : ct b = ct a :=
  chain_task hx (hf x a ha b hb hxa hxb)

/-- On a conforming facet-connected mesh the assertion on the inner DOFs holds. -/
theorem taskStep_some (hm : Conforming m) (hf : FacetConnected m)
    (h : Inv ov m ct nc done s) (p : ℕ × Dict (List ℕ))
    (hi : IsInterfaces m ct p.1 p.2) (hnd : p.1 ∉ done) :
    ∃ s', taskStep ov m ct nc s p = some s' := by
  obtain ⟨h1, -, -, -, -⟩ := beforeInner_inv h p hi
  have ha : (setdiff1d (taskDofs m ct nc p.1) (interDofs m nc p.2)).all
      (fun d => decide ((beforeInner ov m ct nc s p).mark d = 0)) = true := by
    rw [List.all_eq_true]
    intro d hd
    rw [mem_setdiff1d, mem_taskDofs, mem_interDofs hi] at hd
    obtain ⟨⟨hnc, a, ha, hta, hda⟩, hno⟩ := hd
    have hx : ∀ f, InterOf m ct (ct a) f → d / nc ∉ m.fdofs f := by
      intro f hff hdf
      rw [hta] at hff
      exact hno ⟨hnc, f, hff, hdf⟩
    rw [decide_eq_true_eq]
    by_contra hne
    have hmem := h1.marked_iff.1 hne
    obtain ⟨k, v, hv, hdv⟩ := (mem_allOwned h1.keys).1 hmem
    rcases List.mem_append.1 hdv with hd' | hd'
    · rcases hin : v.inner with _ | l
      · rw [hin] at hd'; simp at hd'
      · rw [hin] at hd'
        obtain ⟨-, ⟨c, hc, hck, hdc⟩, -⟩ := h1.inner k v hv l hin d hd'
        have := inner_only hf ha hc hda hdc hx
        have hk : k = p.1 := by rw [← hck, this, hta]
        subst hk
        exact hnd ((h1.done p.1).2 ⟨v, hv, by rw [hin]; rfl⟩)
    · obtain ⟨f, ⟨hfl, a', b', hab, hne', -⟩, -, hdf, -⟩ := h1.own k v hv d hd'
      have ha' : a' ∈ m.fc f := by rw [hab]; simp
      have hb' : b' ∈ m.fc f := by rw [hab]; simp
      have e1 := inner_only hf ha (hm.cells f hfl a' ha') hda (hm.sub f hfl a' ha' _ hdf) hx
      have e2 := inner_only hf ha (hm.cells f hfl b' hb') hda (hm.sub f hfl b' hb' _ hdf) hx
      exact hne' (e1.trans e2.symm)
  unfold taskStep
  simp only
  exact ⟨_, if_pos ha⟩

theorem tasksLoop_some (hm : Conforming m) (hf : FacetConnected m)
    (l : List (ℕ × Dict (List ℕ))) (h : Inv ov m ct nc done s)
    (hi : ∀ p ∈ l, IsInterfaces m ct p.1 p.2) (hnd : (l.map Prod.fst).Nodup)
    (hd : ∀ p ∈ l, p.1 ∉ done) : ∃ s', tasksLoop ov m ct nc l s = some s' := by
  induction l generalizing s done with
  | nil => exact ⟨s, rfl⟩
  | cons p r ih =>
    obtain ⟨s1, hs1⟩ := taskStep_some hm hf h p (hi p List.mem_cons_self) (hd p List.mem_cons_self)
    have hnd' := List.nodup_cons.1 (by simpa using hnd : (p.1 :: r.map Prod.fst).Nodup)
    have h1 := (taskStep_inv h p (hi p List.mem_cons_self) (hd p List.mem_cons_self) hs1).1
    obtain ⟨s2, hs2⟩ := ih h1 (fun q hq => hi q (List.mem_cons_of_mem _ hq)) hnd'.2 (by
      intro q hq hmem
      rcases List.mem_cons.1 hmem with e | e
      · exact hnd'.1 (e ▸ List.mem_map.2 ⟨q, hq, rfl⟩)
      · exact hd q (List.mem_cons_of_mem _ hq) e)
    exact ⟨s2, by simp [tasksLoop, hs1, hs2]⟩

end Par
