import Verif.Dof.PropsMap
/-
C05 - C08 for whole state vectors (class Variables): every variable occupies its own
consecutive part of the full and of the reduced vector (the layout proved in C01).
-/
namespace Verif.Dof
open Verif.Np

variable {α : Type}

/-- All index arrays of the map refer to DOFs below `n`. -/
def EqMap.InBounds (m : EqMap α) : Prop :=
  (∀ i ∈ m.eqEbc, i < m.n) ∧ (∀ i ∈ m.eqi, i < m.n) ∧ m.nEq = m.eqi.length ∧
  (∀ p ∈ m.master.zip m.slave, p.1 < m.n ∧ p.2 < m.n)

theorem mapEquations_inBounds [Zero α] (ord : List Nat → List Nat) (hord : ∀ l, (ord l).Perm l)
    (n : Nat) (bcs : List (BC α)) (hr : InRange n bcs) (unused : List Nat) :
    (mapEquations ord n bcs unused).InBounds := by
  refine ⟨fun i hi => (map_mem_eqEbc.1 hi).1, fun i hi => (map_mem_eqi.1 hi).1, rfl, ?_⟩
  rintro ⟨a, b⟩ hab
  obtain ⟨h1, h2, rfl⟩ := map_mem_pairs.1 hab
  exact ⟨h1, sl_lt (finalMs_range ord hord hr) h2⟩

/-- The variables are laid out one after another, starting at `off` in the full vector and
at `rOff` in the reduced vector. -/
def Laid (off rOff : Nat) : List (VarPart α) → Prop
  | [] => True
  | p :: rest => p.start = off ∧ p.rStart = rOff ∧ p.m.InBounds ∧
      Laid (off + p.m.n) (rOff + p.m.nEq) rest

theorem getFull_outside (m : EqMap α) (hm : m.InBounds) (r : Nat → α) (rOff : Nat)
    (force : Option α) (vec : Nat → α) (off t : Nat) (ht : t < off ∨ off + m.n ≤ t) :
    getFull m r rOff force vec off t = vec t := by
  have hlt : ∀ i < m.n, off + i ≠ t := by intro i hi; omega
  unfold getFull
  rw [scatter_of_not_mem, scatter_of_not_mem, scatter_of_not_mem]
  · intro p hp
    obtain ⟨q, hq, rfl⟩ := List.mem_map.1 hp
    exact hlt _ (hm.1 _ (List.of_mem_zip hq).1)
  · intro p hp
    obtain ⟨⟨a, b⟩, hq, rfl⟩ := List.mem_map.1 hp
    rw [List.mem_zipIdx_iff_getElem?] at hq
    exact hlt _ (hm.2.1 _ (List.mem_of_getElem? hq))
  · intro p hp
    obtain ⟨q, hq, rfl⟩ := List.mem_map.1 hp
    exact hlt _ (hm.2.2.2 _ hq).1

theorem scatter_congr (l l' : List (Nat × α)) (v v' : Nat → α) (S : Nat → Prop)
    (h : l.length = l'.length)
    (hl : ∀ k (h1 : k < l.length) (h2 : k < l'.length), l[k] = l'[k])
    (hv : ∀ t, S t → v t = v' t) : ∀ t, S t → scatter v l t = scatter v' l' t := by
  have : l = l' := List.ext_getElem h hl
  subst this
  clear hl h
  induction l generalizing v v' with
  | nil => exact hv
  | cons p l ih =>
    apply ih
    intro t ht
    unfold upd
    split
    · rfl
    · exact hv t ht

theorem getFull_local (m : EqMap α) (hm : m.InBounds) (r : Nat → α) (rOff : Nat)
    (force : Option α) (vec vec' : Nat → α) (off : Nat)
    (h : ∀ i < m.n, vec (off + i) = vec' (off + i)) (i : Nat) (hi : i < m.n) :
    getFull m r rOff force vec off (off + i) = getFull m r rOff force vec' off (off + i) := by
  unfold getFull
  have h1 : ∀ t, (∃ i < m.n, t = off + i) →
      scatter (scatter vec ((m.eqEbc.zip (m.ebcValues force)).map fun p => (off + p.1, p.2)))
        (m.eqi.zipIdx.map fun p => (off + p.1, r (rOff + p.2))) t =
      scatter (scatter vec' ((m.eqEbc.zip (m.ebcValues force)).map fun p => (off + p.1, p.2)))
        (m.eqi.zipIdx.map fun p => (off + p.1, r (rOff + p.2))) t := by
    apply scatter_congr _ _ _ _ _ rfl (fun _ _ _ => rfl)
    apply scatter_congr _ _ _ _ _ rfl (fun _ _ _ => rfl)
    rintro t ⟨i, hi, rfl⟩
    exact h i hi
  apply scatter_congr _ _ _ _ (fun t => ∃ i < m.n, t = off + i)
  · simp
  · intro k hk hk'
    simp only [List.getElem_map, Prod.mk.injEq, true_and]
    apply h1
    simp only [List.length_map] at hk
    exact ⟨_, (hm.2.2.2 _ (List.getElem_mem hk)).2, rfl⟩
  · exact h1
  · exact ⟨i, hi, rfl⟩

theorem makeFull_below (vars : List (VarPart α)) (off rOff : Nat) (hl : Laid off rOff vars)
    (r : Nat → α) (force : Option α) (vec : Nat → α) (t : Nat) (ht : t < off) :
    makeFullVec vars r force vec t = vec t := by
  unfold makeFullVec
  induction vars generalizing off rOff vec with
  | nil => rfl
  | cons p vars ih =>
    obtain ⟨h1, h2, h3, h4⟩ := hl
    rw [List.foldl_cons, ih _ _ h4 _ (by omega), getFull_outside _ h3]
    left; omega

/-- C05 for the whole state vector: `make_full_vec` writes into the part of every variable
exactly what `get_full` of that variable writes (so C05 for one variable applies to each),
and nothing else. -/
theorem C05_state_parts (vars : List (VarPart α)) (off rOff : Nat) (hl : Laid off rOff vars)
    (r : Nat → α) (force : Option α) (vec : Nat → α) :
    (∀ p ∈ vars, ∀ i < p.m.n, makeFullVec vars r force vec (p.start + i) =
      getFull p.m r p.rStart force vec p.start (p.start + i)) ∧
    (∀ t, (∀ p ∈ vars, ¬ (p.start ≤ t ∧ t < p.start + p.m.n)) →
      makeFullVec vars r force vec t = vec t) := by
  induction vars generalizing off rOff vec with
  | nil => exact ⟨by simp, fun t _ => rfl⟩
  | cons q vars ih =>
    obtain ⟨h1, h2, h3, h4⟩ := hl
    obtain ⟨ih1, ih2⟩ := ih _ _ h4 (getFull q.m r q.rStart force vec q.start)
    -- later parts are above `off + q.m.n`
    have hge : ∀ (vs : List (VarPart α)) a b, Laid a b vs → ∀ p ∈ vs, a ≤ p.start := by
      intro vs
      induction vs with
      | nil => intro a b _ p hp; simp at hp
      | cons q' vs ih' =>
        intro a b hL p hp
        obtain ⟨g1, _, _, g4⟩ := hL
        rcases List.mem_cons.1 hp with rfl | hp
        · omega
        · have := ih' _ _ g4 p hp; omega
    have hib : ∀ (vs : List (VarPart α)) a b, Laid a b vs → ∀ p ∈ vs, p.m.InBounds := by
      intro vs
      induction vs with
      | nil => intro a b _ p hp; simp at hp
      | cons q' vs ih' =>
        intro a b hL p hp
        obtain ⟨_, _, g3, g4⟩ := hL
        rcases List.mem_cons.1 hp with rfl | hp
        · exact g3
        · exact ih' _ _ g4 p hp
    constructor
    · intro p hp i hi
      rcases List.mem_cons.1 hp with rfl | hp'
      · show makeFullVec vars r force (getFull p.m r p.rStart force vec p.start) _ = _
        exact makeFull_below vars _ _ h4 r force _ _ (by omega)
      · show makeFullVec vars r force (getFull q.m r q.rStart force vec q.start) _ = _
        rw [ih1 p hp' i hi]
        apply getFull_local _ (hib _ _ _ h4 p hp') _ _ _ _ _ _ _ i hi
        intro j hj
        apply getFull_outside _ h3
        right
        have := hge _ _ _ h4 p hp'
        omega
    · intro t ht
      show makeFullVec vars r force (getFull q.m r q.rStart force vec q.start) _ = _
      rw [ih2 t (fun p hp => ht p (List.mem_cons_of_mem _ hp)), getFull_outside _ h3]
      have := ht q List.mem_cons_self
      omega

theorem reduceVec_apply [Add α] (vars : List (VarPart α)) (off rOff : Nat)
    (hl : Laid off rOff vars) (vec : Nat → α) (follow : Bool) (sv : Nat → α) :
    (∀ p ∈ vars, ∀ j < p.m.nEq, reduceVec vars vec follow sv (p.rStart + j) =
      getReduced p.m vec p.start follow j) ∧
    (∀ t < rOff, reduceVec vars vec follow sv t = sv t) := by
  induction vars generalizing off rOff sv with
  | nil => exact ⟨by simp, fun t _ => rfl⟩
  | cons q vars ih =>
    obtain ⟨h1, h2, h3, h4⟩ := hl
    obtain ⟨ih1, ih2⟩ := ih _ _ h4 (scatter sv ((List.range q.m.nEq).map fun j =>
      (q.rStart + j, getReduced q.m vec q.start follow j)))
    have hs : ∀ j, scatter sv ((List.range q.m.nEq).map fun j =>
      (q.rStart + j, getReduced q.m vec q.start follow j)) (q.rStart + j) =
        if j ∈ List.range q.m.nEq then getReduced q.m vec q.start follow j
        else sv (q.rStart + j) := fun j =>
      scatter_map_self (List.range q.m.nEq) sv (fun j => q.rStart + j) (add_inj _)
        (fun j => getReduced q.m vec q.start follow j) j
    constructor
    · intro p hp j hj
      rcases List.mem_cons.1 hp with rfl | hp'
      · show reduceVec vars vec follow (scatter sv _) _ = _
        rw [ih2 _ (by omega), hs, if_pos (List.mem_range.2 hj)]
      · exact ih1 p hp' j hj
    · intro t ht
      show reduceVec vars vec follow (scatter sv _) _ = _
      rw [ih2 t (by omega), scatter_of_not_mem]
      intro p hp
      obtain ⟨j, _, rfl⟩ := List.mem_map.1 hp
      simp only; omega

/-- C06 for the whole state vector: reducing the full vector made from a reduced vector
`r` gives `r` in the part of every variable. -/
theorem C06_state_round_trip [Zero α] [Add α] (ord : List Nat → List Nat)
    (vars : List (VarPart α)) (off rOff : Nat) (hl : Laid off rOff vars)
    (hm : ∀ p ∈ vars, ∃ n bcs unused, p.m = mapEquations ord n bcs unused)
    (r : Nat → α) (force : Option α) (vec sv : Nat → α) :
    ∀ p ∈ vars, ∀ j < p.m.nEq,
      reduceVec vars (makeFullVec vars r force vec) false sv (p.rStart + j) = r (p.rStart + j) := by
  intro p hp j hj
  rw [(reduceVec_apply vars off rOff hl _ _ _).1 p hp j hj]
  have hib : p.m.InBounds := by
    have : ∀ (vs : List (VarPart α)) a b, Laid a b vs → ∀ p ∈ vs, p.m.InBounds := by
      intro vs
      induction vs with
      | nil => intro a b _ p hp; simp at hp
      | cons q' vs ih' =>
        intro a b hL p hp
        obtain ⟨_, _, g3, g4⟩ := hL
        rcases List.mem_cons.1 hp with rfl | hp
        · exact g3
        · exact ih' _ _ g4 p hp
    exact this _ _ _ hl p hp
  have hj' : j < p.m.eqi.length := by rw [← hib.2.2.1]; exact hj
  have hmem : p.m.eqi[j] < p.m.n := hib.2.1 _ (List.getElem_mem hj')
  have hfull := (C05_state_parts vars off rOff hl r force vec).1 p hp _ hmem
  obtain ⟨n, bcs, unused, e⟩ := hm p hp
  have h6 := C06_reduce_full ord n bcs unused r p.rStart force vec p.start j (by rw [← e]; exact hj)
  rw [← e] at h6
  unfold getReduced at h6 ⊢
  simp only [Bool.false_eq_true, if_false] at h6 ⊢
  have ed : p.m.eqi.getD j 0 = p.m.eqi[j] := by simp [List.getD, hj']
  rw [ed] at h6 ⊢
  rw [hfull, h6]

theorem laid_bounds (vs : List (VarPart α)) : ∀ a b, Laid a b vs →
    ∀ p ∈ vs, p.m.InBounds ∧ a ≤ p.start := by
  induction vs with
  | nil => intro a b _ p hp; simp at hp
  | cons q' vs ih' =>
    intro a b hL p hp
    obtain ⟨g1, _, g3, g4⟩ := hL
    rcases List.mem_cons.1 hp with rfl | hp
    · exact ⟨g3, by omega⟩
    · have := ih' _ _ g4 p hp
      exact ⟨this.1, by omega⟩

theorem applyEbc_outside (m : EqMap α) (hm : m.InBounds) (force : Option α) (vec : Nat → α)
    (off t : Nat) (ht : t < off ∨ off + m.n ≤ t) : applyEbc m vec off force t = vec t := by
  have hlt : ∀ i < m.n, off + i ≠ t := by intro i hi; omega
  unfold applyEbc
  rw [scatter_of_not_mem, scatter_of_not_mem]
  · intro p hp
    obtain ⟨q, hq, rfl⟩ := List.mem_map.1 hp
    exact hlt _ (hm.1 _ (List.of_mem_zip hq).1)
  · intro p hp
    obtain ⟨q, hq, rfl⟩ := List.mem_map.1 hp
    exact hlt _ (hm.2.2.2 _ hq).1

theorem applyEbc_local (m : EqMap α) (hm : m.InBounds) (force : Option α) (vec vec' : Nat → α)
    (off : Nat) (h : ∀ i < m.n, vec (off + i) = vec' (off + i)) (i : Nat) (hi : i < m.n) :
    applyEbc m vec off force (off + i) = applyEbc m vec' off force (off + i) := by
  unfold applyEbc
  have h1 : ∀ t, (∃ i < m.n, t = off + i) →
      scatter vec ((m.eqEbc.zip (m.ebcValues force)).map fun p => (off + p.1, p.2)) t =
      scatter vec' ((m.eqEbc.zip (m.ebcValues force)).map fun p => (off + p.1, p.2)) t := by
    apply scatter_congr _ _ _ _ _ rfl (fun _ _ _ => rfl)
    rintro t ⟨i, hi, rfl⟩
    exact h i hi
  apply scatter_congr _ _ _ _ (fun t => ∃ i < m.n, t = off + i)
  · simp
  · intro k hk hk'
    simp only [List.getElem_map, Prod.mk.injEq, true_and]
    apply h1
    simp only [List.length_map] at hk
    exact ⟨_, (hm.2.2.2 _ (List.getElem_mem hk)).2, rfl⟩
  · exact h1
  · exact ⟨i, hi, rfl⟩

/-- C08 for the whole state vector: `Variables.apply_ebc` does in the part of every variable
exactly what `apply_ebc` of that variable does, and changes nothing else. -/
theorem C08_state_parts (vars : List (VarPart α)) (off rOff : Nat) (hl : Laid off rOff vars)
    (force : Option α) (vec : Nat → α) :
    (∀ p ∈ vars, ∀ i < p.m.n, applyEbcVec vars force vec (p.start + i) =
      applyEbc p.m vec p.start force (p.start + i)) ∧
    (∀ t, (∀ p ∈ vars, ¬ (p.start ≤ t ∧ t < p.start + p.m.n)) →
      applyEbcVec vars force vec t = vec t) := by
  induction vars generalizing off rOff vec with
  | nil => exact ⟨by simp, fun t _ => rfl⟩
  | cons q vars ih =>
    obtain ⟨h1, h2, h3, h4⟩ := hl
    obtain ⟨ih1, ih2⟩ := ih _ _ h4 (applyEbc q.m vec q.start force)
    constructor
    · intro p hp i hi
      rcases List.mem_cons.1 hp with rfl | hp'
      · show applyEbcVec vars force (applyEbc p.m vec p.start force) _ = _
        apply ih2
        intro p' hp'
        have := (laid_bounds _ _ _ h4 p' hp').2
        omega
      · show applyEbcVec vars force (applyEbc q.m vec q.start force) _ = _
        rw [ih1 p hp' i hi]
        have hb := laid_bounds _ _ _ h4 p hp'
        apply applyEbc_local _ hb.1 _ _ _ _ _ i hi
        intro j hj
        apply applyEbc_outside _ h3
        right
        have := hb.2
        omega
    · intro t ht
      show applyEbcVec vars force (applyEbc q.m vec q.start force) _ = _
      rw [ih2 t (fun p hp => ht p (List.mem_cons_of_mem _ hp)), applyEbc_outside _ h3]
      have := ht q List.mem_cons_self
      omega

/-- Non-vacuity: two variables, the sample map of `PropsMap` twice. -/
example : Laid (α := Int) 0 0
    [⟨mapEquations ascOrd 7 sampleBcs [6], 0, 0⟩,
     ⟨mapEquations ascOrd 7 sampleBcs [6], 7, (mapEquations ascOrd 7 sampleBcs [6]).nEq⟩] := by
  have hb := mapEquations_inBounds ascOrd ascOrd_perm 7 sampleBcs sample_ok.1 [6]
  exact ⟨rfl, rfl, hb, rfl, by simp, hb, trivial⟩

end Verif.Dof
