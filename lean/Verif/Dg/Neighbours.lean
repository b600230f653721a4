import Mathlib.Data.List.Basic
import Mathlib.Data.List.Nodup
import Mathlib.Data.List.Range
import Mathlib.Data.List.Sort
import Mathlib.Tactic.Linarith
import Mathlib.Tactic.SimpRw

/-!
# The neighbours of the cells (sfepy/discrete/dg/fields.py)

`F` is the connectivity cells - facets: the facet ids of every cell in the local order. The result of the functions
is the table of the neighbours, `none` is the row (-1, -1).
-/

namespace Dg

/-- The incident cells of the facet `s`, `cmesh.get_incident(dim, [s], dim - 1)`, in the increasing order
(sfepy/discrete/dg/fields.py:537-538). -/
def incident (F : List (List ℕ)) (s : ℕ) : List ℕ :=
  (List.range F.length).filter fun c => decide (s ∈ F.getD c [])

/-- One pass of the loop over the facets of the cell `c` in `get_facet_neighbor_idx()` for a region of all the cells
of the mesh, so the position of the cell and its number agree; the local facet is given by `get_local_ids()`
(sfepy/discrete/dg/fields.py:536-553). A facet beyond the facets of the cell has no entry. -/
def nbrOf (F : List (List ℕ)) (c f : ℕ) : Option (ℕ × ℕ) :=
  match (F.getD c [])[f]? with
  | none => none
  | some s =>
    if (incident F s).length = 1 then none
    else if (incident F s).head? = some c then
      (incident F s).getLast?.map fun k => (k, (F.getD k []).idxOf s)
    else (incident F s).head?.map fun k => (k, (F.getD k []).idxOf s)

/-- Assignments to the rows of the table given by the list of the facets, with the list of values
(`a[ic, if, 0] = v[:, 0]` and `a[ic, if, 1] = v[:, 1]` together): the last one counts
(sfepy/discrete/dg/fields.py:593-602). -/
def setRows (T : ℕ × ℕ → Option (ℕ × ℕ)) : List ((ℕ × ℕ) × (ℕ × ℕ)) → ℕ × ℕ → Option (ℕ × ℕ)
  | [] => T
  | (a, b) :: l => setRows (fun p => if p = a then some b else T p) l

/-- `_set_dg_periodic_facet_neighbours()`: every condition gives the pairs (master facet, slave facet)
(sfepy/discrete/dg/fields.py:565-604). The master rows are assigned before the slave ones for the cell numbers,
after them for the facet numbers; the rows are distinct, so the order is taken the same for both. -/
def setPeriodic (T : ℕ × ℕ → Option (ℕ × ℕ)) :
    List (List ((ℕ × ℕ) × (ℕ × ℕ))) → ℕ × ℕ → Option (ℕ × ℕ)
  | [] => T
  | bc :: l => setPeriodic (setRows (setRows T bc) (bc.map Prod.swap)) l

/-! ## Specification -/

/-- The cell `c` has the facet `s` as its local facet `f`. -/
def HasFacet (F : List (List ℕ)) (c f s : ℕ) : Prop := ∃ fs, F[c]? = some fs ∧ fs[f]? = some s

/-- A mesh: the facets of a cell are distinct, no facet belongs to more than two cells. -/
structure IsMesh (F : List (List ℕ)) : Prop where
  nodup : ∀ (c : ℕ) (fs : List ℕ), F[c]? = some fs → fs.Nodup
  two : ∀ s c₁ c₂ c₃ f₁ f₂ f₃, HasFacet F c₁ f₁ s → HasFacet F c₂ f₂ s → HasFacet F c₃ f₃ s →
    c₁ = c₂ ∨ c₁ = c₃ ∨ c₂ = c₃

/-! ## Proofs -/

theorem getD_of_getElem? (F : List (List ℕ)) (c : ℕ) (fs : List ℕ) (h : F[c]? = some fs) :
    F.getD c [] = fs := by
  simp [List.getD, h]

theorem mem_incident (F : List (List ℕ)) (s c : ℕ) : c ∈ incident F s ↔ ∃ f, HasFacet F c f s := by
  unfold incident HasFacet
  rw [List.mem_filter, List.mem_range, decide_eq_true_eq]
  constructor
  · rintro ⟨hc, hs⟩
    obtain ⟨f, hf⟩ := List.getElem?_of_mem hs
    exact ⟨f, F.getD c [], by simp [List.getD, List.getElem?_eq_getElem hc], hf⟩
  · rintro ⟨f, fs, h1, h2⟩
    obtain ⟨hc, _⟩ := List.getElem?_eq_some_iff.mp h1
    rw [getD_of_getElem? F c fs h1]
    exact ⟨hc, List.mem_of_getElem? h2⟩

theorem incident_sorted (F : List (List ℕ)) (s : ℕ) : (incident F s).Pairwise (· < ·) :=
  List.Pairwise.filter _ List.pairwise_lt_range

theorem incident_nodup (F : List (List ℕ)) (s : ℕ) : (incident F s).Nodup :=
  (incident_sorted F s).imp fun h => Nat.ne_of_lt h

/-- The incident cells of a facet of a mesh: one, or two different ones. -/
theorem incident_cases (F : List (List ℕ)) (hF : IsMesh F) (s c f : ℕ) (h : HasFacet F c f s) :
    incident F s = [c] ∨ ∃ k, k ≠ c ∧ (incident F s = [c, k] ∨ incident F s = [k, c]) := by
  have hc := (mem_incident F s c).mpr ⟨f, h⟩
  have hn := incident_nodup F s
  have htwo : ∀ a b d, a ∈ incident F s → b ∈ incident F s → d ∈ incident F s → a = b ∨ a = d ∨ b = d := by
    intro a b d ha hb hd
    obtain ⟨_, ha⟩ := (mem_incident F s a).mp ha
    obtain ⟨_, hb⟩ := (mem_incident F s b).mp hb
    obtain ⟨_, hd⟩ := (mem_incident F s d).mp hd
    exact hF.two s a b d _ _ _ ha hb hd
  match hl : incident F s with
  | [] => rw [hl] at hc; simp at hc
  | [a] => rw [hl] at hc; left; simp at hc; rw [hc]
  | [a, b] =>
    rw [hl] at hc hn
    right
    simp only [List.mem_cons, List.not_mem_nil, or_false] at hc
    simp only [List.nodup_cons, List.mem_cons, List.not_mem_nil, or_false] at hn
    rcases hc with rfl | rfl
    · exact ⟨b, fun e => hn.1 e.symm, Or.inl rfl⟩
    · exact ⟨a, hn.1, Or.inr rfl⟩
  | a :: b :: d :: l =>
    rw [hl] at hn
    have := htwo a b d (by rw [hl]; simp) (by rw [hl]; simp) (by rw [hl]; simp)
    simp only [List.nodup_cons, List.mem_cons] at hn
    rcases this with rfl | rfl | rfl <;> simp at hn

theorem nbrOf_eq (F : List (List ℕ)) (c f s : ℕ) (h : HasFacet F c f s) :
    nbrOf F c f = if (incident F s).length = 1 then none
      else if (incident F s).head? = some c then
        (incident F s).getLast?.map fun k => (k, (F.getD k []).idxOf s)
      else (incident F s).head?.map fun k => (k, (F.getD k []).idxOf s) := by
  obtain ⟨fs, h1, h2⟩ := h
  unfold nbrOf
  rw [getD_of_getElem? F c fs h1, h2]

theorem idxOf_hasFacet (F : List (List ℕ)) (hF : IsMesh F) (k g s : ℕ) (h : HasFacet F k g s) :
    (F.getD k []).idxOf s = g := by
  obtain ⟨fs, h1, h2⟩ := h
  rw [getD_of_getElem? F k fs h1]
  obtain ⟨hg, e⟩ := List.getElem?_eq_some_iff.mp h2
  rw [← e]
  exact (hF.nodup k fs h1).idxOf_getElem g hg

/-- C85: the neighbour of a cell over a facet, in a mesh: `(k, g)` is returned exactly when `k` is another cell,
with the same facet as its local facet `g`. -/
theorem C85_neighbour (F : List (List ℕ)) (hF : IsMesh F) (c f s : ℕ) (h : HasFacet F c f s) (k g : ℕ) :
    nbrOf F c f = some (k, g) ↔ k ≠ c ∧ HasFacet F k g s := by
  rw [nbrOf_eq F c f s h]
  constructor
  · intro e
    rcases incident_cases F hF s c f h with hi | ⟨k', hk', hi⟩
    · rw [hi] at e; simp at e
    · obtain ⟨g', hg'⟩ : ∃ g', HasFacet F k' g' s := by
        apply (mem_incident F s k').mp
        rcases hi with hi | hi <;> rw [hi] <;> simp
      have hidx := idxOf_hasFacet F hF k' g' s hg'
      rcases hi with hi | hi
      · rw [hi] at e
        simp only [List.length_cons, List.length_nil, zero_add, Nat.reduceAdd, OfNat.ofNat_ne_one, if_false,
          List.head?_cons, if_true, List.getLast?_cons_cons, List.getLast?_singleton, Option.map_some,
          Option.some.injEq, Prod.mk.injEq] at e
        rw [hidx] at e
        obtain ⟨rfl, rfl⟩ := e
        exact ⟨hk', hg'⟩
      · rw [hi] at e
        simp only [List.length_cons, List.length_nil, zero_add, Nat.reduceAdd, OfNat.ofNat_ne_one, if_false,
          List.head?_cons, Option.some.injEq, hk', Option.map_some, Prod.mk.injEq] at e
        rw [hidx] at e
        obtain ⟨rfl, rfl⟩ := e
        exact ⟨hk', hg'⟩
  · rintro ⟨hk, hg⟩
    have hmem := (mem_incident F s k).mpr ⟨g, hg⟩
    have hidx := idxOf_hasFacet F hF k g s hg
    rcases incident_cases F hF s c f h with hi | ⟨k', hk', hi⟩
    · rw [hi] at hmem
      simp at hmem
      exact absurd hmem hk
    · have : k = k' := by
        rcases hi with hi | hi <;> rw [hi] at hmem <;> simp at hmem <;> tauto
      subst this
      rcases hi with hi | hi
      · rw [hi]; simp only [List.getD] at hidx ⊢; simp [hidx]
      · rw [hi]; simp only [List.getD] at hidx ⊢; simp [hk, hidx]

/-- C85: a facet has no neighbour (-1) exactly when no other cell has it. -/
theorem C85_boundary (F : List (List ℕ)) (hF : IsMesh F) (c f s : ℕ) (h : HasFacet F c f s) :
    nbrOf F c f = none ↔ ∀ k g, HasFacet F k g s → k = c := by
  constructor
  · intro e k g hg
    by_contra hk
    have := (C85_neighbour F hF c f s h k g).mpr ⟨hk, hg⟩
    rw [e] at this
    simp at this
  · intro hall
    cases e : nbrOf F c f with
    | none => rfl
    | some p =>
      obtain ⟨hk, hg⟩ := (C85_neighbour F hF c f s h p.1 p.2).mp e
      exact absurd (hall _ _ hg) hk

theorem nbrOf_hasFacet (F : List (List ℕ)) (c f : ℕ) (p : ℕ × ℕ) (h : nbrOf F c f = some p) :
    ∃ s, HasFacet F c f s := by
  cases hs : (F.getD c [])[f]? with
  | none => unfold nbrOf at h; rw [hs] at h; simp at h
  | some s =>
    refine ⟨s, F.getD c [], ?_, hs⟩
    have : c < F.length := by
      by_contra hc
      have : F.getD c [] = [] := by simp [List.getD, List.getElem?_eq_none (not_lt.mp hc)]
      rw [this] at hs
      simp at hs
    simp [List.getD, List.getElem?_eq_getElem this]

/-- C85: the neighbours are mutual. -/
theorem C85_mutual (F : List (List ℕ)) (hF : IsMesh F) (c f k g : ℕ) (h : nbrOf F c f = some (k, g)) :
    nbrOf F k g = some (c, f) := by
  obtain ⟨s, hs⟩ := nbrOf_hasFacet F c f _ h
  obtain ⟨hk, hg⟩ := (C85_neighbour F hF c f s hs k g).mp h
  exact (C85_neighbour F hF k g s hg c f).mpr ⟨hk.symm, hs⟩

theorem setRows_not_mem (l : List ((ℕ × ℕ) × (ℕ × ℕ))) :
    ∀ (T : ℕ × ℕ → Option (ℕ × ℕ)) (p : ℕ × ℕ), p ∉ l.map Prod.fst → setRows T l p = T p := by
  induction l with
  | nil => intro T p _; rfl
  | cons x l ih =>
    intro T p hp
    obtain ⟨a, b⟩ := x
    simp only [List.map_cons, List.mem_cons, not_or] at hp
    rw [setRows, ih _ _ hp.2, if_neg hp.1]

theorem setRows_mem (l : List ((ℕ × ℕ) × (ℕ × ℕ))) :
    ∀ (T : ℕ × ℕ → Option (ℕ × ℕ)) (a b : ℕ × ℕ), (l.map Prod.fst).Nodup → (a, b) ∈ l →
      setRows T l a = some b := by
  induction l with
  | nil => intro T a b _ h; simp at h
  | cons x l ih =>
    intro T a b hn h
    obtain ⟨a', b'⟩ := x
    simp only [List.map_cons, List.nodup_cons] at hn
    rcases List.mem_cons.mp h with e | h
    · obtain ⟨rfl, rfl⟩ := Prod.mk.inj e
      rw [setRows, setRows_not_mem l _ _ hn.1, if_pos rfl]
    · rw [setRows, ih _ _ _ hn.2 h]

/-- All facets of the periodic conditions. -/
def facetsOf (bcs : List (List ((ℕ × ℕ) × (ℕ × ℕ)))) : List (ℕ × ℕ) :=
  bcs.flatten.map Prod.fst ++ bcs.flatten.map Prod.snd

theorem setPeriodic_not_mem (bcs : List (List ((ℕ × ℕ) × (ℕ × ℕ)))) :
    ∀ (T : ℕ × ℕ → Option (ℕ × ℕ)) (p : ℕ × ℕ), p ∉ facetsOf bcs → setPeriodic T bcs p = T p := by
  induction bcs with
  | nil => intro T p _; rfl
  | cons bc l ih =>
    intro T p hp
    simp only [facetsOf, List.flatten_cons, List.map_append, List.mem_append, not_or] at hp
    obtain ⟨⟨h1, h2⟩, h3, h4⟩ := hp
    rw [setPeriodic, ih _ _ (by simp only [facetsOf, List.mem_append, not_or]; exact ⟨h2, h4⟩),
      setRows_not_mem _ _ _ (by rw [List.map_map]; exact h3), setRows_not_mem _ _ _ h1]

/-- C85: DG periodic conditions on distinct facets make the facets of every pair the neighbours of each other, and
change nothing else. -/
theorem C85_periodic (T : ℕ × ℕ → Option (ℕ × ℕ)) (bcs : List (List ((ℕ × ℕ) × (ℕ × ℕ))))
    (hn : (facetsOf bcs).Nodup) :
    (∀ bc ∈ bcs, ∀ m s, (m, s) ∈ bc → setPeriodic T bcs m = some s ∧ setPeriodic T bcs s = some m) ∧
    (∀ p, p ∉ facetsOf bcs → setPeriodic T bcs p = T p) := by
  refine ⟨?_, fun p hp => setPeriodic_not_mem bcs T p hp⟩
  induction bcs generalizing T with
  | nil => intro bc h; simp at h
  | cons bc l ih =>
    have hn' := hn
    simp only [facetsOf, List.flatten_cons, List.map_append] at hn
    obtain ⟨hA, hB, hAB⟩ := List.nodup_append.mp hn
    obtain ⟨hA1, hA2, hA12⟩ := List.nodup_append.mp hA
    obtain ⟨hB1, hB2, hB12⟩ := List.nodup_append.mp hB
    have hnl : (facetsOf l).Nodup := by
      unfold facetsOf
      refine List.nodup_append.mpr ⟨hA2, hB2, fun a ha b hb => ?_⟩
      exact hAB a (List.mem_append_right _ ha) b (List.mem_append_right _ hb)
    intro bc' hbc m s hms
    rcases List.mem_cons.mp hbc with rfl | hbc
    · have hm : m ∈ bc'.map Prod.fst := List.mem_map.mpr ⟨_, hms, rfl⟩
      have hs : s ∈ bc'.map Prod.snd := List.mem_map.mpr ⟨_, hms, rfl⟩
      have hml : m ∉ facetsOf l := by
        unfold facetsOf
        rw [List.mem_append, not_or]
        exact ⟨fun h => hA12 m hm m h rfl,
          fun h => hAB m (List.mem_append_left _ hm) m (List.mem_append_right _ h) rfl⟩
      have hsl : s ∉ facetsOf l := by
        unfold facetsOf
        rw [List.mem_append, not_or]
        exact ⟨fun h => hAB s (List.mem_append_right _ h) s (List.mem_append_left _ hs) rfl,
          fun h => hB12 s hs s h rfl⟩
      have hmap : (bc'.map Prod.swap).map Prod.fst = bc'.map Prod.snd := by
        rw [List.map_map]; rfl
      rw [setPeriodic, setPeriodic_not_mem l _ _ hml, setPeriodic_not_mem l _ _ hsl]
      constructor
      · rw [setRows_not_mem _ _ _ (by
          rw [hmap]
          exact fun h => hAB m (List.mem_append_left _ hm) m (List.mem_append_left _ h) rfl)]
        exact setRows_mem bc' T m s hA1 hms
      · exact setRows_mem _ _ s m (by rw [hmap]; exact hB1)
          (List.mem_map.mpr ⟨(m, s), hms, rfl⟩)
    · rw [setPeriodic]
      exact ih _ hnl bc' hbc m s hms

/-- C85: with the facets of the periodic conditions on the boundary, the neighbours are mutual after the periodic
conditions are applied. -/
theorem C85_periodic_mutual (F : List (List ℕ)) (hF : IsMesh F) (bcs : List (List ((ℕ × ℕ) × (ℕ × ℕ))))
    (hn : (facetsOf bcs).Nodup) (hb : ∀ p ∈ facetsOf bcs, nbrOf F p.1 p.2 = none) (p q : ℕ × ℕ)
    (h : setPeriodic (fun p => nbrOf F p.1 p.2) bcs p = some q) :
    setPeriodic (fun p => nbrOf F p.1 p.2) bcs q = some p := by
  obtain ⟨h1, h2⟩ := C85_periodic (fun p => nbrOf F p.1 p.2) bcs hn
  by_cases hp : p ∈ facetsOf bcs
  · simp only [facetsOf, List.mem_append, List.mem_map, List.mem_flatten] at hp
    rcases hp with ⟨⟨m, s⟩, ⟨bc, hbc, hms⟩, rfl⟩ | ⟨⟨m, s⟩, ⟨bc, hbc, hms⟩, rfl⟩
    · obtain ⟨e1, e2⟩ := h1 bc hbc m s hms
      simp only at h ⊢
      rw [e1] at h
      rw [← Option.some.inj h, e2]
    · obtain ⟨e1, e2⟩ := h1 bc hbc m s hms
      simp only at h ⊢
      rw [e2] at h
      rw [← Option.some.inj h, e1]
  · rw [h2 p hp] at h
    have hm := C85_mutual F hF p.1 p.2 q.1 q.2 h
    have hq : q ∉ facetsOf bcs := by
      intro hq
      rw [hb q hq] at hm
      simp at hm
    rw [h2 q hq]
    exact hm

end Dg
