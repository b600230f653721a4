/-
C36 (continued): the invariant of `mesh_build()` and its result.
-/
import Verif.CMesh.PropsBuild

namespace Verif.CMesh

/-- A processed facet: its cell, its vertices, its id. -/
structure Rec where
  cell : ℕ
  g : List ℕ
  id : ℕ

/-- The insertions to `D -> d`. -/
def recOps (hist : List Rec) : List (ℕ × ℕ) := hist.map fun h => (h.cell, h.id)

/-- The ids of the facets of the cell `c`. -/
theorem rowOf_recOps (hist : List Rec) (c : ℕ) :
    rowOf (recOps hist) c = (hist.filter fun h => h.cell == c).map Rec.id := by
  unfold rowOf recOps
  rw [List.filter_map, List.map_map]
  rfl

/-- The invariant of the loop over the facets of `mesh_build()`. -/
structure Inv (nD : ℕ) (off total : ℕ → ℕ) (hist : List Rec) (firsts : List (List ℕ)) (s : BState) :
    Prop where
  filled : Filled nD off total (recOps hist) s.cDd
  stored : Stored firsts s.cd0
  len : firsts.length = s.id
  bound : s.id ≤ hist.length
  perm : ∀ h ∈ hist, ∃ hf : h.id < firsts.length, firsts[h.id].Perm h.g
  distinct : firsts.Pairwise fun g g' => ¬ g.Perm g'
  occ : ∀ f, (hf : f < firsts.length) → ∃ pre c post,
    hist = pre ++ ⟨c, firsts[f], f⟩ :: post ∧ ∀ h ∈ pre, h.id < f
  oris : ∀ i, (hi : i < hist.length) → s.oris i = oriKey hist[i].g

/-- What the search needs to know on the facet `g` of the cell `c`, with respect to the facets
processed before. -/
structure StepHyp (nD : ℕ) (off total : ℕ → ℕ) (cDD : Conn) (hist : List Rec) (c : ℕ) (g : List ℕ) :
    Prop where
  lt : c < nD
  size : 2 ≤ g.length ∧ g.length ≤ 4
  sizes : ∀ h ∈ hist, 2 ≤ h.g.length ∧ h.g.length ≤ 4
  conf : ∀ h ∈ hist, ((∀ v ∈ g, v ∈ h.g) ∨ (∀ v ∈ h.g, v ∈ g)) → h.g.length = g.length
  near : ∀ h ∈ hist, h.g.Perm g → h.cell < c ∧ h.cell ∈ cDD.row c
  full : ∀ c' < c, total c' = (rowOf (recOps hist) c').length
  room : (rowOf (recOps hist) c).length < total c
  slot : off c + (rowOf (recOps hist) c).length = hist.length
  small : hist.length < u32None
  wf : cDD.WF
  num : cDD.num = nD

theorem Inv.row_full {nD : ℕ} {off total : ℕ → ℕ} {hist : List Rec} {firsts : List (List ℕ)}
    {s : BState} (hI : Inv nD off total hist firsts s) {c : ℕ} (hc : c < nD)
    (h : total c = (rowOf (recOps hist) c).length) : s.cDd.iter c = rowOf (recOps hist) c := by
  rw [hI.filled.wf.iter_eq (by rw [hI.filled.num]; exact hc), hI.filled.row c hc, h]
  simp

theorem mem_rowOf_recOps {hist : List Rec} {c i : ℕ} :
    i ∈ rowOf (recOps hist) c ↔ ∃ h ∈ hist, h.cell = c ∧ h.id = i := by
  rw [rowOf_recOps]
  simp only [List.mem_map, List.mem_filter, beq_iff_eq]
  constructor
  · rintro ⟨h, ⟨h1, h2⟩, h3⟩; exact ⟨h, h1, h2, h3⟩
  · rintro ⟨h, h1, h2, h3⟩; exact ⟨h, ⟨h1, h2⟩, h3⟩

/-- The comparison of the facet with a stored one. -/
theorem Inv.cmp_iff {nD : ℕ} {off total : ℕ → ℕ} {hist : List Rec} {firsts : List (List ℕ)}
    {s : BState} {cDD : Conn} {c : ℕ} {g : List ℕ} (hI : Inv nD off total hist firsts s)
    (hS : StepHyp nD off total cDD hist c g) {h : Rec} (hh : h ∈ hist) :
    sort234 ((List.range' (s.cd0.offsets h.id) (sort234 g).length).map s.cd0.indices) = sort234 g ↔
      h.g.Perm g := by
  obtain ⟨hf, hp⟩ := hI.perm h hh
  rw [sort234_length g hS.size.1 hS.size.2]
  rw [sort234_eq_iff _ _ (by simpa using hS.size.1) (by simpa using hS.size.2) hS.size.1 hS.size.2]
  constructor
  · intro hpg
    have hlen : h.g.length = g.length := by
      apply hS.conf h hh
      rcases le_total firsts[h.id].length g.length with hle | hle
      · right
        intro v hv
        exact hpg.mem_iff.1 ((hI.stored.read_mem h.id hf g.length).1 hle v (hp.mem_iff.2 hv))
      · left
        intro v hv
        exact hp.mem_iff.1 ((hI.stored.read_mem h.id hf g.length).2 hle v (hpg.mem_iff.2 hv))
    rw [hI.stored.read h.id hf g.length (by rw [hp.length_eq, hlen])] at hpg
    exact hp.symm.trans hpg
  · intro hpg
    rw [hI.stored.read h.id hf g.length (by rw [hp.length_eq, hpg.length_eq])]
    exact hp.trans hpg

theorem Inv.find_some {nD : ℕ} {off total : ℕ → ℕ} {hist : List Rec} {firsts : List (List ℕ)}
    {s : BState} {cDD : Conn} {c : ℕ} {g : List ℕ} (hI : Inv nD off total hist firsts s)
    (hS : StepHyp nD off total cDD hist c g) {i : ℕ}
    (hr : ∀ c', c' ∈ cDD.row c → c' < nD)
    (hfind : findFacet cDD s.cDd s.cd0 c (sort234 g) = some i) :
    ∃ h ∈ hist, h.id = i ∧ h.g.Perm g := by
  unfold findFacet at hfind
  rw [List.findSome?_eq_some_iff] at hfind
  obtain ⟨l1, c', l2, hl, hv, -⟩ := hfind
  split at hv
  · cases hv
  · rename_i hlt
    have hc' : c' ∈ cDD.iter c := by rw [hl]; simp
    rw [hS.wf.iter_eq (by rw [hS.num]; exact hS.lt)] at hc'
    rw [hI.row_full (hr c' hc') (hS.full c' (by omega))] at hv
    have hm := List.mem_of_find?_eq_some hv
    have hp := List.find?_some hv
    obtain ⟨h, h1, -, rfl⟩ := mem_rowOf_recOps.1 hm
    exact ⟨h, h1, rfl, (hI.cmp_iff hS h1).1 (by simpa using hp)⟩

theorem Inv.find_none {nD : ℕ} {off total : ℕ → ℕ} {hist : List Rec} {firsts : List (List ℕ)}
    {s : BState} {cDD : Conn} {c : ℕ} {g : List ℕ} (hI : Inv nD off total hist firsts s)
    (hS : StepHyp nD off total cDD hist c g)
    (hr : ∀ c', c' ∈ cDD.row c → c' < nD)
    (hfind : findFacet cDD s.cDd s.cd0 c (sort234 g) = none) :
    ∀ h ∈ hist, ¬ h.g.Perm g := by
  intro h hh hp
  obtain ⟨h1, h2⟩ := hS.near h hh hp
  unfold findFacet at hfind
  rw [List.findSome?_eq_none_iff] at hfind
  have h3 := hfind h.cell (by rw [hS.wf.iter_eq (by rw [hS.num]; exact hS.lt)]; exact h2)
  rw [if_neg (by omega), hI.row_full (hr _ h2) (hS.full _ h1), List.find?_eq_none] at h3
  have := h3 h.id (mem_rowOf_recOps.2 ⟨h, hh, rfl, rfl⟩)
  exact this (by simpa using (hI.cmp_iff hS hh).2 hp)

/-- The orientation key is stored to the slot of the facet. -/
theorem Inv.finish {nD : ℕ} {off total : ℕ → ℕ} {hist : List Rec} {s : BState} {cDD : Conn} {c : ℕ}
    {g : List ℕ} (hS : StepHyp nD off total cDD hist c g) {i : ℕ} {cDd : Conn} (hi : i ≠ u32None)
    (hF : Filled nD off total (recOps (hist ++ [⟨c, g, i⟩])) cDd)
    (ho : ∀ i, (hi : i < hist.length) → s.oris i = oriKey hist[i].g) :
    lastUsed cDd c = some hist.length ∧
      ∀ k, (hk : k < (hist ++ [(⟨c, g, i⟩ : Rec)]).length) →
        Function.update s.oris hist.length (oriKey g) k = oriKey (hist ++ [(⟨c, g, i⟩ : Rec)])[k].g := by
  constructor
  · have hrow := hF.row c hS.lt
    have he : rowOf (recOps (hist ++ [(⟨c, g, i⟩ : Rec)])) c = rowOf (recOps hist) c ++ [i] := by
      simp [rowOf_recOps]
    rw [he, List.append_assoc] at hrow
    rw [lastUsed_spec c _ i _ hrow hi, hF.off, hS.slot]
  · intro k hk
    simp only [List.length_append, List.length_cons, List.length_nil] at hk
    by_cases h1 : k = hist.length
    · subst h1; simp
    · rw [Function.update_of_ne h1, List.getElem_append_left (by omega)]
      exact ho k (by omega)

/-- One facet is processed. -/
theorem Inv.step {nD : ℕ} {off total : ℕ → ℕ} {hist : List Rec} {firsts : List (List ℕ)}
    {s : BState} {cDD : Conn} {c : ℕ} {g : List ℕ} (hI : Inv nD off total hist firsts s)
    (hS : StepHyp nD off total cDD hist c g) (hr : ∀ c', c' ∈ cDD.row c → c' < nD) :
    ∃ s' i firsts', buildStep cDD c s g = some s' ∧
      Inv nD off total (hist ++ [⟨c, g, i⟩]) firsts' s' := by
  have hne : ∀ o ∈ recOps hist, o.2 ≠ u32None := by
    intro o ho
    obtain ⟨h, hh, rfl⟩ := List.mem_map.1 ho
    obtain ⟨hf, -⟩ := hI.perm h hh
    have h1 := hI.len; have h2 := hI.bound; have h3 := hS.small
    simp only; omega
  rcases hfind : findFacet cDD s.cDd s.cd0 c (sort234 g) with _ | i
  · -- A new facet.
    have hnew := hI.find_none hS hr hfind
    obtain ⟨cDd, e1, hF⟩ := hI.filled.step hne hS.lt hS.room (v := s.id)
    have hne' : s.id ≠ u32None := by
      have h2 := hI.bound; have h3 := hS.small; omega
    have hF' : Filled nD off total (recOps (hist ++ [(⟨c, g, s.id⟩ : Rec)])) cDd := by
      simpa [recOps] using hF
    obtain ⟨hl, ho⟩ := Inv.finish hS hne' hF' hI.oris
    have hst := hI.stored.push g
    simp only [hI.len] at hst
    refine ⟨⟨s.id + 1, cDd, ⟨s.cd0.num, s.cd0.nInc,
        storeList s.cd0.indices (Function.update s.cd0.offsets (s.id + 1)
          (s.cd0.offsets s.id + g.length) s.id) g,
        Function.update s.cd0.offsets (s.id + 1) (s.cd0.offsets s.id + g.length)⟩,
      Function.update s.oris hist.length (oriKey g)⟩, s.id, firsts ++ [g], ?_, ?_⟩
    · unfold buildStep
      simp only [hfind, e1, Option.bind_eq_bind, Option.bind_some, Option.pure_def, hl,
        sort234_length g hS.size.1 hS.size.2]
    · refine ⟨hF', hst, by simp [hI.len], by simp; exact hI.bound, ?_, ?_, ?_, ho⟩
      · intro h hh
        rcases List.mem_append.1 hh with h1 | h1
        · obtain ⟨hf, hp⟩ := hI.perm h h1
          exact ⟨by simp; omega, by rw [List.getElem_append_left hf]; exact hp⟩
        · obtain rfl := List.mem_singleton.1 h1
          refine ⟨by simp [hI.len], ?_⟩
          rw [List.getElem_append_right (by simp [hI.len])]
          simp
      · rw [List.pairwise_append]
        refine ⟨hI.distinct, by simp, ?_⟩
        intro g1 hg1 g2 hg2
        obtain rfl := List.mem_singleton.1 hg2
        obtain ⟨f, hf, rfl⟩ := List.getElem_of_mem hg1
        obtain ⟨pre, c', post, he, -⟩ := hI.occ f hf
        exact hnew ⟨c', firsts[f], f⟩ (by rw [he]; simp)
      · intro f hf
        simp only [List.length_append, List.length_cons, List.length_nil] at hf
        by_cases h1 : f < firsts.length
        · obtain ⟨pre, c', post, he, hpre⟩ := hI.occ f h1
          refine ⟨pre, c', post ++ [⟨c, g, s.id⟩], ?_, hpre⟩
          rw [List.getElem_append_left h1]
          conv_lhs => rw [he]
          simp
        · obtain rfl : f = firsts.length := by omega
          refine ⟨hist, c, [], ?_, ?_⟩
          · simp [hI.len]
          · intro h hh
            exact (hI.perm h hh).1
  · -- A facet found.
    obtain ⟨h, hh, hid, hp⟩ := hI.find_some hS hr hfind
    obtain ⟨hf, hp'⟩ := hI.perm h hh
    obtain ⟨cDd, e1, hF⟩ := hI.filled.step hne hS.lt hS.room (v := i)
    have hne' : i ≠ u32None := by
      have h1 := hI.len; have h2 := hI.bound; have h3 := hS.small; omega
    have hF' : Filled nD off total (recOps (hist ++ [(⟨c, g, i⟩ : Rec)])) cDd := by
      simpa [recOps] using hF
    obtain ⟨hl, ho⟩ := Inv.finish hS hne' hF' hI.oris
    refine ⟨⟨s.id, cDd, s.cd0, Function.update s.oris hist.length (oriKey g)⟩, i, firsts, ?_, ?_⟩
    · unfold buildStep
      simp only [hfind, e1, Option.bind_eq_bind, Option.bind_some, Option.pure_def, hl]
    · refine ⟨hF', hI.stored, hI.len, by simp; have := hI.bound; omega, ?_, hI.distinct, ?_, ho⟩
      · intro h1 hh1
        rcases List.mem_append.1 hh1 with h2 | h2
        · exact hI.perm h1 h2
        · obtain rfl := List.mem_singleton.1 h2
          subst hid
          exact ⟨hf, hp'.trans hp⟩
      · intro f hf
        obtain ⟨pre, c', post, he, hpre⟩ := hI.occ f hf
        refine ⟨pre, c', post ++ [⟨c, g, i⟩], ?_, hpre⟩
        conv_lhs => rw [he]
        simp

/-! ### The sequence of all the facets -/

/-- The facets of all the cells, with the numbers of the cells. -/
def facetOps (nD : ℕ) (F : ℕ → List (List ℕ)) : List (ℕ × List ℕ) :=
  (List.range nD).flatMap fun c => (F c).map fun g => (c, g)

theorem facetOps_succ (n : ℕ) (F : ℕ → List (List ℕ)) :
    facetOps (n + 1) F = facetOps n F ++ (F n).map fun g => (n, g) := by
  simp [facetOps, List.range_succ]

theorem mem_facetOps {nD : ℕ} {F : ℕ → List (List ℕ)} {o : ℕ × List ℕ} :
    o ∈ facetOps nD F ↔ o.1 < nD ∧ o.2 ∈ F o.1 := by
  unfold facetOps
  simp only [List.mem_flatMap, List.mem_range, List.mem_map]
  constructor
  · rintro ⟨c, hc, g, hg, rfl⟩; exact ⟨hc, hg⟩
  · rintro ⟨h1, h2⟩; exact ⟨o.1, h1, o.2, h2, rfl⟩

theorem facetOps_sorted (nD : ℕ) (F : ℕ → List (List ℕ)) :
    (facetOps nD F).Pairwise fun o o' => o.1 ≤ o'.1 := by
  induction nD with
  | zero => simp [facetOps]
  | succ n ih =>
    rw [facetOps_succ, List.pairwise_append]
    refine ⟨ih, ?_, ?_⟩
    · rw [List.pairwise_map]
      exact List.pairwise_of_forall fun _ _ => le_rfl
    · intro a ha b hb
      have h1 := (mem_facetOps.1 ha).1
      obtain ⟨g, -, rfl⟩ := List.mem_map.1 hb
      simp only; omega

theorem facetOps_distinct (nD : ℕ) (F : ℕ → List (List ℕ))
    (h : ∀ c < nD, (F c).Pairwise fun g g' => ¬ g.Perm g') :
    (facetOps nD F).Pairwise fun o o' => o.1 = o'.1 → ¬ o.2.Perm o'.2 := by
  induction nD with
  | zero => simp [facetOps]
  | succ n ih =>
    rw [facetOps_succ, List.pairwise_append]
    refine ⟨ih fun c hc => h c (by omega), ?_, ?_⟩
    · rw [List.pairwise_map]
      refine (h n (by omega)).imp ?_
      intro a b hab _
      exact hab
    · intro a ha b hb hab
      have h1 := (mem_facetOps.1 ha).1
      obtain ⟨g, -, rfl⟩ := List.mem_map.1 hb
      simp only at hab; omega

theorem facetOps_filter (nD : ℕ) (F : ℕ → List (List ℕ)) (c : ℕ) :
    (facetOps nD F).filter (fun o => o.1 == c) = if c < nD then (F c).map fun g => (c, g) else [] := by
  induction nD with
  | zero => simp [facetOps]
  | succ n ih =>
    rw [facetOps_succ, List.filter_append, ih]
    by_cases h : c = n
    · subst h
      rw [if_neg (by omega), if_pos (by omega), List.nil_append, List.filter_eq_self]
      intro a ha
      obtain ⟨g, -, rfl⟩ := List.mem_map.1 ha
      simp
    · have h2 : ((F n).map fun g => (n, g)).filter (fun o => o.1 == c) = [] := by
        rw [List.filter_eq_nil_iff]
        intro a ha
        obtain ⟨g, -, rfl⟩ := List.mem_map.1 ha
        simp; omega
      rw [h2, List.append_nil]
      by_cases h1 : c < n
      · rw [if_pos h1, if_pos (by omega)]
      · rw [if_neg h1, if_neg (by omega)]

theorem facetOps_map (nD : ℕ) (F : ℕ → List (List ℕ)) :
    (facetOps nD F).map Prod.snd = (List.range nD).flatMap F := by
  unfold facetOps
  rw [List.map_flatMap]
  congr 1
  funext c
  simp [List.map_map, Function.comp_def]

/-- A list sorted by keys is composed of its parts with the individual keys. -/
theorem flatMap_filter_sorted {α : Type} (key : α → ℕ) (n : ℕ) (l : List α)
    (hs : l.Pairwise fun a b => key a ≤ key b) (hn : ∀ a ∈ l, key a < n) :
    (List.range n).flatMap (fun c => l.filter fun a => key a == c) = l := by
  induction n generalizing l with
  | zero =>
    rcases l with _ | ⟨a, l⟩
    · simp
    · exact absurd (hn a (by simp)) (by omega)
  | succ n ih =>
    have hsplit : ∀ l : List α, l.Pairwise (fun a b => key a ≤ key b) → (∀ a ∈ l, key a < n + 1) →
        l.filter (fun a => decide (key a < n)) ++ l.filter (fun a => key a == n) = l := by
      intro l
      induction l with
      | nil => intro _ _; rfl
      | cons a l ihl =>
        intro hs hn
        rw [List.pairwise_cons] at hs
        have h1 := hn a (by simp)
        by_cases h2 : key a < n
        · have h3 : (key a == n) = false := by simp; omega
          rw [List.filter_cons_of_pos (by simpa using h2), List.filter_cons_of_neg (by simpa using h3),
            List.cons_append, ihl hs.2 fun b hb => hn b (by simp [hb])]
        · have h3 : key a = n := by omega
          rw [List.filter_cons_of_neg (by simpa using h2), List.filter_cons_of_pos (by simpa using h3)]
          have h4 : l.filter (fun a => decide (key a < n)) = [] := by
            rw [List.filter_eq_nil_iff]
            intro b hb
            have := hs.1 b hb
            simp; omega
          have h5 : l.filter (fun a => key a == n) = l := by
            rw [List.filter_eq_self]
            intro b hb
            have h6 := hs.1 b hb
            have h7 := hn b (by simp [hb])
            simp; omega
          rw [h4, h5, List.nil_append]
    have h := ih (l.filter fun a => decide (key a < n)) (hs.filter _)
      (fun a ha => by simpa using (List.mem_filter.1 ha).2)
    rw [List.range_succ, List.flatMap_append]
    conv_rhs => rw [← hsplit l hs hn]
    congr 1
    · conv_rhs => rw [← h]
      refine List.flatMap_congr fun c hc => ?_
      rw [List.filter_filter]
      refine List.filter_congr fun a _ => ?_
      have hc' := List.mem_range.1 hc
      by_cases h1 : key a = c
      · simp [h1, hc']
      · simp [h1]
    · simp

/-! ### The run -/

theorem run_ops {nD : ℕ} {off total : ℕ → ℕ} {cDD : Conn} (ops : List (ℕ × List ℕ))
    (hr : ∀ c < nD, ∀ c', c' ∈ cDD.row c → c' < nD) (done : List (ℕ × List ℕ)) (hist : List Rec)
    (hstep : ∀ pre o post, done ++ ops = pre ++ o :: post → ∀ hist : List Rec,
      hist.map (fun h => (h.cell, h.g)) = pre → StepHyp nD off total cDD hist o.1 o.2)
    (firsts : List (List ℕ)) (s : BState) (hd : hist.map (fun h => (h.cell, h.g)) = done)
    (hI : Inv nD off total hist firsts s) :
    ∃ s' hist' firsts', ops.foldlM (fun s o => buildStep cDD o.1 s o.2) s = some s' ∧
      hist'.map (fun h => (h.cell, h.g)) = done ++ ops ∧ Inv nD off total hist' firsts' s' := by
  induction ops generalizing done hist firsts s with
  | nil => exact ⟨s, hist, firsts, rfl, by simpa using hd, hI⟩
  | cons o ops ih =>
    have hS := hstep done o ops rfl hist hd
    obtain ⟨s1, i, firsts1, e1, hI1⟩ := hI.step hS (hr _ hS.lt)
    obtain ⟨s', hist', firsts', e2, e3, hI'⟩ := ih (done ++ [o]) (hist ++ [⟨o.1, o.2, i⟩])
      (by simpa using hstep) firsts1 s1 (by simp [hd]) hI1
    refine ⟨s', hist', firsts', ?_, by simpa using e3, hI'⟩
    rw [List.foldlM_cons, e1]
    exact e2

/-- Specification: the requirements on the facets `F c` of the cells `c` with the vertices
`cD0.row c`. -/
structure Conforming (nD : ℕ) (cD0 : Conn) (F : ℕ → List (List ℕ)) : Prop where
  /-- A facet has two to four vertices, of its cell. -/
  size : ∀ c < nD, ∀ g ∈ F c, 2 ≤ g.length ∧ g.length ≤ 4
  sub : ∀ c < nD, ∀ g ∈ F c, ∀ v ∈ g, v ∈ cD0.row c
  /-- A cell has no two facets with the same vertices. -/
  distinct : ∀ c < nD, (F c).Pairwise fun g g' => ¬ g.Perm g'
  /-- A facet is not a part of a facet with a different number of vertices. -/
  conf : ∀ c < nD, ∀ g ∈ F c, ∀ c' < nD, ∀ g' ∈ F c', (∀ v ∈ g, v ∈ g') → g.length = g'.length

theorem countP_lt_succ (l : List (ℕ × List ℕ)) (c : ℕ) :
    (l.filter fun o => decide (o.1 < c + 1)).length
      = (l.filter fun o => decide (o.1 < c)).length + (l.filter fun o => o.1 == c).length := by
  induction l with
  | nil => rfl
  | cons o l ih =>
    rcases lt_trichotomy o.1 c with h | h | h
    · have h1 : (o.1 == c) = false := by simp; omega
      rw [List.filter_cons_of_pos (by simp; omega), List.filter_cons_of_pos (by simp; omega),
        List.filter_cons_of_neg (by simp; omega)]
      simp only [List.length_cons, ih]; omega
    · rw [List.filter_cons_of_pos (by simp; omega), List.filter_cons_of_neg (by simp; omega),
        List.filter_cons_of_pos (by simp; omega)]
      simp only [List.length_cons, ih]; omega
    · rw [List.filter_cons_of_neg (by simp; omega), List.filter_cons_of_neg (by simp; omega),
        List.filter_cons_of_neg (by simp; omega), ih]

theorem rowOf_rec_length (hist : List Rec) (c : ℕ) : (rowOf (recOps hist) c).length
    = ((hist.map fun h => (h.cell, h.g)).filter fun o => o.1 == c).length := by
  rw [rowOf_recOps, List.filter_map, List.length_map, List.length_map]
  rfl

theorem stepHyp_of {nD : ℕ} {off : ℕ → ℕ} {cDD cD0 : Conn} {F : ℕ → List (List ℕ)}
    (hF : Conforming nD cD0 F) (hwf : cDD.WF) (hnum : cDD.num = nD)
    (hrow : ∀ c < nD, ∀ c', c' ∈ cDD.row c ↔ c' < nD ∧ c' ≠ c ∧ ∃ v, v ∈ cD0.row c ∧ v ∈ cD0.row c')
    (hoff : ∀ c < nD, off c = ((facetOps nD F).filter fun o => decide (o.1 < c)).length)
    (hsmall : (facetOps nD F).length ≤ u32None)
    (pre : List (ℕ × List ℕ)) (o : ℕ × List ℕ) (post : List (ℕ × List ℕ))
    (he : facetOps nD F = pre ++ o :: post) (hist : List Rec)
    (hh : hist.map (fun h => (h.cell, h.g)) = pre) :
    StepHyp nD off (fun c => (F c).length) cDD hist o.1 o.2 := by
  have hmo : o ∈ facetOps nD F := by rw [he]; simp
  obtain ⟨ho1, ho2⟩ := mem_facetOps.1 hmo
  have hmh : ∀ h ∈ hist, (h.cell, h.g) ∈ pre := fun h hx => by
    rw [← hh]; exact List.mem_map_of_mem hx
  have hmp : ∀ h ∈ hist, h.cell < nD ∧ h.g ∈ F h.cell := fun h hx => by
    have : (h.cell, h.g) ∈ facetOps nD F := by rw [he]; simp [hmh h hx]
    exact mem_facetOps.1 this
  have hsort := facetOps_sorted nD F
  rw [he, List.pairwise_append, List.pairwise_cons] at hsort
  have hle : ∀ p ∈ pre, p.1 ≤ o.1 := fun p hp => hsort.2.2 p hp o (by simp)
  have hge : ∀ p ∈ post, o.1 ≤ p.1 := hsort.2.1.1
  have hdist := facetOps_distinct nD F hF.distinct
  rw [he, List.pairwise_append] at hdist
  have hfil : ∀ c < nD, (F c).length = ((pre ++ o :: post).filter fun o => o.1 == c).length := by
    intro c hc
    rw [← he, facetOps_filter, if_pos hc, List.length_map]
  refine ⟨ho1, hF.size _ ho1 _ ho2, fun h hx => hF.size _ (hmp h hx).1 _ (hmp h hx).2, ?_, ?_, ?_, ?_,
    ?_, ?_, hwf, hnum⟩
  · rintro h hx (h1 | h1)
    · exact (hF.conf _ ho1 _ ho2 _ (hmp h hx).1 _ (hmp h hx).2 h1).symm
    · exact hF.conf _ (hmp h hx).1 _ (hmp h hx).2 _ ho1 _ ho2 h1
  · intro h hx hp
    have h1 := hle _ (hmh h hx)
    have h2 : h.cell ≠ o.1 := fun h3 => hdist.2.2 _ (hmh h hx) o (by simp) h3 hp
    simp only at h1
    refine ⟨by omega, (hrow _ ho1 _).2 ⟨(hmp h hx).1, h2, ?_⟩⟩
    have h4 := (hF.size _ ho1 _ ho2).1
    obtain ⟨v, hv⟩ := List.exists_mem_of_length_pos (show 0 < o.2.length by omega)
    exact ⟨v, hF.sub _ ho1 _ ho2 v hv, hF.sub _ (hmp h hx).1 _ (hmp h hx).2 v (hp.mem_iff.2 hv)⟩
  · intro c' hc'
    have h0 : (o :: post).filter (fun o => o.1 == c') = [] := by
      rw [List.filter_eq_nil_iff]
      intro p hp
      rcases List.mem_cons.1 hp with rfl | hp
      · simp; omega
      · have := hge p hp
        simp; omega
    rw [hfil c' (by omega), rowOf_rec_length, hh, List.filter_append, h0, List.append_nil]
  · rw [hfil _ ho1, rowOf_rec_length, hh, List.filter_append, List.length_append,
      List.filter_cons_of_pos (by simp), List.length_cons]
    omega
  · rw [hoff _ ho1, rowOf_rec_length, hh, he, List.filter_append]
    have h0 : (o :: post).filter (fun p => decide (p.1 < o.1)) = [] := by
      rw [List.filter_eq_nil_iff]
      intro p hp
      rcases List.mem_cons.1 hp with rfl | hp
      · simp
      · have := hge p hp
        simp; omega
    rw [h0, List.append_nil, ← countP_lt_succ, List.filter_eq_self.2, ← hh, List.length_map]
    intro p hp
    have := hle p hp
    simp; omega
  · have h1 := congrArg List.length he
    have h2 := congrArg List.length hh
    simp only [List.length_append, List.length_cons, List.length_map] at h1 h2
    omega

/-- What `mesh_build()` computes: `facets` are the vertices of the facets of all the cells, one cell
after another, `ids` the numbers of the facets given by `D -> d`. -/
structure UniqueFacets (nD : ℕ) (F : ℕ → List (List ℕ)) (s : BState) (facets : List (List ℕ))
    (ids : List ℕ) : Prop where
  facets_eq : facets = (List.range nD).flatMap F
  ids_eq : ids = (List.range nD).flatMap s.cDd.row
  /-- Each cell has the given number of facets. -/
  rows : ∀ c < nD, (s.cDd.row c).length = (F c).length
  len : ids.length = facets.length
  /-- Two facets have the same number iff they have the same vertices. -/
  same : ∀ i j, (hi : i < ids.length) → (hj : j < ids.length) →
    (ids[i] = ids[j] ↔ (facets[i]'(len ▸ hi)).Perm (facets[j]'(len ▸ hj)))
  /-- The facets are numbered by 0, 1, 2, ..., in the order of their first occurrences. -/
  lt : ∀ i ∈ ids, i < s.cd0.num
  all : ∀ f < s.cd0.num, f ∈ ids
  order : ∀ i, (hi : i < ids.length) → ∀ f < ids[i], ∃ j, ∃ h : j < i, ids[j] = f
  /-- The vertices of a facet are stored as in the cell where it occurs first. -/
  verts : ∀ i, (hi : i < ids.length) → (∀ j, (h : j < i) → ids[j] ≠ ids[i]) →
    s.cd0.row ids[i] = facets[i]'(len ▸ hi)
  /-- The orientations of all the facets in all the cells. -/
  oris : ∀ i, (hi : i < facets.length) → s.oris i = oriKey facets[i]
  wfDd : s.cDd.WF
  numDd : s.cDd.num = nD
  wfd0 : s.cd0.WF

theorem Stored.le {firsts : List (List ℕ)} {c : Conn} (h : Stored firsts c) (n : ℕ)
    (hn : ∀ g ∈ firsts, g.length ≤ n) (f : ℕ) (hf : f ≤ firsts.length) : c.offsets f ≤ n * f := by
  induction f with
  | zero => rw [h.zero]; omega
  | succ f ih =>
    have h1 := ih (by omega)
    have h2 := hn _ (List.getElem_mem (show f < firsts.length by omega))
    rw [h.off f (by omega), Nat.mul_succ]
    omega

theorem getElem?_pre {α : Type} {l pre post : List α} {x : α} (h : l = pre ++ x :: post) {i : ℕ}
    (hi : i < pre.length) : l[i]? = pre[i]? := by
  rw [h, List.getElem?_append_left hi]

theorem Inv.result {nD : ℕ} {off total : ℕ → ℕ} {F : ℕ → List (List ℕ)} {hist : List Rec}
    {firsts : List (List ℕ)} {s : BState} (hI : Inv nD off total hist firsts s)
    (htot : ∀ c < nD, total c = (F c).length)
    (hh : hist.map (fun h => (h.cell, h.g)) = facetOps nD F) :
    UniqueFacets nD F { s with cd0 := { s.cd0 with num := s.id, nInc := s.cd0.offsets s.id } }
      (hist.map Rec.g) (hist.map Rec.id) := by
  have hrow : ∀ c < nD, s.cDd.row c = (hist.filter fun h => h.cell == c).map Rec.id := by
    intro c hc
    rw [hI.filled.row c hc, rowOf_rec_length, hh, facetOps_filter, if_pos hc, List.length_map,
      htot c hc, Nat.sub_self, List.replicate_zero, List.append_nil, rowOf_recOps]
  have hg : hist.map Rec.g = (List.range nD).flatMap F := by
    rw [← facetOps_map, ← hh, List.map_map]
    rfl
  refine ⟨hg, ?_, ?_, by simp, ?_, ?_, ?_, ?_, ?_, ?_, hI.filled.wf, hI.filled.num, ?_⟩
  · have hkey : hist = (List.range nD).flatMap (fun c => hist.filter fun h => h.cell == c) := by
      refine (flatMap_filter_sorted Rec.cell nD hist ?_ ?_).symm
      · have := facetOps_sorted nD F
        rw [← hh, List.pairwise_map] at this
        exact this
      · intro h hx
        have : (h.cell, h.g) ∈ facetOps nD F := by rw [← hh]; exact List.mem_map_of_mem hx
        exact (mem_facetOps.1 this).1
    conv_lhs => rw [hkey]
    rw [List.map_flatMap]
    exact List.flatMap_congr fun c hc => (hrow c (List.mem_range.1 hc)).symm
  · intro c hc
    simp only
    rw [hrow c hc, ← rowOf_recOps, rowOf_rec_length, hh, facetOps_filter, if_pos hc, List.length_map]
  · intro i j hi hj
    simp only [List.getElem_map]
    simp only [List.length_map] at hi hj
    obtain ⟨h1, p1⟩ := hI.perm hist[i] (List.getElem_mem hi)
    obtain ⟨h2, p2⟩ := hI.perm hist[j] (List.getElem_mem hj)
    constructor
    · intro he
      simp only [he] at p1
      exact p1.symm.trans p2
    · intro hp
      have hpp := (p1.trans hp).trans p2.symm
      rcases lt_trichotomy hist[i].id hist[j].id with h | h | h
      · exact absurd hpp (List.pairwise_iff_getElem.1 hI.distinct _ _ h1 h2 h)
      · exact h
      · exact absurd hpp.symm (List.pairwise_iff_getElem.1 hI.distinct _ _ h2 h1 h)
  · intro i hi
    obtain ⟨h, hx, rfl⟩ := List.mem_map.1 hi
    simp only [← hI.len]
    exact (hI.perm h hx).1
  · intro f hf
    simp only [← hI.len] at hf
    obtain ⟨pre, c, post, he, -⟩ := hI.occ f hf
    rw [he]
    simp
  · intro i hi f hf
    simp only [List.length_map] at hi
    simp only [List.getElem_map] at hf ⊢
    obtain ⟨h1, -⟩ := hI.perm hist[i] (List.getElem_mem hi)
    obtain ⟨pre, c, post, he, hpre⟩ := hI.occ f (by omega)
    have hat : ∀ k, (hk : k < hist.length) → k < pre.length → hist[k].id < f := by
      intro k hk hkp
      have : hist[k] = pre[k] := by
        simp only [he]
        rw [List.getElem_append_left hkp]
      rw [this]
      exact hpre _ (List.getElem_mem _)
    -- The first occurrence of the id of the i-th facet.
    obtain ⟨pre', c', post', he', hpre'⟩ := hI.occ hist[i].id h1
    have hlp : pre.length < hist.length := by rw [he]; simp
    have hlp' : pre'.length < hist.length := by
      have := congrArg List.length he'
      simp at this; omega
    have e1 : hist[pre.length].id = f := by
      simp only [he]; simp
    have e2 : hist[pre'.length].id = hist[i].id := by
      have : hist[pre'.length] = ⟨c', firsts[hist[i].id], hist[i].id⟩ := by
        have h3 : hist[pre'.length]? = some ⟨c', firsts[hist[i].id], hist[i].id⟩ := by
          rw [List.getElem?_eq_some_iff]
          refine ⟨hlp', ?_⟩
          have h4 : (pre' ++ ⟨c', firsts[hist[i].id], hist[i].id⟩ :: post')[pre'.length]?
              = some (⟨c', firsts[hist[i].id], hist[i].id⟩ : Rec) := by simp
          rw [← he', List.getElem?_eq_some_iff] at h4
          exact h4.2
        rw [List.getElem?_eq_some_iff] at h3
        exact h3.2
      rw [this]
    have hi' : pre'.length ≤ i := by
      by_contra hlt
      have h3 : pre'[i]? = some hist[i] := by
        have h4 : hist[i]? = some hist[i] := List.getElem?_eq_getElem hi
        rw [← h4]
        exact (getElem?_pre he' (by omega)).symm
      have h5 := hpre' hist[i] (List.mem_of_getElem? h3)
      omega
    refine ⟨pre.length, ?_, e1⟩
    by_contra hge
    rcases Nat.lt_or_ge pre'.length pre.length with h3 | h3
    · have := hat pre'.length hlp' h3
      omega
    · have h4 : i = pre.length := by omega
      subst h4
      omega
  · intro i hi hfirst
    simp only [List.length_map] at hi
    simp only [List.getElem_map] at hfirst ⊢
    obtain ⟨h1, -⟩ := hI.perm hist[i] (List.getElem_mem hi)
    obtain ⟨pre', c', post', he', hpre'⟩ := hI.occ hist[i].id h1
    have hlp' : pre'.length < hist.length := by
      have := congrArg List.length he'
      simp at this; omega
    have e2 : hist[pre'.length] = ⟨c', firsts[hist[i].id], hist[i].id⟩ := by
      have h4 : (pre' ++ ⟨c', firsts[hist[i].id], hist[i].id⟩ :: post')[pre'.length]?
          = some (⟨c', firsts[hist[i].id], hist[i].id⟩ : Rec) := by simp
      rw [← he', List.getElem?_eq_some_iff] at h4
      exact h4.2
    have hle : i ≤ pre'.length := by
      by_contra hlt
      exact hfirst pre'.length (by omega) (by rw [e2])
    have hge : pre'.length ≤ i := by
      by_contra hlt
      have h3 : pre'[i]? = some hist[i] := by
        have h4 : hist[i]? = some hist[i] := List.getElem?_eq_getElem hi
        rw [← h4]
        exact (getElem?_pre he' (by omega)).symm
      have h5 := hpre' hist[i] (List.mem_of_getElem? h3)
      omega
    have heq : pre'.length = i := le_antisymm hge hle
    have hg' : hist[i].g = firsts[hist[i].id] := by
      simp only [heq] at e2
      exact congrArg Rec.g e2
    rw [hg']
    have h6 := hI.stored.off _ h1
    show (List.range' (s.cd0.offsets hist[i].id) _).map s.cd0.indices = _
    rw [hI.stored.read _ h1 _ (by simp only; omega)]
  · intro i hi
    simp only [List.length_map] at hi
    simp only [List.getElem_map]
    exact hI.oris i hi
  · refine ⟨hI.stored.zero, fun i hi => ?_, rfl⟩
    simp only at hi ⊢
    exact hI.stored.mono (Nat.le_succ i) (by rw [hI.len]; omega)

/-- C36: for a conforming mesh, where the connectivity `D -> D` lists the cells with common
vertices, `mesh_build()` succeeds and computes the unique facets; the vertices of the facets fit to
the allocated memory. -/
theorem C36_build (nD nVMax : ℕ) (locs : ℕ → Conn) (cellTypes : ℕ → ℕ) (cDD cD0 : Conn)
    (hF : Conforming nD cD0 (cellFacets locs cellTypes cD0)) (hwf : cDD.WF) (hnum : cDD.num = nD)
    (hrow : ∀ c < nD, ∀ c', c' ∈ cDD.row c ↔ c' < nD ∧ c' ≠ c ∧ ∃ v, v ∈ cD0.row c ∧ v ∈ cD0.row c')
    (hmax : ∀ c < nD, ∀ g ∈ cellFacets locs cellTypes cD0 c, g.length ≤ nVMax)
    (hsmall : ((List.range nD).flatMap (cellFacets locs cellTypes cD0)).length ≤ u32None) :
    ∃ s facets ids, meshBuild nD nVMax locs cellTypes cDD cD0 = some s ∧
      UniqueFacets nD (cellFacets locs cellTypes cD0) s facets ids ∧
      s.cd0.nInc ≤ nVMax * facets.length := by
  set F := cellFacets locs cellTypes cD0 with hFdef
  have hFlen : ∀ c, (F c).length = (locs (cellTypes c)).num := fun c => by simp [hFdef, cellFacets]
  set counts : ℕ → ℕ := fun ii => match ii with
    | 0 => 0
    | it0 + 1 => if it0 < nD then (locs (cellTypes it0)).num else 0 with hcounts
  have hc0 : counts 0 = 0 := rfl
  have hcs : ∀ c < nD, counts (c + 1) = (F c).length := fun c hc => by
    simp only [hcounts, if_pos hc, hFlen]
  have hoff : ∀ c, c ≤ nD → cumsum nD counts c
      = ((facetOps nD F).filter fun o => decide (o.1 < c)).length := by
    intro c hc
    induction c with
    | zero =>
      rw [cumsum_apply, if_pos (by omega)]
      simp [hc0]
    | succ c ih =>
      rw [countP_lt_succ, ← ih (by omega), facetOps_filter, if_pos (by omega), List.length_map,
        cumsum_apply, cumsum_apply, if_pos hc, if_pos (by omega), Finset.sum_range_succ _ (c + 1),
        hcs c (by omega)]
  have hopslen : (facetOps nD F).length = ((List.range nD).flatMap F).length := by
    rw [← facetOps_map, List.length_map]
  set cDd := allocConn nD counts with hcDd
  set s0 : BState :=
    { id := 0, cDd := cDd,
      cd0 := { num := cDd.nInc, nInc := cDd.nInc * nVMax, indices := fun _ => 0,
               offsets := fun _ => 0 },
      oris := fun _ => 0 } with hs0
  have hI0 : Inv nD (cumsum nD counts) (fun c => (F c).length) [] [] s0 := by
    refine ⟨⟨allocConn_wf _ _ hc0, rfl, rfl, fun i hi => ?_⟩, ⟨rfl, ?_, ?_⟩, rfl, le_rfl, ?_,
      List.Pairwise.nil, ?_, ?_⟩
    · simp only [hs0, hcDd]
      rw [allocConn_row _ _ hc0 i hi, hcs i hi]
      simp [recOps, rowOf]
    · intro f hf; simp at hf
    · intro f hf; simp at hf
    · intro h hx; simp at hx
    · intro f hf; simp at hf
    · intro i hi; simp at hi
  obtain ⟨s, hist, firsts, e1, e2, hI⟩ := run_ops (facetOps nD F)
    (fun c hc c' h => ((hrow c hc c').1 h).1) [] []
    (fun pre o post he hist hh => stepHyp_of hF hwf hnum hrow (fun c hc => hoff c hc.le)
      (by rw [hopslen]; exact hsmall) pre o post (by simpa using he) hist hh) [] s0 rfl hI0
  rw [List.nil_append] at e2
  refine ⟨{ s with cd0 := { s.cd0 with num := s.id, nInc := s.cd0.offsets s.id } }, hist.map Rec.g,
    hist.map Rec.id, ?_, hI.result (fun c _ => rfl) e2, ?_⟩
  · have hfold : (List.range nD).foldlM (fun s it0 => (F it0).foldlM (buildStep cDD it0) s) s0
        = some s := by
      rw [← e1, facetOps, foldlM_flatMap']
      congr 1
      funext s c
      rw [List.foldlM_map]
    show ((List.range nD).foldlM (fun s it0 => (F it0).foldlM (buildStep cDD it0) s) s0).bind _ = _
    rw [hfold]
    rfl
  · have hle := hI.stored.le nVMax (fun g hg => ?_) firsts.length le_rfl
    · simp only [List.length_map]
      rw [hI.len] at hle
      exact hle.trans (Nat.mul_le_mul_left _ hI.bound)
    · obtain ⟨f, hf, rfl⟩ := List.getElem_of_mem hg
      obtain ⟨pre, c, post, he, -⟩ := hI.occ f hf
      have hm : (c, firsts[f]) ∈ facetOps nD F := by
        rw [← e2, he]; simp
      exact hmax _ (mem_facetOps.1 hm).1 _ (mem_facetOps.1 hm).2

end Verif.CMesh
