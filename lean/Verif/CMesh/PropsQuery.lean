/-
C53: incidence queries.
-/
import Verif.CMesh.Query
import Verif.CMesh.PropsTargets

namespace Verif.CMesh

theorem put_fold (l : List ℕ) : ∀ (s : IncState) (L : List ℕ), s.ii = L.length →
    (List.range s.ii).map s.ind = L →
    (l.foldl IncState.put s).ii = (L ++ l).length ∧
      (List.range (l.foldl IncState.put s).ii).map (l.foldl IncState.put s).ind = L ++ l ∧
      (l.foldl IncState.put s).off = s.off := by
  induction l with
  | nil => intro s L h1 h2; simp [h1, h2]; rw [← h1, h2]
  | cons v l ih =>
    intro s L h1 h2
    have e1 : (s.put v).ii = (L ++ [v]).length := by simp [IncState.put, h1]
    have e2 : (List.range (s.put v).ii).map (s.put v).ind = L ++ [v] := by
      simp only [IncState.put, List.range_succ, List.map_append, List.map_cons, List.map_nil,
        Function.update_self]
      congr 1
      rw [← h2]
      apply List.map_congr_left
      intro p hp
      have := List.mem_range.1 hp
      rw [Function.update_of_ne (by omega)]
    obtain ⟨k1, k2, k3⟩ := ih (s.put v) (L ++ [v]) e1 e2
    rw [List.foldl_cons]
    exact ⟨by simpa using k1, by simpa using k2, k3⟩

theorem inc_fold (c : Conn) (pre ents : List ℕ) : ∀ s : IncState,
    s.ii = (pre.flatMap c.iter).length → (List.range s.ii).map s.ind = pre.flatMap c.iter →
    (∀ j ≤ pre.length, s.off j = ((pre.take j).flatMap c.iter).length) →
    let s' := (ents.zipIdx pre.length).foldl (incStep c) s
    s'.ii = ((pre ++ ents).flatMap c.iter).length ∧
      (List.range s'.ii).map s'.ind = (pre ++ ents).flatMap c.iter ∧
      ∀ j ≤ (pre ++ ents).length, s'.off j = (((pre ++ ents).take j).flatMap c.iter).length := by
  induction ents generalizing pre with
  | nil => intro s h1 h2 h3; simp only [List.append_nil]; exact ⟨h1, h2, h3⟩
  | cons e ents ih =>
    intro s h1 h2 h3
    have hp := put_fold (c.iter e) s _ h1 h2
    have k := ih (pre ++ [e]) (incStep c s (e, pre.length)) ?_ ?_ ?_
    · simpa [List.zipIdx_cons] using k
    · simp [incStep, hp.1]
    · simp only [incStep]
      rw [hp.2.1]; simp
    · intro j hj
      simp only [List.length_append, List.length_singleton] at hj
      simp only [incStep, hp.2.2]
      by_cases hj' : j = pre.length + 1
      · subst hj'
        rw [Function.update_self, h3 _ le_rfl]
        simp
      · rw [Function.update_of_ne hj', h3 j (by omega), List.take_append_of_le_length (by omega)]

theorem countIncident_eq {c : Conn} (ents : List ℕ) :
    countIncident c ents = (ents.flatMap c.row).length := by
  have : ∀ (l : List ℕ) n, l.foldl (fun num e => num + (c.offsets (e + 1) - c.offsets e)) n
      = n + (l.flatMap c.row).length := by
    intro l
    induction l with
    | nil => intro n; simp
    | cons e l ih =>
      intro n
      rw [List.foldl_cons, ih]
      simp [c.row_length]; omega
  rw [countIncident, this]; simp

/-- C53: `get_incident()` concatenates the incident entities of the given entities, in their order,
and the offsets delimit the parts. -/
theorem C53_incident {c : Conn} (hwf : c.WF) (ents : List ℕ) (hne : ents ≠ [])
    (hlt : ∀ e ∈ ents, e < c.num) :
    (getIncident c ents).1 = ents.flatMap c.row ∧
      (getIncident c ents).2
        = (List.range (ents.length + 1)).map fun k => ((ents.take k).flatMap c.row).length := by
  have hit : ents.flatMap c.iter = ents.flatMap c.row :=
    List.flatMap_congr fun e he => hwf.iter_eq (hlt e he)
  have hit' : ∀ k, (ents.take k).flatMap c.iter = (ents.take k).flatMap c.row := fun k =>
    List.flatMap_congr fun e he => hwf.iter_eq (hlt e (List.mem_of_mem_take he))
  obtain ⟨k1, k2, k3⟩ := inc_fold c [] ents { ii := 0, ind := fun _ => 0, off := fun _ => 0 }
    (by simp) (by simp) (by simp)
  simp only [List.length_nil, List.nil_append] at k1 k2 k3
  unfold getIncident
  rw [if_neg hne]
  by_cases hn : 0 < countIncident c ents
  · simp only [if_pos hn]
    constructor
    · rw [← hit, ← k2]
      unfold incRun
      rw [k1, countIncident_eq, hit]
    · apply List.map_congr_left
      intro k hk
      have := List.mem_range.1 hk
      unfold incRun
      rw [k3 k (by omega), hit']
  · simp only [if_neg hn]
    rw [countIncident_eq] at hn
    have h0 : ents.flatMap c.row = [] := List.eq_nil_of_length_eq_zero (by omega)
    refine ⟨h0.symm, ?_⟩
    refine Eq.symm ?_
    rw [List.eq_replicate_iff]
    refine ⟨by simp, ?_⟩
    intro b hb
    obtain ⟨k, -, rfl⟩ := List.mem_map.1 hb
    rw [List.length_eq_zero_iff, List.flatMap_eq_nil_iff]
    intro e he
    exact List.flatMap_eq_nil_iff.1 h0 e (List.mem_of_mem_take he)

/-- C53: the part of the result of `get_incident()` delimited by the offsets of the `k`-th entity is
its row of the connectivity. -/
theorem C53_incident_part {c : Conn} (hwf : c.WF) (ents : List ℕ) (hlt : ∀ e ∈ ents, e < c.num)
    (k : ℕ) (hk : k < ents.length) :
    ∃ a b, (getIncident c ents).2[k]? = some a ∧ (getIncident c ents).2[k + 1]? = some b ∧
      b = a + (c.row ents[k]).length ∧ b ≤ (getIncident c ents).1.length ∧
      ((getIncident c ents).1.drop a).take (b - a) = c.row ents[k] := by
  have hne : ents ≠ [] := by rintro rfl; simp at hk
  obtain ⟨e1, e2⟩ := C53_incident hwf ents hne hlt
  have hs : ents = ents.take k ++ ents[k] :: ents.drop (k + 1) := by
    rw [← List.drop_eq_getElem_cons hk, List.take_append_drop]
  have hsk : ents.take (k + 1) = ents.take k ++ [ents[k]] := by
    rw [List.take_succ_eq_append_getElem hk]
  refine ⟨((ents.take k).flatMap c.row).length, ((ents.take (k + 1)).flatMap c.row).length, ?_, ?_, ?_,
    ?_, ?_⟩
  · rw [e2, List.getElem?_map, List.getElem?_range (by omega)]; rfl
  · rw [e2, List.getElem?_map, List.getElem?_range (by omega)]; rfl
  · rw [hsk]; simp only [List.flatMap_append, List.flatMap_cons, List.flatMap_nil, List.append_nil, List.length_append]
  · rw [e1]
    conv_rhs => rw [← List.take_append_drop (k + 1) ents]
    simp only [List.flatMap_append, List.flatMap_cons, List.flatMap_nil, List.append_nil, List.length_append]; omega
  · have hb : ((ents.take (k + 1)).flatMap c.row).length - ((ents.take k).flatMap c.row).length
        = (c.row ents[k]).length := by
      rw [hsk]; simp only [List.flatMap_append, List.flatMap_cons, List.flatMap_nil, List.append_nil, List.length_append]; omega
    rw [hb, e1]
    have : ents.flatMap c.row
        = (ents.take k).flatMap c.row ++ (c.row ents[k] ++ (ents.drop (k + 1)).flatMap c.row) := by
      conv_lhs => rw [hs]
      simp only [List.flatMap_append, List.flatMap_cons]
    rw [this, List.drop_left, List.take_left]

/-- C53: without entities, `get_incident()` returns also no offsets (not one zero). -/
theorem C53_incident_empty (c : Conn) : getIncident c [] = ([], []) := rfl

/-! ### Local indices -/

theorem localId_some {c : Conn} (hwf : c.WF) {e inc : ℕ} (hi : inc < c.num) (hm : e ∈ c.row inc) :
    ∃ l, localId c e inc = some l ∧ (c.row inc)[l]? = some e ∧ ∀ l' < l, (c.row inc)[l']? ≠ some e := by
  unfold localId
  rw [hwf.iter_eq hi]
  cases h : (c.row inc).findIdx? (· == e) with
  | none => 
    rw [List.findIdx?_eq_none_iff] at h
    have := h e hm
    simp at this
  | some l =>
    rw [List.findIdx?_eq_some_iff_getElem] at h
    obtain ⟨hl, h1, h2⟩ := h
    refine ⟨l, rfl, ?_, ?_⟩
    · rw [List.getElem?_eq_getElem hl]
      simpa using h1
    · intro l' hl' hc
      have := h2 l' hl'
      rw [List.getElem?_eq_some_iff] at hc
      obtain ⟨_, hc⟩ := hc
      simp [hc] at this

/-- Specification: `l` is the first position of the entity `e` in the row `i`. -/
def IsLocalId (c : Conn) (e i l : ℕ) : Prop :=
  (c.row i)[l]? = some e ∧ ∀ l' < l, (c.row i)[l']? ≠ some e

theorem ids_fold {α : Type} (f : α → Option ℕ) (l : List α) : ∀ (out : List ℕ),
    (∀ a ∈ l, ∃ x, f a = some x) →
    ∃ r, l.foldlM (fun out a => (f a).map fun x => out ++ [x]) out = some (out ++ r) ∧
      List.Forall₂ (fun a x => f a = some x) l r := by
  induction l with
  | nil => intro out _; exact ⟨[], by simp, .nil⟩
  | cons a l ih =>
    intro out h
    obtain ⟨x, hx⟩ := h a (by simp)
    obtain ⟨r, h1, h2⟩ := ih (out ++ [x]) (fun b hb => h b (by simp [hb]))
    refine ⟨x :: r, ?_, .cons hx h2⟩
    rw [List.foldlM_cons, hx]
    simpa using h1

theorem ids_fold2 {α : Type} (L : ℕ → List α) (f : ℕ → α → Option ℕ) (ks : List ℕ) : ∀ (out : List ℕ),
    (∀ k ∈ ks, ∀ a ∈ L k, ∃ x, f k a = some x) →
    ∃ r, ks.foldlM (fun out k => (L k).foldlM (fun out a => (f k a).map fun x => out ++ [x]) out) out
        = some (out ++ r) ∧
      List.Forall₂ (fun p x => f p.1 p.2 = some x) (ks.flatMap fun k => (L k).map fun a => (k, a)) r := by
  induction ks with
  | nil => intro out _; exact ⟨[], by simp, .nil⟩
  | cons k ks ih =>
    intro out h
    obtain ⟨r1, e1, f1⟩ := ids_fold (f k) (L k) out (h k (by simp))
    obtain ⟨r2, e2, f2⟩ := ih (out ++ r1) (fun k' hk' => h k' (by simp [hk']))
    refine ⟨r1 ++ r2, ?_, ?_⟩
    · rw [List.foldlM_cons, e1]
      simpa using e2
    · rw [List.flatMap_cons]
      exact List.rel_append (List.forall₂_map_left_iff.2 f1) f2

theorem flatMap_slice (R : ℕ → List ℕ) (ents : List ℕ) (k : ℕ) (hk : k < ents.length) :
    let off := fun k => ((ents.take k).flatMap R).length
    off (k + 1) - off k = (R ents[k]).length ∧
      (List.range' (off k) (off (k + 1) - off k)).map (fun ic => (ents.flatMap R).getD ic 0)
        = R ents[k] := by
  have hs : ents = ents.take k ++ ents[k] :: ents.drop (k + 1) := by
    rw [← List.drop_eq_getElem_cons hk, List.take_append_drop]
  have hsk : ents.take (k + 1) = ents.take k ++ [ents[k]] := by
    rw [List.take_succ_eq_append_getElem hk]
  have hb : ((ents.take (k + 1)).flatMap R).length - ((ents.take k).flatMap R).length
      = (R ents[k]).length := by
    rw [hsk]
    simp only [List.flatMap_append, List.flatMap_cons, List.flatMap_nil, List.append_nil,
      List.length_append]
    omega
  have he : ents.flatMap R
      = (ents.take k).flatMap R ++ (R ents[k] ++ (ents.drop (k + 1)).flatMap R) := by
    conv_lhs => rw [hs]
    simp only [List.flatMap_append, List.flatMap_cons]
  refine ⟨hb, ?_⟩
  simp only [hb]
  apply List.ext_getElem
  · simp
  · intro i h1 h2
    rw [List.getElem_map, List.getElem_range', he, List.getD_eq_getElem?_getD,
      List.getElem?_append_right (by omega), Nat.one_mul, Nat.add_sub_cancel_left,
      List.getElem?_append_left h2, List.getElem?_eq_getElem h2]
    rfl

theorem flatMap_range_getD {β : Type} (ents : List ℕ) (g : ℕ → List β) :
    ents.flatMap g = (List.range ents.length).flatMap fun k => g (ents.getD k 0) := by
  have : ents = (List.range ents.length).map fun k => ents.getD k 0 := by
    apply List.ext_getElem
    · simp
    · intro i h1 h2
      simp [List.getD_eq_getElem?_getD, List.getElem?_eq_getElem h1]
  conv_lhs => rw [this]
  rw [List.flatMap_map]

/-- `get_local_ids()` for the incident entities `R e` of the entities `e`. -/
theorem getLocalIds_spec {c : Conn} (hwf : c.WF) (R : ℕ → List ℕ) (ents offs : List ℕ)
    (hoff : ∀ k ≤ ents.length, offs.getD k 0 = ((ents.take k).flatMap R).length)
    (hR : ∀ e ∈ ents, ∀ i ∈ R e, i < c.num ∧ e ∈ c.row i) (hne : ents.flatMap R ≠ []) :
    ∃ ids, getLocalIds c ents (ents.flatMap R) offs = some ids ∧
      List.Forall₂ (fun p l => IsLocalId c p.1 p.2 l) (ents.flatMap fun e => (R e).map fun i => (e, i))
        ids := by
  have hne' : ents ≠ [] := by rintro rfl; simp at hne
  unfold getLocalIds
  rw [if_neg hne', if_neg hne]
  have hsl : ∀ k, k < ents.length →
      (List.range' (offs.getD k 0) (offs.getD (k + 1) 0 - offs.getD k 0)).map
        (fun ic => (ents.flatMap R).getD ic 0) = R (ents.getD k 0) := by
    intro k hk
    have := (flatMap_slice R ents k hk).2
    simp only at this
    rw [hoff k hk.le, hoff (k + 1) hk, this, List.getD_eq_getElem?_getD, List.getElem?_eq_getElem hk]
    rfl
  have hmem : ∀ k, k < ents.length → ents.getD k 0 ∈ ents := by
    intro k hk
    rw [List.getD_eq_getElem?_getD, List.getElem?_eq_getElem hk]
    exact List.getElem_mem hk
  obtain ⟨ids, e1, hf⟩ := ids_fold2
    (fun k => List.range' (offs.getD k 0) (offs.getD (k + 1) 0 - offs.getD k 0))
    (fun k ic => localId c (ents.getD k 0) ((ents.flatMap R).getD ic 0)) (List.range ents.length) []
    (by
      intro k hk ic hic
      have hk' := List.mem_range.1 hk
      have hi : (ents.flatMap R).getD ic 0 ∈ R (ents.getD k 0) := by
        rw [← hsl k hk']
        exact List.mem_map.2 ⟨ic, hic, rfl⟩
      obtain ⟨h1, h2⟩ := hR _ (hmem k hk') _ hi
      obtain ⟨l, hl, -⟩ := localId_some hwf h1 h2
      exact ⟨l, hl⟩)
  refine ⟨ids, by simpa using e1, ?_⟩
  have hpairs : (ents.flatMap fun e => (R e).map fun i => (e, i))
      = ((List.range ents.length).flatMap fun k => (List.range' (offs.getD k 0)
          (offs.getD (k + 1) 0 - offs.getD k 0)).map fun a => (k, a)).map
        fun q => (ents.getD q.1 0, (ents.flatMap R).getD q.2 0) := by
    rw [flatMap_range_getD, List.map_flatMap]
    apply List.flatMap_congr
    intro k hk
    rw [← hsl k (List.mem_range.1 hk)]
    simp only [List.map_map]
    rfl
  rw [hpairs, List.forall₂_map_left_iff]
  refine List.Forall₂.imp (R := fun q l => (q.1 < ents.length ∧
    (ents.flatMap R).getD q.2 0 ∈ R (ents.getD q.1 0)) ∧ _) ?_ ((List.forall₂_and_left _ _).2 ⟨?_, hf⟩)
  · rintro ⟨k, a⟩ l ⟨⟨hk, hm⟩, hl⟩
    obtain ⟨h1, h2⟩ := hR _ (hmem k hk) _ hm
    obtain ⟨l', hl', h3⟩ := localId_some hwf h1 h2
    simp only at hl
    rw [hl] at hl'
    obtain rfl := Option.some.inj hl'
    exact h3
  · rintro ⟨k, a⟩ hq
    rw [List.mem_flatMap] at hq
    obtain ⟨k', hk', ha⟩ := hq
    obtain ⟨a', ha', e⟩ := List.mem_map.1 ha
    obtain ⟨rfl, rfl⟩ := Prod.mk.inj e
    have hk'' := List.mem_range.1 hk'
    refine ⟨hk'', ?_⟩
    rw [← hsl k' hk'']
    exact List.mem_map.2 ⟨a', ha', rfl⟩

/-- C53: for mutual connectivities `dent -> dim`, `dim -> dent`, `get_local_ids()` applied to the
result of `get_incident()` finds for each entity `e` and each incident `i` the first position of `e` in
the row of `i`. -/
theorem C53_local_ids {c12 c21 : Conn} (h1 : c12.WF) (h2 : c21.WF) (ents : List ℕ)
    (hlt : ∀ e ∈ ents, e < c12.num)
    (hmut : ∀ e ∈ ents, ∀ i ∈ c12.row e, i < c21.num ∧ e ∈ c21.row i)
    (hne : ∃ e ∈ ents, c12.row e ≠ []) :
    ∃ ids, getLocalIds c21 ents (getIncident c12 ents).1 (getIncident c12 ents).2 = some ids ∧
      List.Forall₂ (fun p l => IsLocalId c21 p.1 p.2 l)
        (ents.flatMap fun e => (c12.row e).map fun i => (e, i)) ids := by
  obtain ⟨e0, he0, hr0⟩ := hne
  have hne' : ents ≠ [] := List.ne_nil_of_mem he0
  obtain ⟨k1, k2⟩ := C53_incident h1 ents hne' hlt
  rw [k1]
  refine getLocalIds_spec h2 c12.row ents _ ?_ hmut ?_
  · intro k hk
    rw [k2, List.getD_eq_getElem?_getD, List.getElem?_map, List.getElem?_range (by omega)]
    rfl
  · intro h
    exact hr0 (List.flatMap_eq_nil_iff.1 h e0 he0)

/-! ### Complete entities and the surface -/

theorem entMask_eq (ents : List ℕ) (m : ℕ → Bool) (j : ℕ) :
    (ents.foldl (fun m e => Function.update m e true) m) j = (m j || ents.contains j) := by
  induction ents generalizing m with
  | nil => simp
  | cons e ents ih =>
    rw [List.foldl_cons, ih]
    by_cases h : j = e
    · subst h; simp
    · rw [Function.update_of_ne h]
      simp [h]

theorem count_fold (p : ℕ → Bool) (l : List ℕ) (n : ℕ) :
    l.foldl (fun inum j => if p j then inum + 1 else inum) n = n + l.countP p := by
  induction l generalizing n with
  | nil => simp
  | cons j l ih =>
    rw [List.foldl_cons, ih, List.countP_cons]
    split <;> omega

/-- C53: `get_complete()` selects, in the increasing order, the entities whose all incident entities
are given; nothing if nothing is given. -/
theorem C53_complete {c : Conn} (hwf : c.WF) (ents : List ℕ) :
    (getComplete c ents c.num).SortedLT ∧
      ∀ i, i ∈ getComplete c ents c.num ↔ ents ≠ [] ∧ i < c.num ∧ ∀ j ∈ c.row i, j ∈ ents := by
  unfold getComplete
  by_cases he : ents = []
  · rw [if_pos he]
    exact ⟨List.Pairwise.nil.sortedLT, by simp [he]⟩
  rw [if_neg he]
  refine ⟨(List.pairwise_lt_range.filter _).sortedLT, fun i => ?_⟩
  rw [List.mem_filter, List.mem_range]
  constructor
  · rintro ⟨hi, h⟩
    refine ⟨he, hi, ?_⟩
    rw [selectComplete, List.getD_eq_getElem?_getD, List.getElem?_map, List.getElem?_range hi] at h
    simp only [Option.map_some, Option.getD_some, beq_iff_eq, count_fold] at h
    simp only [Nat.zero_add, hwf.iter_eq hi, List.countP_eq_length, entMask_eq, Bool.false_or,
      List.contains_iff_mem] at h
    exact h
  · rintro ⟨-, hi, h⟩
    refine ⟨hi, ?_⟩
    rw [selectComplete, List.getD_eq_getElem?_getD, List.getElem?_map, List.getElem?_range hi]
    simp only [Option.map_some, Option.getD_some, beq_iff_eq, count_fold]
    simp only [Nat.zero_add, hwf.iter_eq hi, List.countP_eq_length, entMask_eq, Bool.false_or,
      List.contains_iff_mem]
    exact h

/-- C53: the surface facets are those with exactly one incident cell. -/
theorem C53_surface (c : Conn) : (surfaceFacets c).SortedLT ∧
    ∀ f, f ∈ surfaceFacets c ↔ f < c.num ∧ ∃ k, c.row f = [k] := by
  refine ⟨(List.pairwise_lt_range.filter _).sortedLT, fun f => ?_⟩
  rw [surfaceFacets, List.mem_filter, List.mem_range, beq_iff_eq, ← c.row_length, List.length_eq_one_iff]

end Verif.CMesh
