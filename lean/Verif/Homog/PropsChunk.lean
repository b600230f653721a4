/-
The chunks of microstructures.
-/
import Verif.Homog.PropsMulti

namespace Verif.Homog

open Relation

section
variable {α W C : Type}

/-! ### The slices -/

theorem mapM_range_some {r : ℕ → Option W} {N : ℕ} {v : List W} (h : (List.range N).mapM r = some v) :
    v.length = N ∧ ∀ i < N, r i = v[i]? := by
  induction N generalizing v with
  | zero => cases h; exact ⟨rfl, fun i hi => by omega⟩
  | succ N ih =>
    rw [List.range_succ, List.mapM_append] at h
    cases h1 : (List.range N).mapM r with
    | none => rw [h1] at h; cases h
    | some v1 =>
      rw [h1] at h
      cases h2 : r N with
      | none => simp [h2] at h
      | some w =>
        simp [h2] at h
        obtain ⟨l1, l2⟩ := ih h1
        subst h
        refine ⟨by simp [l1], fun i hi => ?_⟩
        rcases Nat.lt_succ_iff_lt_or_eq.1 hi with hi | rfl
        · rw [l2 i hi, List.getElem?_append_left (by omega)]
        · rw [h2, List.getElem?_append_right (by omega), l1]; simp

theorem mapM_range_of {r : ℕ → Option W} {N : ℕ} {v : List W} (hl : v.length = N) (h : ∀ i < N, r i = v[i]?) :
    (List.range N).mapM r = some v := by
  induction N generalizing v with
  | zero => rw [List.length_eq_zero_iff.1 hl]; rfl
  | succ N ih =>
    obtain ⟨v', w, rfl⟩ := List.eq_nil_or_concat v |>.resolve_left (by rintro rfl; simp at hl)
    rw [List.concat_eq_append] at hl h ⊢
    have hl' : v'.length = N := by simpa using hl
    rw [List.range_succ, List.mapM_append, ih hl' fun i hi => by
      rw [h i (by omega), List.getElem?_append_left (by omega)]]
    have := h N (by omega)
    rw [List.getElem?_append_right (by omega), hl'] at this
    simp at this
    simp [this]

/-- The results of the microstructures without the update of coordinates. -/
theorem microLoop_eq {β : Type} (app : C → List (β × W) → Option W) (data : List (β × List W)) (coors : List C) :
    microLoop app (fun _ => none) data coors =
      ((List.range coors.length).mapM fun im => coors[im]?.bind fun c =>
        (data.mapM fun p => p.2[im]?.map fun w => (p.1, w)).bind (app c)).map fun vs => (vs, coors) := by
  unfold microLoop
  generalize coors.length = N
  induction N with
  | zero => rfl
  | succ N ih =>
    rw [List.range_succ, List.foldlM_append, ih, List.mapM_append]
    cases h1 : (List.range N).mapM fun im => coors[im]?.bind fun c =>
        (data.mapM fun p => p.2[im]?.map fun w => (p.1, w)).bind (app c) with
    | none => rfl
    | some vs =>
      have one : ∀ g : ℕ → Option W, [N].mapM g = (g N).map fun x => [x] := fun g => by
        rw [List.mapM_cons, List.mapM_nil]; cases g N <;> rfl
      rw [one]
      simp only [Option.map_some, List.foldlM_cons, List.foldlM_nil, Option.bind_eq_bind, Option.bind_some]
      cases hc : coors[N]? with
      | none => rfl
      | some c =>
        cases hd : data.mapM fun p => p.2[N]?.map fun w => (p.1, w) with
        | none => rfl
        | some d =>
          simp only [Option.bind_some]
          cases ha : app c d with
          | none => rfl
          | some w => simp

/-- The part of a list in a chunk. -/
def sliceOf (sl : ℕ × ℕ) (l : List W) : List W := (l.take sl.2).drop sl.1

theorem sliceOf_get {l : List W} {a b i : ℕ} (hi : i < b - a) : (sliceOf (a, b) l)[i]? = l[a + i]? := by
  unfold sliceOf
  rw [List.getElem?_drop, List.getElem?_take_of_lt (by simp only; omega)]

theorem sliceOf_length {l : List W} {a b : ℕ} (hb : b ≤ l.length) : (sliceOf (a, b) l).length = b - a := by
  unfold sliceOf
  simp only [List.length_drop, List.length_take]
  omega

/-- A chunk of the microstructures gives the chunk of the results. -/
theorem microLoop_slice {β : Type} {app : C → List (β × W) → Option W} {data : List (β × List W)} {coors : List C}
    {vs : List W} {cs : List C} (h : microLoop app (fun _ => none) data coors = some (vs, cs)) {a b : ℕ} (hb : b ≤ coors.length) :
    microLoop app (fun _ => none) (data.map fun p => (p.1, sliceOf (a, b) p.2)) (sliceOf (a, b) coors) =
      some (sliceOf (a, b) vs, sliceOf (a, b) coors) := by
  rw [microLoop_eq] at h ⊢
  obtain ⟨v, h1, h2⟩ := Option.map_eq_some_iff.1 h
  cases h2
  obtain ⟨l1, l2⟩ := mapM_range_some h1
  rw [mapM_range_of (v := sliceOf (a, b) vs)]
  · rfl
  · rw [sliceOf_length hb, sliceOf_length (by omega)]
  · intro i hi
    rw [sliceOf_length hb] at hi
    rw [sliceOf_get hi, sliceOf_get hi, ← l2 (a + i) (by omega)]
    congr 1
    funext c
    congr 1
    rw [List.mapM_map]
    congr 1
    funext p
    simp only [Function.comp]
    rw [sliceOf_get hi]

theorem microTab_get {N cs ii : ℕ} (h : ii < (N + cs - 1) / cs) :
    (microTab N cs)[ii]? = some (ii * cs, min N (cs + ii * cs)) := by
  unfold microTab
  rw [List.getElem?_map, List.getElem?_range h]
  rfl

/-- The chunks give all the microstructures, in their order. -/
theorem flatten_slices {N cs : ℕ} (hc : 1 ≤ cs) {l : List W} (hl : l.length = N) :
    ((List.range ((N + cs - 1) / cs)).map fun i => sliceOf (i * cs, min N (cs + i * cs)) l).flatten = l := by
  have key : ∀ m, ((List.range m).map fun i => sliceOf (i * cs, min N (cs + i * cs)) l).flatten = l.take (m * cs) := by
    intro m
    induction m with
    | zero => simp
    | succ m ih =>
      rw [List.range_succ, List.map_append, List.flatten_append, ih]
      simp only [List.map_cons, List.map_nil, List.flatten_cons, List.flatten_nil, List.append_nil, sliceOf]
      rw [Nat.succ_mul, show cs + m * cs = m * cs + cs by omega]
      have : l.take (min N (m * cs + cs)) = l.take (m * cs + cs) := by
        rcases le_total N (m * cs + cs) with h | h
        · rw [min_eq_left h, List.take_of_length_le (by omega), List.take_of_length_le (by omega)]
        · rw [min_eq_right h]
      rw [this]
      have := List.take_append_drop (m * cs) (l.take (m * cs + cs))
      rw [List.take_take, min_eq_left (by omega)] at this
      exact this
  rw [key, List.take_of_length_le]
  rw [hl]
  have := Nat.div_add_mod (N + cs - 1) cs
  have h2 := Nat.mod_lt (N + cs - 1) (show 0 < cs by omega)
  rw [Nat.mul_comm] at this
  omega

/-! ### The names of the chunks -/

/-- The definitions given by a user: names without the tags. -/
def Plain (info : Info (Tagged α)) : Prop := ∀ a rs, info a = some rs → a.2 = none ∧ ∀ n ∈ rs, n.2.2 = none

theorem addTag_inj {ii jj : ℕ} {m m' : Name (Tagged α)} (hm : m.2.2 = none) (hm' : m'.2.2 = none)
    (h : addTag ii m = addTag jj m') : ii = jj ∧ m = m' := by
  rcases m with ⟨b, x, t⟩
  rcases m' with ⟨b', x', t'⟩
  simp only at hm hm'
  subst hm; subst hm'
  simp only [addTag, Prod.mk.injEq, Option.some.injEq] at h
  obtain ⟨rfl, rfl, rfl⟩ := h
  exact ⟨rfl, rfl⟩

theorem chunkInfo_some {n : ℕ} {info : Info (Tagged α)} {a : Tagged α} {rs : List (Name (Tagged α))}
    (h : chunkInfo n info a = some rs) :
    ∃ ii < n, a.2 = some ii ∧ ∃ rs0, info (a.1, none) = some rs0 ∧ rs = rs0.map (addTag ii) := by
  unfold chunkInfo at h
  cases h2 : a.2 with
  | none => rw [h2] at h; cases h
  | some ii =>
    rw [h2] at h
    simp only at h
    split_ifs at h with hi
    obtain ⟨rs0, h3, h4⟩ := Option.map_eq_some_iff.1 h
    exact ⟨ii, hi, rfl, rs0, h3, h4.symm⟩

theorem chunkInfo_of {n ii : ℕ} (hi : ii < n) (info : Info (Tagged α)) (x : α) :
    chunkInfo n info (x, some ii) = (info (x, none)).map fun rs => rs.map (addTag ii) := by
  unfold chunkInfo
  simp [hi]

theorem merged_chunk {n ii : ℕ} (hi : ii < n) (reqInfo coefInfo : Info (Tagged α)) (x : α) :
    merged (chunkInfo n reqInfo) (chunkInfo n coefInfo) (x, some ii) =
      (merged reqInfo coefInfo (x, none)).map fun rs => rs.map (addTag ii) := by
  unfold merged
  rw [chunkInfo_of hi, chunkInfo_of hi]
  cases reqInfo (x, none) <;> rfl

/-- The definitions used for the ordering and for the computation of a chunk are the same. -/
theorem C58_chunk_requires {n ii : ℕ} (hi : ii < n) (info : Info (Tagged α)) (x : α) :
    chunkReqInfo info (x, some ii) = chunkInfo n info (x, some ii) := by
  rw [chunkInfo_of hi]; rfl

theorem requires_chunk {n ii : ℕ} (hi : ii < n) (reqInfo coefInfo : Info (Tagged α)) (m : Name (Tagged α))
    (hm : m.2.2 = none) :
    requires (chunkInfo n reqInfo) (chunkInfo n coefInfo) (addTag ii m) =
      (requires reqInfo coefInfo m).map fun rs => rs.map (addTag ii) := by
  rcases m with ⟨b, x, t⟩
  simp only at hm
  subst hm
  cases b <;> exact chunkInfo_of hi _ x

theorem WellNamed.chunk {reqInfo coefInfo : Info (Tagged α)} (h : WellNamed reqInfo coefInfo) (n : ℕ)
    (hr : Plain reqInfo) (hc : Plain coefInfo) : WellNamed (chunkInfo n reqInfo) (chunkInfo n coefInfo) := by
  have hnone : ∀ (info : Info (Tagged α)) (a : Tagged α), info (a.1, none) = none → chunkInfo n info a = none := by
    intro info a ha
    unfold chunkInfo
    cases a.2 with
    | none => rfl
    | some ii => simp [ha]
  constructor
  · intro a
    rcases h.disjoint (a.1, none) with h | h
    · exact Or.inl (hnone _ a h)
    · exact Or.inr (hnone _ a h)
  · intro a rs hrs m hm
    obtain ⟨ii, -, -, rs0, h1, rfl⟩ : ∃ ii < n, a.2 = some ii ∧ ∃ rs0, (reqInfo (a.1, none) = some rs0 ∨
        coefInfo (a.1, none) = some rs0) ∧ rs = rs0.map (addTag ii) := by
      rcases hrs with hrs | hrs
      · obtain ⟨ii, h1, h2, rs0, h3, h4⟩ := chunkInfo_some hrs
        exact ⟨ii, h1, h2, rs0, Or.inl h3, h4⟩
      · obtain ⟨ii, h1, h2, rs0, h3, h4⟩ := chunkInfo_some hrs
        exact ⟨ii, h1, h2, rs0, Or.inr h3, h4⟩
    obtain ⟨m0, hm0, rfl⟩ := List.mem_map.1 hm
    have hp : m0.2.2 = none := by
      rcases h1 with h1 | h1
      · exact (hr _ _ h1).2 m0 hm0
      · exact (hc _ _ h1).2 m0 hm0
    have e : m0.2 = (m0.2.1, none) := by rw [← hp]
    obtain ⟨k1, k2⟩ := h.kind _ rs0 h1 m0 hm0
    rw [e] at k1 k2
    exact ⟨fun hb => hnone _ _ (k1 hb), fun hb => hnone _ _ (k2 hb)⟩

theorem reach_chunk [DecidableEq α] {reqInfo coefInfo : Info (Tagged α)} (hr : Plain reqInfo) (hc : Plain coefInfo) {n : ℕ}
    {names names' : List (Tagged α)} (hn : ∀ a ∈ names, a.2 = none)
    (hnames : ∀ a, a ∈ names' ↔ ∃ x ii, ii < n ∧ (x, none) ∈ names ∧ a = (x, some ii)) (m' : Name (Tagged α)) :
    Reach (merged (chunkInfo n reqInfo) (chunkInfo n coefInfo)) (names'.map fun a => (true, a)) m' ↔
      ∃ ii < n, ∃ m, m.2.2 = none ∧ Reach (merged reqInfo coefInfo) (names.map fun a => (true, a)) m ∧ m' = addTag ii m := by
  have hplain : ∀ a rs, merged reqInfo coefInfo a = some rs → a.2 = none ∧ ∀ n ∈ rs, n.2.2 = none := by
    intro a rs h
    rcases merged_some h with h | h
    exacts [hr a rs h, hc a rs h]
  constructor
  · rintro ⟨q, hq, hreach⟩
    obtain ⟨a, ha, rfl⟩ := List.mem_map.1 hq
    obtain ⟨x, ii, hi, hx, rfl⟩ := (hnames a).1 ha
    refine ⟨ii, hi, ?_⟩
    induction hreach with
    | refl => exact ⟨(true, x, none), rfl, ⟨(true, x, none), List.mem_map.2 ⟨_, hx, rfl⟩, ReflTransGen.refl⟩, rfl⟩
    | tail _ hstep ih =>
      obtain ⟨m, hm, ⟨q, hq, hqm⟩, rfl⟩ := ih
      obtain ⟨rs, h1, h2⟩ := hstep
      have h1 : merged (chunkInfo n reqInfo) (chunkInfo n coefInfo) (m.2.1, some ii) = some rs := h1
      rw [merged_chunk hi] at h1
      obtain ⟨rs0, h3, rfl⟩ := Option.map_eq_some_iff.1 h1
      obtain ⟨m1, hm1, rfl⟩ := List.mem_map.1 h2
      have e : m.2 = (m.2.1, none) := by rw [← hm]
      exact ⟨m1, (hplain _ _ h3).2 m1 hm1, ⟨q, hq, hqm.tail ⟨rs0, by rw [e]; exact h3, hm1⟩⟩, rfl⟩
  · rintro ⟨ii, hi, m, hm, ⟨q, hq, hqm⟩, rfl⟩
    obtain ⟨a, ha, rfl⟩ := List.mem_map.1 hq
    have ea : a = (a.1, none) := by rw [← hn a ha]
    refine ⟨addTag ii (true, a), List.mem_map.2 ⟨(a.1, some ii), (hnames _).2 ⟨a.1, ii, hi, ea ▸ ha, rfl⟩, rfl⟩, ?_⟩
    clear hm
    induction hqm with
    | refl => exact ReflTransGen.refl
    | tail _ hstep ih =>
      obtain ⟨rs, h1, h2⟩ := hstep
      refine ih.tail ⟨rs.map (addTag ii), ?_, List.mem_map.2 ⟨_, h2, rfl⟩⟩
      show merged _ _ (_, some ii) = _
      rw [merged_chunk hi]
      have := (hplain _ _ h1).1
      rename_i b _ _
      have e : b.2 = (b.2.1, none) := by rw [← this]
      rw [e] at h1
      rw [h1]; rfl

end

section
variable {α W C : Type} [DecidableEq α]

/-- **C58**: the computation divided into chunks of microstructures, in parallel with any order of events, gives after
the merging the same values as the serial computation (when the coordinates are not updated). -/
theorem C58_chunks (fuel fuel' : ℕ) (reqInfo coefInfo : Info (Tagged α)) (hw : WellNamed reqInfo coefInfo)
    (hr : Plain reqInfo) (hc : Plain coefInfo) (names names' : List (Tagged α)) (hnm : ∀ a ∈ names, a.2 = none)
    (coors : List C) (chunkSize : ℕ) (hcs : 1 ≤ chunkSize)
    (hnames : ∀ a, a ∈ names' ↔ ∃ x ii, ii < (microTab coors.length chunkSize).length ∧ (x, none) ∈ names ∧ a = (x, some ii))
    (L L' : List (Name (Tagged α))) (hL : sortedDeps fuel reqInfo coefInfo names = .ok L)
    (hL' : sortedDeps fuel' (chunkInfo (microTab coors.length chunkSize).length reqInfo)
      (chunkInfo (microTab coors.length chunkSize).length coefInfo) names' = .ok L')
    (app : Name α → C → List (Name α × W) → Option W) (D : Name (Tagged α) → Option (List W)) (coors' : List C)
    (hser : serial (requires reqInfo coefInfo) (fun s n d => calcMicro none app (fun _ => none) s n d) coors L =
      some (D, coors'))
    (k : ℕ) (s : MState (Tagged α) (List W))
    (h : MExec (fun n => (requires (chunkInfo (microTab coors.length chunkSize).length reqInfo)
        (chunkInfo (microTab coors.length chunkSize).length coefInfo) n).getD [])
      (fun n d => (calcMicro (some (microTab coors.length chunkSize)) app (fun _ => none) coors n d).map Prod.fst) L' k s) :
    s.failed = false ∧ k ≤ 3 * L'.length ∧
    (s.remaining = 0 → (∀ n ∈ L, dechunk s.deps (microTab coors.length chunkSize).length n = D n) ∧
      ∀ n, s.deps n ≠ none → ∃ ii < (microTab coors.length chunkSize).length, ∃ m ∈ L, n = addTag ii m) := by
  set nch := (microTab coors.length chunkSize).length with hnch
  set N := coors.length with hN
  have hnch' : nch = (N + chunkSize - 1) / chunkSize := by rw [hnch]; simp [microTab]
  obtain ⟨o1, o2⟩ := C58_sorted fuel reqInfo coefInfo names L hw hL
  obtain ⟨p1, p2⟩ := C58_sorted fuel' _ _ names' L' (hw.chunk nch hr hc) hL'
  -- the serial results
  have hstate : ∀ (s : List C) n (d : List (Name (Tagged α) × List W)), calcMicro none app (fun _ => none) s n d =
      ((calcMicro none app (fun _ => none) s n d).map Prod.fst).map fun v => (v, s) := by
    intro s n d
    have : localCoors none s n = some s := by unfold localCoors; cases n.2.2 <;> rfl
    rw [calcMicro, this, Option.bind_some, microLoop_eq]
    simp only [Option.map_map, Function.comp_def]
  have hsol : coors' = coors ∧ Solution (requires reqInfo coefInfo)
      (fun n d => (calcMicro none app (fun _ => none) coors n d).map Prod.fst) L D := by
    refine (C58_serial (S := List C) (requires reqInfo coefInfo)
      (fun n d => (calcMicro none app (fun _ => none) coors n d).map Prod.fst) L o1 coors).1 D coors' ?_
    -- the state of the worker does not change
    rw [← hser]
    unfold serial
    have gen : ∀ (l : List (Name (Tagged α))) (D0 : Name (Tagged α) → Option (List W)),
        l.foldlM (fun (st : (Name (Tagged α) → Option (List W)) × List C) name =>
          (calculateReq (requires reqInfo coefInfo)
            (fun s n d => ((calcMicro none app (fun _ => none) coors n d).map Prod.fst).map fun v => (v, s))
            st.2 st.1 name).map fun r => ((fun m => if m = name then some r.1 else st.1 m), r.2)) (D0, coors) =
        l.foldlM (fun (st : (Name (Tagged α) → Option (List W)) × List C) name =>
          (calculateReq (requires reqInfo coefInfo) (fun s n d => calcMicro none app (fun _ => none) s n d)
            st.2 st.1 name).map fun r => ((fun m => if m = name then some r.1 else st.1 m), r.2)) (D0, coors) := by
      intro l
      induction l with
      | nil => intro D0; rfl
      | cons n l ih =>
        intro D0
        rw [List.foldlM_cons, List.foldlM_cons]
        unfold calculateReq
        simp only
        cases hrq : requires reqInfo coefInfo n with
        | none => rfl
        | some rs =>
          simp only
          cases hd : depData D0 rs with
          | none => rfl
          | some d =>
            simp only [Option.bind_some]
            rw [hstate coors n d]
            cases hcm : (calcMicro none app (fun _ => none) coors n d).map Prod.fst with
            | none => rfl
            | some v => exact ih _
    exact gen L fun _ => none
  obtain ⟨-, hS⟩ := hsol
  have htag : ∀ n ∈ L, n.2.2 = none := by
    intro n hn
    obtain ⟨q, hq, hqm⟩ := (o2 n).1 hn
    rcases ReflTransGen.cases_tail hqm with rfl | ⟨b, -, rs, h1, h2⟩
    · obtain ⟨a, ha, rfl⟩ := List.mem_map.1 hq
      exact hnm a ha
    · rcases merged_some h1 with h1 | h1
      · exact (hr _ _ h1).2 n h2
      · exact (hc _ _ h1).2 n h2
  have hmem : ∀ n, n ∈ L' ↔ ∃ ii < nch, ∃ m ∈ L, n = addTag ii m := by
    intro n
    rw [p2 n, reach_chunk hr hc hnm hnames n]
    constructor
    · rintro ⟨ii, hi, m, -, h2, rfl⟩
      exact ⟨ii, hi, m, (o2 m).2 h2, rfl⟩
    · rintro ⟨ii, hi, m, h2, rfl⟩
      exact ⟨ii, hi, m, htag m h2, (o2 m).1 h2, rfl⟩
  -- the results of the chunks
  let sl : ℕ → ℕ × ℕ := fun ii => (ii * chunkSize, min N (chunkSize + ii * chunkSize))
  let Dc : Name (Tagged α) → Option (List W) := fun n =>
    match n.2.2 with
    | none => none
    | some ii => if ii < nch then (D (n.1, n.2.1, none)).map (sliceOf (sl ii)) else none
  have hDc : ∀ ii < nch, ∀ m, m.2.2 = none → Dc (addTag ii m) = (D m).map (sliceOf (sl ii)) := by
    intro ii hi m hm
    show (if ii < nch then (D (m.1, m.2.1, none)).map (sliceOf (sl ii)) else none) = _
    rw [if_pos hi]
    have e : m = (m.1, m.2.1, none) := by
      rcases m with ⟨b, x, t⟩
      simp only at hm
      rw [hm]
    rw [← e]
  have happ : ∀ ii < nch, ∀ m ∈ L, ∀ rs vs v,
      (calcMicro none app (fun _ => none) coors m ((rs : List (Name (Tagged α))).zip vs)).map Prod.fst = some v →
      (calcMicro (some (microTab N chunkSize)) app (fun _ => none) coors (addTag ii m)
        ((rs.map (addTag ii)).zip (vs.map (sliceOf (sl ii))))).map Prod.fst = some (sliceOf (sl ii) v) ∧ v.length = N := by
    intro ii hi m hm rs vs v hv
    have hl : localCoors none coors m = some coors := by unfold localCoors; cases m.2.2 <;> rfl
    obtain ⟨⟨v', cs⟩, h1, h2⟩ := Option.map_eq_some_iff.1 hv
    have h2 : v' = v := h2
    subst h2
    rw [calcMicro, hl, Option.bind_some] at h1
    have hlen : v'.length = N := by
      have h3 := h1
      rw [microLoop_eq] at h3
      obtain ⟨w, h4, h5⟩ := Option.map_eq_some_iff.1 h3
      cases h5
      exact (mapM_range_some h4).1
    refine ⟨?_, hlen⟩
    have hl' : localCoors (some (microTab N chunkSize)) coors (addTag ii m) = some (sliceOf (sl ii) coors) := by
      unfold localCoors
      simp only [addTag]
      rw [microTab_get (by omega)]
      rfl
    rw [calcMicro, hl', Option.bind_some]
    have hb : min N (chunkSize + ii * chunkSize) ≤ coors.length := min_le_left _ _
    have := microLoop_slice h1 (a := ii * chunkSize) hb
    have e : (((rs.map (addTag ii)).zip (vs.map (sliceOf (sl ii)))).map fun p => (rmTag p.1, p.2)) =
        (((rs.zip vs).map fun p => (rmTag p.1, p.2)).map fun p => (p.1, sliceOf (sl ii) p.2)) := by
      rw [List.zip_map, List.map_map, List.map_map]
      rfl
    have e2 : rmTag (addTag ii m) = rmTag m := rfl
    rw [e, e2, this]
    rfl
  have hSc : Solution (requires (chunkInfo nch reqInfo) (chunkInfo nch coefInfo))
      (fun n d => (calcMicro (some (microTab N chunkSize)) app (fun _ => none) coors n d).map Prod.fst) L' Dc := by
    constructor
    · intro n hn
      obtain ⟨ii, hi, m, hm, rfl⟩ := (hmem n).1 hn
      obtain ⟨rs, vs, v, q1, q2, q3, q4⟩ := hS.1 m hm
      refine ⟨rs.map (addTag ii), vs.map (sliceOf (sl ii)), sliceOf (sl ii) v, ?_, ?_, (happ ii hi m hm rs vs v q3).1, ?_⟩
      · rw [requires_chunk hi _ _ m (htag m hm), q1]; rfl
      · have hrs : ∀ r ∈ rs, r ∈ L := by
          obtain ⟨rs', w1, w2⟩ := o1.mem hm
          rw [q1] at w1
          rw [Option.some.inj w1]; exact w2
        clear q1 q3 q4
        induction q2 with
        | nil => exact List.Forall₂.nil
        | cons ha _ ih =>
          refine List.Forall₂.cons ?_ (ih fun r hr => hrs r (List.mem_cons_of_mem _ hr))
          rw [hDc ii hi _ (htag _ (hrs _ (by simp))), ha]; rfl
      · rw [hDc ii hi m (htag m hm), q4]; rfl
    · intro n hn
      show (match n.2.2 with
        | none => none
        | some ii => if ii < nch then (D (n.1, n.2.1, none)).map (sliceOf (sl ii)) else none) = none
      cases ht : n.2.2 with
      | none => rfl
      | some ii =>
        simp only
        split_ifs with hi
        · rw [hS.2, Option.map_none]
          intro hc
          refine hn ((hmem n).2 ⟨ii, hi, _, hc, ?_⟩)
          rcases n with ⟨b, x, t⟩
          simp only at ht
          rw [ht]; rfl
        · rfl
  have hser' := (C58_serial (S := Unit) _ _ L' p1 ()).2.2 Dc hSc
  obtain ⟨f1, f2, f3, f4⟩ := C58_parallel _ _ L' p1 () () Dc hser' k s h
  refine ⟨f1, f2, fun h0 => ?_⟩
  have hdeps : s.deps = Dc := by
    rcases f3 with f3 | f3
    · exact absurd f3 (f4 h0)
    · exact f3.2.2
  constructor
  · intro n hn
    obtain ⟨rs, vs, v, -, -, q3, q4⟩ := hS.1 n hn
    have hmapM : (List.range nch).mapM (fun ii => s.deps (addTag ii n)) =
        some ((List.range nch).map fun ii => sliceOf (sl ii) v) := by
      refine mapM_range_of (by simp) fun ii hi => ?_
      rw [hdeps, hDc ii hi n (htag n hn), q4, List.getElem?_map, List.getElem?_range hi]
      rfl
    rw [dechunk, hmapM, Option.map_some, q4, hnch']
    congr 1
    by_cases hz : nch = 0
    · -- no microstructures
      rw [hnch'] at hz
      rw [hz]
      have hN0 : N = 0 := by
        by_contra hne
        have : 1 ≤ (N + chunkSize - 1) / chunkSize := (Nat.one_le_div_iff (by omega)).2 (by omega)
        omega
      obtain ⟨⟨v', cs⟩, h1, h2⟩ := Option.map_eq_some_iff.1 q3
      have h2 : v' = v := h2
      subst h2
      have hl : localCoors none coors n = some coors := by unfold localCoors; cases n.2.2 <;> rfl
      rw [calcMicro, hl, Option.bind_some, microLoop_eq] at h1
      obtain ⟨w, h4, h5⟩ := Option.map_eq_some_iff.1 h1
      cases h5
      have := (mapM_range_some h4).1
      rw [List.length_eq_zero_iff.1 (this.trans hN0)]
      rfl
    · exact flatten_slices hcs (happ 0 (by omega) n hn rs vs v q3).2
  · intro n hn
    by_contra hc
    rw [← hmem n] at hc
    rw [hdeps] at hn
    exact hn (hSc.2 n hc)

/-- **C58**: the indices of the microstructures to be stored are divided into the chunks without a loss: shifted by the
starts of the chunks they are the given ones. -/
theorem C58_store_idxs (N cs : ℕ) (hc : 1 ≤ cs) (store : List ℕ) (hs : store ≠ []) (k : ℕ) (hk : k < N) :
    k ∈ store ↔ ∃ p ∈ storeIdxs N cs store, ∃ i ∈ p.1, i < cs ∧ k = p.2 + i := by
  unfold storeIdxs
  rw [if_neg hs]
  have hdm := Nat.div_add_mod k cs
  have hlt := Nat.mod_lt k (show 0 < cs by omega)
  constructor
  · intro h
    have hq : k / cs < (N + cs - 1) / cs := by
      rw [Nat.lt_iff_add_one_le, Nat.le_div_iff_mul_le (by omega), Nat.succ_mul, Nat.mul_comm]
      omega
    refine ⟨_, List.mem_map.2 ⟨k / cs, List.mem_range.2 hq, rfl⟩, k % cs, ?_, hlt, ?_⟩
    · refine List.mem_map.2 ⟨k, List.mem_filter.2 ⟨h, ?_⟩, ?_⟩
      · simp only [decide_eq_true_eq]
        rw [Nat.mul_comm]; omega
      · rw [Nat.mul_comm]; omega
    · simp only; rw [Nat.mul_comm]; omega
  · rintro ⟨p, hp, i, hi, -, rfl⟩
    obtain ⟨j, -, rfl⟩ := List.mem_map.1 hp
    obtain ⟨k', hk', rfl⟩ := List.mem_map.1 hi
    obtain ⟨h1, h2⟩ := List.mem_filter.1 hk'
    simp only [decide_eq_true_eq] at h2 ⊢
    rw [Nat.add_sub_cancel' h2.1]
    exact h1

/-- **C58** (finding): `compute_only` with chunks fails, because the names are not tagged. -/
theorem C58_compute_only_chunks_fails (fuel n : ℕ) (reqInfo coefInfo : Info (Tagged α)) (x : α) (rest : List (Tagged α)) :
    sortedDeps fuel (chunkInfo n reqInfo) (chunkInfo n coefInfo) ((x, none) :: rest) = .error .key := rfl

end

end Verif.Homog
