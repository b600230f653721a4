/-
C35: intersected connectivities.
-/
import Verif.CMesh.PropsConn

namespace Verif.CMesh

/-- The entities visited by the two inner loops of `mesh_intersect()` for `it1`. -/
def reach (c13 c32 : Conn) (it1 : ℕ) : List ℕ := (c13.iter it1).flatMap c32.iter

/-- The entities that pass the mask and the condition, in the order of their visits. -/
def emit (keep : ℕ → Bool) : (ℕ → Bool) → List ℕ → List ℕ
  | _, [] => []
  | mask, x :: l =>
    if mask x then emit keep mask l
    else if keep x then x :: emit keep (Function.update mask x true) l
    else emit keep (Function.update mask x true) l

theorem mem_emit (keep : ℕ → Bool) (mask : ℕ → Bool) (l : List ℕ) (x : ℕ) :
    x ∈ emit keep mask l ↔ x ∈ l ∧ mask x = false ∧ keep x = true := by
  induction l generalizing mask with
  | nil => simp [emit]
  | cons y l ih =>
    unfold emit
    by_cases hm : mask y = true
    · rw [if_pos hm, ih]
      constructor
      · rintro ⟨h1, h2, h3⟩; exact ⟨List.mem_cons_of_mem _ h1, h2, h3⟩
      · rintro ⟨h1, h2, h3⟩
        refine ⟨?_, h2, h3⟩
        rcases List.mem_cons.1 h1 with rfl | h
        · rw [hm] at h2; cases h2
        · exact h
    · have hm' : mask y = false := by simpa using hm
      rw [if_neg hm]
      by_cases hk : keep y = true
      · rw [if_pos hk, List.mem_cons, ih]
        by_cases hxy : x = y
        · subst hxy; simp [hm', hk]
        · simp [hxy]
      · rw [if_neg hk, ih]
        by_cases hxy : x = y
        · subst hxy; simp [hk]
        · simp [hxy]

theorem nodup_emit (keep : ℕ → Bool) (mask : ℕ → Bool) (l : List ℕ) :
    (emit keep mask l).Nodup := by
  induction l generalizing mask with
  | nil => simp [emit]
  | cons y l ih =>
    unfold emit
    split
    · exact ih _
    · split
      · rw [List.nodup_cons]
        refine ⟨?_, ih _⟩
        rw [mem_emit]
        simp
      · exact ih _

theorem emit_congr (keep : ℕ → Bool) (mask mask' : ℕ → Bool) (l : List ℕ)
    (h : ∀ x ∈ l, mask x = mask' x) : emit keep mask l = emit keep mask' l := by
  induction l generalizing mask mask' with
  | nil => rfl
  | cons y l ih =>
    have h1 := h y (by simp)
    have h2 := ih mask mask' fun x hx => h x (List.mem_cons_of_mem _ hx)
    have h3 := ih (Function.update mask y true) (Function.update mask' y true) fun x hx => by
      by_cases hxy : x = y
      · subst hxy; simp
      · simp only [Function.update_of_ne hxy]; exact h x (List.mem_cons_of_mem _ hx)
    unfold emit
    rw [h1, h2, h3]

theorem clearMask_eq (c13 c32 : Conn) (it1 : ℕ) (mask : ℕ → Bool) (x : ℕ)
    (hx : x ∈ reach c13 c32 it1) : clearMask c13 c32 it1 mask x = false := by
  have hcl : clearMask c13 c32 it1 mask
      = (reach c13 c32 it1).foldl (fun mask it2 => Function.update mask it2 false) mask := by
    rw [clearMask, reach, List.foldl_flatMap]
  rw [hcl]
  clear hcl
  have key : ∀ (l : List ℕ) (mask : ℕ → Bool), (x ∈ l ∨ mask x = false) →
      l.foldl (fun mask it2 => Function.update mask it2 false) mask x = false := by
    intro l
    induction l with
    | nil => intro mask h; simpa using h
    | cons y l ih =>
      intro mask h
      rw [List.foldl_cons]
      apply ih
      by_cases hxy : x = y
      · right; subst hxy; simp
      · rcases h with h | h
        · rcases List.mem_cons.1 h with h | h
          · exact absurd h hxy
          · exact Or.inl h
        · right; rw [Function.update_of_ne hxy]; exact h
  exact key _ _ (Or.inl hx)

theorem countStep_foldl (cv : Option (Conn × Conn)) (it1 : ℕ) (l : List ℕ) (mask : ℕ → Bool)
    (off : ℕ → ℕ) :
    (l.foldl (countStep cv it1) (mask, off)).2
      = (emit (keepIt cv it1) mask l).foldl (fun off _ => countOne off it1) off := by
  induction l generalizing mask off with
  | nil => rfl
  | cons x l ih =>
    rw [List.foldl_cons]
    unfold emit
    by_cases hm : mask x = true
    · rw [if_pos hm, show countStep cv it1 (mask, off) x = (mask, off) by simp [countStep, hm]]
      exact ih _ _
    · rw [if_neg hm]
      by_cases hk : keepIt cv it1 x = true
      · rw [if_pos hk, show countStep cv it1 (mask, off) x
          = (Function.update mask x true, countOne off it1) by simp [countStep, hm, hk], ih]
        rfl
      · rw [if_neg hk, show countStep cv it1 (mask, off) x
          = (Function.update mask x true, off) by simp [countStep, hm, hk], ih]

theorem fillStep_foldlM (cv : Option (Conn × Conn)) (it1 : ℕ) (l : List ℕ) (mask : ℕ → Bool)
    (c : Conn) :
    (l.foldlM (fillStep cv it1) (mask, c)).map Prod.snd
      = (emit (keepIt cv it1) mask l).foldlM (fun c v => c.setToFree it1 v) c := by
  induction l generalizing mask c with
  | nil => rfl
  | cons x l ih =>
    rw [List.foldlM_cons]
    unfold emit
    by_cases hm : mask x = true
    · rw [if_pos hm, show fillStep cv it1 (mask, c) x = some (mask, c) by simp [fillStep, hm]]
      exact ih _ _
    · rw [if_neg hm]
      by_cases hk : keepIt cv it1 x = true
      · rw [if_pos hk, List.foldlM_cons]
        cases hs : c.setToFree it1 x with
        | none => simp [fillStep, hm, hk, hs]
        | some c' =>
          rw [show fillStep cv it1 (mask, c) x = some (Function.update mask x true, c') by
            simp [fillStep, hm, hk, hs]]
          exact ih _ _
      · rw [if_neg hk, show fillStep cv it1 (mask, c) x
          = some (Function.update mask x true, c) by simp [fillStep, hm, hk]]
        exact ih _ _

/-- The insertions of `mesh_intersect()`. -/
def intOps (n1 : ℕ) (c13 c32 : Conn) (cv : Option (Conn × Conn)) : List (ℕ × ℕ) :=
  (List.range n1).flatMap fun i =>
    (emit (keepIt cv i) (fun _ => false) (reach c13 c32 i)).map fun v => (i, v)

theorem intersectCount_eq (n1 : ℕ) (c13 c32 : Conn) (cv : Option (Conn × Conn)) :
    (intersectCount n1 c13 c32 cv).2
      = (intOps n1 c13 c32 cv).foldl (fun off o => countOne off o.1) fun _ => 0 := by
  unfold intersectCount intOps
  rw [List.foldl_flatMap]
  have key : ∀ (l : List ℕ) (s : (ℕ → Bool) × (ℕ → ℕ)),
      (l.foldl (fun s it1 =>
        (c13.iter it1).foldl (fun s it3 => (c32.iter it3).foldl (countStep cv it1) s)
          (clearMask c13 c32 it1 s.1, s.2)) s).2
      = l.foldl (fun off i => ((emit (keepIt cv i) (fun _ => false) (reach c13 c32 i)).map
          fun v => (i, v)).foldl (fun off o => countOne off o.1) off) s.2 := by
    intro l
    induction l with
    | nil => intro s; rfl
    | cons i l ih =>
      intro s
      rw [List.foldl_cons, List.foldl_cons, ih]
      congr 1
      rw [← List.foldl_flatMap (f := c32.iter), ← reach, countStep_foldl, List.foldl_map,
        emit_congr _ _ (fun _ => false) _ fun x hx => clearMask_eq c13 c32 i s.1 x hx]
  exact key _ _

theorem intersect_eq (n1 : ℕ) (c13 c32 : Conn) (cv : Option (Conn × Conn)) :
    intersect n1 c13 c32 cv = (intOps n1 c13 c32 cv).foldlM (fun c o => c.setToFree o.1 o.2)
      (allocConn n1 ((intOps n1 c13 c32 cv).foldl (fun off o => countOne off o.1) fun _ => 0)) := by
  unfold intersect
  simp only [intersectCount_eq]
  generalize allocConn n1 _ = c0
  generalize (intersectCount n1 c13 c32 cv).1 = m0
  unfold intOps
  rw [foldlM_flatMap']
  induction List.range n1 generalizing m0 c0 with
  | nil => rfl
  | cons i l ih =>
    rw [List.foldlM_cons, List.foldlM_cons]
    have h1 : ∀ (s : (ℕ → Bool) × Conn),
        (c13.iter i).foldlM (fun s it3 => (c32.iter it3).foldlM (fillStep cv i) s) s
          = (reach c13 c32 i).foldlM (fillStep cv i) s := fun s => by
      rw [reach, foldlM_flatMap']
    simp only [h1]
    have h2 := fillStep_foldlM cv i (reach c13 c32 i) (clearMask c13 c32 i m0) c0
    rw [emit_congr _ _ (fun _ => false) _ fun x hx => clearMask_eq c13 c32 i m0 x hx] at h2
    rw [List.foldlM_map, ← h2]
    cases hf : (reach c13 c32 i).foldlM (fillStep cv i) (clearMask c13 c32 i m0, c0) with
    | none => rfl
    | some s => exact ih s.2 s.1

theorem rowOf_intOps (n1 : ℕ) (c13 c32 : Conn) (cv : Option (Conn × Conn)) (i : ℕ) (hi : i < n1) :
    rowOf (intOps n1 c13 c32 cv) i
      = emit (keepIt cv i) (fun _ => false) (reach c13 c32 i) := by
  unfold rowOf intOps
  rw [List.filter_flatMap, List.map_flatMap]
  have : ∀ n, ((List.range n).flatMap fun a => (List.filter (fun o => o.1 == i)
      ((emit (keepIt cv a) (fun _ => false) (reach c13 c32 a)).map fun v => (a, v))).map Prod.snd)
      = if i < n then emit (keepIt cv i) (fun _ => false) (reach c13 c32 i) else [] := by
    intro n
    induction n with
    | zero => simp
    | succ n ih =>
      rw [List.range_succ, List.flatMap_append, ih]
      simp only [List.flatMap_cons, List.flatMap_nil, List.append_nil, List.filter_map]
      by_cases h : i = n
      · subst h
        rw [if_neg (lt_irrefl _), if_pos (Nat.lt_succ_self _), List.nil_append]
        rw [List.filter_eq_self.2 (by simp), List.map_map]
        simp [Function.comp_def]
      · rw [List.filter_eq_nil_iff.2 (by simpa using fun _ _ => Ne.symm h)]
        simp only [List.map_nil, List.append_nil]
        by_cases h2 : i < n
        · rw [if_pos h2, if_pos (by omega)]
        · rw [if_neg h2, if_neg (by omega)]
  rw [this, if_pos hi]

/-- The rows of the intersected connectivity: for consistent connectivities the intersection
succeeds, is consistent, and the row `i` lists, each once, the entities incident to an entity incident
to `i`, which satisfy the condition. -/
theorem intersect_rows (n1 n2 : ℕ) (c13 c32 : Conn) (cv : Option (Conn × Conn)) (h13 : c13.WF)
    (hn1 : c13.num = n1) (h32 : c32.WF) (hv3 : ∀ i < n1, ∀ k ∈ c13.row i, k < c32.num)
    (hv2 : ∀ k < c32.num, ∀ j ∈ c32.row k, j < n2) (hn2 : n2 ≤ u32None) :
    ∃ c12, intersect n1 c13 c32 cv = some c12 ∧ c12.WF ∧ c12.num = n1 ∧
      ∀ i < n1, (c12.row i).Nodup ∧ ∀ j, j ∈ c12.row i ↔
        (∃ k ∈ c13.row i, j ∈ c32.row k) ∧ keepIt cv i j = true := by
  have hreach : ∀ i < n1, ∀ j, j ∈ reach c13 c32 i ↔ ∃ k ∈ c13.row i, j ∈ c32.row k := by
    intro i hi j
    simp only [reach, List.mem_flatMap]
    rw [h13.iter_eq (by omega)]
    constructor
    · rintro ⟨k, hk, hj⟩
      exact ⟨k, hk, by rwa [h32.iter_eq (hv3 i hi k hk)] at hj⟩
    · rintro ⟨k, hk, hj⟩
      exact ⟨k, hk, by rwa [h32.iter_eq (hv3 i hi k hk)]⟩
  rw [intersect_eq]
  have hops : ∀ o ∈ intOps n1 c13 c32 cv, o.1 < n1 ∧ o.2 ≠ u32None := by
    rintro ⟨i, j⟩ h
    simp only [intOps, List.mem_flatMap, List.mem_range, List.mem_map, Prod.mk.injEq] at h
    obtain ⟨i', hi', j', hj', rfl, rfl⟩ := h
    refine ⟨hi', ?_⟩
    obtain ⟨k, hk, hj⟩ := (hreach _ hi' _).1 ((mem_emit _ _ _ _).1 hj').1
    have := hv2 k (hv3 _ hi' k hk) _ hj
    simp only
    omega
  obtain ⟨c, h1, h2, h3, h4⟩ := fill_ops n1 _ hops
  refine ⟨c, h1, h2, h3, fun i hi => ?_⟩
  rw [h4 i hi, rowOf_intOps n1 c13 c32 cv i hi]
  refine ⟨nodup_emit _ _ _, fun j => ?_⟩
  rw [mem_emit, hreach i hi]
  simp

theorem contains_iff (i1 i2 : List ℕ) : contains i1 i2 = true ↔ ∀ v ∈ i2, v ∈ i1 := by
  simp only [contains, List.all_eq_true, List.any_eq_true, beq_iff_eq]
  constructor
  · intro h v hv
    obtain ⟨w, hw, rfl⟩ := h v hv
    exact hw
  · intro h v hv
    exact ⟨v, h v hv, rfl⟩

/-! ### Theorems -/

/-- C35, `d1 == d2`: with the connectivity `d1 -> d3` and its transposition, the intersection lists
for each entity exactly the other entities sharing a `d3` entity with it, each once. -/
theorem C35_neighbours (n1 n3 : ℕ) (c13 c31 : Conn) (h13 : c13.WF) (hn1 : c13.num = n1)
    (hv3 : ∀ i < n1, ∀ k ∈ c13.row i, k < n3) (h1 : n1 ≤ u32None)
    (hT : transpose n3 n1 c13 = some c31) :
    ∃ c11, intersect n1 c13 c31 none = some c11 ∧ c11.WF ∧ c11.num = n1 ∧
      ∀ i < n1, (c11.row i).Nodup ∧
        ∀ j, j ∈ c11.row i ↔ j < n1 ∧ j ≠ i ∧ ∃ k, k ∈ c13.row i ∧ k ∈ c13.row j := by
  obtain ⟨c, e1, w, en, hc, hv, -⟩ := C34_transpose n3 n1 c13 h13 hn1 hv3 h1
  obtain rfl : c = c31 := Option.some.inj (e1.symm.trans hT)
  obtain ⟨c11, e2, w2, en2, hr⟩ := intersect_rows n1 n1 c13 c none h13 hn1 w
    (by rw [en]; exact hv3) (by rw [en]; exact hv) h1
  refine ⟨c11, e2, w2, en2, fun i hi => ⟨(hr i hi).1, fun j => ?_⟩⟩
  rw [(hr i hi).2]
  simp only [keepIt, bne_iff_ne, ne_eq]
  constructor
  · rintro ⟨⟨k, hk, hj⟩, hne⟩
    have hk3 := hv3 i hi k hk
    have hj1 := hv k hk3 j hj
    refine ⟨hj1, Ne.symm hne, k, hk, ?_⟩
    have := hc k hk3 j hj1
    rw [← List.count_pos_iff] at hj ⊢
    omega
  · rintro ⟨hj1, hne, k, hk, hkj⟩
    have hk3 := hv3 i hi k hk
    refine ⟨⟨k, hk, ?_⟩, Ne.symm hne⟩
    have := hc k hk3 j hj1
    rw [← List.count_pos_iff] at hkj ⊢
    omega

/-- C35, `d1 > d2`: with the vertices `c10`, `c20` of both kinds of entities, the intersection lists
for each `d1` entity exactly the `d2` entities whose vertices are all vertices of it, each once. -/
theorem C35_contained (n1 n2 n0 : ℕ) (c10 c20 c02 : Conn) (h10 : c10.WF) (hn1 : c10.num = n1)
    (hv10 : ∀ i < n1, ∀ v ∈ c10.row i, v < n0) (h20 : c20.WF) (hn2 : c20.num = n2)
    (hv20 : ∀ j < n2, ∀ v ∈ c20.row j, v < n0) (hne : ∀ j < n2, c20.row j ≠ [])
    (h2 : n2 ≤ u32None) (hT : transpose n0 n2 c20 = some c02) :
    ∃ c12, intersect n1 c10 c02 (some (c10, c20)) = some c12 ∧ c12.WF ∧ c12.num = n1 ∧
      ∀ i < n1, (c12.row i).Nodup ∧
        ∀ j, j ∈ c12.row i ↔ j < n2 ∧ ∀ v ∈ c20.row j, v ∈ c10.row i := by
  obtain ⟨c, e1, w, en, hc, hv, -⟩ := C34_transpose n0 n2 c20 h20 hn2 hv20 h2
  obtain rfl : c = c02 := Option.some.inj (e1.symm.trans hT)
  obtain ⟨c12, e2, w2, en2, hr⟩ := intersect_rows n1 n2 c10 c (some (c10, c20)) h10 hn1 w
    (by rw [en]; exact hv10) (by rw [en]; exact hv) h2
  refine ⟨c12, e2, w2, en2, fun i hi => ⟨(hr i hi).1, fun j => ?_⟩⟩
  rw [(hr i hi).2]
  simp only [keepIt, contains_iff]
  constructor
  · rintro ⟨⟨k, hk, hj⟩, hsub⟩
    exact ⟨hv k (hv10 i hi k hk) j hj, hsub⟩
  · rintro ⟨hj, hsub⟩
    refine ⟨?_, hsub⟩
    obtain ⟨v, hv'⟩ := List.exists_mem_of_ne_nil _ (hne j hj)
    have hv0 := hv20 j hj v hv'
    refine ⟨v, hsub v hv', ?_⟩
    have := hc v hv0 j hj
    rw [← List.count_pos_iff] at hv' ⊢
    omega

/-- C35 for general inputs: `mesh_intersect()` of any consistent connectivities. -/
theorem C35_intersect (n1 n2 : ℕ) (c13 c32 : Conn) (cv : Option (Conn × Conn)) (h13 : c13.WF)
    (hn1 : c13.num = n1) (h32 : c32.WF) (hv3 : ∀ i < n1, ∀ k ∈ c13.row i, k < c32.num)
    (hv2 : ∀ k < c32.num, ∀ j ∈ c32.row k, j < n2) (hn2 : n2 ≤ u32None) :
    ∃ c12, intersect n1 c13 c32 cv = some c12 ∧ c12.WF ∧ c12.num = n1 ∧
      ∀ i < n1, (c12.row i).Nodup ∧ ∀ j, j ∈ c12.row i ↔
        (∃ k ∈ c13.row i, j ∈ c32.row k) ∧
        match cv with
        | none => i ≠ j
        | some (c10, c20) => ∀ v ∈ c20.row j, v ∈ c10.row i := by
  obtain ⟨c12, e2, w2, en2, hr⟩ := intersect_rows n1 n2 c13 c32 cv h13 hn1 h32 hv3 hv2 hn2
  refine ⟨c12, e2, w2, en2, fun i hi => ⟨(hr i hi).1, fun j => ?_⟩⟩
  rw [(hr i hi).2]
  rcases cv with _ | ⟨c10, c20⟩
  · simp [keepIt]
  · simp only [keepIt, contains_iff]

/-- Non-vacuity: the neighbours of the two triangles, each the other, and a third, isolated one. -/
def threeTriangles : Conn :=
  { num := 3, nInc := 9, indices := fun p => [0, 1, 2, 2, 1, 3, 4, 5, 6].getD p 0
    offsets := fun i => [0, 3, 6, 9].getD i 0 }

example : threeTriangles.WF ∧ (∀ j < 3, ∀ i ∈ threeTriangles.row j, i < 7) ∧
    ((transpose 7 3 threeTriangles).bind fun c31 => (intersect 3 threeTriangles c31 none).map
      fun c => ((List.range 3).map c.row, c.nInc)) = some ([[1], [0], []], 2) := by
  refine ⟨⟨by decide, by decide, by decide⟩, by decide, by decide +kernel⟩

/-- The initialization of the iterator over the row `ii` of a consistent connectivity reads the
memory outside of the allocated indices exactly if this row and all the later ones are empty (the
read value is not used then). -/
theorem C35_iterator_read (c : Conn) (h : c.WF) (ii : ℕ) (hi : ii < c.num) (p : ℕ)
    (hp : c.initReadPos ii = some p) : c.nInc ≤ p ↔ ∀ j, ii ≤ j → j < c.num → c.row j = [] := by
  unfold Conn.initReadPos at hp
  split at hp
  · obtain rfl := Option.some.inj hp
    constructor
    · intro hle j hj hjn
      have h1 := h.le hj (by omega)
      have h2 := h.le (Nat.succ_le_of_lt hjn) le_rfl
      have h3 := h.last
      simp only [Nat.succ_eq_add_one] at h2
      apply List.length_eq_zero_iff.1
      rw [Conn.row_length]
      omega
    · intro hall
      have : ∀ n, ii ≤ n → n ≤ c.num → c.offsets n = c.offsets ii := by
        intro n hn
        induction n, hn using Nat.le_induction with
        | base => intro _; rfl
        | succ n hn ih =>
          intro hle
          have h1 := congrArg List.length (hall n hn (by omega))
          rw [Conn.row_length, List.length_nil] at h1
          have h2 := h.mono n (by omega)
          have h3 := ih (by omega)
          omega
      rw [← h.last, this c.num hi.le le_rfl]
  · cases hp

/-- Counterexample to the memory safety of the iterator: in the mesh of the three triangles, where
the last one has no neighbour, `mesh_build()` iterates over the neighbours of the last cell and reads
one item behind the 2 allocated ones. -/
theorem C35_overread : ∃ c31 c11, transpose 7 3 threeTriangles = some c31 ∧
    intersect 3 threeTriangles c31 none = some c11 ∧ c11.nInc = 2 ∧ c11.initReadPos 2 = some 2 := by
  have h : ((transpose 7 3 threeTriangles).bind fun c31 => (intersect 3 threeTriangles c31 none).map
      fun c => (c.nInc, c.initReadPos 2)) = some (2, some 2) := by decide +kernel
  rw [Option.bind_eq_some_iff] at h
  obtain ⟨c31, h1, h2⟩ := h
  rw [Option.map_eq_some_iff] at h2
  obtain ⟨c11, h3, h4⟩ := h2
  exact ⟨c31, c11, h1, h3, (Prod.mk.inj h4).1, (Prod.mk.inj h4).2⟩

end Verif.CMesh
