import Verif.Asm.Graph
import Verif.Asm.Props
/-
C41: the matrix graph consists exactly of the positions the assembling refers to.
-/
namespace Verif.Asm

/-! ### Specification vocabulary -/

/-- The slices tile `[off, ...)` and none of them is empty. -/
def Tiles (off : Nat) : List (Nat × Nat) → Prop
  | [] => True
  | p :: rest => p.1 = off ∧ p.1 < p.2 ∧ Tiles p.2 rest

/-- Each item of the connectivity is inactive (negative; only if allowed) or it is in the
slice. -/
def InSlice (inactive : Bool) (dc : List (List Int)) (s : Nat × Nat) : Prop :=
  ∀ row ∈ dc, ∀ x ∈ row, (inactive = true ∧ x < 0) ∨ ((s.1 : Int) ≤ x ∧ x < (s.2 : Int))

/-- Some cell couples row DOF `r` with column DOF `c`. -/
def Couples (rdc cdc : List (List Int)) (r c : Int) : Prop :=
  ∃ p ∈ rdc.zip cdc, r ∈ p.1 ∧ c ∈ p.2

/-! ### Chunks -/

theorem chunks_flatten {β : Type} (cs : Nat) (hcs : 0 < cs) (l : List β) :
    (chunks cs l).flatten = l := by
  fun_induction chunks cs l with
  | case1 l h => rcases h with h | h
                 · simp [h]
                 · omega
  | case2 l h ih => rw [List.flatten_cons, ih, List.take_append_drop]

theorem chunks_ne_nil {β : Type} (cs : Nat) (hcs : 0 < cs) (l : List β) (hl : l ≠ []) :
    chunks cs l ≠ [] := by
  intro h
  have := chunks_flatten cs hcs l
  rw [h] at this; exact hl this.symm

theorem chunkLen_pos (n c : Nat) (hn : 0 < n) (hc : 2 ≤ c) : 0 < chunkLen n c := by
  unfold chunkLen
  apply Nat.div_pos
  · have h1 : n / c ≤ n / 2 := Nat.div_le_div_left hc (by omega)
    omega
  · omega

/-- C41: with `chunk_size=1` the computed chunk length is 0 for any number of cells, so
`chunk_arrays` never ends for a non-empty connectivity. -/
theorem C41_chunk_size_one (n : Nat) : chunkLen n 1 = 0 := by
  unfold chunkLen
  rw [Nat.div_one, Nat.div_eq_of_lt (by omega)]

/-- C41: no chunk is twice as long as requested (it may exceed `chunk_size`, though). -/
theorem C41_chunk_len (n c : Nat) (hc : 2 ≤ c) : min n (chunkLen n c) < 2 * c := by
  unfold chunkLen
  by_cases h : n < c
  · omega
  · have h1 : n < (n / c + 1) * c := by
      have h2 := Nat.div_add_mod n c; have h3 := Nat.mod_lt n (show 0 < c by omega)
      rw [Nat.add_mul, Nat.mul_comm]; omega
    have h2 : 2 * n / (2 * (n / c) + 1) < 2 * c := by
      rw [Nat.div_lt_iff_lt_mul (by omega)]
      calc 2 * n < 2 * ((n / c + 1) * c) := by omega
        _ = 2 * c * (n / c + 1) := by rw [Nat.mul_comm (n / c + 1) c, Nat.mul_assoc]
        _ ≤ 2 * c * (2 * (n / c) + 1) := Nat.mul_le_mul_left _ (by omega)
    omega

/-- `n_cell = 7`, `chunk_size = 4`: the first chunk has 4 cells; with 399999 cells and the
default 200000 it has 266666. -/
example : chunkLen 7 4 = 4 ∧ chunkLen 399999 200000 = 266666 := by decide

/-! ### One connectivity pair -/

def cellsOf (l : List (List Int × List Int)) : List (Int × Int) :=
  l.flatMap fun p => p.1.flatMap fun r => p.2.map fun c => (r, c)

def keptOf (ao : Bool) (l : List (List Int × List Int)) : List (Int × Int) :=
  if ao then (cellsOf l).filter (fun e => decide (0 ≤ e.1) && decide (0 ≤ e.2)) else cellsOf l

theorem mem_cellsOf {l : List (List Int × List Int)} {r c : Int} :
    (r, c) ∈ cellsOf l ↔ ∃ p ∈ l, r ∈ p.1 ∧ c ∈ p.2 := by
  unfold cellsOf
  simp only [List.mem_flatMap, List.mem_map, Prod.mk.injEq]
  constructor
  · rintro ⟨p, hp, r', hr, c', hc, rfl, rfl⟩; exact ⟨p, hp, hr, hc⟩
  · rintro ⟨p, hp, hr, hc⟩; exact ⟨p, hp, r, hr, c, hc, rfl, rfl⟩

theorem mem_keptOf {ao : Bool} {l : List (List Int × List Int)} {r c : Int} :
    (r, c) ∈ keptOf ao l ↔ (∃ p ∈ l, r ∈ p.1 ∧ c ∈ p.2) ∧ (ao = true → 0 ≤ r ∧ 0 ≤ c) := by
  unfold keptOf
  split
  · next h => rw [List.mem_filter, mem_cellsOf]; simp [h]
  · next h => rw [mem_cellsOf]; simp [h]

theorem keptOf_append (ao : Bool) (l m : List (List Int × List Int)) :
    keptOf ao (l ++ m) = keptOf ao l ++ keptOf ao m := by
  unfold keptOf cellsOf
  split <;> simp

def InShape (shape : Nat × Nat) (l : List (Int × Int)) : Prop :=
  ∀ e ∈ l, 0 ≤ e.1 ∧ e.1 < (shape.1 : Int) ∧ 0 ≤ e.2 ∧ e.2 < (shape.2 : Int)

theorem createDofGraph_ok (ck : List (List Int × List Int)) (shape : Nat × Nat) (ao : Bool)
    (h : InShape shape (keptOf ao ck)) :
    createDofGraph (ck.map (·.1)) (ck.map (·.2)) shape ao =
      some { shape := shape, entries := keptOf ao ck } := by
  unfold createDofGraph
  have hz : (ck.map (·.1)).zip (ck.map (·.2)) = ck := by
    rw [List.zip_map']; simp
  rw [hz]
  show (if ((keptOf ao ck).all _) = true then some _ else none) = _
  rw [if_pos]
  · rfl
  · rw [List.all_eq_true]
    intro e he
    have := h e he
    simp [this]

theorem fold_chunks (shape : Nat × Nat) (ao : Bool) (cks : List (List (List Int × List Int)))
    (b : Block) (hb : b.shape = shape) (h : InShape shape (keptOf ao cks.flatten)) :
    cks.foldlM (fun b ck => do
      let b1 ← createDofGraph (ck.map (·.1)) (ck.map (·.2)) shape ao
      addBlock b b1) b =
    some { shape := shape, entries := b.entries ++ keptOf ao cks.flatten } := by
  induction cks generalizing b with
  | nil => subst hb; simp [keptOf, cellsOf]
  | cons ck rest ih =>
    rw [List.flatten_cons, keptOf_append] at h
    rw [List.foldlM_cons, createDofGraph_ok _ _ _ fun e he => h e (List.mem_append_left _ he)]
    have hA : addBlock b { shape := shape, entries := keptOf ao ck } =
        some { shape := b.shape, entries := b.entries ++ keptOf ao ck } := by
      unfold addBlock; rw [if_pos hb]
    simp only [Option.bind_eq_bind, Option.bind_some, hA]
    simp only [Option.bind_eq_bind] at ih
    rw [ih]
    · simp [keptOf_append]
    · exact hb
    · exact fun e he => h e (List.mem_append_right _ he)

theorem chunkLoop_ok (shape : Nat × Nat) (ao : Bool) (blk : Option Block)
    (cks : List (List (List Int × List Int))) (hne : cks ≠ [])
    (h : InShape shape (keptOf ao cks.flatten)) :
    chunkLoop shape ao blk cks =
      some (some { shape := shape, entries := keptOf ao cks.flatten }) := by
  cases cks with
  | nil => exact absurd rfl hne
  | cons ck rest =>
    rw [List.flatten_cons, keptOf_append] at h
    unfold chunkLoop
    simp only
    rw [createDofGraph_ok _ _ _ fun e he => h e (List.mem_append_left _ he)]
    simp only [Option.bind_eq_bind, Option.bind_some]
    have := fold_chunks shape ao rest { shape := shape, entries := keptOf ao ck } rfl
      (fun e he => h e (List.mem_append_right _ he))
    simp only [Option.bind_eq_bind] at this
    rw [this]
    simp [keptOf_append]

/-- The zipped connectivities with the offsets removed. -/
def shifted (d : DConn) (ro co : Nat) : List (List Int × List Int) :=
  (d.rdc.map fun row => row.map fun x => x - (ro : Int)).zip
    (d.cdc.map fun row => row.map fun x => x - (co : Int))

theorem mem_kept_shifted {ao : Bool} {d : DConn} {ro co : Nat} {x y : Int} :
    (x, y) ∈ keptOf ao (shifted d ro co) ↔
      Couples d.rdc d.cdc (x + ro) (y + co) ∧ (ao = true → 0 ≤ x ∧ 0 ≤ y) := by
  rw [mem_keptOf]
  unfold shifted Couples
  rw [List.zip_map]
  simp only [List.mem_map, Prod.exists]
  refine and_congr_left fun _ => ?_
  constructor
  · rintro ⟨a, b, ⟨a', b', hab, e⟩, ha, hb⟩
    simp only [Prod.map_apply, Prod.mk.injEq] at e
    obtain ⟨rfl, rfl⟩ := e
    obtain ⟨r, hr, rfl⟩ := List.mem_map.1 ha
    obtain ⟨c, hc, rfl⟩ := List.mem_map.1 hb
    refine ⟨a', b', hab, ?_, ?_⟩
    · rw [Int.sub_add_cancel]; exact hr
    · rw [Int.sub_add_cancel]; exact hc
  · rintro ⟨a, b, hab, ha, hb⟩
    refine ⟨_, _, ⟨a, b, hab, rfl⟩, ?_, ?_⟩
    · exact List.mem_map.2 ⟨_, ha, by omega⟩
    · exact List.mem_map.2 ⟨_, hb, by omega⟩

/-! ### The main loop -/

section
variable (rIndx cIndx : List (Nat × Nat)) (ao : Bool)

/-- What the loop needs of one connectivity pair. -/
def GoodConn (d : DConn) : Prop :=
  ∃ rs cs, rIndx[d.ir]? = some rs ∧ cIndx[d.ic]? = some cs ∧ d.rdc ≠ [] ∧
    d.rdc.length = d.cdc.length ∧ InSlice ao d.rdc rs ∧ InSlice ao d.cdc cs

/-- The state of the table of blocks after the connectivities `P`. -/
def GInv (P : List DConn) (s : GState) : Prop :=
  ∀ i j, (∀ b, s.blocks i j = some b → ∃ rs cs, rIndx[i]? = some rs ∧ cIndx[j]? = some cs ∧
      b.shape = (rs.2 - rs.1, cs.2 - cs.1) ∧
      ∀ x y, (x, y) ∈ b.entries ↔ ∃ d ∈ P, d.ir = i ∧ d.ic = j ∧
        (x, y) ∈ keptOf ao (shifted d rs.1 cs.1)) ∧
    ((∃ b, s.blocks i j = some b) ↔ ∃ d ∈ P, d.ir = i ∧ d.ic = j)

theorem inShape_shifted {d : DConn} {rs cs : Nat × Nat} (hr : InSlice ao d.rdc rs)
    (hc : InSlice ao d.cdc cs) :
    InShape (rs.2 - rs.1, cs.2 - cs.1) (keptOf ao (shifted d rs.1 cs.1)) := by
  rintro ⟨x, y⟩ he
  rw [mem_kept_shifted] at he
  obtain ⟨⟨⟨a, b⟩, hp, hx, hy⟩, hao⟩ := he
  have h1 := hr a (List.of_mem_zip hp).1 _ hx
  have h2 := hc b (List.of_mem_zip hp).2 _ hy
  refine ⟨?_, ?_, ?_, ?_⟩
  all_goals simp only
  · rcases h1 with ⟨h, _⟩ | h
    · exact (hao h).1
    · omega
  · rcases h1 with ⟨h, h'⟩ | h
    · have := (hao h).1; omega
    · omega
  · rcases h2 with ⟨h, _⟩ | h
    · exact (hao h).2
    · omega
  · rcases h2 with ⟨h, h'⟩ | h
    · have := (hao h).2; omega
    · omega

theorem graphStep_ok (chunkSize : Nat) (hcs : 2 ≤ chunkSize) (P : List DConn) (s : GState)
    (d : DConn) (hs : GInv rIndx cIndx ao P s) (hd : GoodConn rIndx cIndx ao d) :
    ∃ s', graphStep (rIndx.map (·.1)) (rIndx.map fun p => p.2 - p.1)
      (cIndx.map (·.1)) (cIndx.map fun p => p.2 - p.1) ao chunkSize s d = some s' ∧
      GInv rIndx cIndx ao (P ++ [d]) s' := by
  obtain ⟨rs, cs, hrs, hcs', hne, hlen, hr, hc⟩ := hd
  unfold graphStep
  simp only [List.getElem?_map, hrs, hcs', Option.map_some, Option.bind_eq_bind, Option.bind_some]
  have hlp : 0 < chunkLen (List.map (fun row => List.map (fun x => x - (rs.1 : Int)) row) d.rdc).length
      chunkSize := by
    apply chunkLen_pos _ _ _ hcs
    rw [List.length_map]; exact List.length_pos_iff.2 hne
  have hzip : (List.map (fun row => List.map (fun x => x - (rs.1 : Int)) row) d.rdc).zip
      (List.map (fun row => List.map (fun x => x - (cs.1 : Int)) row) d.cdc) = shifted d rs.1 cs.1 := rfl
  have hsne : shifted d rs.1 cs.1 ≠ [] := by
    intro h
    have := congrArg List.length h
    unfold shifted at this
    simp only [List.length_zip, List.length_map, ← hlen, Nat.min_self, List.length_nil] at this
    exact hne (List.length_eq_zero_iff.1 this)
  rw [hzip, chunkLoop_ok _ _ _ _ (chunks_ne_nil _ hlp _ hsne)
    (by rw [chunks_flatten _ hlp]; exact inShape_shifted ao hr hc), chunks_flatten _ hlp]
  simp only [Option.bind_some]
  cases hold : s.blocks d.ir d.ic with
  | none =>
    refine ⟨_, rfl, ?_⟩
    intro i j
    by_cases hij : i = d.ir ∧ j = d.ic
    · obtain ⟨rfl, rfl⟩ := hij
      constructor
      · intro b hb
        simp only [and_self, if_true, Option.some.injEq] at hb
        subst hb
        refine ⟨rs, cs, hrs, hcs', rfl, ?_⟩
        intro x y
        constructor
        · intro h; exact ⟨d, by simp, rfl, rfl, h⟩
        · rintro ⟨d', hd', h1, h2, h3⟩
          rcases List.mem_append.1 hd' with hd' | hd'
          · exfalso
            obtain ⟨b, hb⟩ := ((hs d.ir d.ic).2).2 ⟨d', hd', h1, h2⟩
            rw [hold] at hb; cases hb
          · rw [List.mem_singleton] at hd'; subst hd'; exact h3
      · simp only [and_self, if_true]
        constructor
        · intro _; exact ⟨d, by simp, rfl, rfl⟩
        · intro _; exact ⟨_, rfl⟩
    · simp only [if_neg hij]
      constructor
      · intro b hb
        obtain ⟨rs', cs', h1, h2, h3, h4⟩ := (hs i j).1 b hb
        refine ⟨rs', cs', h1, h2, h3, ?_⟩
        intro x y
        rw [h4]
        constructor
        · rintro ⟨d', hd', h⟩; exact ⟨d', List.mem_append_left _ hd', h⟩
        · rintro ⟨d', hd', h⟩
          rcases List.mem_append.1 hd' with hd' | hd'
          · exact ⟨d', hd', h⟩
          · rw [List.mem_singleton] at hd'; subst hd'; exact absurd ⟨h.1.symm, h.2.1.symm⟩ hij
      · rw [(hs i j).2]
        constructor
        · rintro ⟨d', hd', h⟩; exact ⟨d', List.mem_append_left _ hd', h⟩
        · rintro ⟨d', hd', h⟩
          rcases List.mem_append.1 hd' with hd' | hd'
          · exact ⟨d', hd', h⟩
          · rw [List.mem_singleton] at hd'; subst hd'; exact absurd ⟨h.1.symm, h.2.symm⟩ hij
  | some old =>
    obtain ⟨rs', cs', h1, h2, h3, h4⟩ := (hs d.ir d.ic).1 old hold
    rw [hrs] at h1; rw [hcs'] at h2
    cases h1; cases h2
    simp only [addBlock]
    rw [if_pos h3]
    simp only [Option.bind_some]
    refine ⟨_, rfl, ?_⟩
    intro i j
    by_cases hij : i = d.ir ∧ j = d.ic
    · obtain ⟨rfl, rfl⟩ := hij
      constructor
      · intro b hb
        simp only [and_self, if_true, Option.some.injEq] at hb
        subst hb
        refine ⟨rs, cs, hrs, hcs', h3, ?_⟩
        intro x y
        simp only [List.mem_append, h4]
        constructor
        · rintro (⟨d', hd', h⟩ | h)
          · exact ⟨d', .inl hd', h⟩
          · exact ⟨d, .inr (by simp), rfl, rfl, h⟩
        · rintro ⟨d', hd' | hd', h⟩
          · exact .inl ⟨d', hd', h⟩
          · rw [List.mem_singleton] at hd'; subst hd'; exact .inr h.2.2
      · simp only [and_self, if_true]
        constructor
        · intro _; exact ⟨d, by simp, rfl, rfl⟩
        · intro _; exact ⟨_, rfl⟩
    · simp only [if_neg hij]
      constructor
      · intro b hb
        obtain ⟨rs', cs', h1, h2, h3, h4⟩ := (hs i j).1 b hb
        refine ⟨rs', cs', h1, h2, h3, ?_⟩
        intro x y
        rw [h4]
        constructor
        · rintro ⟨d', hd', h⟩; exact ⟨d', List.mem_append_left _ hd', h⟩
        · rintro ⟨d', hd', h⟩
          rcases List.mem_append.1 hd' with hd' | hd'
          · exact ⟨d', hd', h⟩
          · rw [List.mem_singleton] at hd'; subst hd'; exact absurd ⟨h.1.symm, h.2.1.symm⟩ hij
      · rw [(hs i j).2]
        constructor
        · rintro ⟨d', hd', h⟩; exact ⟨d', List.mem_append_left _ hd', h⟩
        · rintro ⟨d', hd', h⟩
          rcases List.mem_append.1 hd' with hd' | hd'
          · exact ⟨d', hd', h⟩
          · rw [List.mem_singleton] at hd'; subst hd'; exact absurd ⟨h.1.symm, h.2.symm⟩ hij

theorem graphLoop_ok (chunkSize : Nat) (hcs : 2 ≤ chunkSize) (Q P : List DConn) (s : GState)
    (hs : GInv rIndx cIndx ao P s) (hd : ∀ d ∈ Q, GoodConn rIndx cIndx ao d) :
    ∃ s', Q.foldlM (graphStep (rIndx.map (·.1)) (rIndx.map fun p => p.2 - p.1)
      (cIndx.map (·.1)) (cIndx.map fun p => p.2 - p.1) ao chunkSize) s = some s' ∧
      GInv rIndx cIndx ao (P ++ Q) s' := by
  induction Q generalizing P s with
  | nil => exact ⟨s, rfl, by simpa using hs⟩
  | cons d Q ih =>
    obtain ⟨s1, h1, h2⟩ := graphStep_ok rIndx cIndx ao chunkSize hcs P s d hs (hd d (by simp))
    obtain ⟨s2, h3, h4⟩ := ih (P ++ [d]) s1 h2 (fun d' hd' => hd d' (by simp [hd']))
    refine ⟨s2, ?_, by simpa using h4⟩
    rw [List.foldlM_cons, h1]
    exact h3

end

/-! ### Joining the blocks -/

theorem tiles_get {off : Nat} {l : List (Nat × Nat)} (h : Tiles off l) {i : Nat} {s : Nat × Nat}
    (hs : l[i]? = some s) :
    s.1 < s.2 ∧ off + ((l.take i).map fun p => p.2 - p.1).sum = s.1 := by
  induction l generalizing off i with
  | nil => simp at hs
  | cons p l ih =>
    obtain ⟨h1, h2, h3⟩ := h
    cases i with
    | zero => simp at hs; subst hs; simp [h1]; omega
    | succ i =>
      rw [List.getElem?_cons_succ] at hs
      obtain ⟨h4, h5⟩ := ih h3 hs
      refine ⟨h4, ?_⟩
      rw [List.take_succ_cons, List.map_cons, List.sum_cons, ← h5]
      omega

theorem maxSucc_eq (l : List Nat) (n : Nat) (h1 : ∀ x ∈ l, x < n) (h2 : ∀ i < n, i ∈ l) :
    maxSucc l = n := by
  unfold maxSucc
  have key : ∀ (l : List Nat) (m : Nat), (∀ x ∈ l, x + 1 ≤ l.foldl (fun m x => max m (x + 1)) m) ∧
      m ≤ l.foldl (fun m x => max m (x + 1)) m ∧
      (∀ b, m ≤ b → (∀ x ∈ l, x + 1 ≤ b) → l.foldl (fun m x => max m (x + 1)) m ≤ b) := by
    intro l
    induction l with
    | nil => intro m; simp
    | cons a l ih =>
      intro m
      obtain ⟨i1, i2, i3⟩ := ih (max m (a + 1))
      refine ⟨?_, ?_, ?_⟩
      · intro x hx
        rcases List.mem_cons.1 hx with rfl | hx
        · rw [List.foldl_cons]; omega
        · exact i1 x hx
      · rw [List.foldl_cons]; omega
      · intro b hb hl
        rw [List.foldl_cons]
        apply i3
        · have := hl a (by simp); omega
        · intro x hx; exact hl x (by simp [hx])
  obtain ⟨k1, _, k3⟩ := key l 0
  apply Nat.le_antisymm
  · exact k3 n (by omega) (fun x hx => h1 x hx)
  · rcases Nat.eq_zero_or_pos n with h | h
    · omega
    · have := k1 (n - 1) (h2 (n - 1) (by omega)); omega

theorem headD_of_all {l : List Nat} {x : Nat} (h1 : l ≠ []) (h2 : ∀ y ∈ l, y = x) :
    l.headD 0 = x := by
  cases l with
  | nil => exact absurd rfl h1
  | cons a l => exact h2 a (by simp)

section
variable {rIndx cIndx : List (Nat × Nat)} {ao : Bool} {P : List DConn} {s : GState}

theorem rowLen_eq (hs : GInv rIndx cIndx ao P s) {i : Nat} {rs : Nat × Nat}
    (hrs : rIndx[i]? = some rs) (hP : ∃ d ∈ P, d.ir = i) (hb : ∀ d ∈ P, d.ic < cIndx.length) :
    rowLen s.blocks cIndx.length i = rs.2 - rs.1 := by
  unfold rowLen
  apply headD_of_all
  · obtain ⟨d, hd, rfl⟩ := hP
    obtain ⟨b, hb'⟩ := ((hs d.ir d.ic).2).2 ⟨d, hd, rfl, rfl⟩
    intro h
    have : b ∈ (List.range cIndx.length).filterMap fun j => s.blocks d.ir j :=
      List.mem_filterMap.2 ⟨d.ic, List.mem_range.2 (hb d hd), hb'⟩
    rw [List.map_eq_nil_iff] at h
    rw [h] at this; simp at this
  · intro y hy
    obtain ⟨b, hb1, rfl⟩ := List.mem_map.1 hy
    obtain ⟨j, _, hj⟩ := List.mem_filterMap.1 hb1
    obtain ⟨rs', cs', h1, _, h3, _⟩ := (hs i j).1 b hj
    rw [hrs] at h1; cases h1; rw [h3]

theorem colLen_eq (hs : GInv rIndx cIndx ao P s) {j : Nat} {cs : Nat × Nat}
    (hcs : cIndx[j]? = some cs) (hP : ∃ d ∈ P, d.ic = j) (hb : ∀ d ∈ P, d.ir < rIndx.length) :
    colLen s.blocks rIndx.length j = cs.2 - cs.1 := by
  unfold colLen
  apply headD_of_all
  · obtain ⟨d, hd, rfl⟩ := hP
    obtain ⟨b, hb'⟩ := ((hs d.ir d.ic).2).2 ⟨d, hd, rfl, rfl⟩
    intro h
    have : b ∈ (List.range rIndx.length).filterMap fun i => s.blocks i d.ic :=
      List.mem_filterMap.2 ⟨d.ir, List.mem_range.2 (hb d hd), hb'⟩
    rw [List.map_eq_nil_iff] at h
    rw [h] at this; simp at this
  · intro y hy
    obtain ⟨b, hb1, rfl⟩ := List.mem_map.1 hy
    obtain ⟨i, _, hi⟩ := List.mem_filterMap.1 hb1
    obtain ⟨rs', cs', _, h2, h3, _⟩ := (hs i j).1 b hi
    rw [hcs] at h2; cases h2; rw [h3]

theorem range_map_take (f : Nat → Nat) (l : List (Nat × Nat)) (i : Nat) (hi : i ≤ l.length)
    (h : ∀ k p, l[k]? = some p → f k = p.2 - p.1) :
    (List.range i).map f = (l.take i).map fun p => p.2 - p.1 := by
  apply List.ext_getElem
  · simp; omega
  · intro k h1 h2
    simp only [List.length_map, List.length_range, List.length_take] at h1 h2
    rw [List.getElem_map, List.getElem_map, List.getElem_range, List.getElem_take]
    exact h k _ (List.getElem?_eq_getElem _)

/-- The joined pattern. -/
theorem blockArray_ok (hs : GInv rIndx cIndx ao P s) (hr : Tiles 0 rIndx) (hc : Tiles 0 cIndx)
    (hPr : ∀ d ∈ P, d.ir < rIndx.length) (hPc : ∀ d ∈ P, d.ic < cIndx.length)
    (har : ∀ i < rIndx.length, ∃ d ∈ P, d.ir = i) (hac : ∀ j < cIndx.length, ∃ d ∈ P, d.ic = j) :
    ∃ g, blockArray s.blocks rIndx.length cIndx.length = some g ∧
      g.shape = ((rIndx.map fun p => p.2 - p.1).sum, (cIndx.map fun p => p.2 - p.1).sum) ∧
      ∀ r c, (r, c) ∈ g.entries ↔ ∃ d ∈ P, ∃ rs cs, rIndx[d.ir]? = some rs ∧
        cIndx[d.ic]? = some cs ∧ (r - rs.1, c - cs.1) ∈ keptOf ao (shifted d rs.1 cs.1) := by
  have hrl : ∀ k p, rIndx[k]? = some p → rowLen s.blocks cIndx.length k = p.2 - p.1 := by
    intro k p hk
    obtain ⟨hlt, _⟩ := List.getElem?_eq_some_iff.1 hk
    exact rowLen_eq hs hk (har k hlt) hPc
  have hcl : ∀ k p, cIndx[k]? = some p → colLen s.blocks rIndx.length k = p.2 - p.1 := by
    intro k p hk
    obtain ⟨hlt, _⟩ := List.getElem?_eq_some_iff.1 hk
    exact colLen_eq hs hk (hac k hlt) hPr
  have hro : ∀ k p, rIndx[k]? = some p →
      ((List.range k).map (rowLen s.blocks cIndx.length)).sum = p.1 := by
    intro k p hk
    obtain ⟨hlt, _⟩ := List.getElem?_eq_some_iff.1 hk
    rw [range_map_take _ rIndx k (by omega) hrl]
    have := (tiles_get hr hk).2; omega
  have hco : ∀ k p, cIndx[k]? = some p →
      ((List.range k).map (colLen s.blocks rIndx.length)).sum = p.1 := by
    intro k p hk
    obtain ⟨hlt, _⟩ := List.getElem?_eq_some_iff.1 hk
    rw [range_map_take _ cIndx k (by omega) hcl]
    have := (tiles_get hc hk).2; omega
  have hpres : ∀ i j b, ((i, j), b) ∈ ((List.range rIndx.length).flatMap fun i =>
      (List.range cIndx.length).filterMap fun j => (s.blocks i j).map fun b => ((i, j), b)) ↔
      i < rIndx.length ∧ j < cIndx.length ∧ s.blocks i j = some b := by
    intro i j b
    simp only [List.mem_flatMap, List.mem_filterMap, List.mem_range, Option.map_eq_some_iff,
      Prod.mk.injEq]
    constructor
    · rintro ⟨i', hi, j', hj, b', hb, ⟨rfl, rfl⟩, rfl⟩; exact ⟨hi, hj, hb⟩
    · rintro ⟨hi, hj, hb⟩; exact ⟨i, hi, j, hj, b, hb, ⟨rfl, rfl⟩, rfl⟩
  unfold blockArray
  simp only
  rw [if_pos]
  · refine ⟨_, rfl, ?_, ?_⟩
    · simp only [Prod.mk.injEq]
      constructor
      · rw [range_map_take _ rIndx _ (by omega) hrl, List.take_length]
      · rw [range_map_take _ cIndx _ (by omega) hcl, List.take_length]
    · intro r c
      simp only [List.mem_flatMap (b := (r, c)), List.mem_map]
      constructor
      · rintro ⟨⟨⟨i, j⟩, b⟩, hp, ⟨x, y⟩, he, e⟩
        obtain ⟨hi, hj, hb⟩ := (hpres i j b).1 hp
        obtain ⟨rs, cs, h1, h2, _, h4⟩ := (hs i j).1 b hb
        obtain ⟨d, hd, rfl, rfl, hk⟩ := (h4 x y).1 he
        simp only [hro _ _ h1, hco _ _ h2, Prod.mk.injEq] at e
        refine ⟨d, hd, rs, cs, h1, h2, ?_⟩
        have e1 : r - rs.1 = x := by omega
        have e2 : c - cs.1 = y := by omega
        rw [e1, e2]; exact hk
      · rintro ⟨d, hd, rs, cs, h1, h2, hk⟩
        obtain ⟨b, hb⟩ := ((hs d.ir d.ic).2).2 ⟨d, hd, rfl, rfl⟩
        obtain ⟨rs', cs', h1', h2', _, h4⟩ := (hs d.ir d.ic).1 b hb
        rw [h1] at h1'; rw [h2] at h2'; cases h1'; cases h2'
        refine ⟨((d.ir, d.ic), b), (hpres _ _ _).2 ⟨hPr d hd, hPc d hd, hb⟩,
          (r - rs.1, c - cs.1), (h4 _ _).2 ⟨d, hd, rfl, rfl, hk⟩, ?_⟩
        simp only [hro _ _ h1, hco _ _ h2, Prod.mk.injEq]
        constructor <;> omega
  · rw [List.all_eq_true]
    rintro ⟨⟨i, j⟩, b⟩ hp
    obtain ⟨hi, hj, hb⟩ := (hpres i j b).1 hp
    obtain ⟨rs, cs, h1, h2, h3, _⟩ := (hs i j).1 b hb
    simp [hrl _ _ h1, hcl _ _ h2, h3]

end

/-! ### Block indices -/

theorem tiles_starts {off : Nat} {l : List (Nat × Nat)} (h : Tiles off l) :
    (l.map (·.1)).Pairwise (· < ·) ∧ ∀ p ∈ l, off ≤ p.1 := by
  induction l generalizing off with
  | nil => simp
  | cons p l ih =>
    obtain ⟨h1, h2, h3⟩ := h
    obtain ⟨h4, h5⟩ := ih h3
    constructor
    · rw [List.map_cons, List.pairwise_cons]
      refine ⟨?_, h4⟩
      intro a ha
      obtain ⟨q, hq, rfl⟩ := List.mem_map.1 ha
      have := h5 q hq; omega
    · intro q hq
      rcases List.mem_cons.1 hq with rfl | hq
      · omega
      · have := h5 q hq; omega

theorem countBelow_sorted (l : List Nat) (h : l.Pairwise (· < ·)) (i : Nat) (hi : i < l.length) :
    (l.filter fun y => decide (y < l[i])).length = i := by
  induction l generalizing i with
  | nil => simp at hi
  | cons a l ih =>
    rw [List.pairwise_cons] at h
    cases i with
    | zero =>
      rw [List.getElem_cons_zero, List.length_eq_zero_iff, List.filter_eq_nil_iff]
      intro y hy
      rcases List.mem_cons.1 hy with rfl | hy
      · simp
      · have := h.1 y hy; simp; omega
    | succ i =>
      simp only [List.length_cons, Nat.add_lt_add_iff_right] at hi
      rw [List.getElem_cons_succ, List.filter_cons, if_pos, List.length_cons, ih h.2 i hi]
      have := h.1 l[i] (List.getElem_mem hi)
      simpa using this

theorem rankIn_eq (starts : List Nat) (h : starts.Pairwise (· < ·)) (l : List Nat)
    (hl : ∀ x, x ∈ l ↔ x ∈ starts) (i : Nat) (hi : i < starts.length) :
    rankIn l (starts.getD i 0) = i := by
  unfold rankIn
  have hp : l.dedup.Perm starts := by
    rw [List.perm_ext_iff_of_nodup (List.nodup_dedup _) (h.imp (fun h => Nat.ne_of_lt h))]
    intro a; rw [List.mem_dedup, hl]
  have e : starts.getD i 0 = starts[i] := by simp [List.getD, hi]
  rw [e, (hp.filter _).length_eq]
  exact countBelow_sorted starts h i hi

/-! ### The theorems -/

/-- General form: connectivities `rd c`, `cd c` (either the active ones or the restored
ones) of the pairs. -/
theorem graph_main (cps : List ConnPair) (rIndx cIndx : List (Nat × Nat)) (ao : Bool)
    (chunkSize : Nat) (hcs : 2 ≤ chunkSize) (hr : Tiles 0 rIndx) (hc : Tiles 0 cIndx)
    (rd cd : ConnPair → List (List Int))
    (hrd : ∀ c ∈ cps, rd c = if ao then c.rdc else restoreAll c.rdc)
    (hcd : ∀ c ∈ cps, cd c = if ao then c.cdc else restoreAll c.cdc)
    (hne : cps ≠ [])
    (hv : ∀ c ∈ cps, rd c ≠ [] ∧ (rd c).length = (cd c).length ∧
      ∃ rs cs, rIndx[c.rvar]? = some rs ∧ cIndx[c.cvar]? = some cs ∧
        InSlice ao (rd c) rs ∧ InSlice ao (cd c) cs)
    (har : ∀ v < rIndx.length, ∃ c ∈ cps, c.rvar = v)
    (hac : ∀ v < cIndx.length, ∃ c ∈ cps, c.cvar = v) :
    ∃ g, matrixGraph cps rIndx cIndx ao chunkSize = some g ∧
      g.shape = ((rIndx.map fun p => p.2 - p.1).sum, (cIndx.map fun p => p.2 - p.1).sum) ∧
      ∀ r c, (r, c) ∈ g.entries ↔ ∃ d ∈ cps, Couples (rd d) (cd d) r c ∧
        (ao = true → 0 ≤ r ∧ 0 ≤ c) := by
  -- block indices are the variables' positions
  have hir : ∀ c ∈ cps, rankIn (cps.map fun c => ((rIndx.map (·.1)).getD c.rvar 0))
      ((rIndx.map (·.1)).getD c.rvar 0) = c.rvar := by
    intro c hcm
    obtain ⟨_, _, rs, cs, h1, h2, _⟩ := hv c hcm
    obtain ⟨hlt, _⟩ := List.getElem?_eq_some_iff.1 h1
    apply rankIn_eq _ (tiles_starts hr).1 _ _ _ (by simpa using hlt)
    intro x
    constructor
    · intro hx
      obtain ⟨c', hc', rfl⟩ := List.mem_map.1 hx
      obtain ⟨_, _, rs', cs', h1', _⟩ := hv c' hc'
      rw [List.mem_map]
      refine ⟨rs', List.mem_of_getElem? h1', ?_⟩
      simp [List.getD, h1']
    · intro hx
      obtain ⟨p, hp, rfl⟩ := List.mem_map.1 hx
      obtain ⟨k, hk, rfl⟩ := List.getElem_of_mem hp
      obtain ⟨c', hc', e⟩ := har k hk
      refine List.mem_map.2 ⟨c', hc', ?_⟩
      simp [List.getD, e, hk]
  have hic : ∀ c ∈ cps, rankIn (cps.map fun c => ((cIndx.map (·.1)).getD c.cvar 0))
      ((cIndx.map (·.1)).getD c.cvar 0) = c.cvar := by
    intro c hcm
    obtain ⟨_, _, rs, cs, h1, h2, _⟩ := hv c hcm
    obtain ⟨hlt, _⟩ := List.getElem?_eq_some_iff.1 h2
    apply rankIn_eq _ (tiles_starts hc).1 _ _ _ (by simpa using hlt)
    intro x
    constructor
    · intro hx
      obtain ⟨c', hc', rfl⟩ := List.mem_map.1 hx
      obtain ⟨_, _, rs', cs', _, h1', _⟩ := hv c' hc'
      rw [List.mem_map]
      refine ⟨cs', List.mem_of_getElem? h1', ?_⟩
      simp [List.getD, h1']
    · intro hx
      obtain ⟨p, hp, rfl⟩ := List.mem_map.1 hx
      obtain ⟨k, hk, rfl⟩ := List.getElem_of_mem hp
      obtain ⟨c', hc', e⟩ := hac k hk
      refine List.mem_map.2 ⟨c', hc', ?_⟩
      simp [List.getD, e, hk]
  have hdcs : (cps.map fun c =>
      { rdc := if ao then c.rdc else restoreAll c.rdc
        cdc := if ao then c.cdc else restoreAll c.cdc
        ir := rankIn (cps.map fun c => ((rIndx.map (·.1)).getD c.rvar 0))
          ((rIndx.map (·.1)).getD c.rvar 0)
        ic := rankIn (cps.map fun c => ((cIndx.map (·.1)).getD c.cvar 0))
          ((cIndx.map (·.1)).getD c.cvar 0) : DConn }) =
      cps.map fun c => { rdc := rd c, cdc := cd c, ir := c.rvar, ic := c.cvar : DConn } := by
    apply List.map_congr_left
    intro c hcm
    rw [hir c hcm, hic c hcm, ← hrd c hcm, ← hcd c hcm]
  unfold matrixGraph
  simp only
  rw [hdcs]
  unfold createMatrixGraph
  rw [if_neg (by simpa using hne)]
  have hgood : ∀ d ∈ cps.map (fun c => { rdc := rd c, cdc := cd c, ir := c.rvar, ic := c.cvar : DConn }),
      GoodConn rIndx cIndx ao d := by
    intro d hd
    obtain ⟨c, hcm, rfl⟩ := List.mem_map.1 hd
    obtain ⟨h1, h2, rs, cs, h3, h4, h5, h6⟩ := hv c hcm
    exact ⟨rs, cs, h3, h4, h1, h2, h5, h6⟩
  obtain ⟨s, hs1, hs2⟩ := graphLoop_ok rIndx cIndx ao chunkSize hcs _ []
    { blocks := fun _ _ => none, block := none } (by intro i j; simp) hgood
  rw [List.nil_append] at hs2
  rw [hs1]
  simp only [Option.bind_eq_bind, Option.bind_some, List.map_map]
  have hm1 : maxSucc (cps.map ((fun x : DConn => x.ir) ∘ fun c =>
      { rdc := rd c, cdc := cd c, ir := c.rvar, ic := c.cvar : DConn })) = rIndx.length := by
    apply maxSucc_eq
    · intro x hx
      obtain ⟨c, hcm, rfl⟩ := List.mem_map.1 hx
      obtain ⟨_, _, rs, cs, h3, _⟩ := hv c hcm
      exact (List.getElem?_eq_some_iff.1 h3).1
    · intro i hi
      obtain ⟨c, hcm, e⟩ := har i hi
      exact List.mem_map.2 ⟨c, hcm, e⟩
  have hm2 : maxSucc (cps.map ((fun x : DConn => x.ic) ∘ fun c =>
      { rdc := rd c, cdc := cd c, ir := c.rvar, ic := c.cvar : DConn })) = cIndx.length := by
    apply maxSucc_eq
    · intro x hx
      obtain ⟨c, hcm, rfl⟩ := List.mem_map.1 hx
      obtain ⟨_, _, rs, cs, _, h3, _⟩ := hv c hcm
      exact (List.getElem?_eq_some_iff.1 h3).1
    · intro i hi
      obtain ⟨c, hcm, e⟩ := hac i hi
      exact List.mem_map.2 ⟨c, hcm, e⟩
  rw [hm1, hm2]
  obtain ⟨g, hg1, hg2, hg3⟩ := blockArray_ok hs2 hr hc
    (by
      intro d hd
      obtain ⟨c, hcm, rfl⟩ := List.mem_map.1 hd
      obtain ⟨_, _, rs, cs, h3, _⟩ := hv c hcm
      exact (List.getElem?_eq_some_iff.1 h3).1)
    (by
      intro d hd
      obtain ⟨c, hcm, rfl⟩ := List.mem_map.1 hd
      obtain ⟨_, _, rs, cs, _, h3, _⟩ := hv c hcm
      exact (List.getElem?_eq_some_iff.1 h3).1)
    (by
      intro i hi
      obtain ⟨c, hcm, e⟩ := har i hi
      exact ⟨_, List.mem_map.2 ⟨c, hcm, rfl⟩, e⟩)
    (by
      intro i hi
      obtain ⟨c, hcm, e⟩ := hac i hi
      exact ⟨_, List.mem_map.2 ⟨c, hcm, rfl⟩, e⟩)
  refine ⟨g, hg1, hg2, ?_⟩
  intro r c
  rw [hg3]
  constructor
  · rintro ⟨d, hd, rs, cs, h1, h2, hk⟩
    obtain ⟨cp, hcm, rfl⟩ := List.mem_map.1 hd
    rw [mem_kept_shifted] at hk
    rw [Int.sub_add_cancel, Int.sub_add_cancel] at hk
    exact ⟨cp, hcm, hk.1, fun h => by have := hk.2 h; omega⟩
  · rintro ⟨cp, hcm, hcp, hao⟩
    obtain ⟨_, _, rs, cs, h3, h4, h5, h6⟩ := hv cp hcm
    refine ⟨_, List.mem_map.2 ⟨cp, hcm, rfl⟩, rs, cs, h3, h4, ?_⟩
    rw [mem_kept_shifted, Int.sub_add_cancel, Int.sub_add_cancel]
    refine ⟨hcp, fun h => ?_⟩
    obtain ⟨p, hp, hpr, hpc⟩ := hcp
    have h7 := h5 p.1 (List.of_mem_zip hp).1 r hpr
    have h8 := h6 p.2 (List.of_mem_zip hp).2 c hpc
    have := hao h
    omega

/-- C41 (`active_only=True`): for variables with non-empty active slices tiling the
numbering, all of them referred to by some connectivity pair, and non-empty connectivities
with inactive (negative) or in-slice items, `create_matrix_graph` succeeds and its pattern
is exactly the set of pairs of active DOFs coupled by some cell, for any
`chunk_size >= 2`. -/
theorem C41_graph_exact_partial (cps : List ConnPair) (rIndx cIndx : List (Nat × Nat))
    (chunkSize : Nat) (hcs : 2 ≤ chunkSize) (hr : Tiles 0 rIndx) (hc : Tiles 0 cIndx)
    (hne : cps ≠ [])
    (hv : ∀ c ∈ cps, c.rdc ≠ [] ∧ c.rdc.length = c.cdc.length ∧
      ∃ rs cs, rIndx[c.rvar]? = some rs ∧ cIndx[c.cvar]? = some cs ∧
        InSlice true c.rdc rs ∧ InSlice true c.cdc cs)
    (har : ∀ v < rIndx.length, ∃ c ∈ cps, c.rvar = v)
    (hac : ∀ v < cIndx.length, ∃ c ∈ cps, c.cvar = v) :
    ∃ g, matrixGraph cps rIndx cIndx true chunkSize = some g ∧
      g.shape = ((rIndx.map fun p => p.2 - p.1).sum, (cIndx.map fun p => p.2 - p.1).sum) ∧
      ∀ r c, (r, c) ∈ g.entries ↔ 0 ≤ r ∧ 0 ≤ c ∧ ∃ d ∈ cps, Couples d.rdc d.cdc r c := by
  obtain ⟨g, h1, h2, h3⟩ := graph_main cps rIndx cIndx true chunkSize hcs hr hc (·.rdc) (·.cdc)
    (by simp) (by simp) hne hv har hac
  refine ⟨g, h1, h2, ?_⟩
  intro r c
  rw [h3]
  constructor
  · rintro ⟨d, hd, hcp, h⟩; exact ⟨(h rfl).1, (h rfl).2, d, hd, hcp⟩
  · rintro ⟨hr, hc, d, hd, hcp⟩; exact ⟨d, hd, hcp, fun _ => ⟨hr, hc⟩⟩

/-- C41 (`active_only=False`): the pattern is the set of all pairs of DOFs coupled by some
cell, constrained DOFs (stored as `-1 - DOF`) included. -/
theorem C41_graph_full_partial (cps : List ConnPair) (rIndx cIndx : List (Nat × Nat))
    (chunkSize : Nat) (hcs : 2 ≤ chunkSize) (hr : Tiles 0 rIndx) (hc : Tiles 0 cIndx)
    (hne : cps ≠ [])
    (hv : ∀ c ∈ cps, c.rdc ≠ [] ∧ c.rdc.length = c.cdc.length ∧
      ∃ rs cs, rIndx[c.rvar]? = some rs ∧ cIndx[c.cvar]? = some cs ∧
        InSlice false (restoreAll c.rdc) rs ∧ InSlice false (restoreAll c.cdc) cs)
    (har : ∀ v < rIndx.length, ∃ c ∈ cps, c.rvar = v)
    (hac : ∀ v < cIndx.length, ∃ c ∈ cps, c.cvar = v) :
    ∃ g, matrixGraph cps rIndx cIndx false chunkSize = some g ∧
      g.shape = ((rIndx.map fun p => p.2 - p.1).sum, (cIndx.map fun p => p.2 - p.1).sum) ∧
      ∀ r c, (r, c) ∈ g.entries ↔
        ∃ d ∈ cps, Couples (restoreAll d.rdc) (restoreAll d.cdc) r c := by
  obtain ⟨g, h1, h2, h3⟩ := graph_main cps rIndx cIndx false chunkSize hcs hr hc
    (fun c => restoreAll c.rdc) (fun c => restoreAll c.cdc) (by simp) (by simp) hne
    (by
      intro c hcm
      obtain ⟨h1, h2, h3⟩ := hv c hcm
      refine ⟨?_, ?_, h3⟩
      · unfold restoreAll; simpa using h1
      · unfold restoreAll; simpa using h2) har hac
  refine ⟨g, h1, h2, ?_⟩
  intro r c
  rw [h3]; simp

/-- C41 (`active_only=False`): decoding the stored numbers (`create_adof_conn` of the
numbering of all DOFs, then the restoration in `get_graph_conns`) gives back the global
number of the DOF itself, or of its slave for a periodic master, whether it is
constrained or not. -/
theorem C41_full_numbers (eqEbc : List Nat) (pairs : List (Nat × Nat)) (offset i : Nat)
    (hp : ∀ p ∈ pairs, ∀ q ∈ pairs, p.1 = q.1 → p.2 = q.2) :
    restoreAll [[shiftActive offset (allDofsEq eqEbc pairs offset i)]] =
      [[(offset : Int) + (((pairs.find? fun p => p.1 == i).map (·.2)).getD i : Nat)]] := by
  have h1 : ∀ j : Nat, Np.scatter (fun i : Nat => (i : Int))
      (eqEbc.map fun i => (i, -1 - ((i : Int) + (offset : Int)))) j =
      if j ∈ eqEbc then -1 - ((j : Int) + (offset : Int)) else (j : Int) := by
    intro j
    split
    · next h =>
      apply Np.scatter_eq
      · exact ⟨_, List.mem_map.2 ⟨j, h, rfl⟩, rfl⟩
      · intro p hp e
        obtain ⟨k, _, rfl⟩ := List.mem_map.1 hp
        simp only at e ⊢; rw [e]
    · next h =>
      rw [Np.scatter_of_not_mem]
      intro p hp e
      obtain ⟨k, hk, rfl⟩ := List.mem_map.1 hp
      exact h (e ▸ hk)
  have h2 : ∀ j : Nat, (if shiftActive offset (if j ∈ eqEbc then -1 - ((j : Int) + (offset : Int))
      else (j : Int)) < 0 then -1 - shiftActive offset
        (if j ∈ eqEbc then -1 - ((j : Int) + (offset : Int)) else (j : Int))
      else shiftActive offset (if j ∈ eqEbc then -1 - ((j : Int) + (offset : Int)) else (j : Int))) =
      (offset : Int) + j := by
    intro j
    unfold shiftActive
    split_ifs <;> omega
  unfold restoreAll
  simp only [List.map_cons, List.map_nil]
  congr 2
  unfold allDofsEq
  cases hf : pairs.find? fun p => p.1 == i with
  | none =>
    rw [Np.scatter_of_not_mem, h1]
    · simpa using h2 i
    · intro p hp' e
      obtain ⟨q, hq, rfl⟩ := List.mem_map.1 hp'
      have := List.find?_eq_none.1 hf q hq
      simp at this; exact this e
  | some q =>
    have hq := List.mem_of_find?_eq_some hf
    have hqi := List.find?_some hf
    simp only [beq_iff_eq] at hqi
    rw [Np.scatter_eq _ _ _ (if q.2 ∈ eqEbc
      then -1 - ((q.2 : Int) + (offset : Int)) else (q.2 : Int))
      ⟨_, List.mem_map.2 ⟨q, hq, rfl⟩, hqi⟩]
    · simpa using h2 q.2
    · intro p hp' e
      obtain ⟨q', hq', rfl⟩ := List.mem_map.1 hp'
      simp only at e ⊢
      rw [h1, hp q' hq' q hq (by rw [e, hqi])]

/-- A flattened connectivity agrees with its list of rows. -/
def FlatOf (conn : Nat → Int) (m : Nat) (dc : List (List Int)) (iel : Nat) : Prop :=
  ∃ row, dc[iel]? = some row ∧ row.length = m ∧ ∀ k (hk : k < row.length), conn (iel * m + k) = row[k]

/-- C41: consequently, assembling any element matrices through a connectivity pair that
took part in the construction, into a CSR matrix with (at least) the pattern of the
graph, never reports a missing entry. -/
theorem C41_assembly_never_fails {α : Type} [CommRing α] (g : Block) (cp : ConnPair)
    (hg : ∀ r c, 0 ≤ r → 0 ≤ c → Couples cp.rdc cp.cdc r c → (r, c) ∈ g.entries)
    (prows : Nat → Nat) (cols : Nat → Int)
    (hcsr : ∀ i j : Nat, ((i : Int), (j : Int)) ∈ g.entries →
      ∃ k, prows i ≤ k ∧ k < prows (i + 1) ∧ cols k = (j : Int))
    (rowConn : Nat → Int) (nEpr : Nat) (colConn : Nat → Int) (nEpc : Nat) (iels : List Nat)
    (hrow : ∀ e ∈ iels, FlatOf rowConn nEpr cp.rdc e)
    (hcol : ∀ e ∈ iels, FlatOf colConn nEpc cp.cdc e)
    (val mtxIn : Nat → α) (cellSize : Nat) (sign : α) :
    ∃ w, assembleMatrix (linSearch prows cols) val mtxIn cellSize iels sign rowConn nEpr
      colConn nEpc = .ok w := by
  cases h : assembleMatrix (linSearch prows cols) val mtxIn cellSize iels sign rowConn nEpr
      colConn nEpc with
  | ok w => exact ⟨w, rfl⟩
  | error e =>
    exfalso
    have hm := (C13_error_iff prows cols val mtxIn cellSize iels sign rowConn nEpr colConn nEpc).1 ⟨e, h⟩
    obtain ⟨iel, hiel, ir, hir, ic, hic, i, j, h1, h2, h3⟩ := hm
    obtain ⟨rrow, hr1, hr2, hr3⟩ := hrow iel hiel
    obtain ⟨crow, hc1, hc2, hc3⟩ := hcol iel hiel
    have e1 := hr3 ir (by omega)
    have e2 := hc3 ic (by omega)
    have hmem := hg (i : Int) (j : Int) (by omega) (by omega)
      ⟨(rrow, crow), by
        obtain ⟨q1, q2⟩ := List.getElem?_eq_some_iff.1 hr1
        obtain ⟨q3, q4⟩ := List.getElem?_eq_some_iff.1 hc1
        have hz : iel < (cp.rdc.zip cp.cdc).length := by simp; omega
        have := List.getElem_mem hz
        rw [List.getElem_zip, q2, q4] at this; exact this,
       by rw [← h1, e1]; exact List.getElem_mem _,
       by rw [← h2, e2]; exact List.getElem_mem _⟩
    obtain ⟨k, hk1, hk2, hk3⟩ := hcsr i j hmem
    exact h3 k hk1 hk2 hk3

/-- The statement of C41 fails when a variable has no active DOF: with the row variables
`u` (no active DOF, slice 0:0) and `p` (slice 0:1), both blocks get the index 0, the shape
of `u`'s block is used for `p`'s connectivity and the construction raises, although each
connectivity is valid for its slice. -/
theorem C41_counterexample_empty_variable :
    let rI := [(0, 0), (0, 1)]
    let cps : List ConnPair := [⟨[[-1]], [[-1]], 0, 0⟩, ⟨[[0]], [[0]], 1, 1⟩]
    (∀ c ∈ cps, ∃ rs, rI[c.rvar]? = some rs ∧ rI[c.cvar]? = some rs ∧
      InSlice true c.rdc rs ∧ InSlice true c.cdc rs) ∧
    matrixGraph cps rI rI true 200000 = none := by
  refine ⟨?_, ?_⟩
  · intro c hc
    simp only [List.mem_cons, List.not_mem_nil, or_false] at hc
    rcases hc with rfl | rfl
    · exact ⟨(0, 0), rfl, rfl, by simp [InSlice],
        by simp [InSlice]⟩
    · exact ⟨(0, 1), rfl, rfl, by simp [InSlice],
        by simp [InSlice]⟩
  · simp [matrixGraph, createMatrixGraph, rankIn, graphStep, chunkLen, chunks, chunkLoop,
      createDofGraph, addBlock]

/-- Non-vacuity of `C41_graph_exact_partial`: two variables, two connectivity pairs. -/
example :
    let rI := [(0, 2), (2, 3)]
    let cps : List ConnPair := [⟨[[0, -1], [1, 0]], [[0, -1], [1, 0]], 0, 0⟩, ⟨[[2]], [[2]], 1, 1⟩]
    Tiles 0 rI ∧ (∀ c ∈ cps, c.rdc ≠ [] ∧ c.rdc.length = c.cdc.length ∧
      ∃ rs cs, rI[c.rvar]? = some rs ∧ rI[c.cvar]? = some cs ∧
        InSlice true c.rdc rs ∧ InSlice true c.cdc cs) ∧
    (∀ v < rI.length, ∃ c ∈ cps, c.rvar = v) := by
  refine ⟨by simp [Tiles], ?_, ?_⟩
  · intro c hc
    simp only [List.mem_cons, List.not_mem_nil, or_false] at hc
    rcases hc with rfl | rfl
    · exact ⟨by simp, rfl, (0, 2), (0, 2), rfl, rfl, by simp [InSlice], by simp [InSlice]⟩
    · exact ⟨by simp, rfl, (2, 3), (2, 3), rfl, rfl, by simp [InSlice], by simp [InSlice]⟩
  · intro v hv
    simp only [List.length_cons, List.length_nil] at hv
    have : v = 0 ∨ v = 1 := by omega
    rcases this with rfl | rfl
    · exact ⟨_, List.mem_cons_self, rfl⟩
    · exact ⟨_, List.mem_cons_of_mem _ List.mem_cons_self, rfl⟩

end Verif.Asm
