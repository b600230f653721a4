import Verif.Asm.Props
import Verif.Dof.PropsMap
import Mathlib.Algebra.BigOperators.Ring.List
/-
C15: assembling through the active DOF connectivity equals reducing the full assembly.
-/
namespace Verif.Asm
open Verif.Np Verif.Dof

/-! ### Specification vocabulary -/

/-- A two-dimensional C-contiguous array with `m` columns, flattened. -/
def flat (a : Nat → Nat → Int) (m : Nat) (k : Nat) : Int := a (k / m) (k % m)

/-- The trivial mapping "every DOF is active" (`nm.arange(n_dof)`, variables.py:59). -/
def allActive (i : Nat) : Int := (i : Int)

/-- Nodes of the listed elements are below `nNod`. -/
def NodesBelow (conn : Nat → Nat → Nat) (nEp nNod : Nat) (iels : List Nat) : Prop :=
  ∀ e ∈ iels, ∀ k < nEp, conn e k < nNod

theorem flat_row (a : Nat → Nat → Int) {m : Nat} (e k : Nat) (hk : k < m) :
    flat a m (e * m + k) = a e k := by
  unfold flat
  have h1 : (e * m + k) / m = e := by
    rw [Nat.mul_comm, Nat.mul_add_div (by omega), Nat.div_eq_of_lt hk]; omega
  have h2 : (e * m + k) % m = k := by
    rw [Nat.mul_comm, Nat.mul_add_mod, Nat.mod_eq_of_lt hk]
  rw [h1, h2]

theorem adof_fold (g : Nat → Nat → Int) (eq : Nat → Int) (conn : Nat → Nat → Nat)
    (nEp dpn offset m : Nat) (e idof k : Nat) (hk : k < nEp) :
    ((List.range m).foldl (fun adc idof => fun e c =>
      if idof * nEp ≤ c ∧ c < idof * nEp + nEp then
        shiftActive offset (eq (dpn * conn e (c - idof * nEp) + idof))
      else adc e c) g) e (idof * nEp + k) =
    if idof < m then shiftActive offset (eq (dpn * conn e k + idof)) else g e (idof * nEp + k) := by
  induction m with
  | zero => simp
  | succ m ih =>
    rw [List.range_succ, List.foldl_append, List.foldl_cons, List.foldl_nil]
    by_cases h : idof = m
    · subst h
      rw [if_pos ⟨by omega, by omega⟩, if_pos (by omega)]
      have : idof * nEp + k - idof * nEp = k := by omega
      rw [this]
    · rw [if_neg, ih]
      · by_cases h2 : idof < m
        · rw [if_pos h2, if_pos (by omega)]
        · rw [if_neg h2, if_neg (by omega)]
      · rintro ⟨h1, h2⟩
        rcases Nat.lt_or_gt_of_ne h with h3 | h3
        · have := Nat.mul_le_mul_right nEp (show idof + 1 ≤ m by omega)
          rw [Nat.succ_mul] at this; omega
        · have := Nat.mul_le_mul_right nEp (show m + 1 ≤ idof by omega)
          rw [Nat.succ_mul] at this; omega

/-- C15: the layout of the active connectivity: column `idof * n_ep + k` of element `e`
holds the (shifted) equation number of component `idof` of the k-th node of `e`;
inactive DOFs stay negative whatever the offset. -/
theorem C15_adof_conn_entry (g : Nat → Nat → Int) (eq : Nat → Int) (conn : Nat → Nat → Nat)
    (nEp dpn offset : Nat) (e idof k : Nat) (hk : k < nEp) (hd : idof < dpn) :
    createAdofConn g eq conn nEp dpn offset e (idof * nEp + k) =
      (if 0 ≤ eq (dpn * conn e k + idof) then eq (dpn * conn e k + idof) + offset
       else eq (dpn * conn e k + idof)) := by
  have hs : ∀ x : Int, shiftActive offset x = if 0 ≤ x then x + offset else x := by
    intro x; unfold shiftActive; split <;> simp
  unfold createAdofConn
  by_cases h1 : dpn = 1
  · have : idof = 0 := by omega
    subst this
    rw [if_pos h1]
    simp only [h1, hs, Nat.zero_mul, Nat.zero_add, Nat.one_mul, Nat.add_zero]
  · rw [if_neg h1, adof_fold _ _ _ _ _ _ _ _ _ _ hk, if_pos hd, hs]

theorem list_sum_comm {α β γ : Type} [AddCommMonoid α] (l : List β) (m : List γ) (f : β → γ → α) :
    (l.map fun b => (m.map fun c => f b c).sum).sum =
      (m.map fun c => (l.map fun b => f b c).sum).sum := by
  induction l with
  | nil => simp
  | cons b l ih =>
    simp only [List.map_cons, List.sum_cons, ih]
    rw [← List.sum_map_add]

theorem col_split {nEp dpn c : Nat} (hc : c < nEp * dpn) :
    ∃ idof k, idof < dpn ∧ k < nEp ∧ c = idof * nEp + k := by
  have hp : 0 < nEp := by
    rcases Nat.eq_zero_or_pos nEp with h | h
    · subst h; simp at hc
    · exact h
  refine ⟨c / nEp, c % nEp, Nat.div_lt_of_lt_mul hc, Nat.mod_lt _ hp, ?_⟩
  have := Nat.div_add_mod c nEp; rw [Nat.mul_comm] at this; omega

theorem dof_lt {dpn nNod a idof : Nat} (ha : a < nNod) (hd : idof < dpn) :
    dpn * a + idof < dpn * nNod :=
  calc dpn * a + idof < dpn * a + dpn := by omega
      _ = dpn * (a + 1) := by rw [Nat.mul_add, Nat.mul_one]
      _ ≤ dpn * nNod := Nat.mul_le_mul_left _ ha

/-- The entry of the active connectivity matches `offset + j` iff the DOF of the full
connectivity has equation `j`. -/
theorem adof_match (g g' : Nat → Nat → Int) (eq : Nat → Int) (conn : Nat → Nat → Nat)
    (nEp dpn offset nNod : Nat) (iels : List Nat) (hn : NodesBelow conn nEp nNod iels)
    (e c : Nat) (he : e ∈ iels) (hc : c < nEp * dpn) :
    ∃ i, i < dpn * nNod ∧
      flat (createAdofConn g' allActive conn nEp dpn 0) (nEp * dpn) (e * (nEp * dpn) + c) = (i : Int) ∧
      ∀ j : Nat, flat (createAdofConn g eq conn nEp dpn offset) (nEp * dpn)
          (e * (nEp * dpn) + c) = ((offset + j : Nat) : Int) ↔ eq i = (j : Int) := by
  rw [flat_row _ _ _ hc, flat_row _ _ _ hc]
  obtain ⟨idof, k, hd, hk, rfl⟩ := col_split hc
  refine ⟨dpn * conn e k + idof, dof_lt (hn e he k hk) hd, ?_, ?_⟩
  · rw [C15_adof_conn_entry _ _ _ _ _ _ _ _ _ hk hd]
    unfold allActive
    rw [if_pos (by omega)]; simp
  · intro j
    rw [C15_adof_conn_entry _ _ _ _ _ _ _ _ _ hk hd]
    split <;> omega

/-- Reduction of one sum (helper). -/
theorem vecSum_reduce {α : Type} [AddCommMonoid α] (g g' : Nat → Nat → Int) (eq : Nat → Int)
    (conn : Nat → Nat → Nat) (nEp dpn offset nNod : Nat) (iels : List Nat)
    (hn : NodesBelow conn nEp nNod iels) (vecIn : Nat → α) (cellSize j : Nat) :
    vecSum vecIn cellSize iels (flat (createAdofConn g eq conn nEp dpn offset) (nEp * dpn))
      (nEp * dpn) (offset + j) =
    ((List.range (dpn * nNod)).map fun i => if eq i = (j : Int) then
      vecSum vecIn cellSize iels (flat (createAdofConn g' allActive conn nEp dpn 0) (nEp * dpn))
        (nEp * dpn) i else 0).sum := by
  have hpush : ∀ i : Nat, (if eq i = (j : Int) then
      vecSum vecIn cellSize iels (flat (createAdofConn g' allActive conn nEp dpn 0) (nEp * dpn))
        (nEp * dpn) i else 0) =
      (iels.zipIdx.map fun p => ((List.range (nEp * dpn)).map fun ir =>
        if eq i = (j : Int) ∧ flat (createAdofConn g' allActive conn nEp dpn 0) (nEp * dpn)
          (p.1 * (nEp * dpn) + ir) = (i : Int) then vecIn (p.2 * cellSize + ir) else 0).sum).sum := by
    intro i
    unfold vecSum
    by_cases h : eq i = (j : Int)
    · simp [h]
    · simp [h]
  simp only [hpush]
  rw [list_sum_comm]
  unfold vecSum
  congr 1
  apply List.map_congr_left
  rintro ⟨e, ii⟩ hp
  have he : e ∈ iels := by
    have := List.mem_zipIdx hp
    exact this.2.2 ▸ List.getElem_mem _
  rw [list_sum_comm]
  congr 1
  apply List.map_congr_left
  intro c hc
  obtain ⟨i, hi, hf, ha⟩ := adof_match g g' eq conn nEp dpn offset nNod iels hn e c he
    (List.mem_range.1 hc)
  simp only [ha j, hf]
  by_cases hj : eq i = (j : Int)
  · rw [if_pos hj, sum_ite_unique _ List.nodup_range
      (fun x => eq x = (j : Int) ∧ (i : Int) = (x : Int)) _ i (List.mem_range.2 hi)]
    intro x _
    constructor
    · rintro ⟨_, h⟩; omega
    · rintro rfl; exact ⟨hj, rfl⟩
  · rw [if_neg hj]
    symm
    apply List.sum_eq_zero
    intro x hx
    obtain ⟨y, _, rfl⟩ := List.mem_map.1 hx
    rw [if_neg]
    rintro ⟨h1, h2⟩
    have : i = y := by omega
    subst this; exact hj h1

/-- C15, vectors, any equation numbering `eq`: assembling the element vectors through the
active connectivity adds to global entry `offset + j` the sum of the entries `i` of the
*full* assembly (all DOFs active, zero initial vector) over all DOFs `i` with equation `j`. -/
theorem C15_vector_reduce {α : Type} [CommRing α] (g g' : Nat → Nat → Int) (eq : Nat → Int)
    (conn : Nat → Nat → Nat) (nEp dpn offset nNod : Nat) (iels : List Nat)
    (hn : NodesBelow conn nEp nNod iels) (val vecIn : Nat → α) (cellSize : Nat) (sign : α)
    (j : Nat) :
    assembleVector val vecIn cellSize iels sign
      (flat (createAdofConn g eq conn nEp dpn offset) (nEp * dpn)) (nEp * dpn) (offset + j) =
    val (offset + j) + ((List.range (dpn * nNod)).map fun i => if eq i = (j : Int) then
      assembleVector (fun _ => 0) vecIn cellSize iels sign
        (flat (createAdofConn g' allActive conn nEp dpn 0) (nEp * dpn)) (nEp * dpn) i
      else 0).sum := by
  rw [C12_assemble_vector, vecSum_reduce g g' eq conn nEp dpn offset nNod iels hn,
    ← List.sum_map_mul_left]
  congr 3
  funext i
  rw [C12_assemble_vector]
  split <;> simp

/-- C15, vectors: entries outside of the variable's own block do not change. -/
theorem C15_vector_outside {α : Type} [CommRing α] (g : Nat → Nat → Int) (eq : Nat → Int)
    (conn : Nat → Nat → Nat) (nEp dpn offset nNod nEq : Nat) (iels : List Nat)
    (hn : NodesBelow conn nEp nNod iels) (heq : ∀ i < dpn * nNod, eq i < (nEq : Int))
    (val vecIn : Nat → α) (cellSize : Nat) (sign : α) (q : Nat)
    (hq : q < offset ∨ offset + nEq ≤ q) :
    assembleVector val vecIn cellSize iels sign
      (flat (createAdofConn g eq conn nEp dpn offset) (nEp * dpn)) (nEp * dpn) q = val q := by
  apply C12_untouched
  intro e he c hc h
  rw [flat_row _ _ _ hc] at h
  obtain ⟨idof, k, hd, hk, rfl⟩ := col_split hc
  rw [C15_adof_conn_entry _ _ _ _ _ _ _ _ _ hk hd] at h
  have := heq _ (dof_lt (hn e he k hk) hd)
  split at h <;> omega

/-! ### Matrices -/

theorem mtxSum_reduce {α : Type} [AddCommMonoid α] (gr gr' gc gc' : Nat → Nat → Int)
    (eqr eqc : Nat → Int) (rconn cconn : Nat → Nat → Nat)
    (nEpr dr offr nNodr nEpc dc offc nNodc : Nat) (iels : List Nat)
    (hr : NodesBelow rconn nEpr nNodr iels) (hc : NodesBelow cconn nEpc nNodc iels)
    (mtxIn : Nat → α) (cellSize i j : Nat) :
    mtxSum mtxIn cellSize iels
      (flat (createAdofConn gr eqr rconn nEpr dr offr) (nEpr * dr)) (nEpr * dr)
      (flat (createAdofConn gc eqc cconn nEpc dc offc) (nEpc * dc)) (nEpc * dc)
      (offr + i) ((offc + j : Nat) : Int) =
    ((List.range (dr * nNodr)).map fun a => ((List.range (dc * nNodc)).map fun b =>
      if eqr a = (i : Int) ∧ eqc b = (j : Int) then
        mtxSum mtxIn cellSize iels
          (flat (createAdofConn gr' allActive rconn nEpr dr 0) (nEpr * dr)) (nEpr * dr)
          (flat (createAdofConn gc' allActive cconn nEpc dc 0) (nEpc * dc)) (nEpc * dc)
          a (b : Int)
      else 0).sum).sum := by
  have hpush : ∀ a b : Nat, (if eqr a = (i : Int) ∧ eqc b = (j : Int) then
        mtxSum mtxIn cellSize iels
          (flat (createAdofConn gr' allActive rconn nEpr dr 0) (nEpr * dr)) (nEpr * dr)
          (flat (createAdofConn gc' allActive cconn nEpc dc 0) (nEpc * dc)) (nEpc * dc)
          a (b : Int) else 0) =
      (iels.zipIdx.map fun p => ((List.range (nEpr * dr)).map fun ir =>
        ((List.range (nEpc * dc)).map fun ic =>
        if (eqr a = (i : Int) ∧ eqc b = (j : Int)) ∧
          (flat (createAdofConn gr' allActive rconn nEpr dr 0) (nEpr * dr)
            (p.1 * (nEpr * dr) + ir) = (a : Int) ∧
          flat (createAdofConn gc' allActive cconn nEpc dc 0) (nEpc * dc)
            (p.1 * (nEpc * dc) + ic) = (b : Int))
        then mtxIn (p.2 * cellSize + (nEpc * dc * ir + ic)) else 0).sum).sum).sum := by
    intro a b
    unfold mtxSum
    by_cases h : eqr a = (i : Int) ∧ eqc b = (j : Int)
    · simp [h]
    · simp [h]
  simp only [hpush]
  unfold mtxSum
  -- move the sums over the global DOFs inside
  have hsw : ∀ (A B R C : List Nat) (f : Nat → Nat → (Nat × Nat) → Nat → Nat → α)
      (E : List (Nat × Nat)),
      (A.map fun a => (B.map fun b => (E.map fun p => (R.map fun r => (C.map fun c =>
        f a b p r c).sum).sum).sum).sum).sum =
      (E.map fun p => (R.map fun r => (C.map fun c => (A.map fun a => (B.map fun b =>
        f a b p r c).sum).sum).sum).sum).sum := by
    intro A B R C f E
    have h1 : ∀ a, (B.map fun b => (E.map fun p => (R.map fun r => (C.map fun c =>
        f a b p r c).sum).sum).sum).sum = (E.map fun p => (R.map fun r => (C.map fun c =>
          (B.map fun b => f a b p r c).sum).sum).sum).sum := by
      intro a
      rw [list_sum_comm]
      congr 1; apply List.map_congr_left; intro p _
      rw [list_sum_comm]
      congr 1; apply List.map_congr_left; intro r _
      rw [list_sum_comm]
    simp only [h1]
    rw [list_sum_comm]
    congr 1; apply List.map_congr_left; intro p _
    rw [list_sum_comm]
    congr 1; apply List.map_congr_left; intro r _
    rw [list_sum_comm]
  rw [hsw]
  congr 1
  apply List.map_congr_left
  rintro ⟨e, ii⟩ hp
  have he : e ∈ iels := by
    have := List.mem_zipIdx hp
    exact this.2.2 ▸ List.getElem_mem _
  congr 1
  apply List.map_congr_left
  intro r hrr
  congr 1
  apply List.map_congr_left
  intro c hcc
  obtain ⟨a, ha, hfa, haa⟩ := adof_match gr gr' eqr rconn nEpr dr offr nNodr iels hr e r he
    (List.mem_range.1 hrr)
  obtain ⟨b, hb, hfb, hbb⟩ := adof_match gc gc' eqc cconn nEpc dc offc nNodc iels hc e c he
    (List.mem_range.1 hcc)
  simp only [haa i, hbb j, hfa, hfb]
  by_cases hij : eqr a = (i : Int) ∧ eqc b = (j : Int)
  · rw [if_pos hij]
    symm
    have hin : ∀ a' : Nat, ((List.range (dc * nNodc)).map fun b' =>
        if (eqr a' = (i : Int) ∧ eqc b' = (j : Int)) ∧ (a : Int) = (a' : Int) ∧ (b : Int) = (b' : Int)
        then mtxIn (ii * cellSize + (nEpc * dc * r + c)) else 0).sum =
        if a' = a then mtxIn (ii * cellSize + (nEpc * dc * r + c)) else 0 := by
      intro a'
      by_cases h : a' = a
      · subst h
        rw [if_pos rfl, sum_ite_unique _ List.nodup_range
          (fun b' => (eqr a' = (i : Int) ∧ eqc b' = (j : Int)) ∧ (a' : Int) = (a' : Int) ∧
            (b : Int) = (b' : Int)) (fun _ => _) b (List.mem_range.2 hb)]
        intro x _
        constructor
        · rintro ⟨_, _, h⟩; omega
        · rintro rfl; exact ⟨hij, rfl, rfl⟩
      · rw [if_neg h]
        apply List.sum_eq_zero
        intro x hx
        obtain ⟨y, _, rfl⟩ := List.mem_map.1 hx
        rw [if_neg]
        rintro ⟨_, h2, _⟩; omega
    simp only [hin]
    rw [sum_ite_unique _ List.nodup_range (fun a' => a' = a) (fun _ => _) a (List.mem_range.2 ha)]
    intro x _; exact Iff.rfl
  · rw [if_neg hij]
    symm
    apply List.sum_eq_zero
    intro x hx
    obtain ⟨a', _, rfl⟩ := List.mem_map.1 hx
    apply List.sum_eq_zero
    intro y hy
    obtain ⟨b', _, rfl⟩ := List.mem_map.1 hy
    rw [if_neg]
    rintro ⟨h1, h2, h3⟩
    have e1 : a = a' := by omega
    have e2 : b = b' := by omega
    subst e1; subst e2; exact hij h1

/-- C15, matrices, any two equation numberings: entry `(offr + i, offc + j)` of the CSR
matrix increases by the sum of the full element matrix sums over all DOF pairs `(a, b)`
with equations `(i, j)` (that is, `R_r^T A R_c`). -/
theorem C15_matrix_reduce {α : Type} [CommRing α] (gr gr' gc gc' : Nat → Nat → Int)
    (eqr eqc : Nat → Int) (rconn cconn : Nat → Nat → Nat)
    (nEpr dr offr nNodr nEpc dc offc nNodc : Nat) (iels : List Nat)
    (hr : NodesBelow rconn nEpr nNodr iels) (hc : NodesBelow cconn nEpc nNodc iels)
    (prows : Nat → Nat) (cols : Nat → Int)
    (hm : MonoRows prows) (hd : NoDupCols prows cols) (hcol : ∀ k, 0 ≤ cols k)
    (val mtxIn w : Nat → α) (cellSize : Nat) (sign : α)
    (h : assembleMatrix (linSearch prows cols) val mtxIn cellSize iels sign
      (flat (createAdofConn gr eqr rconn nEpr dr offr) (nEpr * dr)) (nEpr * dr)
      (flat (createAdofConn gc eqc cconn nEpc dc offc) (nEpc * dc)) (nEpc * dc) = .ok w)
    (i j : Nat) :
    csrEntry prows cols w (offr + i) ((offc + j : Nat) : Int) =
      csrEntry prows cols val (offr + i) ((offc + j : Nat) : Int) + sign *
    ((List.range (dr * nNodr)).map fun a => ((List.range (dc * nNodc)).map fun b =>
      if eqr a = (i : Int) ∧ eqc b = (j : Int) then
        mtxSum mtxIn cellSize iels
          (flat (createAdofConn gr' allActive rconn nEpr dr 0) (nEpr * dr)) (nEpr * dr)
          (flat (createAdofConn gc' allActive cconn nEpc dc 0) (nEpc * dc)) (nEpc * dc)
          a (b : Int)
      else 0).sum).sum := by
  have hmiss : ¬ Missing prows cols iels
      (flat (createAdofConn gr eqr rconn nEpr dr offr) (nEpr * dr)) (nEpr * dr)
      (flat (createAdofConn gc eqc cconn nEpc dc offc) (nEpc * dc)) (nEpc * dc) := by
    rw [← C13_error_iff prows cols val mtxIn cellSize iels sign, h]
    rintro ⟨e, he⟩; cases he
  rw [C13_matrix_entries prows cols hm hd hcol _ _ _ _ _ _ _ _ _ _ h hmiss,
    mtxSum_reduce gr gr' gc gc' eqr eqc rconn cconn nEpr dr offr nNodr nEpc dc offc nNodc iels hr hc]

/-! ### With the equation map of the essential and periodic conditions -/

theorem operator_rows {α : Type} [Zero α] (ord : List Nat → List Nat)
    (hord : ∀ l, (ord l).Perm l) (n : Nat) (bcs : List (BC α)) (hr : InRange n bcs)
    (hg : GoodOrder bcs) (unused : List Nat) (i j : Nat) :
    (i, j) ∈ (mapEquations ord n bcs unused).operator ↔
      i < n ∧ (mapEquations ord n bcs unused).eq i = (j : Int) := by
  have ht := finalMs_tied ord hord hg
  have hrg := finalMs_range ord hord hr
  rw [mem_operator]
  by_cases hi : i < n
  · by_cases hp : 0 < finalMs ord bcs i
    · have e : root (finalMs ord bcs) i = sl (finalMs ord bcs) i := by unfold root; rw [if_pos hp]
      have e2 : root (finalMs ord bcs) (sl (finalMs ord bcs) i) = sl (finalMs ord bcs) i := by
        rw [← e]; exact (ht.root_eq_iff _ _).2 (.symm _ _ (ht.root_linked i))
      rw [eq_free hord hr hi, e, eq_free hord hr (sl_lt hrg hp), e2]
      constructor
      · rintro (h | h)
        · have := (map_mem_eqi.1 (List.mem_of_getElem? h)).2.2.1
          exact absurd (map_mem_master.2 ⟨hi, hp⟩) this
        · exact ⟨h.1, h.2.2⟩
      · intro h; exact .inr ⟨hi, hp, h.2⟩
    · have e : root (finalMs ord bcs) i = i := by unfold root; rw [if_neg hp]
      rw [eq_free hord hr hi, e]
      constructor
      · rintro (h | h)
        · exact ⟨hi, h⟩
        · exact absurd h.2.1 hp
      · exact fun h => .inl h.2
  · constructor
    · rintro (h | h)
      · exact absurd (map_mem_eqi.1 (List.mem_of_getElem? h)).1 hi
      · exact absurd h.1 hi
    · exact fun h => absurd h.1 hi

theorem operator_sum {α β : Type} [Zero β] [AddCommMonoid α] (ord : List Nat → List Nat)
    (hord : ∀ l, (ord l).Perm l) (n : Nat) (bcs : List (BC β)) (hr : InRange n bcs)
    (hg : GoodOrder bcs) (unused : List Nat) (f : Nat → α) (j : Nat) :
    ((List.range n).map fun i =>
      if (mapEquations ord n bcs unused).eq i = (j : Int) then f i else 0).sum =
    cooMulT (mapEquations ord n bcs unused).operator f j := by
  unfold cooMulT
  have hperm : ((mapEquations ord n bcs unused).operator.filter fun p => p.2 == j).Perm
      (((List.range n).filter fun i =>
        decide ((mapEquations ord n bcs unused).eq i = (j : Int))).map fun i => (i, j)) := by
    rw [List.perm_ext_iff_of_nodup]
    · rintro ⟨a, b⟩
      rw [List.mem_filter, List.mem_map, operator_rows ord hord n bcs hr hg]
      simp only [beq_iff_eq, List.mem_filter, List.mem_range, decide_eq_true_eq, Prod.mk.injEq]
      constructor
      · rintro ⟨⟨h1, h2⟩, rfl⟩; exact ⟨a, ⟨h1, h2⟩, rfl, rfl⟩
      · rintro ⟨a', ⟨h1, h2⟩, rfl, rfl⟩; exact ⟨⟨h1, h2⟩, rfl⟩
    · exact List.Nodup.filter _ (nodup_operator ..)
    · apply List.Nodup.map
      · intro a b h; exact (Prod.mk.inj h).1
      · exact List.Nodup.filter _ List.nodup_range
  rw [(hperm.map fun p => f p.1).sum_eq, List.map_map]
  induction List.range n with
  | nil => simp
  | cons a l ih =>
    rw [List.map_cons, List.sum_cons, ih, List.filter_cons]
    by_cases h : (mapEquations ord n bcs unused).eq a = (j : Int)
    · simp [h]
    · simp [h]

/-- C15, vectors: with the equation map of the conditions, assembling through the active
connectivity is `R^T` times the full assembly (`R` is the reduction operator of the
variable), which is `get_reduced(full, follow_epbc=True)` by C09. -/
theorem C15_vector {α β : Type} [Zero β] [CommRing α] (ord : List Nat → List Nat)
    (hord : ∀ l, (ord l).Perm l) (bcs : List (BC β)) (nNod dpn : Nat)
    (hr : InRange (dpn * nNod) bcs) (hg : GoodOrder bcs) (unused : List Nat)
    (g g' : Nat → Nat → Int) (conn : Nat → Nat → Nat) (nEp offset : Nat) (iels : List Nat)
    (hn : NodesBelow conn nEp nNod iels) (val vecIn : Nat → α) (cellSize : Nat) (sign : α)
    (q : Nat) :
    assembleVector val vecIn cellSize iels sign
      (flat (createAdofConn g (mapEquations ord (dpn * nNod) bcs unused).eq conn nEp dpn offset)
        (nEp * dpn)) (nEp * dpn) q =
    val q + if offset ≤ q ∧ q < offset + (mapEquations ord (dpn * nNod) bcs unused).nEq then
      cooMulT (mapEquations ord (dpn * nNod) bcs unused).operator
        (assembleVector (fun _ => 0) vecIn cellSize iels sign
          (flat (createAdofConn g' allActive conn nEp dpn 0) (nEp * dpn)) (nEp * dpn)) (q - offset)
      else 0 := by
  split
  · next h =>
    obtain ⟨j, rfl⟩ := Nat.exists_eq_add_of_le h.1
    rw [C15_vector_reduce g g' _ conn nEp dpn offset nNod iels hn,
      operator_sum ord hord _ bcs hr hg, Nat.add_sub_cancel_left]
  · next h =>
    rw [C15_vector_outside g _ conn nEp dpn offset nNod
      (mapEquations ord (dpn * nNod) bcs unused).nEq iels hn, add_zero]
    · intro i hi
      by_contra hge
      obtain ⟨k, hk⟩ : ∃ k : Nat, (mapEquations ord (dpn * nNod) bcs unused).eq i = (k : Int) :=
        ⟨((mapEquations ord (dpn * nNod) bcs unused).eq i).toNat, by omega⟩
      have := (eq_free hord hr hi k).1 hk
      obtain ⟨hlt, _⟩ := List.getElem?_eq_some_iff.1 this
      have e : (mapEquations ord (dpn * nNod) bcs unused).nEq =
        (mapEquations ord (dpn * nNod) bcs unused).eqi.length := rfl
      omega
    · omega

/-- C15, matrices: with the equation maps of the row and column variables, the CSR entry
`(offr + i, offc + j)` increases by `(R_r^T A R_c)_{ij}`, `A` being the full assembly. -/
theorem C15_matrix {α β : Type} [Zero β] [CommRing α] (ord : List Nat → List Nat)
    (hord : ∀ l, (ord l).Perm l) (bcsr bcsc : List (BC β)) (nNodr dr nNodc dc : Nat)
    (hrr : InRange (dr * nNodr) bcsr) (hgr : GoodOrder bcsr) (unr : List Nat)
    (hrc : InRange (dc * nNodc) bcsc) (hgc : GoodOrder bcsc) (unc : List Nat)
    (gr gr' gc gc' : Nat → Nat → Int) (rconn cconn : Nat → Nat → Nat)
    (nEpr offr nEpc offc : Nat) (iels : List Nat)
    (hr : NodesBelow rconn nEpr nNodr iels) (hc : NodesBelow cconn nEpc nNodc iels)
    (prows : Nat → Nat) (cols : Nat → Int)
    (hm : MonoRows prows) (hd : NoDupCols prows cols) (hcol : ∀ k, 0 ≤ cols k)
    (val mtxIn w : Nat → α) (cellSize : Nat) (sign : α)
    (h : assembleMatrix (linSearch prows cols) val mtxIn cellSize iels sign
      (flat (createAdofConn gr (mapEquations ord (dr * nNodr) bcsr unr).eq rconn nEpr dr offr)
        (nEpr * dr)) (nEpr * dr)
      (flat (createAdofConn gc (mapEquations ord (dc * nNodc) bcsc unc).eq cconn nEpc dc offc)
        (nEpc * dc)) (nEpc * dc) = .ok w)
    (i j : Nat) :
    csrEntry prows cols w (offr + i) ((offc + j : Nat) : Int) =
      csrEntry prows cols val (offr + i) ((offc + j : Nat) : Int) + sign *
      cooMulT (mapEquations ord (dr * nNodr) bcsr unr).operator (fun a =>
        cooMulT (mapEquations ord (dc * nNodc) bcsc unc).operator (fun b =>
          mtxSum mtxIn cellSize iels
            (flat (createAdofConn gr' allActive rconn nEpr dr 0) (nEpr * dr)) (nEpr * dr)
            (flat (createAdofConn gc' allActive cconn nEpc dc 0) (nEpc * dc)) (nEpc * dc)
            a (b : Int)) j) i := by
  rw [C15_matrix_reduce gr gr' gc gc' _ _ rconn cconn nEpr dr offr nNodr nEpc dc offc nNodc iels
    hr hc prows cols hm hd hcol val mtxIn w cellSize sign h, ← operator_sum ord hord _ bcsr hrr hgr]
  congr 4
  funext a
  rw [← operator_sum ord hord _ bcsc hrc hgc]
  by_cases ha : (mapEquations ord (dr * nNodr) bcsr unr).eq a = (i : Int)
  · simp [ha]
  · simp [ha]

/-- Non-vacuity: two two-node elements sharing node 1, two components; node 0 is fixed in
component 0 and nodes 1 and 2 are tied in component 1.  The hypotheses hold and the active
connectivity and the assembled vector are as computed by hand. -/
example :
    let bcs : List (BC Int) := [.ebc [(0, 7)], .epbc [(3, 5)]]
    let conn : Nat → Nat → Nat := fun e k => e + k
    InRange (2 * 3) bcs ∧ GoodOrder bcs ∧ NodesBelow conn 2 3 [0, 1] := by
  refine ⟨?_, ?_, ?_⟩
  · constructor
    · intro p hp; simp [ebcItems] at hp; subst hp; decide
    · intro p hp; simp [declared, epbcLists] at hp; subst hp; decide
  · unfold GoodOrder; simp [epbcLists, GoodFrom, ends]
  · intro e he k hk
    simp at he; show e + k < 3; omega

end Verif.Asm
