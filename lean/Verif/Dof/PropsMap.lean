import Verif.Dof.LemmasFull
import Mathlib.Algebra.BigOperators.Group.List.Basic
import Mathlib.Data.List.Sort
/-
C04 - C09, C11: equation numbering, full and reduced vectors, periodic ties.
-/
namespace Verif.Dof
open Verif.Np

variable {α : Type}

theorem map_mem_eqEbc [Zero α] {ord : List Nat → List Nat} {n : Nat} {bcs : List (BC α)}
    {unused : List Nat} {i : Nat} : i ∈ (mapEquations ord n bcs unused).eqEbc ↔
    i < n ∧ ((loopBCs bcs).eqEbc i = true ∨
      (∃ a < n, 0 < finalMs ord bcs a ∧ (loopBCs bcs).eqEbc a = true ∧ sl (finalMs ord bcs) a = i) ∨
      (0 < finalMs ord bcs i ∧ (loopBCs bcs).eqEbc (sl (finalMs ord bcs) i) = true)) := by
  rw [mapEquations_eq, mem_eqEbc]

theorem map_mem_master [Zero α] {ord : List Nat → List Nat} {n : Nat} {bcs : List (BC α)}
    {unused : List Nat} {i : Nat} : i ∈ (mapEquations ord n bcs unused).master ↔
    i < n ∧ 0 < finalMs ord bcs i := by
  rw [mapEquations_eq, mem_master]

theorem map_mem_pairs [Zero α] {ord : List Nat → List Nat} {n : Nat} {bcs : List (BC α)}
    {unused : List Nat} {a b : Nat} : (a, b) ∈ (mapEquations ord n bcs unused).master.zip
      (mapEquations ord n bcs unused).slave ↔
    a < n ∧ 0 < finalMs ord bcs a ∧ b = sl (finalMs ord bcs) a := by
  rw [mapEquations_eq, mem_pairs]

theorem map_mem_eqi [Zero α] {ord : List Nat → List Nat} {n : Nat} {bcs : List (BC α)}
    {unused : List Nat} {i : Nat} : i ∈ (mapEquations ord n bcs unused).eqi ↔
    i < n ∧ i ∉ (mapEquations ord n bcs unused).eqEbc ∧
      i ∉ (mapEquations ord n bcs unused).master ∧ i ∉ unused := by
  rw [mapEquations_eq, mem_eqi]

theorem map_eq4 [Zero α] {ord : List Nat → List Nat} {n : Nat} {bcs : List (BC α)}
    {unused : List Nat} {i k : Nat} (h : (mapEquations ord n bcs unused).eqi[k]? = some i) :
    eq4 n (loopBCs bcs).eqEbc (loopBCs bcs).valEbc (finalMs ord bcs) unused i = (k : Int) := by
  obtain ⟨hk, e⟩ := List.getElem?_eq_some_iff.1 h
  subst e
  exact eq4_eqi n (loopBCs bcs).eqEbc (loopBCs bcs).valEbc (finalMs ord bcs) unused k hk

theorem map_mid [Zero α] {ord : List Nat → List Nat} {n : Nat} {bcs : List (BC α)}
    {unused : List Nat} {i k : Nat} (h : (mapEquations ord n bcs unused).eqi[k]? = some i)
    (r : Nat → α) (rOff : Nat) (v : Nat → α) (off : Nat) :
    scatter v ((mapEquations ord n bcs unused).eqi.zipIdx.map
      fun p => (off + p.1, r (rOff + p.2))) (off + i) = r (rOff + k) := by
  obtain ⟨hk, e⟩ := List.getElem?_eq_some_iff.1 h
  subst e
  exact mid_eqi n (loopBCs bcs).eqEbc (loopBCs bcs).valEbc (finalMs ord bcs) unused r rOff v off k hk

theorem toF [Zero α] {ord : List Nat → List Nat} {n : Nat} {bcs : List (BC α)}
    {unused : List Nat} {i : Nat} (h : i ∈ (mapEquations ord n bcs unused).eqEbc) :
    i ∈ (finishMap n (loopBCs bcs).eqEbc (loopBCs bcs).valEbc (finalMs ord bcs) unused).eqEbc := h

/-! ### Helper lemmas connecting the arrays with the declared conditions -/

section
variable [Zero α] {ord : List Nat → List Nat} (hord : ∀ l, (ord l).Perm l) {n : Nat}
  {bcs : List (BC α)} (hr : InRange n bcs) (hg : GoodOrder bcs) {unused : List Nat}

include hord hr hg

theorem rootEbc {i : Nat} (hi : i < n) :
    root (finalMs ord bcs) i ∈ (mapEquations ord n bcs unused).eqEbc ↔
      ∃ j x, Linked (declared bcs) i j ∧ Prescribed bcs j x := by
  have ht := finalMs_tied ord hord hg
  have hrg := finalMs_range ord hord hr
  rw [mapEquations_eq, mem_eqEbc]
  constructor
  · rintro ⟨_, h | ⟨a, ha, ha1, ha2, ha3⟩ | h⟩
    · obtain ⟨x, hx⟩ := (prescribed_iff bcs _).1 h
      exact ⟨_, x, ht.root_linked i, hx⟩
    · obtain ⟨x, hx⟩ := (prescribed_iff bcs _).1 ha2
      refine ⟨a, x, ?_, hx⟩
      rw [← ht.root_eq_iff, ← ha3]
      unfold root; rw [if_pos ha1]
    · exact absurd h.1 (ht.root_nonpos i)
  · rintro ⟨j, x, hl, hx⟩
    refine ⟨root_lt hrg hi, ?_⟩
    have e := (ht.root_eq_iff i j).2 hl
    have hj := (prescribed_iff bcs j).2 ⟨x, hx⟩
    rw [e]
    by_cases hp : 0 < finalMs ord bcs j
    · right; left
      refine ⟨j, prescribed_lt hr hx, hp, hj, ?_⟩
      unfold root; rw [if_pos hp]
    · left
      have : root (finalMs ord bcs) j = j := by unfold root; rw [if_neg hp]
      rw [this]; exact hj

theorem root_mem_eqi {i : Nat} (hi : i < n) :
    root (finalMs ord bcs) i ∈ (mapEquations ord n bcs unused).eqi ↔
      (¬ ∃ j x, Linked (declared bcs) i j ∧ Prescribed bcs j x) ∧
        root (finalMs ord bcs) i ∉ unused := by
  have ht := finalMs_tied ord hord hg
  have hrg := finalMs_range ord hord hr
  rw [← rootEbc hord hr hg (unused := unused) hi]
  rw [mapEquations_eq, mem_eqi, mem_master]
  constructor
  · rintro ⟨_, h1, _, h2⟩; exact ⟨h1, h2⟩
  · rintro ⟨h1, h2⟩
    exact ⟨root_lt hrg hi, h1, fun h => ht.root_nonpos i h.2, h2⟩

omit hord hr hg in
theorem eq_root {i : Nat} (hi : i < n) :
    (mapEquations ord n bcs unused).eq i =
      eq4 n (loopBCs bcs).eqEbc (loopBCs bcs).valEbc (finalMs ord bcs) unused
        (root (finalMs ord bcs) i) := by
  rw [mapEquations_eq, finishMap_eq_apply]
  unfold root
  by_cases h : 0 < finalMs ord bcs i
  · rw [if_pos ⟨hi, h⟩, if_pos h]
  · rw [if_neg (fun h' => h h'.2), if_neg h]

omit hg in
theorem eq_free {i : Nat} (hi : i < n) (k : Nat) :
    (mapEquations ord n bcs unused).eq i = (k : Int) ↔
      (mapEquations ord n bcs unused).eqi[k]? = some (root (finalMs ord bcs) i) := by
  have hrg := finalMs_range ord hord hr
  rw [eq_root hi]
  constructor
  · intro h
    by_cases hm : root (finalMs ord bcs) i ∈ (mapEquations ord n bcs unused).eqi
    · obtain ⟨k', hk', e⟩ := List.getElem_of_mem hm
      have hk2 : (mapEquations ord n bcs unused).eqi[k']? = some (root (finalMs ord bcs) i) := by
        rw [List.getElem?_eq_some_iff]; exact ⟨hk', e⟩
      have := map_eq4 hk2
      have : k' = k := by omega
      subst this
      exact hk2
    · have := eq4_not_eqi n (loopBCs bcs).eqEbc (loopBCs bcs).valEbc (finalMs ord bcs) unused
        _ (root_lt hrg hi) hm
      omega
  · intro h; exact map_eq4 h

omit hr in
theorem val_root (hc : Consistent bcs) {i j : Nat} {x : α} (hi : i < n)
    (hl : Linked (declared bcs) i j) (hx : Prescribed bcs j x)
    (hm : i ∈ (mapEquations ord n bcs unused).eqEbc) :
    val2 n (loopBCs bcs).eqEbc (loopBCs bcs).valEbc (finalMs ord bcs) i = x := by
  have ht := finalMs_tied ord hord hg
  rw [val2_eq ht ?_ i j hi ((prescribed_iff bcs j).2 ⟨x, hx⟩) ((ht.root_eq_iff i j).2 hl)
    ((map_mem_eqEbc.1 hm).2), prescribed_val bcs j x hx]
  intro a b ha hb hab
  obtain ⟨xa, hxa⟩ := (prescribed_iff bcs a).1 ha
  obtain ⟨xb, hxb⟩ := (prescribed_iff bcs b).1 hb
  rw [prescribed_val bcs a xa hxa, prescribed_val bcs b xb hxb]
  exact hc a b xa xb ((ht.root_eq_iff a b).1 hab) hxa hxb

end

/-! ### C04 -/

/-- C04 (any conditions): the numbered DOFs are, in increasing order, exactly those that
are neither essential nor masters nor unused; the k-th of them carries number k; a master
carries the number of its slave; everything else carries a negative number. -/
theorem C04_numbering [Zero α] (ord : List Nat → List Nat) (hord : ∀ l, (ord l).Perm l) (n : Nat)
    (bcs : List (BC α)) (hr : InRange n bcs) (unused : List Nat) :
    let m := mapEquations ord n bcs unused
    m.nEq = m.eqi.length ∧ m.eqi.Pairwise (· < ·) ∧
    (∀ i, i ∈ m.eqi ↔ i < n ∧ i ∉ m.eqEbc ∧ i ∉ m.master ∧ i ∉ unused) ∧
    (∀ k (hk : k < m.eqi.length), m.eq m.eqi[k] = (k : Int)) ∧
    (∀ i < n, i ∉ m.eqi → i ∉ m.master → m.eq i < 0) ∧
    (∀ a b, (a, b) ∈ m.master.zip m.slave → b < n ∧
      (b ∉ m.master → m.eq a = m.eq b) ∧ (b ∈ m.master → m.eq a < 0)) := by
  have hrg := finalMs_range ord hord hr
  intro m
  refine ⟨rfl, eqi_sorted .., fun i => map_mem_eqi, ?_, ?_, ?_⟩
  · intro k hk
    have hm := map_mem_eqi.1 (List.getElem_mem hk)
    show (mapEquations ord n bcs unused).eq _ = _
    rw [mapEquations_eq, finishMap_eq_apply, if_neg]
    · exact eq4_eqi _ _ _ _ _ k hk
    · intro h; exact hm.2.2.1 (map_mem_master.2 h)
  · intro i hi hie him
    show (mapEquations ord n bcs unused).eq _ < _
    rw [mapEquations_eq, finishMap_eq_apply, if_neg]
    · exact eq4_not_eqi _ _ _ _ _ _ hi hie
    · intro h; exact him (map_mem_master.2 h)
  · intro a b hab
    obtain ⟨h1, h2, rfl⟩ := map_mem_pairs.1 hab
    have hb := sl_lt hrg h2
    have ea : m.eq a = eq4 n (loopBCs bcs).eqEbc (loopBCs bcs).valEbc (finalMs ord bcs) unused
        (sl (finalMs ord bcs) a) := by
      show (mapEquations ord n bcs unused).eq _ = _
      rw [mapEquations_eq, finishMap_eq_apply, if_pos ⟨h1, h2⟩]
    refine ⟨hb, ?_, ?_⟩
    · intro hbm
      rw [ea]
      show _ = (mapEquations ord n bcs unused).eq _
      rw [mapEquations_eq, finishMap_eq_apply, if_neg]
      intro h; exact hbm (map_mem_master.2 h)
    · intro hbm
      rw [ea]
      apply eq4_not_eqi _ _ _ _ _ _ hb
      intro h
      exact (map_mem_eqi.1 h).2.2.1 hbm

/-- C04 without boundary conditions (`bcs` is None): same statement. -/
theorem C04_numbering_empty (n : Nat) (unused : List Nat) :
    let m : EqMap α := initEmpty n unused
    m.nEq = m.eqi.length ∧ m.eqi.Pairwise (· < ·) ∧
    (∀ i, i ∈ m.eqi ↔ i < n ∧ i ∉ unused) ∧
    (∀ k (hk : k < m.eqi.length), m.eq m.eqi[k] = (k : Int)) ∧
    (∀ i < n, i ∉ m.eqi → m.eq i < 0) ∧ m.master = [] ∧ m.eqEbc = [] := by
  intro m
  show _ ∧ _
  by_cases h : unused = []
  · have hm : m = ⟨n, fun i => (i : Int), List.range n, n, [], [], [], []⟩ := by
      show initEmpty n unused = _
      unfold initEmpty; rw [if_pos h]
    rw [hm]
    subst h
    simp only [List.length_range, List.mem_range, List.getElem_range]
    exact ⟨trivial, List.pairwise_lt_range, by simp, by simp, fun i h1 h2 => absurd h1 h2,
      trivial, trivial⟩
  · have hm : m = (initEmpty n unused : EqMap α) := rfl
    unfold initEmpty at hm
    rw [if_neg h] at hm
    have he : m.eqi = (List.range n).filter fun i => decide (i ∉ unused) := by
      rw [hm]
      have := scatterConst_id_neg n [] [] unused
      simp only [List.not_mem_nil, not_false_eq_true, true_and] at this
      exact this
    have hmem : ∀ i, i ∈ m.eqi ↔ i < n ∧ i ∉ unused := by
      intro i; rw [he, List.mem_filter]; simp
    have hnd : m.eqi.Nodup := by rw [he]; exact List.Nodup.filter _ List.nodup_range
    have heq : m.eq = scatter (scatterConst (fun i => (i : Int)) unused (-3))
        (m.eqi.zipIdx.map fun p => (p.1, (p.2 : Int))) := by rw [hm]
    refine ⟨by rw [hm], ?_, hmem, ?_, ?_, by rw [hm], by rw [hm]⟩
    · rw [he]; exact List.Pairwise.filter _ List.pairwise_lt_range
    · intro k hk
      rw [heq]
      exact scatter_zipIdx _ hnd _ id (fun _ _ h => h) (fun k => (k : Int)) k hk
    · intro i hi hie
      rw [heq]
      have := scatter_zipIdx_not_mem m.eqi (scatterConst (fun i => (i : Int)) unused (-3))
        id (fun _ _ h => h) (fun k => (k : Int)) i hie
      simp only [id] at this
      rw [this, scatterConst_apply, if_pos]
      · decide
      · by_contra hn; exact hie ((hmem i).2 ⟨hi, hn⟩)

/-- C04 at the level of the declared conditions: a DOF is active iff no DOF linked to it
has a prescribed value (unused DOFs aside). -/
theorem C04_active_iff [Zero α] (ord : List Nat → List Nat) (hord : ∀ l, (ord l).Perm l) (n : Nat)
    (bcs : List (BC α)) (hr : InRange n bcs) (hg : GoodOrder bcs) (unused : List Nat)
    (i : Nat) (hi : i < n) (hu : ∀ j, Linked (declared bcs) i j → j ∉ unused) :
    (0 ≤ (mapEquations ord n bcs unused).eq i ↔
      ∀ j x, Linked (declared bcs) i j → ¬ Prescribed bcs j x) ∧
    (mapEquations ord n bcs unused).eq i < (mapEquations ord n bcs unused).nEq := by
  have ht := finalMs_tied ord hord hg
  have hru := hu _ (ht.root_linked i)
  have hrg := finalMs_range ord hord hr
  have key : 0 ≤ (mapEquations ord n bcs unused).eq i ↔
      root (finalMs ord bcs) i ∈ (mapEquations ord n bcs unused).eqi := by
    constructor
    · intro h
      have e : (mapEquations ord n bcs unused).eq i =
        (((mapEquations ord n bcs unused).eq i).toNat : Nat) := by omega
      rw [eq_free hord hr hi] at e
      exact List.mem_of_getElem? e
    · intro h
      obtain ⟨k, hk, e⟩ := List.getElem_of_mem h
      have := (eq_free hord hr (unused := unused) hi k).2
        (by rw [List.getElem?_eq_some_iff]; exact ⟨hk, e⟩)
      omega
  constructor
  · rw [key, root_mem_eqi hord hr hg hi]
    constructor
    · rintro ⟨h, _⟩ j x hl hx; exact h ⟨j, x, hl, hx⟩
    · intro h; exact ⟨fun ⟨j, x, hl, hx⟩ => h j x hl hx, hru⟩
  · by_cases h : 0 ≤ (mapEquations ord n bcs unused).eq i
    · have e : (mapEquations ord n bcs unused).eq i =
        (((mapEquations ord n bcs unused).eq i).toNat : Nat) := by omega
      rw [eq_free hord hr hi] at e
      obtain ⟨hk, _⟩ := List.getElem?_eq_some_iff.1 e
      have : (mapEquations ord n bcs unused).nEq = (mapEquations ord n bcs unused).eqi.length := rfl
      omega
    · omega

/-! ### C05 -/

/-- C05: for every reduced vector `r` and every buffer, the full vector carries the
prescribed values, is constant on linked DOFs, carries the reduced entry of every active
DOF, and does not touch the buffer outside of its part. -/
theorem C05_full_satisfies_conditions [Zero α] (ord : List Nat → List Nat)
    (hord : ∀ l, (ord l).Perm l) (n : Nat) (bcs : List (BC α)) (hr : InRange n bcs)
    (hg : GoodOrder bcs) (hc : Consistent bcs) (unused : List Nat)
    (r : Nat → α) (rOff : Nat) (vec : Nat → α) (off : Nat) :
    let m := mapEquations ord n bcs unused
    let full := getFull m r rOff none vec off
    (∀ i x, Prescribed bcs i x → full (off + i) = x) ∧
    (∀ i j, i < n → Linked (declared bcs) i j → full (off + i) = full (off + j)) ∧
    (∀ i k : Nat, i < n → m.eq i = k → full (off + i) = r (rOff + k)) ∧
    (∀ t, (t < off ∨ off + n ≤ t) → full t = vec t) := by
  have ht := finalMs_tied ord hord hg
  have hrg := finalMs_range ord hord hr
  intro m full
  have hfull : ∀ i < n, full (off + i) = _ := fun i hi =>
    getFull_root n (loopBCs bcs).eqEbc (loopBCs bcs).valEbc (finalMs ord bcs) unused r rOff none
      vec off i hi
  refine ⟨?_, ?_, ?_, ?_⟩
  · intro i x hx
    have hi := prescribed_lt hr hx
    have hm := (rootEbc hord hr hg (unused := unused) hi).2 ⟨i, x, .refl _, hx⟩
    rw [hfull i hi, mid_not_eqi, ebc_scatter, if_pos (toF hm)]
    · exact val_root hord hg hc (root_lt hrg hi) (.symm _ _ (ht.root_linked i)) hx hm
    · intro h; exact (map_mem_eqi.1 h).2.1 hm
  · intro i j hi hl
    have hj := linked_lt hr hl hi
    rw [hfull i hi, hfull j hj, (ht.root_eq_iff i j).2 hl]
  · intro i k hi hk
    rw [hfull i hi]
    exact map_mid ((eq_free hord hr (unused := unused) hi k).1 hk) r rOff _ off
  · intro t htr
    have hlt : ∀ i < n, off + i ≠ t := by intro i hi; omega
    show getFull m r rOff none vec off t = vec t
    unfold getFull
    rw [scatter_of_not_mem, scatter_of_not_mem, scatter_of_not_mem]
    · intro p hp
      obtain ⟨q, hq, rfl⟩ := List.mem_map.1 hp
      have : q.1 ∈ m.eqEbc := (List.of_mem_zip hq).1
      exact hlt _ (map_mem_eqEbc.1 this).1
    · intro p hp
      obtain ⟨⟨a, b⟩, hq, rfl⟩ := List.mem_map.1 hp
      rw [List.mem_zipIdx_iff_getElem?] at hq
      exact hlt _ (map_mem_eqi.1 (List.mem_of_getElem? hq)).1
    · intro p hp
      obtain ⟨q, hq, rfl⟩ := List.mem_map.1 hp
      exact hlt _ (map_mem_master.1 (List.of_mem_zip hq).1).1

/-- C05 with a forced value: all essential DOFs get it. -/
theorem C05_full_forced [Zero α] (ord : List Nat → List Nat)
    (hord : ∀ l, (ord l).Perm l) (n : Nat) (bcs : List (BC α)) (hr : InRange n bcs)
    (hg : GoodOrder bcs) (unused : List Nat)
    (r : Nat → α) (rOff : Nat) (f : α) (vec : Nat → α) (off : Nat) (i : Nat) (x : α)
    (hx : Prescribed bcs i x) :
    getFull (mapEquations ord n bcs unused) r rOff (some f) vec off (off + i) = f := by
  have hi := prescribed_lt hr hx
  have hm := (rootEbc hord hr hg (unused := unused) hi).2 ⟨i, x, .refl _, hx⟩
  rw [mapEquations_eq, getFull_root _ _ _ _ _ _ _ _ _ _ _ hi, mid_not_eqi, ebc_scatter, if_pos (toF hm)]
  · rfl
  · intro h; exact (map_mem_eqi.1 h).2.1 hm

/-! ### C06 -/

/-- C06: reduce after expand is the identity (any conditions, any forced value). -/
theorem C06_reduce_full [Zero α] [Add α] (ord : List Nat → List Nat) (n : Nat) (bcs : List (BC α))
    (unused : List Nat) (r : Nat → α) (rOff : Nat) (force : Option α) (vec : Nat → α) (off j : Nat)
    (hj : j < (mapEquations ord n bcs unused).nEq) :
    getReduced (mapEquations ord n bcs unused)
      (getFull (mapEquations ord n bcs unused) r rOff force vec off) off false j = r (rOff + j) := by
  have hj' : j < (mapEquations ord n bcs unused).eqi.length := hj
  unfold getReduced
  simp only [Bool.false_eq_true, if_false]
  have hm := map_mem_eqi.1 (List.getElem_mem hj')
  have hroot : root (finalMs ord bcs) (mapEquations ord n bcs unused).eqi[j] =
      (mapEquations ord n bcs unused).eqi[j] := by
    unfold root
    rw [if_neg]
    intro h
    exact hm.2.2.1 (map_mem_master.2 ⟨hm.1, h⟩)
  have e : (mapEquations ord n bcs unused).eqi.getD j 0 =
      (mapEquations ord n bcs unused).eqi[j] := by
    simp [List.getD, hj']
  rw [e]
  have := getFull_root n (loopBCs bcs).eqEbc (loopBCs bcs).valEbc (finalMs ord bcs) unused r rOff
    force vec off _ hm.1
  rw [← mapEquations_eq] at this
  rw [this, hroot]
  exact map_mid (by rw [List.getElem?_eq_some_iff]; exact ⟨hj', rfl⟩) r rOff _ off

/-! ### C07 -/

/-- C07: expanding the reduction of `v` gives back `v` on the used DOFs iff `v` satisfies
the essential and periodic conditions. -/
theorem C07_full_reduce_iff [Zero α] [Add α] (ord : List Nat → List Nat)
    (hord : ∀ l, (ord l).Perm l) (n : Nat) (bcs : List (BC α)) (hr : InRange n bcs)
    (hg : GoodOrder bcs) (hc : Consistent bcs) (unused : List Nat)
    (hu : ∀ i ∈ unused, i ∉ ends (declared bcs)) (v vec : Nat → α) (off : Nat) :
    (∀ i < n, i ∉ unused →
      getFull (mapEquations ord n bcs unused)
        (getReduced (mapEquations ord n bcs unused) v off false) 0 none vec off (off + i) =
        v (off + i)) ↔
    (∀ i x, i ∉ unused → Prescribed bcs i x → v (off + i) = x) ∧
    (∀ p ∈ declared bcs, v (off + p.1) = v (off + p.2)) := by
  have ht := finalMs_tied ord hord hg
  have hrg := finalMs_range ord hord hr
  obtain ⟨f1, f2, f3, f4⟩ := C05_full_satisfies_conditions ord hord n bcs hr hg hc unused
    (getReduced (mapEquations ord n bcs unused) v off false) 0 vec off
  generalize hfull : getFull (mapEquations ord n bcs unused)
        (getReduced (mapEquations ord n bcs unused) v off false) 0 none vec off = full at *
  have hue : ∀ x ∈ ends (declared bcs), x ∉ unused := fun x hx h => hu x h hx
  constructor
  · intro h
    constructor
    · intro i x hiu hx
      rw [← h i (prescribed_lt hr hx) hiu, f1 i x hx]
    · intro p hp
      have h1 := hr.2 p hp
      rw [← h p.1 h1.1 (hue _ (mem_ends.2 ⟨p, hp, .inl rfl⟩)),
        ← h p.2 h1.2 (hue _ (mem_ends.2 ⟨p, hp, .inr rfl⟩))]
      exact f2 _ _ h1.1 (.rel _ _ hp)
  · rintro ⟨h1, h2⟩ i hi hiu
    -- v is constant on linked DOFs
    have hv : ∀ {a b}, Linked (declared bcs) a b → v (off + a) = v (off + b) := by
      intro a b hab
      induction hab with
      | rel a b hab => exact h2 _ hab
      | refl => rfl
      | symm _ _ _ ih => exact ih.symm
      | trans _ _ _ _ _ ih1 ih2 => exact ih1.trans ih2
    have hlu : ∀ j, Linked (declared bcs) i j → j ∉ unused := by
      intro j hl
      rcases linked_ends hl with rfl | ⟨_, h⟩
      · exact hiu
      · exact hue j h
    by_cases he : ∃ j x, Linked (declared bcs) i j ∧ Prescribed bcs j x
    · obtain ⟨j, x, hl, hx⟩ := he
      rw [f2 i j hi hl, f1 j x hx, hv hl, h1 j x (hlu j hl) hx]
    · have hm : root (finalMs ord bcs) i ∈ (mapEquations ord n bcs unused).eqi :=
        (root_mem_eqi hord hr hg hi).2 ⟨he, hlu _ (ht.root_linked i)⟩
      obtain ⟨k, hk, e⟩ := List.getElem_of_mem hm
      have := (eq_free hord hr (unused := unused) hi k).2
        (by rw [List.getElem?_eq_some_iff]; exact ⟨hk, e⟩)
      rw [f3 i k hi this]
      unfold getReduced
      simp only [Bool.false_eq_true, if_false, Nat.zero_add]
      have e2 : (mapEquations ord n bcs unused).eqi.getD k 0 =
          (mapEquations ord n bcs unused).eqi[k] := by simp [List.getD, hk]
      rw [e2, e]
      exact (hv (ht.root_linked i)).symm

/-! ### C08 -/

/-- C08: `apply_ebc` establishes the conditions, keeps every DOF that has neither a
prescribed value (directly or by a link) nor is a periodic master, and touches nothing
outside of its part. -/
theorem C08_apply_ebc [Zero α] (ord : List Nat → List Nat)
    (hord : ∀ l, (ord l).Perm l) (n : Nat) (bcs : List (BC α)) (hr : InRange n bcs)
    (hg : GoodOrder bcs) (hc : Consistent bcs) (unused : List Nat) (vec : Nat → α) (off : Nat) :
    let m := mapEquations ord n bcs unused
    let w := applyEbc m vec off none
    (∀ i x, Prescribed bcs i x → w (off + i) = x) ∧
    (∀ i j, i < n → Linked (declared bcs) i j → w (off + i) = w (off + j)) ∧
    (∀ i < n, i ∉ m.master → (∀ j x, Linked (declared bcs) i j → ¬ Prescribed bcs j x) →
      w (off + i) = vec (off + i)) ∧
    (∀ t, (t < off ∨ off + n ≤ t) → w t = vec t) := by
  have ht := finalMs_tied ord hord hg
  have hrg := finalMs_range ord hord hr
  intro m w
  have hw : ∀ i < n, w (off + i) = _ := fun i hi =>
    applyEbc_root n (loopBCs bcs).eqEbc (loopBCs bcs).valEbc (finalMs ord bcs) unused none vec off i hi
  refine ⟨?_, ?_, ?_, ?_⟩
  · intro i x hx
    have hi := prescribed_lt hr hx
    have hm := (rootEbc hord hr hg (unused := unused) hi).2 ⟨i, x, .refl _, hx⟩
    rw [hw i hi, if_pos (toF hm)]
    exact val_root hord hg hc (root_lt hrg hi) (.symm _ _ (ht.root_linked i)) hx hm
  · intro i j hi hl
    have hj := linked_lt hr hl hi
    rw [hw i hi, hw j hj, (ht.root_eq_iff i j).2 hl]
  · intro i hi him hne
    have hroot : root (finalMs ord bcs) i = i := by
      unfold root; rw [if_neg]
      intro h; exact him (map_mem_master.2 ⟨hi, h⟩)
    rw [hw i hi, if_neg, hroot]
    intro h
    obtain ⟨j, x, hl, hx⟩ := (rootEbc hord hr hg (unused := unused) hi).1 h
    exact hne j x hl hx
  · intro t htr
    have hlt : ∀ i < n, off + i ≠ t := by intro i hi; omega
    show applyEbc m vec off none t = vec t
    unfold applyEbc
    rw [scatter_of_not_mem, scatter_of_not_mem]
    · intro p hp
      obtain ⟨q, hq, rfl⟩ := List.mem_map.1 hp
      have : q.1 ∈ m.eqEbc := (List.of_mem_zip hq).1
      exact hlt _ (map_mem_eqEbc.1 this).1
    · intro p hp
      obtain ⟨q, hq, rfl⟩ := List.mem_map.1 hp
      exact hlt _ (map_mem_master.1 (List.of_mem_zip hq).1).1

/-- C08: a second `apply_ebc` changes nothing. -/
theorem C08_apply_ebc_idempotent [Zero α] (ord : List Nat → List Nat)
    (hord : ∀ l, (ord l).Perm l) (n : Nat) (bcs : List (BC α)) (hr : InRange n bcs)
    (hg : GoodOrder bcs) (unused : List Nat) (vec : Nat → α) (off : Nat) (force : Option α) :
    applyEbc (mapEquations ord n bcs unused)
      (applyEbc (mapEquations ord n bcs unused) vec off force) off force =
    applyEbc (mapEquations ord n bcs unused) vec off force := by
  have ht := finalMs_tied ord hord hg
  have hrg := finalMs_range ord hord hr
  funext t
  by_cases htr : t < off ∨ off + n ≤ t
  · have hlt : ∀ i < n, off + i ≠ t := by intro i hi; omega
    have : ∀ v : Nat → α, applyEbc (mapEquations ord n bcs unused) v off force t = v t := by
      intro v
      unfold applyEbc
      rw [scatter_of_not_mem, scatter_of_not_mem]
      · intro p hp
        obtain ⟨q, hq, rfl⟩ := List.mem_map.1 hp
        exact hlt _ (map_mem_eqEbc.1 (List.of_mem_zip hq).1).1
      · intro p hp
        obtain ⟨q, hq, rfl⟩ := List.mem_map.1 hp
        exact hlt _ (map_mem_master.1 (List.of_mem_zip hq).1).1
    exact this _
  · obtain ⟨i, rfl⟩ : ∃ i, t = off + i := ⟨t - off, by omega⟩
    have hi : i < n := by omega
    have hrr : root (finalMs ord bcs) (root (finalMs ord bcs) i) = root (finalMs ord bcs) i :=
      (ht.root_eq_iff _ _).2 (.symm _ _ (ht.root_linked i))
    rw [mapEquations_eq, applyEbc_root _ _ _ _ _ _ _ _ _ hi,
      applyEbc_root _ _ _ _ _ _ _ _ _ (root_lt hrg hi),
      applyEbc_root _ _ _ _ _ _ _ _ _ hi, hrr]
    split <;> rfl

/-- C08: `has_ebc` holds exactly for the vectors satisfying the conditions. -/
theorem C08_has_ebc_iff [Zero α] [DecidableEq α] (ord : List Nat → List Nat)
    (hord : ∀ l, (ord l).Perm l) (n : Nat) (bcs : List (BC α)) (hr : InRange n bcs)
    (hg : GoodOrder bcs) (hc : Consistent bcs) (unused : List Nat) (v : Nat → α) :
    hasEbc (mapEquations ord n bcs unused) v none = true ↔
    (∀ i x, Prescribed bcs i x → v i = x) ∧ (∀ p ∈ declared bcs, v p.1 = v p.2) := by
  have ht := finalMs_tied ord hord hg
  have hrg := finalMs_range ord hord hr
  unfold hasEbc
  rw [Bool.and_eq_true, List.all_eq_true, List.all_eq_true]
  have hz : (mapEquations ord n bcs unused).eqEbc.zip
      ((mapEquations ord n bcs unused).ebcValues none) =
      (mapEquations ord n bcs unused).eqEbc.map fun i =>
        (i, val2 n (loopBCs bcs).eqEbc (loopBCs bcs).valEbc (finalMs ord bcs) i) := by
    rw [mapEquations_eq, ebcVals_eq, zip_map_self]; rfl
  rw [hz]
  constructor
  · rintro ⟨h1, h2⟩
    have hroot : ∀ i < n, v i = v (root (finalMs ord bcs) i) := by
      intro i hi
      unfold root
      split
      · next h =>
        have := h2 (i, sl (finalMs ord bcs) i) (map_mem_pairs.2 ⟨hi, h, rfl⟩)
        simpa using this
      · rfl
    constructor
    · intro i x hx
      have hi := prescribed_lt hr hx
      have hm : i ∈ (mapEquations ord n bcs unused).eqEbc :=
        map_mem_eqEbc.2 ⟨hi, .inl ((prescribed_iff bcs i).2 ⟨x, hx⟩)⟩
      have := h1 _ (List.mem_map.2 ⟨i, hm, rfl⟩)
      simp only [decide_eq_true_eq] at this
      rw [this]
      exact val_root hord hg hc hi (.refl _) hx hm
    · intro p hp
      have := hr.2 p hp
      rw [hroot _ this.1, hroot _ this.2, (ht.root_eq_iff p.1 p.2).2 (.rel _ _ hp)]
  · rintro ⟨h1, h2⟩
    have hv : ∀ {a b}, Linked (declared bcs) a b → v a = v b := by
      intro a b hab
      induction hab with
      | rel a b hab => exact h2 _ hab
      | refl => rfl
      | symm _ _ _ ih => exact ih.symm
      | trans _ _ _ _ _ ih1 ih2 => exact ih1.trans ih2
    constructor
    · intro p hp
      obtain ⟨i, hi, rfl⟩ := List.mem_map.1 hp
      simp only [decide_eq_true_eq]
      obtain ⟨hin, hor⟩ := map_mem_eqEbc.1 hi
      -- some linked DOF has a prescribed value
      obtain ⟨j, hj, hl⟩ : ∃ j, (loopBCs bcs).eqEbc j = true ∧ Linked (declared bcs) i j := by
        rcases hor with h | ⟨a, _, ha, hae, rfl⟩ | ⟨h, h'⟩
        · exact ⟨i, h, .refl _⟩
        · refine ⟨a, hae, .symm _ _ ?_⟩
          have := ht.root_linked a
          unfold root at this; rwa [if_pos ha] at this
        · refine ⟨_, h', ?_⟩
          have := ht.root_linked i
          unfold root at this; rwa [if_pos h] at this
      obtain ⟨x, hx⟩ := (prescribed_iff bcs j).1 hj
      rw [val_root hord hg hc hin hl hx hi, hv hl, h1 j x hx]
    · rintro ⟨a, b⟩ hp
      obtain ⟨h3, h4, rfl⟩ := map_mem_pairs.1 hp
      simp only [decide_eq_true_eq]
      have := ht.root_linked a
      unfold root at this; rw [if_pos h4] at this
      exact hv this

/-! ### C09 -/

/-- The product of the COO matrix `R` (all values 1) with a vector: entry `i`. -/
def cooMul [Zero α] [Add α] (R : List (Nat × Nat)) (r : Nat → α) (i : Nat) : α :=
  ((R.filter fun p => p.1 == i).map fun p => r p.2).sum

/-- The product of the transposed COO matrix `R` with a vector: entry `j`. -/
def cooMulT [Zero α] [Add α] (R : List (Nat × Nat)) (v : Nat → α) (j : Nat) : α :=
  ((R.filter fun p => p.2 == j).map fun p => v p.1).sum

theorem filter_unique {β : Type} (l : List β) (P : β → Bool) (a : β) (hn : l.Nodup)
    (ha : a ∈ l) (hP : ∀ b ∈ l, P b = true ↔ b = a) : l.filter P = [a] := by
  induction l with
  | nil => simp at ha
  | cons b l ih =>
    rw [List.nodup_cons] at hn
    rw [List.filter_cons]
    by_cases hb : b = a
    · rw [if_pos ((hP b List.mem_cons_self).2 hb), hb]
      congr 1
      rw [List.filter_eq_nil_iff]
      intro c hc hPc
      have := (hP c (List.mem_cons_of_mem _ hc)).1 hPc
      exact hn.1 (by rw [hb, ← this]; exact hc)
    · rw [if_neg (fun h => hb ((hP b List.mem_cons_self).1 h))]
      apply ih hn.2
      · rcases List.mem_cons.1 ha with h | h
        · exact absurd h.symm hb
        · exact h
      · exact fun c hc => hP c (List.mem_cons_of_mem _ hc)

theorem mem_operator [Zero α] (ord : List Nat → List Nat) (n : Nat) (bcs : List (BC α))
    (unused : List Nat) (i j : Nat) :
    (i, j) ∈ (mapEquations ord n bcs unused).operator ↔
      (mapEquations ord n bcs unused).eqi[j]? = some i ∨
      (i < n ∧ 0 < finalMs ord bcs i ∧
        (mapEquations ord n bcs unused).eq (sl (finalMs ord bcs) i) = (j : Int)) := by
  unfold EqMap.operator
  rw [List.mem_append, List.mem_map]
  constructor
  · rintro (h | ⟨⟨a, b⟩, h, e⟩)
    · left
      obtain ⟨k, hk, e⟩ := List.getElem_of_mem h
      rw [List.getElem_zip] at e
      simp only [List.getElem_range, Prod.mk.injEq] at e
      rw [← e.2, List.getElem?_eq_some_iff]
      exact ⟨_, e.1⟩
    · right
      obtain ⟨h1, h2⟩ := List.mem_filter.1 h
      obtain ⟨h3, h4, rfl⟩ := map_mem_pairs.1 h1
      simp only [decide_eq_true_eq] at h2
      simp only [Prod.mk.injEq] at e
      obtain ⟨rfl, rfl⟩ := e
      exact ⟨h3, h4, by omega⟩
  · rintro (h | ⟨h1, h2, h3⟩)
    · left
      obtain ⟨hj, e⟩ := List.getElem?_eq_some_iff.1 h
      have hl : j < ((mapEquations ord n bcs unused).eqi.zip
          (List.range (mapEquations ord n bcs unused).nEq)).length := by
        simp only [List.length_zip, List.length_range]
        have : (mapEquations ord n bcs unused).nEq =
          (mapEquations ord n bcs unused).eqi.length := rfl
        omega
      have := List.getElem_mem hl
      rw [List.getElem_zip] at this
      simpa [e] using this
    · right
      refine ⟨(i, sl (finalMs ord bcs) i), List.mem_filter.2 ⟨map_mem_pairs.2 ⟨h1, h2, rfl⟩, ?_⟩, ?_⟩
      · simp only [decide_eq_true_eq]; omega
      · simp only; rw [h3]; rfl

theorem nodup_operator [Zero α] (ord : List Nat → List Nat) (n : Nat) (bcs : List (BC α))
    (unused : List Nat) : (mapEquations ord n bcs unused).operator.Nodup := by
  unfold EqMap.operator
  rw [List.nodup_append]
  have hle : (mapEquations ord n bcs unused).nEq = (mapEquations ord n bcs unused).eqi.length := rfl
  have hfst : ((mapEquations ord n bcs unused).eqi.zip
      (List.range (mapEquations ord n bcs unused).nEq)).map (·.1) =
      (mapEquations ord n bcs unused).eqi := by
    rw [List.map_fst_zip]; simp [hle]
  refine ⟨?_, ?_, ?_⟩
  · apply List.Nodup.of_map (fun p : Nat × Nat => p.1)
    rw [hfst]; exact eqi_nodup ..
  · apply List.Nodup.of_map (fun p : Nat × Nat => p.1)
    rw [List.map_map]
    have hs : List.Sublist
      (((mapEquations ord n bcs unused).master.zip (mapEquations ord n bcs unused).slave).filter
        fun p => decide (0 ≤ (mapEquations ord n bcs unused).eq p.2))
      ((mapEquations ord n bcs unused).master.zip (mapEquations ord n bcs unused).slave) :=
      List.filter_sublist
    have hm := hs.map (fun p : Nat × Nat => p.1)
    apply List.Nodup.sublist (l₂ := ((mapEquations ord n bcs unused).master.zip
      (mapEquations ord n bcs unused).slave).map fun p => p.1)
    · exact hm
    · rw [mapEquations_eq, finishMap_zip, List.map_map]
      simp only [Function.comp_def, List.map_id']
      rw [finishMap_master]; exact nodup_nonzero ..
  · intro a ha b hb e
    subst e
    have h1 : a.1 ∈ (mapEquations ord n bcs unused).eqi := (List.of_mem_zip ha).1
    obtain ⟨q, hq, rfl⟩ := List.mem_map.1 hb
    have h2 : q.1 ∈ (mapEquations ord n bcs unused).master :=
      (List.of_mem_zip (List.mem_filter.1 hq).1).1
    exact (map_mem_eqi.1 h1).2.2.1 h2

/-- C09: `(R r)_i` is the value `get_full` puts into DOF `i` when all essential values
are zero (for used DOFs). -/
theorem C09_operator_full [AddMonoid α] (ord : List Nat → List Nat)
    (hord : ∀ l, (ord l).Perm l) (n : Nat) (bcs : List (BC α)) (hr : InRange n bcs)
    (hg : GoodOrder bcs) (unused : List Nat) (hu : ∀ i ∈ unused, i ∉ ends (declared bcs))
    (r vec : Nat → α) (off i : Nat) (hi : i < n) (hiu : i ∉ unused) :
    cooMul (mapEquations ord n bcs unused).operator r i =
      getFull (mapEquations ord n bcs unused) r 0 (some 0) vec off (off + i) := by
  have ht := finalMs_tied ord hord hg
  have hrg := finalMs_range ord hord hr
  have hru : root (finalMs ord bcs) i ∉ unused := by
    rcases linked_ends (ht.root_linked i) with e | ⟨_, h⟩
    · rw [← e]; exact hiu
    · exact fun h' => hu _ h' h
  -- the rows of the operator
  have hrow : ∀ k, (i, k) ∈ (mapEquations ord n bcs unused).operator ↔
      (mapEquations ord n bcs unused).eqi[k]? = some (root (finalMs ord bcs) i) := by
    intro k
    rw [mem_operator]
    by_cases hp : 0 < finalMs ord bcs i
    · have e : root (finalMs ord bcs) i = sl (finalMs ord bcs) i := by unfold root; rw [if_pos hp]
      have e2 : root (finalMs ord bcs) (sl (finalMs ord bcs) i) = sl (finalMs ord bcs) i := by
        rw [← e]; exact (ht.root_eq_iff _ _).2 (.symm _ _ (ht.root_linked i))
      rw [e, eq_free hord hr (sl_lt hrg hp), e2]
      constructor
      · rintro (h | h)
        · have := (map_mem_eqi.1 (List.mem_of_getElem? h)).2.2.1
          exact absurd (map_mem_master.2 ⟨hi, hp⟩) this
        · exact h.2.2
      · intro h; exact .inr ⟨hi, hp, h⟩
    · have e : root (finalMs ord bcs) i = i := by unfold root; rw [if_neg hp]
      rw [e]
      constructor
      · rintro (h | h)
        · exact h
        · exact absurd h.2.1 hp
      · exact .inl
  have hfull := getFull_root n (loopBCs bcs).eqEbc (loopBCs bcs).valEbc (finalMs ord bcs) unused r 0
      (some 0) vec off i hi
  rw [← mapEquations_eq] at hfull
  rw [hfull]
  unfold cooMul
  by_cases hm : root (finalMs ord bcs) i ∈ (mapEquations ord n bcs unused).eqi
  · obtain ⟨k, hk, e⟩ := List.getElem_of_mem hm
    have hk' : (mapEquations ord n bcs unused).eqi[k]? = some (root (finalMs ord bcs) i) := by
      rw [List.getElem?_eq_some_iff]; exact ⟨hk, e⟩
    rw [filter_unique _ _ (i, k) (nodup_operator ..) ((hrow k).2 hk')]
    · rw [map_mid hk']; simp
    · rintro ⟨a, b⟩ hab
      simp only [beq_iff_eq, Prod.mk.injEq]
      constructor
      · rintro rfl
        refine ⟨rfl, ?_⟩
        have hb := (hrow b).1 hab
        obtain ⟨hb1, hb2⟩ := List.getElem?_eq_some_iff.1 hb
        have hnd : (mapEquations ord n bcs unused).eqi.Nodup := eqi_nodup ..
        exact (List.Nodup.getElem_inj_iff hnd).1 (hb2.trans e.symm)
      · exact fun h => h.1
  · have hnil : (mapEquations ord n bcs unused).operator.filter (fun p => p.1 == i) = [] := by
      rw [List.filter_eq_nil_iff]
      rintro ⟨a, b⟩ hab h
      simp only [beq_iff_eq] at h
      subst h
      exact hm (List.mem_of_getElem? ((hrow b).1 hab))
    rw [hnil]
    have he : root (finalMs ord bcs) i ∈ (mapEquations ord n bcs unused).eqEbc := by
      rw [rootEbc hord hr hg hi]
      by_contra hn
      exact hm ((root_mem_eqi hord hr hg hi).2 ⟨hn, hru⟩)
    rw [mapEquations_eq] at hm he ⊢
    rw [mid_not_eqi _ _ _ _ _ _ _ _ _ _ hm, ebc_scatter, if_pos he]
    rfl

theorem assemble1d_apply [AddCommMonoid α] (l : List (Nat × α)) (out : Nat → α) (j : Nat) :
    assemble1d out l j = out j + ((l.filter fun p => p.1 == j).map (·.2)).sum := by
  induction l generalizing out with
  | nil => simp [assemble1d]
  | cons p l ih =>
    obtain ⟨i, x⟩ := p
    rw [assemble1d, ih, List.filter_cons]
    by_cases h : i = j
    · subst h; simp [add_assoc]
    · have : (i == j) = false := by simpa using h
      rw [this, upd_ne _ _ (Ne.symm h)]; simp

/-- C09: `R^T v` is `get_reduced(v, follow_epbc=True)` (any conditions). -/
theorem C09_operator_reduced [AddCommMonoid α] (ord : List Nat → List Nat) (n : Nat)
    (bcs : List (BC α)) (unused : List Nat) (v : Nat → α) (off j : Nat)
    (hj : j < (mapEquations ord n bcs unused).nEq) :
    cooMulT (mapEquations ord n bcs unused).operator (fun i => v (off + i)) j =
      getReduced (mapEquations ord n bcs unused) v off true j := by
  unfold cooMulT getReduced
  simp only [if_true]
  rw [assemble1d_apply]
  unfold EqMap.operator
  rw [List.filter_append, List.map_append, List.sum_append]
  congr 1
  · have hj' : j < (mapEquations ord n bcs unused).eqi.length := hj
    have hle : (mapEquations ord n bcs unused).nEq = (mapEquations ord n bcs unused).eqi.length := rfl
    have hl : j < ((mapEquations ord n bcs unused).eqi.zip
          (List.range (mapEquations ord n bcs unused).nEq)).length := by
      simp only [List.length_zip, List.length_range]; omega
    rw [filter_unique _ _ ((mapEquations ord n bcs unused).eqi[j], j)]
    · simp [List.getD, hj']
    · apply List.Nodup.of_map (fun p : Nat × Nat => p.1)
      rw [List.map_fst_zip (by simp [hle])]; exact eqi_nodup ..
    · have := List.getElem_mem hl
      rw [List.getElem_zip] at this
      simpa using this
    · rintro ⟨a, b⟩ hab
      simp only [beq_iff_eq, Prod.mk.injEq]
      constructor
      · rintro rfl
        obtain ⟨k, hk, e⟩ := List.getElem_of_mem hab
        rw [List.getElem_zip] at e
        simp only [List.getElem_range, Prod.mk.injEq] at e
        obtain ⟨e1, rfl⟩ := e
        exact ⟨e1.symm, rfl⟩
      · exact fun h => h.2
  · rw [List.filter_map, List.filter_map, List.map_map, List.map_map]
    rfl

/-! ### C11 -/

/-- C11, partial: for periodic conditions declared in a supported order (`GoodOrder`, see
`Spec`; e.g. every pair has two new or two already mentioned DOFs, `C11_box_order`), DOFs
linked by declared pairs have the same value in every full vector, and two active DOFs
have the same equation iff they are linked.  Missing: other declaration orders, for which
the statement is false (`C11_counterexample_dropped`, `C11_counterexample_dangling`). -/
theorem C11_linked_tied_partial [Zero α] (ord : List Nat → List Nat)
    (hord : ∀ l, (ord l).Perm l) (n : Nat) (bcs : List (BC α)) (hr : InRange n bcs)
    (hg : GoodOrder bcs) (unused : List Nat) :
    (∀ (r vec : Nat → α) (rOff off : Nat) (force : Option α) (i j : Nat), i < n →
      Linked (declared bcs) i j →
      getFull (mapEquations ord n bcs unused) r rOff force vec off (off + i) =
      getFull (mapEquations ord n bcs unused) r rOff force vec off (off + j)) ∧
    (∀ i j, i < n → j < n → 0 ≤ (mapEquations ord n bcs unused).eq i →
      ((mapEquations ord n bcs unused).eq i = (mapEquations ord n bcs unused).eq j ↔
        Linked (declared bcs) i j)) := by
  have ht := finalMs_tied ord hord hg
  constructor
  · intro r vec rOff off force i j hi hl
    have hj := linked_lt hr hl hi
    rw [mapEquations_eq, getFull_root _ _ _ _ _ _ _ _ _ _ _ hi,
      getFull_root _ _ _ _ _ _ _ _ _ _ _ hj, (ht.root_eq_iff i j).2 hl]
  · intro i j hi hj h0
    constructor
    · intro e
      have ei : (mapEquations ord n bcs unused).eq i =
        (((mapEquations ord n bcs unused).eq i).toNat : Nat) := by omega
      have ej : (mapEquations ord n bcs unused).eq j =
        (((mapEquations ord n bcs unused).eq i).toNat : Nat) := by omega
      rw [eq_free hord hr hi] at ei
      rw [eq_free hord hr hj] at ej
      rw [ei] at ej
      exact (ht.root_eq_iff i j).1 (Option.some.inj ej)
    · intro hl
      rw [eq_root hi, eq_root hj, (ht.root_eq_iff i j).2 hl]

/-- The simple user-level order restriction implies `GoodOrder`. -/
theorem C11_box_order (bcs : List (BC α)) (h : BothOldOrNew [] (epbcLists bcs)) :
    GoodOrder bcs :=
  bothOldOrNew_good [] [] (fun _ => Iff.rfl) _ h

/-- The iteration order of a small CPython set of small non-negative ints: ascending. -/
def ascOrd (l : List Nat) : List Nat := l.insertionSort (· ≤ ·)

theorem ascOrd_perm (l : List Nat) : (ascOrd l).Perm l := List.perm_insertionSort _ l

/-- Three chained conditions 0-1, 1-2, 2-3. -/
def droppedBcs : List (BC Int) := [.epbc [(0, 1)], .epbc [(1, 2)], .epbc [(2, 3)]]

/-- C11 is false in general: with the conditions (0,1), (1,2), (2,3) DOFs 2 and 3 are
declared periodic but are not tied: some reduced vector expands to different values. -/
theorem C11_counterexample_dropped :
    InRange 4 droppedBcs ∧ Linked (declared droppedBcs) 2 3 ∧
    ∃ r : Nat → Int, ∀ vec,
      getFull (mapEquations ascOrd 4 droppedBcs []) r 0 none vec 0 2 ≠
      getFull (mapEquations ascOrd 4 droppedBcs []) r 0 none vec 0 3 := by
  refine ⟨by simp [InRange, droppedBcs, declared, epbcLists, ebcItems], .rel _ _ (by decide), ?_⟩
  have hg : groupChains ascOrd (loopBCs droppedBcs).chains = [[0, 1, 2]] := by
    have : (loopBCs droppedBcs).chains = [(1, 0), (1, 2)] := by decide
    rw [this]
    simp [groupChains, groupSets, absorb, List.insert, ascOrd]
  refine ⟨fun j => (j : Int), fun vec => ?_⟩
  rw [mapEquations_eq]
  unfold finalMs
  rw [hg]
  exact (by decide : (0 : Int) ≠ 1)

/-- Three conditions 3-1, 1-0, 2-0. -/
def danglingBcs : List (BC Int) := [.epbc [(3, 1)], .epbc [(1, 0)], .epbc [(2, 0)]]

/-- C11 is false in general: with the conditions (3,1), (1,0), (2,0) DOF 2 becomes a master
of a master: its value in the full vector is whatever the uninitialised buffer contained
at DOF 0, and it carries no equation although nothing is prescribed. -/
theorem C11_counterexample_dangling :
    InRange 4 danglingBcs ∧ Linked (declared danglingBcs) 2 0 ∧
    (∀ (r vec : Nat → Int),
      getFull (mapEquations ascOrd 4 danglingBcs []) r 0 none vec 0 2 = vec 0) ∧
    (∀ (r vec : Nat → Int),
      getFull (mapEquations ascOrd 4 danglingBcs []) r 0 none vec 0 0 = r 0) ∧
    (mapEquations ascOrd 4 danglingBcs []).eq 2 < 0 ∧ ebcItems danglingBcs = [] := by
  have hg : groupChains ascOrd (loopBCs danglingBcs).chains = [[0, 1, 3]] := by
    have : (loopBCs danglingBcs).chains = [(1, 3), (1, 0)] := by decide
    rw [this]
    simp [groupChains, groupSets, absorb, List.insert, ascOrd]
  refine ⟨by simp [InRange, danglingBcs, declared, epbcLists, ebcItems], .rel _ _ (by decide),
    ?_, ?_, ?_, rfl⟩
  · intro r vec; rw [mapEquations_eq]; unfold finalMs; rw [hg]; rfl
  · intro r vec; rw [mapEquations_eq]; unfold finalMs; rw [hg]; rfl
  · rw [mapEquations_eq]; unfold finalMs; rw [hg]; decide

/-! ### Non-vacuity of the hypotheses of C04 - C09, C11 -/

/-- A square with corners 1, 2, 3, 4 tied in two directions, 0 fixed, 5 free, 6 unused. -/
def sampleBcs : List (BC Int) :=
  [.ebc [(0, 5)], .epbc [(1, 2), (3, 4)], .skip, .epbc [(1, 3), (2, 4)]]

theorem sample_ok : InRange 7 sampleBcs ∧ GoodOrder sampleBcs ∧ Consistent sampleBcs ∧
    Prescribed sampleBcs 0 5 ∧ Linked (declared sampleBcs) 1 4 ∧
    (∀ i ∈ [6], i ∉ ends (declared sampleBcs)) := by
  refine ⟨by simp [InRange, sampleBcs, declared, epbcLists, ebcItems], ?_, ?_, rfl,
    .trans _ 2 _ (.rel _ _ (by decide)) (.rel _ _ (by decide)), by decide⟩
  · apply C11_box_order
    simp [sampleBcs, epbcLists, BothOldOrNew, ends]
  · intro i j x y _ hx hy
    simp only [Prescribed, sampleBcs, ebcItems, List.append_nil, List.reverse_singleton,
      List.find?_singleton] at hx hy
    split at hx <;> split at hy <;> simp_all

/-- The mapping of the sample: one equation for the corners, one for DOF 5. -/
example : (List.range 7).map (mapEquations ascOrd 7 sampleBcs [6]).eq = [-2, 0, 0, 0, 0, 1, -3] := by
  have hg : groupChains ascOrd (loopBCs sampleBcs).chains = [[1, 2, 3, 4]] := by
    have : (loopBCs sampleBcs).chains = [(1, 2), (2, 1), (3, 4), (4, 3), (1, 3), (2, 4)] := by decide
    rw [this]
    simp [groupChains, groupSets, absorb, List.insert, ascOrd]
  rw [mapEquations_eq]
  unfold finalMs
  rw [hg]
  decide

example (r vec : Nat → Int) :
    getFull (mapEquations ascOrd 7 sampleBcs [6]) r 0 none vec 10 (10 + 0) = 5 :=
  (C05_full_satisfies_conditions ascOrd ascOrd_perm 7 sampleBcs sample_ok.1 sample_ok.2.1
    sample_ok.2.2.1 [6] r 0 vec 10).1 0 5 rfl

end Verif.Dof
