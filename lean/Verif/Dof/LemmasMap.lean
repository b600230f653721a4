import Verif.Dof.Model
import Mathlib.Data.List.Nodup
/-
Pointwise description of the arrays computed by `finishMap`.
-/
namespace Verif.Dof
open Verif.Np

variable {α : Type}

theorem zip_map_self {β γ : Type} (l : List β) (f : β → γ) :
    l.zip (l.map f) = l.map fun i => (i, f i) := by
  induction l with
  | nil => rfl
  | cons a l ih => simp [ih]

theorem scatter_map_self {β : Type} (l : List β) (v : Nat → α) (g : β → Nat)
    (hg : Function.Injective g) (f : β → α) (j : β) [Decidable (j ∈ l)] :
    scatter v (l.map fun i => (g i, f i)) (g j) = if j ∈ l then f j else v (g j) := by
  split
  · next h =>
    apply scatter_eq
    · exact ⟨(g j, f j), List.mem_map.2 ⟨j, h, rfl⟩, rfl⟩
    · intro p hp e
      obtain ⟨i, _, rfl⟩ := List.mem_map.1 hp
      exact congrArg f (hg e)
  · next h =>
    apply scatter_of_not_mem
    intro p hp e
    obtain ⟨i, hi, rfl⟩ := List.mem_map.1 hp
    exact h ((hg e) ▸ hi)

theorem scatter_zipIdx (l : List Nat) (hl : l.Nodup) (v : Nat → α) (g : Nat → Nat)
    (hg : Function.Injective g) (f : Nat → α) (k : Nat) (hk : k < l.length) :
    scatter v (l.zipIdx.map fun p => (g p.1, f p.2)) (g l[k]) = f k := by
  apply scatter_eq
  · refine ⟨(g l[k], f k), List.mem_map.2 ⟨(l[k], k), ?_, rfl⟩, rfl⟩
    rw [List.mem_zipIdx_iff_getElem?]; simp [hk]
  · intro p hp e
    obtain ⟨⟨i, m⟩, hi, rfl⟩ := List.mem_map.1 hp
    rw [List.mem_zipIdx_iff_getElem?] at hi
    obtain ⟨hm, hi⟩ := List.getElem?_eq_some_iff.1 hi
    have := hg e
    rw [← hi] at this
    have := (List.Nodup.getElem_inj_iff hl).1 this
    exact congrArg f this

theorem scatter_zipIdx_not_mem (l : List Nat) (v : Nat → α) (g : Nat → Nat)
    (hg : Function.Injective g) (f : Nat → α) (j : Nat) (hj : j ∉ l) :
    scatter v (l.zipIdx.map fun p => (g p.1, f p.2)) (g j) = v (g j) := by
  apply scatter_of_not_mem
  intro p hp e
  obtain ⟨⟨i, m⟩, hi, rfl⟩ := List.mem_map.1 hp
  rw [List.mem_zipIdx_iff_getElem?] at hi
  obtain ⟨hm, hi⟩ := List.getElem?_eq_some_iff.1 hi
  have := hg e
  exact hj (this ▸ hi ▸ List.getElem_mem _)

theorem scatterConst_id_neg (n : Nat) (l1 l2 l3 : List Nat) :
    ((((List.range n).map (scatterConst (scatterConst (scatterConst (fun i => (i : Int)) l1 (-2))
      l2 (-1)) l3 (-3))).filter fun e => decide (0 ≤ e)).map Int.toNat) =
    (List.range n).filter fun i => decide (i ∉ l1 ∧ i ∉ l2 ∧ i ∉ l3) := by
  rw [List.filter_map, List.map_map]
  have h : ∀ l : List Nat, (∀ i ∈ l, True) →
      List.map (Int.toNat ∘ scatterConst (scatterConst (scatterConst (fun i => (i : Int)) l1 (-2))
      l2 (-1)) l3 (-3)) (List.filter ((fun e => decide (0 ≤ e)) ∘ scatterConst (scatterConst (scatterConst (fun i => (i : Int)) l1 (-2))
      l2 (-1)) l3 (-3)) l) = l.filter fun i => decide (i ∉ l1 ∧ i ∉ l2 ∧ i ∉ l3) := by
    intro l _
    induction l with
    | nil => rfl
    | cons a l ih =>
      rw [List.filter_cons, List.filter_cons]
      simp only [Function.comp, scatterConst_apply] at ih ⊢
      by_cases h3 : a ∈ l3
      · simp [h3]; simpa using ih
      · by_cases h2 : a ∈ l2
        · simp [h3, h2]; simpa using ih
        · by_cases h1 : a ∈ l1
          · simp [h1, h2, h3]; simpa using ih
          · simp [h1, h2, h3, scatterConst_apply]; simpa using ih
  exact h _ (by simp)

/-- The slave of `i` according to `ms`. -/
def sl (ms : Nat → Int) (i : Nat) : Nat := (ms i - 1).toNat

section
variable (n : Nat) (eqEbc0 : Nat → Bool) (valEbc0 : Nat → α) (ms : Nat → Int)
  (unused : List Nat)

theorem finishMap_master : (finishMap n eqEbc0 valEbc0 ms unused).master =
    nonzero n fun i => decide (ms i > 0) := rfl

theorem finishMap_slave : (finishMap n eqEbc0 valEbc0 ms unused).slave =
    (finishMap n eqEbc0 valEbc0 ms unused).master.map (sl ms) := rfl

theorem mem_master {i : Nat} : i ∈ (finishMap n eqEbc0 valEbc0 ms unused).master ↔
    i < n ∧ 0 < ms i := by
  rw [finishMap_master, mem_nonzero]; simp

theorem nodup_nonzero (mask : Nat → Bool) : (nonzero n mask).Nodup :=
  List.Nodup.filter _ List.nodup_range

theorem finishMap_zip : (finishMap n eqEbc0 valEbc0 ms unused).master.zip
    (finishMap n eqEbc0 valEbc0 ms unused).slave =
    (finishMap n eqEbc0 valEbc0 ms unused).master.map fun i => (i, sl ms i) := by
  rw [finishMap_slave, zip_map_self]

theorem mem_pairs {a b : Nat} : (a, b) ∈ (finishMap n eqEbc0 valEbc0 ms unused).master.zip
    (finishMap n eqEbc0 valEbc0 ms unused).slave ↔ a < n ∧ 0 < ms a ∧ b = sl ms a := by
  rw [finishMap_zip, List.mem_map]
  constructor
  · rintro ⟨i, hi, e⟩
    cases e
    exact ⟨((mem_master ..).1 hi).1, ((mem_master ..).1 hi).2, rfl⟩
  · rintro ⟨h1, h2, rfl⟩
    exact ⟨a, (mem_master ..).2 ⟨h1, h2⟩, rfl⟩

theorem finishMap_eqi : (finishMap n eqEbc0 valEbc0 ms unused).eqi =
    (List.range n).filter fun i => decide (i ∉ (finishMap n eqEbc0 valEbc0 ms unused).eqEbc ∧
      i ∉ (finishMap n eqEbc0 valEbc0 ms unused).master ∧ i ∉ unused) :=
  scatterConst_id_neg n _ _ unused

theorem mem_eqi {i : Nat} : i ∈ (finishMap n eqEbc0 valEbc0 ms unused).eqi ↔
    i < n ∧ i ∉ (finishMap n eqEbc0 valEbc0 ms unused).eqEbc ∧
      i ∉ (finishMap n eqEbc0 valEbc0 ms unused).master ∧ i ∉ unused := by
  rw [finishMap_eqi, List.mem_filter]; simp

theorem eqi_nodup : (finishMap n eqEbc0 valEbc0 ms unused).eqi.Nodup := by
  rw [finishMap_eqi]; exact List.Nodup.filter _ List.nodup_range

theorem eqi_sorted : (finishMap n eqEbc0 valEbc0 ms unused).eqi.Pairwise (· < ·) := by
  rw [finishMap_eqi]; exact List.Pairwise.filter _ List.pairwise_lt_range

/-- The equation numbers before the masters are given those of their slaves. -/
def eq4 : Nat → Int :=
  scatter
    (scatterConst (scatterConst (scatterConst (fun i => (i : Int))
      (finishMap n eqEbc0 valEbc0 ms unused).eqEbc (-2))
      (finishMap n eqEbc0 valEbc0 ms unused).master (-1)) unused (-3))
    ((finishMap n eqEbc0 valEbc0 ms unused).eqi.zipIdx.map fun p => (p.1, (p.2 : Int)))

theorem finishMap_eq_def : (finishMap n eqEbc0 valEbc0 ms unused).eq =
    scatter (eq4 n eqEbc0 valEbc0 ms unused)
      (((finishMap n eqEbc0 valEbc0 ms unused).master.zip
        (finishMap n eqEbc0 valEbc0 ms unused).slave).map
        fun p => (p.1, eq4 n eqEbc0 valEbc0 ms unused p.2)) := rfl

theorem finishMap_eq_apply (i : Nat) : (finishMap n eqEbc0 valEbc0 ms unused).eq i =
    if i < n ∧ 0 < ms i then eq4 n eqEbc0 valEbc0 ms unused (sl ms i)
    else eq4 n eqEbc0 valEbc0 ms unused i := by
  rw [finishMap_eq_def, finishMap_zip, List.map_map]
  have := scatter_map_self (finishMap n eqEbc0 valEbc0 ms unused).master
    (eq4 n eqEbc0 valEbc0 ms unused) id (fun _ _ h => h)
    (fun i => eq4 n eqEbc0 valEbc0 ms unused (sl ms i)) i
  simp only [id] at this
  simp only [mem_master] at this
  exact this

theorem eq4_eqi (k : Nat) (hk : k < (finishMap n eqEbc0 valEbc0 ms unused).eqi.length) :
    eq4 n eqEbc0 valEbc0 ms unused ((finishMap n eqEbc0 valEbc0 ms unused).eqi[k]) = k :=
  scatter_zipIdx _ (eqi_nodup ..) _ id (fun _ _ h => h) (fun k => (k : Int)) k hk

theorem eq4_not_eqi (i : Nat) (hi : i < n)
    (h : i ∉ (finishMap n eqEbc0 valEbc0 ms unused).eqi) :
    eq4 n eqEbc0 valEbc0 ms unused i < 0 := by
  unfold eq4
  have := scatter_zipIdx_not_mem (finishMap n eqEbc0 valEbc0 ms unused).eqi
    (scatterConst (scatterConst (scatterConst (fun i => (i : Int))
      (finishMap n eqEbc0 valEbc0 ms unused).eqEbc (-2))
      (finishMap n eqEbc0 valEbc0 ms unused).master (-1)) unused (-3))
    id (fun _ _ h => h) (fun k => (k : Int)) i h
  simp only [id] at this
  rw [this]
  simp only [scatterConst_apply]
  rw [mem_eqi] at h
  split
  · decide
  · split
    · decide
    · split
      · decide
      · exact absurd ⟨hi, by assumption, by assumption, by assumption⟩ h

/-- The final essential flag, before `nonzero`. -/
theorem mem_eqEbc {i : Nat} : i ∈ (finishMap n eqEbc0 valEbc0 ms unused).eqEbc ↔
    i < n ∧ (eqEbc0 i = true ∨ (∃ a < n, 0 < ms a ∧ eqEbc0 a = true ∧ sl ms a = i) ∨
      (0 < ms i ∧ eqEbc0 (sl ms i) = true)) := by
  unfold finishMap
  dsimp only
  rw [mem_nonzero]
  apply and_congr_right
  intro hi
  have hz : ∀ f : Nat → Nat, ∀ l : List Nat, l.zip (l.map f) = l.map fun i => (i, f i) :=
    fun f l => zip_map_self l f
  rw [hz]
  -- first scatter
  generalize hM : (nonzero n fun i => decide (ms i > 0)) = M
  have hMm : ∀ a, a ∈ M ↔ a < n ∧ 0 < ms a := by
    intro a; rw [← hM, mem_nonzero]; simp
  have h1 : ∀ j, scatter eqEbc0 (((M.map fun i => (i, (ms i - 1).toNat)).filter
      fun p => eqEbc0 p.1).map fun p => (p.2, eqEbc0 p.1)) j = true ↔
      eqEbc0 j = true ∨ ∃ a < n, 0 < ms a ∧ eqEbc0 a = true ∧ sl ms a = j := by
    intro j
    by_cases h : ∃ a ∈ M, eqEbc0 a = true ∧ sl ms a = j
    · have hb : scatter eqEbc0 (((M.map fun i => (i, (ms i - 1).toNat)).filter
          fun p => eqEbc0 p.1).map fun p => (p.2, eqEbc0 p.1)) j = true := by
        apply scatter_eq
        · obtain ⟨a, ha, he, hj⟩ := h
          refine ⟨(sl ms a, eqEbc0 a), List.mem_map.2 ⟨(a, sl ms a), List.mem_filter.2
            ⟨List.mem_map.2 ⟨a, ha, rfl⟩, he⟩, rfl⟩, hj⟩
        · intro p hp _
          obtain ⟨q, hq, rfl⟩ := List.mem_map.1 hp
          exact (List.mem_filter.1 hq).2
      rw [hb]
      obtain ⟨a, ha, he, hj⟩ := h
      have := (hMm a).1 ha
      exact ⟨fun _ => .inr ⟨a, this.1, this.2, he, hj⟩, fun _ => rfl⟩
    · rw [scatter_of_not_mem]
      · constructor
        · exact .inl
        · rintro (h' | ⟨a, h1, h2, h3, h4⟩)
          · exact h'
          · exact absurd ⟨a, (hMm a).2 ⟨h1, h2⟩, h3, h4⟩ h
      · intro p hp e
        obtain ⟨q, hq, rfl⟩ := List.mem_map.1 hp
        obtain ⟨hq1, hq2⟩ := List.mem_filter.1 hq
        obtain ⟨a, ha, rfl⟩ := List.mem_map.1 hq1
        exact h ⟨a, ha, hq2, e⟩
  generalize scatter eqEbc0 (((M.map fun i => (i, (ms i - 1).toNat)).filter
      fun p => eqEbc0 p.1).map fun p => (p.2, eqEbc0 p.1)) = e1 at h1
  by_cases h : 0 < ms i ∧ eqEbc0 (sl ms i) = true
  · have hb : scatter e1 (((M.map fun i => (i, (ms i - 1).toNat)).filter
        fun p => eqEbc0 p.2).map fun p => (p.1, e1 p.2)) i = true := by
      apply scatter_eq
      · exact ⟨(i, e1 (sl ms i)), List.mem_map.2 ⟨(i, sl ms i), List.mem_filter.2
          ⟨List.mem_map.2 ⟨i, (hMm i).2 ⟨hi, h.1⟩, rfl⟩, h.2⟩, rfl⟩, rfl⟩
      · intro p hp _
        obtain ⟨q, hq, rfl⟩ := List.mem_map.1 hp
        exact (h1 _).2 (.inl (List.mem_filter.1 hq).2)
    rw [hb]; exact ⟨fun _ => .inr (.inr h), fun _ => rfl⟩
  · rw [scatter_of_not_mem, h1]
    · constructor
      · rintro (h' | h')
        · exact .inl h'
        · exact .inr (.inl h')
      · rintro (h' | h' | h')
        · exact .inl h'
        · exact .inr h'
        · exact absurd h' h
    · intro p hp e
      obtain ⟨q, hq, rfl⟩ := List.mem_map.1 hp
      obtain ⟨hq1, hq2⟩ := List.mem_filter.1 hq
      obtain ⟨a, ha, rfl⟩ := List.mem_map.1 hq1
      simp only at e
      subst e
      exact h ⟨((hMm a).1 ha).2, hq2⟩

theorem eqEbc_nodup : (finishMap n eqEbc0 valEbc0 ms unused).eqEbc.Nodup := by
  unfold finishMap; exact nodup_nonzero ..

end
end Verif.Dof
