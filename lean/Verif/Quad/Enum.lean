/-
The enumeration of the points of the simplex cubature: every multi-index of the right sum occurs exactly
once; and the extended Euclidean algorithm.
-/
import Verif.Quad.Model
import Mathlib.Data.List.Perm.Basic
import Mathlib.Data.List.Perm.Subperm
import Mathlib.Data.List.Permutation
import Mathlib.Data.List.Nodup
import Mathlib.Data.List.Sort
import Mathlib.Data.List.Range

namespace Quad

/-! ## Extended Euclidean algorithm -/

theorem euclidLoop_spec (q0 r0 : ℤ) : ∀ (q r : ℤ) (Q R : ℤ × ℤ),
    q = Q.1 * q0 + Q.2 * r0 → r = R.1 * q0 + R.2 * r0 → Int.gcd q r = Int.gcd q0 r0 →
    let p := euclidLoop q r Q R
    p.1 = p.2.1 * q0 + p.2.2 * r0 ∧ p.1.natAbs = Int.gcd q0 r0 := by
  intro q r Q R
  induction q, r, Q, R using euclidLoop.induct with
  | case1 q Q R =>
    intro hq hr hg
    rw [euclidLoop]
    simp only [dite_true]
    exact ⟨hq, by rw [← hg, Int.gcd_zero_right]⟩
  | case2 q r Q R h quot t ih =>
    intro hq hr hg
    rw [euclidLoop]
    simp only [dif_neg h]
    have ht : t = q - r * quot := Int.fmod_def q r
    apply ih hr
    · rw [ht, hr, hq]
      simp only
      ring
    · rw [← hg, ht]
      have := Int.gcd_sub_mul_left_right r q quot
      rw [Int.gcd_comm q r]
      exact this

theorem extEuclid_spec (q r : ℤ) : (extEuclid q r).1 = (extEuclid q r).2.1 * q + (extEuclid q r).2.2 * r ∧
    (extEuclid q r).1.natAbs = Int.gcd q r := by
  unfold extEuclid
  split
  · have := euclidLoop_spec r q r q (1, 0) (0, 1) (by simp) (by simp) rfl
    simp only at this ⊢
    refine ⟨by rw [this.1]; ring, by rw [this.2, Int.gcd_comm]⟩
  · exact euclidLoop_spec q r q r (1, 0) (0, 1) (by simp) (by simp) rfl

/-- A simplified fraction has the same value. -/
theorem simplifyFraction_value {K : Type} [Field K] [CharZero K] (a b : ℤ) (hb : b ≠ 0) :
    ((simplifyFraction a b).1 : K) / ((simplifyFraction a b).2 : K) = (a : K) / (b : K) := by
  obtain ⟨_, h2⟩ := extEuclid_spec a b
  unfold simplifyFraction
  simp only
  generalize (extEuclid a b).1 = g at h2
  have hg0 : g ≠ 0 := by
    intro h
    rw [h] at h2
    have := Int.gcd_pos_of_ne_zero_right a hb
    simp at h2
    omega
  have hda : g ∣ a := by rw [← Int.natAbs_dvd, h2]; exact Int.gcd_dvd_left ..
  have hdb : g ∣ b := by rw [← Int.natAbs_dvd, h2]; exact Int.gcd_dvd_right ..
  obtain ⟨a', rfl⟩ := hda
  obtain ⟨b', rfl⟩ := hdb
  rw [Int.mul_fdiv_cancel_left _ hg0, Int.mul_fdiv_cancel_left _ hg0]
  push_cast
  have hgK : (g : K) ≠ 0 := by exact_mod_cast hg0
  rw [mul_div_mul_left _ _ hgK]

/-! ## Decreasing tuples -/

theorem mapM_some {α β : Type} (f : α → Option β) (g : α → β) :
    ∀ l : List α, (∀ i ∈ l, f i = some (g i)) → l.mapM f = some (l.map g) := by
  intro l
  induction l with
  | nil => intro _; rfl
  | cons a l ih =>
    intro h
    rw [List.mapM_cons, h a (by simp), ih fun i hi => h i (by simp [hi])]
    rfl

theorem exists_fun_of_forall {α β : Type} [Inhabited β] (l : List α) (P : α → β → Prop)
    (h : ∀ i ∈ l, ∃ b, P i b) : ∃ g : α → β, ∀ i ∈ l, P i (g i) := by
  classical
  refine ⟨fun i => if hi : i ∈ l then (h i hi).choose else default, fun i hi => ?_⟩
  simp only [dif_pos hi]
  exact (h i hi).choose_spec

/-- What the decreasing tuples are. -/
def IsDec (len n : ℕ) (mx : Option ℕ) (t : List ℕ) : Prop :=
  t.length = len ∧ t.sum = n ∧ t.Pairwise (· ≥ ·) ∧ ∀ x ∈ t.head?, ∀ m ∈ mx, x ≤ m

theorem decTuples_spec : ∀ (l n : ℕ) (mx : Option ℕ), (l = 0 → mx ≠ none) →
    ∃ L, decTuples n (l + 1) mx = some L ∧ L.Nodup ∧ ∀ t, t ∈ L ↔ IsDec (l + 1) n mx t := by
  intro l
  induction l with
  | zero =>
    intro n mx h
    rcases mx with _ | m
    · exact absurd rfl (h rfl)
    · by_cases hn : n ≤ m
      · refine ⟨[[n]], by simp [decTuples, hn], by simp, fun t => ?_⟩
        constructor
        · intro ht
          obtain rfl : t = [n] := by simpa using ht
          simp [IsDec, hn]
        · rintro ⟨h1, h2, -, -⟩
          rw [zero_add, List.length_eq_one_iff] at h1
          obtain ⟨a, rfl⟩ := h1
          simp at h2
          simp [h2]
      · refine ⟨[], by simp [decTuples, hn], by simp, fun t => ?_⟩
        constructor
        · intro ht; simp at ht
        · rintro ⟨h1, h2, -, h4⟩
          rw [zero_add, List.length_eq_one_iff] at h1
          obtain ⟨a, rfl⟩ := h1
          simp at h2 h4
          omega
  | succ l ih =>
    intro n mx h0
    clear h0
    obtain ⟨m, hm, hmn, hmx, hle⟩ : ∃ m : ℕ, effMax n mx = m ∧ m ≤ n ∧ (∀ v ∈ mx, m ≤ v) ∧
        ∀ i, i ≤ n → (∀ v ∈ mx, i ≤ v) → i ≤ m := by
      rcases mx with _ | v
      · exact ⟨n, rfl, le_refl _, by simp, fun i hi _ => hi⟩
      · by_cases hv : n < v
        · exact ⟨n, by simp [effMax, hv], le_refl _, by simp; omega, fun i hi _ => hi⟩
        · exact ⟨v, by simp [effMax, hv], by omega, by simp, fun i _ h => h v rfl⟩
    have hex : ∀ i ∈ List.range (m + 1), ∃ L, decTuples (n - i) (l + 1) (some i) = some L ∧ L.Nodup ∧
        ∀ t, t ∈ L ↔ IsDec (l + 1) (n - i) (some i) t := fun i _ => ih (n - i) (some i) (by simp)
    obtain ⟨g, hg⟩ := exists_fun_of_forall _ _ hex
    refine ⟨((List.range (m + 1)).map fun i => (g i).map fun r => i :: r).flatten, ?_, ?_, fun t => ?_⟩
    · rw [decTuples.eq_def]
      simp only [hm]
      rw [mapM_some _ (fun i => (g i).map fun r => i :: r)]
      · rfl
      · intro i hi
        rw [(hg i hi).1]
        rfl
    · rw [List.nodup_flatten]
      refine ⟨?_, ?_⟩
      · intro L hL
        rw [List.mem_map] at hL
        obtain ⟨i, hi, rfl⟩ := hL
        exact (hg i hi).2.1.map fun a b h => by simpa using h
      · rw [List.pairwise_map]
        refine List.nodup_range.imp fun {i j} hij => ?_
        rw [List.disjoint_left]
        intro t h1 h2
        rw [List.mem_map] at h1 h2
        obtain ⟨_, _, rfl⟩ := h1
        obtain ⟨_, _, h3⟩ := h2
        simp at h3
        exact hij h3.1.symm
    · rw [List.mem_flatten]
      constructor
      · rintro ⟨L, hL, ht⟩
        rw [List.mem_map] at hL
        obtain ⟨i, hi, rfl⟩ := hL
        rw [List.mem_map] at ht
        obtain ⟨r, hr, rfl⟩ := ht
        have hr' := ((hg i hi).2.2 r).1 hr
        rw [List.mem_range] at hi
        obtain ⟨a1, a2, a3, a4⟩ := hr'
        refine ⟨by simp [a1], by rw [List.sum_cons, a2]; omega, ?_, ?_⟩
        · rw [List.pairwise_cons]
          refine ⟨fun x hx => ?_, a3⟩
          rcases r with _ | ⟨y, r⟩
          · simp at hx
          · have hy : y ≤ i := a4 y (by simp) i (by simp)
            rcases List.mem_cons.1 hx with rfl | hx
            · exact hy
            · exact le_trans ((List.pairwise_cons.1 a3).1 x hx) hy
        · intro x hx v hv
          obtain rfl : x = i := by simpa using hx.symm
          exact le_trans (by omega) (hmx v hv)
      · rintro ⟨a1, a2, a3, a4⟩
        rcases t with _ | ⟨i, r⟩
        · simp at a1
        · have hi : i ≤ m := hle i (by rw [← a2, List.sum_cons]; omega) (a4 i (by simp))
          have hmem : i ∈ List.range (m + 1) := List.mem_range.2 (by omega)
          refine ⟨_, List.mem_map.2 ⟨i, hmem, rfl⟩, List.mem_map.2 ⟨r, ?_, rfl⟩⟩
          refine ((hg i hmem).2.2 r).2 ⟨by simpa using a1, by rw [← a2, List.sum_cons]; omega,
            (List.pairwise_cons.1 a3).2, ?_⟩
          intro x hx v hv
          obtain rfl : v = i := by simpa using hv.symm
          exact (List.pairwise_cons.1 a3).1 x (List.mem_of_mem_head? hx)

/-! ## Permutations -/

theorem mem_insertAll (a : ℕ) (perm l : List ℕ) :
    l ∈ insertAll a perm ↔ ∃ s t, perm = s ++ t ∧ l = s ++ a :: t := by
  unfold insertAll
  rw [List.mem_map]
  constructor
  · rintro ⟨i, _, rfl⟩
    exact ⟨perm.take i, perm.drop i, (List.take_append_drop i perm).symm, by simp⟩
  · rintro ⟨s, t, rfl, rfl⟩
    refine ⟨s.length, List.mem_range.2 (by simp), by simp⟩

theorem mem_genPerms (l : List ℕ) : ∀ p : List ℕ, p ∈ genPerms l ↔ p.Perm l := by
  induction l using genPerms.induct with
  | case1 => intro p; simp [genPerms]
  | case2 a => intro p; simp [genPerms]
  | case3 a b l ih =>
    intro p
    rw [genPerms, List.mem_flatMap]
    constructor
    · rintro ⟨q, hq, hp⟩
      rw [mem_insertAll] at hp
      obtain ⟨s, t, rfl, rfl⟩ := hp
      exact List.perm_middle.trans (((ih _).1 hq).cons a)
    · intro hp
      have ha : a ∈ p := hp.mem_iff.2 (by simp)
      obtain ⟨s, t, rfl⟩ := List.append_of_mem ha
      refine ⟨s ++ t, (ih _).2 ?_, (mem_insertAll _ _ _).2 ⟨s, t, rfl, rfl⟩⟩
      exact (List.perm_middle.symm.trans hp).cons_inv

theorem uniqueLoop_spec (l : List (List ℕ)) : ∀ had : List (List ℕ),
    (uniqueLoop had l).Nodup ∧ ∀ p, p ∈ uniqueLoop had l ↔ p ∈ l ∧ p ∉ had := by
  induction l with
  | nil => intro had; simp [uniqueLoop]
  | cons q l ih =>
    intro had
    rw [uniqueLoop]
    split
    · rename_i h
      refine ⟨(ih had).1, fun p => ?_⟩
      rw [(ih had).2, List.mem_cons]
      constructor
      · exact fun hh => ⟨Or.inr hh.1, hh.2⟩
      · rintro ⟨rfl | h1, h2⟩
        · exact absurd h h2
        · exact ⟨h1, h2⟩
    · rename_i h
      refine ⟨List.nodup_cons.2 ⟨?_, (ih _).1⟩, fun p => ?_⟩
      · rw [(ih _).2]
        simp
      · rw [List.mem_cons, (ih _).2, List.mem_cons, List.mem_cons]
        constructor
        · rintro (rfl | ⟨h1, h2⟩)
          · exact ⟨Or.inl rfl, h⟩
          · exact ⟨Or.inr h1, fun h3 => h2 (Or.inr h3)⟩
        · rintro ⟨rfl | h1, h2⟩
          · exact Or.inl rfl
          · by_cases hpq : p = q
            · exact Or.inl hpq
            · exact Or.inr ⟨h1, fun h3 => h3.elim hpq h2⟩

theorem uniquePerms_spec (l : List ℕ) :
    (uniquePerms l).Nodup ∧ ∀ p, p ∈ uniquePerms l ↔ p.Perm l := by
  refine ⟨(uniqueLoop_spec _ _).1, fun p => ?_⟩
  rw [uniquePerms, (uniqueLoop_spec _ _).2, mem_genPerms]
  simp

/-- Every multi-index of length `n + 1` and sum `k` is enumerated exactly once. -/
theorem betas_spec (k n : ℕ) (hn : 1 ≤ n) : ∃ L, decTuples k (n + 1) none = some L ∧
    (L.flatMap uniquePerms).Nodup ∧
    ∀ b, b ∈ L.flatMap uniquePerms ↔ b.length = n + 1 ∧ b.sum = k := by
  obtain ⟨L, h1, h2, h3⟩ := decTuples_spec n k none (by omega)
  refine ⟨L, h1, ?_, fun b => ?_⟩
  · rw [List.nodup_flatMap]
    refine ⟨fun t _ => (uniquePerms_spec t).1, ?_⟩
    refine List.Pairwise.imp_of_mem (R := (· ≠ ·)) ?_ h2
    intro s t hs ht hst
    simp only [Function.onFun]
    rw [List.disjoint_left]
    intro p hp hq
    rw [(uniquePerms_spec _).2] at hp hq
    apply hst
    exact List.Perm.eq_of_pairwise (fun a b _ _ h1 h2 => le_antisymm h2 h1) ((h3 s).1 hs).2.2.1
      ((h3 t).1 ht).2.2.1 (hp.symm.trans hq)
  · rw [List.mem_flatMap]
    constructor
    · rintro ⟨t, ht, hb⟩
      rw [(uniquePerms_spec _).2] at hb
      have := (h3 t).1 ht
      exact ⟨hb.length_eq.trans this.1, hb.sum_eq.trans this.2.1⟩
    · rintro ⟨a1, a2⟩
      have hp := List.mergeSort_perm b (fun x y => decide (x ≥ y))
      refine ⟨b.mergeSort (fun x y => decide (x ≥ y)), (h3 _).2 ⟨?_, ?_, ?_, by simp⟩,
        (uniquePerms_spec _).2 _ |>.2 hp.symm⟩
      · rw [hp.length_eq, a1]
      · rw [hp.sum_eq, a2]
      · have := List.pairwise_mergeSort (le := fun x y : ℕ => decide (x ≥ y))
          (fun a b c h1 h2 => by simp at *; omega) (fun a b => by simp; omega) b
        exact this.imp fun h => by simpa using h

end Quad
