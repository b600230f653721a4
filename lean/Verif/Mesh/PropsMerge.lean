/-
C68: merging of meshes.
-/
import Mathlib.Tactic.Linarith
import Mathlib.Tactic.Positivity
import Mathlib.Tactic.Ring
import Verif.Mesh.SpecMerge

namespace Verif.Mesh

open Verif.Np

section

variable {d : ℕ} {K : Type} [Field K] [LinearOrder K]

theorem dist2_comm (a b : Fin d → K) : dist2 a b = dist2 b a := by
  unfold dist2
  exact Finset.sum_congr rfl fun c _ => by ring

theorem near_comm {eps : K} {a b : Fin d → K} : Near eps a b ↔ Near eps b a := by
  unfold Near; rw [dist2_comm]

section

variable [IsStrictOrderedRing K]

theorem near_self (eps : K) (a : Fin d → K) : Near eps a a := by
  unfold Near dist2
  simp only [sub_self]
  rw [Finset.sum_eq_zero (by intros; ring)]
  positivity

theorem near_trans {eps : K} {a b c : Fin d → K} (h1 : Near eps a b) (h2 : Near eps b c) :
    Near (2 * eps) a c := by
  unfold Near dist2 at *
  have : ∑ k, (a k - c k) ^ 2 ≤ ∑ k, (2 * (a k - b k) ^ 2 + 2 * (b k - c k) ^ 2) := by
    refine Finset.sum_le_sum fun k _ => ?_
    nlinarith [sq_nonneg ((a k - b k) - (b k - c k))]
  rw [Finset.sum_add_distrib, ← Finset.mul_sum, ← Finset.mul_sum] at this
  nlinarith

end

/-! ### `find_map()` -/

theorem findMap_true (n1 : ℕ) (Q : List (ℕ × ℕ)) :
    findMap n1 Q true = some (Q.map fun p => (p.1, (p.2 : ℤ) - n1)) := by
  simp [findMap]

theorem findMap_false {n1 : ℕ} {Q : List (ℕ × ℕ)} {cmap : List (ℕ × ℤ)} :
    findMap n1 Q false = some cmap ↔
      (∀ p ∈ Q, p.1 < n1 ∧ n1 ≤ p.2) ∧ cmap = Q.map fun p => (p.1, (p.2 : ℤ) - n1) := by
  unfold findMap
  simp only
  split
  · next h =>
    simp only [reduceCtorEq, false_iff, not_and]
    intro h'
    exfalso
    apply h.1
    have e1 : (Q.filter fun p => p.2 < n1) = [] := by
      rw [List.filter_eq_nil_iff]
      intro p hp
      have := h' p hp
      simp; omega
    have e2 : (Q.filter fun p => n1 ≤ p.1) = [] := by
      rw [List.filter_eq_nil_iff]
      intro p hp
      have := h' p hp
      simp; omega
    rw [e1, e2]
    rfl
  · next h =>
    simp only [and_true, not_not, Nat.add_eq_zero_iff, List.length_eq_zero_iff,
      List.filter_eq_nil_iff, decide_eq_true_eq, not_lt, not_le] at h
    simp only [Option.some.injEq]
    constructor
    · intro e
      exact ⟨fun p hp => ⟨h.2 p hp, h.1 p hp⟩, e.symm⟩
    · intro e
      exact e.2.symm

/-- **Common coordinates.**  `find_map(x1, x2)` fails iff one of the sets has two points at most `eps`
apart; otherwise the result is the list of all pairs of a point of `x1` and a point of `x2` at most
`eps` apart, without repetition. -/
theorem C68_find_map {eps : K} {x1 x2 : List (Fin d → K)} {Q : List (ℕ × ℕ)}
    (hQ : IsPairs eps (x1 ++ x2) Q) :
    (findMap x1.length Q false = none ↔ ¬ (Sep eps x1 ∧ Sep eps x2)) ∧
    ∀ cmap, findMap x1.length Q false = some cmap → cmap.Nodup ∧
      ∀ (i : ℕ) (k : ℤ), (i, k) ∈ cmap ↔ ∃ (j : ℕ) (a b : Fin d → K), k = j ∧ x1[i]? = some a ∧
        x2[j]? = some b ∧ Near eps a b := by
  have key : (∀ p ∈ Q, p.1 < x1.length ∧ x1.length ≤ p.2) ↔ Sep eps x1 ∧ Sep eps x2 := by
    constructor
    · intro h
      constructor
      · have hlt : ∀ (i j : ℕ) (a b : Fin d → K), i < j → x1[i]? = some a → x1[j]? = some b →
            ¬ Near eps a b := by
          intro i j a b hij ha hb hn
          have hi := (List.getElem?_eq_some_iff.1 ha).1
          have hj := (List.getElem?_eq_some_iff.1 hb).1
          have := h (i, j) ((hQ.mem i j).2 ⟨hij, a, b, by rw [List.getElem?_append_left hi, ha],
            by rw [List.getElem?_append_left hj, hb], hn⟩)
          simp at this
          omega
        intro i j a b hij ha hb hn
        rcases lt_or_gt_of_ne hij with h' | h'
        · exact hlt i j a b h' ha hb hn
        · exact hlt j i b a h' hb ha (near_comm.1 hn)
      · have hlt : ∀ (i j : ℕ) (a b : Fin d → K), i < j → x2[i]? = some a → x2[j]? = some b →
            ¬ Near eps a b := by
          intro i j a b hij ha hb hn
          have := h (x1.length + i, x1.length + j) ((hQ.mem _ _).2 ⟨by omega, a, b,
            by rw [List.getElem?_append_right (by omega)]; simpa using ha,
            by rw [List.getElem?_append_right (by omega)]; simpa using hb, hn⟩)
          simp at this
        intro i j a b hij ha hb hn
        rcases lt_or_gt_of_ne hij with h' | h'
        · exact hlt i j a b h' ha hb hn
        · exact hlt j i b a h' hb ha (near_comm.1 hn)
    · rintro ⟨h1, h2⟩ ⟨i, j⟩ hp
      obtain ⟨hij, a, b, ha, hb, hn⟩ := (hQ.mem i j).1 hp
      simp only at hij ⊢
      constructor
      · by_contra hi
        rw [List.getElem?_append_right (by omega)] at ha hb
        exact h2 _ _ a b (by omega) ha hb hn
      · by_contra hj
        rw [List.getElem?_append_left (by omega)] at ha hb
        exact h1 i j a b (by omega) ha hb hn
  refine ⟨?_, ?_⟩
  · rw [← key]
    constructor
    · intro h h'
      rw [(findMap_false (cmap := Q.map fun p => (p.1, (p.2 : ℤ) - x1.length))).2 ⟨h', rfl⟩] at h
      exact absurd h (by simp)
    · intro h
      cases e : findMap x1.length Q false with
      | none => rfl
      | some cmap => exact absurd (findMap_false.1 e).1 h
  · intro cmap h
    obtain ⟨h1, rfl⟩ := findMap_false.1 h
    refine ⟨?_, ?_⟩
    · refine hQ.nodup.map ?_
      rintro ⟨a, b⟩ ⟨a', b'⟩ e
      simp only [Prod.mk.injEq] at e ⊢
      exact ⟨e.1, by omega⟩
    · intro i k
      rw [List.mem_map]
      constructor
      · rintro ⟨⟨i', j⟩, hp, e⟩
        simp only [Prod.mk.injEq] at e
        obtain ⟨rfl, rfl⟩ := e
        obtain ⟨-, a, b, ha, hb, hn⟩ := (hQ.mem _ _).1 hp
        have hb1 := h1 _ hp
        simp only at hb1
        rw [List.getElem?_append_left (by omega)] at ha
        rw [List.getElem?_append_right (by omega)] at hb
        exact ⟨j - x1.length, a, b, by omega, ha, hb, hn⟩
      · rintro ⟨j, a, b, rfl, ha, hb, hn⟩
        have hi := (List.getElem?_eq_some_iff.1 ha).1
        refine ⟨(i, x1.length + j), (hQ.mem _ _).2 ⟨by omega, a, b, ?_, ?_, hn⟩, ?_⟩
        · rw [List.getElem?_append_left hi, ha]
        · rw [List.getElem?_append_right (by omega)]; simpa using hb
        · simp

/-! ### `merge_mesh()` -/

theorem npPos_nat (n j : ℕ) : npPos n (j : ℤ) = j := by
  simp [npPos]

theorem cumsum_mask {idx : List ℕ} (j : ℕ) :
    cumsum (scatterConst (fun _ => (1 : ℤ)) idx 0) j =
      (((List.range (j + 1)).filter fun k => k ∉ idx).length : ℤ) := by
  unfold cumsum
  induction j with
  | zero => 
    simp [List.range_succ, scatterConst_apply]
    split <;> simp_all
  | succ j ih =>
    rw [List.range_succ, List.map_append, List.sum_append, ih, List.filter_append, List.length_append]
    simp only [List.map_cons, List.map_nil, List.sum_cons, List.sum_nil, scatterConst_apply, add_zero]
    by_cases h : j + 1 ∈ idx <;> simp [h]

theorem range_split {n j : ℕ} (hj : j < n) :
    List.range n = List.range j ++ (j :: (List.range' (j + 1) (n - j - 1))) := by
  have h1 : List.range n = List.range' 0 n := List.range_eq_range'
  have h2 : List.range j = List.range' 0 j := List.range_eq_range'
  have h3 := List.range'_append_1 (s := 0) (m := j) (n := n - j - 1 + 1)
  rw [Nat.zero_add] at h3
  rw [h1, h2, ← List.range'_succ, h3]
  congr 1
  omega

theorem filter_range_get {p : ℕ → Bool} {n j : ℕ} (hj : j < n) (hp : p j = true) :
    ((List.range n).filter p)[((List.range j).filter p).length]? = some j := by
  have e : List.range n = List.range j ++ (j :: (List.range' (j + 1) (n - j - 1))) := by
    exact range_split hj
  rw [e, List.filter_append, List.getElem?_append_right le_rfl, Nat.sub_self, List.filter_cons, if_pos hp]
  rfl

variable [IsStrictOrderedRing K]

/-- What merging means: `r` is the numbering of the nodes of the second mesh in the result. -/
structure Merged (eps : K) (m1 m2 m : MData (Fin d → K)) (r : ℕ → ℕ) : Prop where
  /-- The nodes of the first mesh are kept. -/
  first : ∀ i < m1.coors.length, m.coors[i]? = m1.coors[i]? ∧ m.ngroups[i]? = m1.ngroups[i]?
  /-- Nodes of the second mesh with no near node in the first one are kept, as new nodes. -/
  new : ∀ (j : ℕ) (b : Fin d → K), m2.coors[j]? = some b →
    (∀ (i : ℕ) (a : Fin d → K), m1.coors[i]? = some a → ¬ Near eps a b) →
    m1.coors.length ≤ r j ∧ m.coors[r j]? = some b ∧ m.ngroups[r j]? = m2.ngroups[j]?
  /-- The others are identified with a near node of the first mesh. -/
  old : ∀ (j : ℕ) (b : Fin d → K), m2.coors[j]? = some b →
    (∃ (i : ℕ) (a : Fin d → K), m1.coors[i]? = some a ∧ Near eps a b) →
    ∃ a, m1.coors[r j]? = some a ∧ Near eps a b
  /-- There are no other nodes. -/
  onto : ∀ k < m.coors.length, k < m1.coors.length ∨ ∃ j < m2.coors.length, r j = k
  /-- New nodes are numbered in the original order. -/
  mono : ∀ j j', j < j' → j' < m2.coors.length → m1.coors.length ≤ r j → m1.coors.length ≤ r j' →
    r j < r j'
  /-- Cells with their groups. -/
  conn : m.conn = m1.conn ++ m2.conn.map fun row => row.map fun v => (r v.toNat : ℤ)
  mats : m.mats = m1.mats ++ m2.mats
  /-- There are no double nodes. -/
  sep : Sep eps m.coors

theorem mem_pos {n2 : ℕ} {cmap : List (ℕ × ℤ)} (hpos : ∀ p ∈ cmap, 0 ≤ p.2) (j : ℕ) :
    (j ∈ cmap.map fun p => npPos n2 p.2) ↔ (j : ℤ) ∈ cmap.map Prod.snd := by
  simp only [List.mem_map]
  constructor
  · rintro ⟨p, hp, e⟩
    refine ⟨p, hp, ?_⟩
    have := hpos p hp
    unfold npPos at e
    split at e <;> omega
  · rintro ⟨p, hp, e⟩
    exact ⟨p, hp, by rw [e, npPos_nat]⟩

/-- **Merging of meshes.** -/
theorem C68_merge {eps : K} {m1 m2 m : MData (Fin d → K)} {Q : List (ℕ × ℕ)}
    (hQ : IsPairs eps (m1.coors ++ m2.coors) Q) (h : addMesh eps m1 m2 Q = some m)
    (hg1 : m1.ngroups.length = m1.coors.length) (hg2 : m2.ngroups.length = m2.coors.length)
    (hc : ∀ row ∈ m2.conn, ∀ v ∈ row, 0 ≤ v ∧ v < m2.coors.length) :
    ∃ r : ℕ → ℕ, Merged eps m1 m2 m r := by
  obtain ⟨hnone, hspec⟩ := C68_find_map hQ
  unfold addMesh at h
  cases e : findMap m1.coors.length Q false with
  | none => rw [e] at h; exact absurd h (by simp)
  | some cmap =>
    rw [e] at h
    obtain ⟨hnd, hmem⟩ := hspec cmap e
    have hsep : Sep eps m1.coors ∧ Sep eps m2.coors := by
      by_contra hcon
      rw [hnone.2 hcon] at e
      exact absurd e (by simp)
    simp only [mergeMesh] at h
    split at h
    · exact absurd h (by simp)
    set n1 := m1.coors.length with hn1
    set n2 := m2.coors.length with hn2
    set i2 := mergeI2 n2 cmap with hi2
    have hpos : ∀ p ∈ cmap, 0 ≤ p.2 := by
      rintro ⟨i, k⟩ hp
      obtain ⟨j, a, b, rfl, -⟩ := (hmem i k).1 hp
      simp
    have hidx : ∀ j : ℕ, (j ∈ cmap.map fun p => npPos n2 p.2) ↔ (j : ℤ) ∈ cmap.map Prod.snd := mem_pos hpos
    -- Unmatched nodes.
    have hun : ∀ j < n2, (j : ℤ) ∉ cmap.map Prod.snd →
        mergeRemap n1 n2 cmap j =
          ((n1 + ((List.range j).filter fun k : ℕ => decide ((k : ℤ) ∉ cmap.map Prod.snd)).length : ℕ) : ℤ) := by
      intro j hj hm
      unfold mergeRemap
      rw [scatter_of_not_mem]
      · rw [cumsum_mask]
        have : ((List.range (j + 1)).filter fun k => decide (k ∉ cmap.map fun p => npPos n2 p.2)).length =
            ((List.range j).filter fun k : ℕ => decide ((k : ℤ) ∉ cmap.map Prod.snd)).length + 1 := by
          have e1 : (fun k : ℕ => decide (k ∉ cmap.map fun p => npPos n2 p.2)) =
              fun k : ℕ => decide ((k : ℤ) ∉ cmap.map Prod.snd) := by
            funext k
            rw [decide_eq_decide, hidx]
          rw [e1, List.range_succ, List.filter_append, List.length_append]
          congr 1
          rw [List.filter_cons, if_pos (by simpa using hm)]
          rfl
        rw [this]
        push_cast
        ring
      · intro p hp ep
        obtain ⟨q, hq, rfl⟩ := List.mem_map.1 hp
        exact hm ((hidx j).1 (List.mem_map.2 ⟨q, hq, ep⟩))
    have hma : ∀ j < n2, (j : ℤ) ∈ cmap.map Prod.snd → ∃ i, (i, (j : ℤ)) ∈ cmap ∧
        mergeRemap n1 n2 cmap j = (i : ℤ) := by
      intro j hj hm
      unfold mergeRemap
      obtain ⟨p, hp, e1, e2⟩ := scatter_mem (cmap.map fun p => (npPos n2 p.2, (p.1 : ℤ)))
        (fun j => cumsum (scatterConst (fun _ => (1 : ℤ)) (cmap.map fun p => npPos n2 p.2) 0) j + n1 - 1) j
        (by
          obtain ⟨q, hq, eq⟩ := List.mem_map.1 hm
          exact ⟨_, List.mem_map.2 ⟨q, hq, rfl⟩, by simp [eq, npPos_nat]⟩)
      obtain ⟨q, hq, rfl⟩ := List.mem_map.1 hp
      refine ⟨q.1, ?_, e2⟩
      have : q.2 = j := by
        have := hpos q hq
        simp only [npPos] at e1
        split at e1 <;> omega
      rw [← this]
      exact hq
    have hmd : ∀ j : ℕ, (j : ℤ) ∈ cmap.map Prod.snd ↔ ∃ (i : ℕ) (a b : Fin d → K), m1.coors[i]? = some a ∧
        m2.coors[j]? = some b ∧ Near eps a b := by
      intro j
      rw [List.mem_map]
      constructor
      · rintro ⟨⟨i, k⟩, hp, ek⟩
        obtain ⟨j', a, b, e', h1, h2, h3⟩ := (hmem i k).1 hp
        simp only at ek
        have : j' = j := by omega
        subst this
        exact ⟨i, a, b, h1, h2, h3⟩
      · rintro ⟨i, a, b, h1, h2, h3⟩
        exact ⟨(i, (j : ℤ)), (hmem _ _).2 ⟨j, a, b, rfl, h1, h2, h3⟩, rfl⟩
    have hr : ∀ j < n2, ((mergeRemap n1 n2 cmap j).toNat : ℤ) = mergeRemap n1 n2 cmap j := by
      intro j hj
      by_cases hm : (j : ℤ) ∈ cmap.map Prod.snd
      · obtain ⟨i, -, e⟩ := hma j hj hm
        rw [e]; simp
      · rw [hun j hj hm, Int.toNat_natCast]
    have hget : ∀ {X : Type} (f : ℕ → X) (j : ℕ), j < n2 → (j : ℤ) ∉ cmap.map Prod.snd →
        (i2.map f)[((List.range j).filter fun k : ℕ => decide ((k : ℤ) ∉ cmap.map Prod.snd)).length]?
          = some (f j) := by
      intro X f j hj hm
      rw [List.getElem?_map, hi2]
      unfold mergeI2
      rw [filter_range_get (p := fun k : ℕ => decide ((k : ℤ) ∉ cmap.map Prod.snd)) hj (by simpa using hm)]
      rfl
    have hm' := Option.some.inj h
    have hcoors : m.coors = m1.coors ++ i2.map fun j => m2.coors.getD j 0 := by rw [← hm']
    have hng : m.ngroups = m1.ngroups ++ i2.map fun j => m2.ngroups.getD j 0 := by rw [← hm']
    have hnew : ∀ j < n2, (j : ℤ) ∉ cmap.map Prod.snd →
        n1 ≤ (mergeRemap n1 n2 cmap j).toNat ∧
        m.coors[(mergeRemap n1 n2 cmap j).toNat]? = m2.coors[j]? ∧
        m.ngroups[(mergeRemap n1 n2 cmap j).toNat]? = m2.ngroups[j]? := by
      intro j hj hm
      rw [hun j hj hm, Int.toNat_natCast, hcoors, hng]
      refine ⟨by omega, ?_, ?_⟩
      · rw [List.getElem?_append_right (by omega), Nat.add_sub_cancel_left, hget _ j hj hm]
        have hj' : j < m2.coors.length := hj
        simp [hj']
      · rw [List.getElem?_append_right (by omega), hg1, Nat.add_sub_cancel_left, hget _ j hj hm]
        have hj' : j < m2.ngroups.length := by omega
        simp [hj']
    have hold : ∀ (j : ℕ) (b : Fin d → K), m2.coors[j]? = some b → (j : ℤ) ∈ cmap.map Prod.snd →
        ∃ a, m1.coors[(mergeRemap n1 n2 cmap j).toNat]? = some a ∧ Near eps a b := by
      intro j b hb hm
      have hj := (List.getElem?_eq_some_iff.1 hb).1
      obtain ⟨i, hi, e1⟩ := hma j hj hm
      obtain ⟨j', a, b', e', h1, h2, h3⟩ := (hmem _ _).1 hi
      have : j' = j := by omega
      subst this
      rw [hb] at h2
      rw [e1, Int.toNat_natCast]
      exact ⟨a, h1, by rw [Option.some.inj h2]; exact h3⟩
    have honto : ∀ k < m.coors.length, k < n1 ∨ ∃ j < n2, (j : ℤ) ∉ cmap.map Prod.snd ∧
        (mergeRemap n1 n2 cmap j).toNat = k := by
      intro k hk
      by_cases hk1 : k < n1
      · exact Or.inl hk1
      · right
        rw [hcoors, List.length_append, List.length_map] at hk
        obtain ⟨j, hj⟩ : ∃ j, i2[k - n1]? = some j := ⟨_, List.getElem?_eq_getElem (by omega)⟩
        have hjm := List.mem_of_getElem? hj
        rw [hi2] at hjm
        unfold mergeI2 at hjm
        rw [List.mem_filter, List.mem_range] at hjm
        have hm : (j : ℤ) ∉ cmap.map Prod.snd := by simpa using hjm.2
        refine ⟨j, hjm.1, hm, ?_⟩
        rw [hun j hjm.1 hm, Int.toNat_natCast]
        have hg := hget (fun x => x) j hjm.1 hm
        rw [List.map_id'] at hg
        have hnd2 : i2.Nodup := by
          rw [hi2]
          exact List.Nodup.filter _ List.nodup_range
        obtain ⟨p1, p2⟩ := List.getElem?_eq_some_iff.1 hg
        obtain ⟨q1, q2⟩ := List.getElem?_eq_some_iff.1 hj
        have := (List.Nodup.getElem_inj_iff hnd2).1 (p2.trans q2.symm)
        omega
    refine ⟨fun j => (mergeRemap n1 n2 cmap j).toNat, ?_, ?_, ?_, ?_, ?_, ?_, ?_, ?_⟩
    · intro i hi
      rw [hcoors, hng]
      exact ⟨List.getElem?_append_left hi, List.getElem?_append_left (by omega)⟩
    · intro j b hb hno
      have hj := (List.getElem?_eq_some_iff.1 hb).1
      have hm : (j : ℤ) ∉ cmap.map Prod.snd := by
        intro hm
        obtain ⟨i, a, b', h1, h2, h3⟩ := (hmd j).1 hm
        rw [hb] at h2
        exact hno i a h1 (by rw [Option.some.inj h2]; exact h3)
      have := hnew j hj hm
      rw [hb] at this
      exact this
    · rintro j b hb ⟨i, a, ha, hn⟩
      exact hold j b hb ((hmd j).2 ⟨i, a, b, ha, hb, hn⟩)
    · intro k hk
      rcases honto k hk with h | ⟨j, hj, -, e⟩
      · exact Or.inl h
      · exact Or.inr ⟨j, hj, e⟩
    · intro j j' hjj hj' h1 h2
      have hmm : ∀ j < n2, n1 ≤ (mergeRemap n1 n2 cmap j).toNat → (j : ℤ) ∉ cmap.map Prod.snd := by
        intro j hj h hm
        obtain ⟨i, hi, e1⟩ := hma j hj hm
        obtain ⟨-, a, -, -, h1, -⟩ := (hmem _ _).1 hi
        have := (List.getElem?_eq_some_iff.1 h1).1
        rw [e1, Int.toNat_natCast] at h
        omega
      have k1 := hmm j (by omega) h1
      have k2 := hmm j' hj' h2
      rw [hun j (by omega) k1, hun j' hj' k2, Int.toNat_natCast, Int.toNat_natCast]
      have e := range_split hjj
      rw [e, List.filter_append, List.length_append, List.filter_cons, if_pos (by simpa using k1)]
      simp only [List.length_cons]
      omega
    · rw [← hm']
      simp only
      congr 1
      refine List.map_congr_left fun row hrow => List.map_congr_left fun v hv => ?_
      have := hc row hrow v hv
      have e1 : npPos n2 v = v.toNat := by unfold npPos; rw [if_neg (by omega)]
      rw [e1, hr _ (by omega)]
    · rw [← hm']
    · -- No double nodes.
      have hlt : ∀ (i j : ℕ) (a b : Fin d → K), i < j → m.coors[i]? = some a → m.coors[j]? = some b →
          ¬ Near eps a b := by
        intro i j a b hij ha hb hn
        have hi := (List.getElem?_eq_some_iff.1 ha).1
        have hj := (List.getElem?_eq_some_iff.1 hb).1
        rcases honto j hj with h1 | ⟨j2, hj2, hm2, e2⟩
        · rw [hcoors, List.getElem?_append_left (by omega)] at ha hb
          exact hsep.1 i j a b (by omega) ha hb hn
        · have := (hnew j2 hj2 hm2).2.1
          rw [e2, hb] at this
          rcases honto i hi with h1 | ⟨j1, hj1, hm1, e1⟩
          · rw [hcoors, List.getElem?_append_left (by omega)] at ha
            exact hm2 ((hmd j2).2 ⟨i, a, b, ha, this.symm, hn⟩)
          · have h' := (hnew j1 hj1 hm1).2.1
            rw [e1, ha] at h'
            exact hsep.2 j1 j2 a b (by rintro rfl; omega) h'.symm this.symm hn
      intro i j a b hij ha hb hn
      rcases lt_or_gt_of_ne hij with h' | h'
      · exact hlt i j a b h' ha hb hn
      · exact hlt j i b a h' hb ha (near_comm.1 hn)

/-- Different nodes of the second mesh stay different if they are more than `2 eps` apart. -/
theorem C68_merge_injective {eps : K} {m1 m2 m : MData (Fin d → K)} {r : ℕ → ℕ}
    (h : Merged eps m1 m2 m r) (hs : Sep (2 * eps) m2.coors) {j j' : ℕ} (hj : j < m2.coors.length)
    (hj' : j' < m2.coors.length) (e : r j = r j') : j = j' := by
  by_contra hne
  obtain ⟨b, hb⟩ : ∃ b, m2.coors[j]? = some b := ⟨_, List.getElem?_eq_getElem hj⟩
  obtain ⟨b', hb'⟩ : ∃ b, m2.coors[j']? = some b := ⟨_, List.getElem?_eq_getElem hj'⟩
  have hlt : ∀ (k : ℕ) (a : Fin d → K), m1.coors[k]? = some a → k < m1.coors.length :=
    fun k a hk => (List.getElem?_eq_some_iff.1 hk).1
  by_cases c : ∃ (i : ℕ) (a : Fin d → K), m1.coors[i]? = some a ∧ Near eps a b
  · obtain ⟨a, h1, h2⟩ := h.old j b hb c
    by_cases c' : ∃ (i : ℕ) (a : Fin d → K), m1.coors[i]? = some a ∧ Near eps a b'
    · obtain ⟨a', h1', h2'⟩ := h.old j' b' hb' c'
      rw [← e, h1] at h1'
      have e2 := Option.some.inj h1'
      subst e2
      exact hs j j' b b' hne hb hb' (near_trans (near_comm.1 h2) h2')
    · push Not at c'
      have := (h.new j' b' hb' c').1
      have := hlt _ _ h1
      omega
  · push Not at c
    have k1 := (h.new j b hb c).1
    by_cases c' : ∃ (i : ℕ) (a : Fin d → K), m1.coors[i]? = some a ∧ Near eps a b'
    · obtain ⟨a', h1', h2'⟩ := h.old j' b' hb' c'
      have := hlt _ _ h1'
      omega
    · push Not at c'
      have k2 := (h.new j' b' hb' c').1
      rcases lt_or_gt_of_ne hne with h' | h'
      · have := h.mono j j' h' hj' k1 k2; omega
      · have := h.mono j' j h' hj k2 k1; omega

end

end Verif.Mesh
