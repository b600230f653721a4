/-
C68: refused merging, double nodes.
-/
import Verif.Mesh.PropsMerge

namespace Verif.Mesh

open Verif.Np

section

variable {d : ℕ} {K : Type} [Field K] [LinearOrder K] [IsStrictOrderedRing K]

/-- **Meshes with equal common nodes can be merged**: if near nodes are equal, the only reason for a
failure are double nodes in one of the meshes. -/
theorem C68_merge_accepts {eps : K} (he : 0 ≤ eps) {m1 m2 : MData (Fin d → K)} {Q : List (ℕ × ℕ)}
    (hQ : IsPairs eps (m1.coors ++ m2.coors) Q)
    (heq : ∀ a ∈ m1.coors, ∀ b ∈ m2.coors, Near eps a b → a = b) :
    (∃ m, addMesh eps m1 m2 Q = some m) ↔ Sep eps m1.coors ∧ Sep eps m2.coors := by
  obtain ⟨hnone, hspec⟩ := C68_find_map hQ
  unfold addMesh
  cases e : findMap m1.coors.length Q false with
  | none => simp only [reduceCtorEq, exists_false, false_iff]; exact hnone.1 e
  | some cmap =>
    have hs : Sep eps m1.coors ∧ Sep eps m2.coors := by
      by_contra hcon
      rw [hnone.2 hcon] at e
      exact absurd e (by simp)
    refine iff_of_true ?_ hs
    have h0 : mergeErr m1.coors m2.coors cmap = 0 := by
      unfold mergeErr
      apply List.sum_eq_zero
      intro y hy
      obtain ⟨⟨i, k⟩, hp, rfl⟩ := List.mem_map.1 hy
      obtain ⟨j, a, b, rfl, h1, h2, h3⟩ := ((hspec cmap e).2 i k).1 hp
      have := heq a (List.mem_of_getElem? h1) b (List.mem_of_getElem? h2) h3
      subst this
      refine Finset.sum_eq_zero fun c _ => ?_
      split
      · simp [npPos_nat, h1, h2]
      · rfl
    simp only [mergeMesh, h0, abs_zero]
    rw [if_neg (by linarith)]
    exact ⟨_, rfl⟩

/-- Nodes on a line with the step `3 eps`. -/
def lineNodes (eps s : K) (n : ℕ) : List (Fin 2 → K) :=
  (List.range n).map fun k : ℕ => ![3 * eps * k + s, 0]

/-- **The error is a sum over all the nodes**: for more than ten common nodes, all of them at most
`eps` apart, merging can be refused. -/
theorem C68_merge_refused {eps : K} (he : 0 < eps) {n : ℕ} (hn : 10 < n) {m1 m2 : MData (Fin 2 → K)}
    (h1 : m1.coors = lineNodes eps 0 n) (h2 : m2.coors = lineNodes eps eps n) {Q : List (ℕ × ℕ)}
    (hQ : IsPairs eps (m1.coors ++ m2.coors) Q) :
    (∀ k < n, ∃ a b, m1.coors[k]? = some a ∧ m2.coors[k]? = some b ∧ Near eps a b) ∧
    Sep eps m1.coors ∧ Sep eps m2.coors ∧ addMesh eps m1 m2 Q = none := by
  have hget : ∀ (s : K) (k : ℕ) (a : Fin 2 → K), (lineNodes eps s n)[k]? = some a ↔
      k < n ∧ a = ![3 * eps * k + s, 0] := by
    intro s k a
    unfold lineNodes
    rw [List.getElem?_map]
    by_cases hk : k < n
    · rw [List.getElem?_range hk]
      simp [hk, eq_comm]
    · rw [List.getElem?_eq_none (by simpa using hk)]
      simp [hk]
  have hd : ∀ (s s' : K) (k k' : ℕ), dist2 (![3 * eps * k + s, 0] : Fin 2 → K) ![3 * eps * k' + s', 0] =
      (3 * eps * k + s - (3 * eps * k' + s')) ^ 2 := by
    intro s s' k k'
    simp [dist2, Fin.sum_univ_two]
  -- Different numbers: too far.
  have hfar : ∀ (s s' : K) (k k' : ℕ), (s - s' = 0 ∨ s - s' = -eps) → k ≠ k' →
      ¬ Near eps (![3 * eps * k + s, 0] : Fin 2 → K) ![3 * eps * k' + s', 0] := by
    intro s s' k k' hss hk hnear
    unfold Near at hnear
    rw [hd] at hnear
    rcases lt_or_gt_of_ne hk with h | h
    · have : (k : K) + 1 ≤ k' := by exact_mod_cast h
      have hx : (3 * eps * k + s - (3 * eps * k' + s')) ≤ - (2 * eps) := by
        rcases hss with h' | h' <;> nlinarith
      nlinarith
    · have : (k' : K) + 1 ≤ k := by exact_mod_cast h
      have hx : 2 * eps ≤ (3 * eps * k + s - (3 * eps * k' + s')) := by
        rcases hss with h' | h' <;> nlinarith
      nlinarith
  have hsep : ∀ s : K, Sep eps (lineNodes eps s n) := by
    intro s i j a b hij ha hb
    rw [((hget s i a).1 ha).2, ((hget s j b).1 hb).2]
    exact hfar s s i j (Or.inl (sub_self s)) hij
  have hnear : ∀ k : ℕ, Near eps (![3 * eps * k + 0, 0] : Fin 2 → K) ![3 * eps * k + eps, 0] := by
    intro k
    unfold Near
    rw [hd]
    apply le_of_eq
    ring
  refine ⟨?_, h1 ▸ hsep 0, h2 ▸ hsep eps, ?_⟩
  · intro k hk
    exact ⟨_, _, by rw [h1, hget]; exact ⟨hk, rfl⟩, by rw [h2, hget]; exact ⟨hk, rfl⟩, hnear k⟩
  · obtain ⟨hnone, hspec⟩ := C68_find_map hQ
    unfold addMesh
    cases e : findMap m1.coors.length Q false with
    | none => rfl
    | some cmap =>
      obtain ⟨hnd, hmem⟩ := hspec cmap e
      -- The map is the list of pairs with the same numbers.
      have hmem' : ∀ p : ℕ × ℤ, p ∈ cmap ↔ p ∈ (List.range n).map fun k : ℕ => (k, (k : ℤ)) := by
        rintro ⟨i, k⟩
        rw [hmem, List.mem_map]
        constructor
        · rintro ⟨j, a, b, rfl, ha, hb, hab⟩
          rw [h1, hget] at ha
          rw [h2, hget] at hb
          rw [ha.2, hb.2] at hab
          have : i = j := by
            by_contra hne
            exact hfar 0 eps i j (Or.inr (by ring)) hne hab
          subst this
          exact ⟨i, List.mem_range.2 ha.1, rfl⟩
        · rintro ⟨k', hk', e'⟩
          simp only [Prod.mk.injEq] at e'
          obtain ⟨rfl, rfl⟩ := e'
          have hk' := List.mem_range.1 hk'
          exact ⟨k', _, _, rfl, by rw [h1, hget]; exact ⟨hk', rfl⟩, by rw [h2, hget]; exact ⟨hk', rfl⟩,
            hnear k'⟩
      have hnd' : ((List.range n).map fun k : ℕ => (k, (k : ℤ))).Nodup :=
        List.nodup_range.map fun a b h => (Prod.mk.inj h).1
      have hperm := (List.perm_ext_iff_of_nodup hnd hnd').2 hmem'
      have herr : mergeErr m1.coors m2.coors cmap = n * eps := by
        unfold mergeErr
        rw [(hperm.map _).sum_eq, List.map_map]
        have : ∀ y ∈ ((List.range n).map ((fun p : ℕ × ℤ => ∑ c : Fin 2, if c.val + 1 < 2 then
            |m1.coors.getD p.1 0 c - m2.coors.getD (npPos m2.coors.length p.2) 0 c| else 0) ∘
            fun k : ℕ => (k, (k : ℤ)))), y = eps := by
          intro y hy
          obtain ⟨k, hk, rfl⟩ := List.mem_map.1 hy
          have hk := List.mem_range.1 hk
          have g1 := (hget 0 k _).2 ⟨hk, rfl⟩
          have g2 := (hget eps k _).2 ⟨hk, rfl⟩
          rw [← h1] at g1
          rw [← h2] at g2
          have e1 : 3 * eps * (k : K) - (3 * eps * k + eps) = -eps := by ring
          simp [Fin.sum_univ_two, npPos_nat, g1, g2, e1, abs_of_pos he]
        rw [List.eq_replicate_iff.2 ⟨rfl, this⟩, List.sum_replicate]
        simp
      simp only [mergeMesh]
      rw [if_pos]
      rw [herr, abs_of_nonneg (by positivity)]
      have : (10 : K) < n := by exact_mod_cast hn
      nlinarith

end

/-! ### Double nodes -/

theorem npPos_sub {n j : ℕ} (hj : j < n) : npPos n ((j : ℤ) - n) = j := by
  unfold npPos
  rw [if_pos (by omega)]
  omega

section

variable {d : ℕ} {K : Type} [Field K] [LinearOrder K] [IsStrictOrderedRing K]

/-- The sorted map: the pairs in any order. -/
theorem fix_mem {eps : K} {x : List (Fin d → K)} {Q : List (ℕ × ℕ)} (hQ : IsPairs eps x Q)
    {scmap : List (ℕ × ℤ)} (hp : scmap.Perm (Q.map fun p => (p.1, (p.2 : ℤ) - x.length))) (i : ℕ) (k : ℤ) :
    (i, k) ∈ scmap ↔ ∃ j : ℕ, k = (j : ℤ) - x.length ∧ (i, j) ∈ Q := by
  rw [hp.mem_iff, List.mem_map]
  constructor
  · rintro ⟨⟨i', j⟩, h, e⟩
    simp only [Prod.mk.injEq] at e
    obtain ⟨rfl, rfl⟩ := e
    exact ⟨j, rfl, h⟩
  · rintro ⟨j, rfl, h⟩
    exact ⟨(i, j), h, rfl⟩

theorem isPairs_lt {eps : K} {x : List (Fin d → K)} {Q : List (ℕ × ℕ)} (hQ : IsPairs eps x Q) {i j : ℕ}
    (h : (i, j) ∈ Q) : i < j ∧ j < x.length := by
  obtain ⟨hij, a, b, -, hb, -⟩ := (hQ.mem i j).1 h
  exact ⟨hij, (List.getElem?_eq_some_iff.1 hb).1⟩

/-- A node is removed iff it is near to a node with a smaller number. -/
theorem fix_removed {eps : K} {x : List (Fin d → K)} {Q : List (ℕ × ℕ)} (hQ : IsPairs eps x Q)
    {scmap : List (ℕ × ℤ)} (hp : scmap.Perm (Q.map fun p => (p.1, (p.2 : ℤ) - x.length))) (j : ℕ) :
    (j ∈ scmap.map fun p => npPos x.length p.2) ↔ ∃ i, (i, j) ∈ Q := by
  rw [List.mem_map]
  constructor
  · rintro ⟨⟨i, k⟩, h, e⟩
    obtain ⟨j', rfl, h'⟩ := (fix_mem hQ hp i k).1 h
    simp only at e
    rw [npPos_sub (isPairs_lt hQ h').2] at e
    subst e
    exact ⟨i, h'⟩
  · rintro ⟨i, h⟩
    refine ⟨(i, (j : ℤ) - x.length), (fix_mem hQ hp i _).2 ⟨j, rfl, h⟩, ?_⟩
    exact npPos_sub (isPairs_lt hQ h).2

/-- The result of one pass: nodes that have no near node with a smaller number, in the original
order. -/
theorem fixEqi_eq {eps : K} {x : List (Fin d → K)} {Q : List (ℕ × ℕ)} (hQ : IsPairs eps x Q)
    {scmap : List (ℕ × ℤ)} (hp : scmap.Perm (Q.map fun p => (p.1, (p.2 : ℤ) - x.length))) (j : ℕ) :
    j ∈ fixEqi x.length scmap ↔ j < x.length ∧ ¬ ∃ i, (i, j) ∈ Q := by
  unfold fixEqi
  rw [List.mem_filter, List.mem_range]
  simp only [decide_eq_true_eq]
  rw [fix_removed hQ hp]

theorem fixEqi_nodup (n : ℕ) (scmap : List (ℕ × ℤ)) : (fixEqi n scmap).Nodup :=
  List.Nodup.filter _ List.nodup_range

/-- Numbers of the nodes left. -/
theorem fixEq_left {n : ℕ} {scmap : List (ℕ × ℤ)} {k j : ℕ} (h : (fixEqi n scmap)[k]? = some j) :
    fixEq n scmap j = (k : ℤ) := by
  unfold fixEq
  apply scatter_eq
  · exact ⟨(j, (k : ℤ)), List.mem_map.2 ⟨(j, k), List.mem_zipIdx_iff_getElem?.2 h, rfl⟩, rfl⟩
  · rintro p hp e
    obtain ⟨⟨j', k'⟩, h', rfl⟩ := List.mem_map.1 hp
    simp only at e
    subst e
    have h' := List.mem_zipIdx_iff_getElem?.1 h'
    simp only at h'
    obtain ⟨p1, p2⟩ := List.getElem?_eq_some_iff.1 h
    obtain ⟨q1, q2⟩ := List.getElem?_eq_some_iff.1 h'
    have := (List.Nodup.getElem_inj_iff (fixEqi_nodup n scmap)).1 (p2.trans q2.symm)
    simp only
    omega

/-- Removed nodes have -1. -/
theorem fixEq_removed {n : ℕ} {scmap : List (ℕ × ℤ)} {j : ℕ} (h : j ∈ scmap.map fun p => npPos n p.2) :
    fixEq n scmap j = -1 := by
  unfold fixEq
  rw [scatter_of_not_mem, scatterConst_apply, if_pos h]
  intro p hp e
  obtain ⟨⟨j', k'⟩, h', rfl⟩ := List.mem_map.1 hp
  have h' := List.mem_of_getElem? (List.mem_zipIdx_iff_getElem?.1 h')
  simp only at e h'
  subst e
  unfold fixEqi at h'
  rw [List.mem_filter] at h'
  simp [h] at h'

/-- **One pass removes all the double nodes**: `fix_double_nodes()` needs at most one iteration; the
nodes of the result are the nodes with no near node of a smaller number, in the original order with
their groups, and no two of them are near. -/
theorem C68_fix_double_once {eps : K} {query : List (Fin d → K) → List (ℕ × ℕ)}
    (hq : ∀ x, IsPairs eps x (query x)) {sort : List (ℕ × ℤ) → List (ℕ × ℤ)}
    (hs : ∀ l, (sort l).Perm l) (x : List (Fin d → K)) (g : List ℕ) (conns : List (List (List ℤ)))
    (fuel : ℕ) :
    ∃ y g' conns', fixDoubleNodes query sort (fuel + 1) x g conns = some (y, g', conns') ∧
      Sep eps y ∧
      ∃ left : List ℕ, left.Pairwise (· < ·) ∧ (∀ j, j ∈ left ↔ j < x.length ∧
        ∀ (i : ℕ) (a b : Fin d → K), i < j → x[i]? = some a → x[j]? = some b → ¬ Near eps a b) ∧
        y = left.map (fun j => x.getD j 0) ∧
        (g.length = x.length → g' = left.map fun j => g.getD j 0) := by
  have hmemQ : ∀ j, j < x.length → ((¬ ∃ i, (i, j) ∈ query x) ↔ ∀ (i : ℕ) (a b : Fin d → K), i < j →
      x[i]? = some a → x[j]? = some b → ¬ Near eps a b) := by
    intro j hj
    constructor
    · intro h i a b hij ha hb hn
      exact h ⟨i, ((hq x).mem i j).2 ⟨hij, a, b, ha, hb, hn⟩⟩
    · rintro h ⟨i, hi⟩
      obtain ⟨hij, a, b, ha, hb, hn⟩ := ((hq x).mem i j).1 hi
      exact h i a b hij ha hb hn
  have hsort : ∀ n, (List.range n).Pairwise (· < ·) := fun n => List.pairwise_lt_range
  unfold fixDoubleNodes
  rw [findMap_true]
  cases e : (query x).map fun p => (p.1, (p.2 : ℤ) - (x.length : ℤ)) with
  | nil =>
    have hQ0 : query x = [] := List.map_eq_nil_iff.1 e
    have hno : ∀ j, j < x.length → ∀ (i : ℕ) (a b : Fin d → K), i < j →
        x[i]? = some a → x[j]? = some b → ¬ Near eps a b := by
      intro j hj
      exact (hmemQ j hj).1 (by simp [hQ0])
    refine ⟨x, g, conns, rfl, ?_, List.range x.length, hsort _, ?_, ?_, ?_⟩
    · intro i j a b hij ha hb hn
      rcases lt_or_gt_of_ne hij with h' | h'
      · exact hno j (List.getElem?_eq_some_iff.1 hb).1 i a b h' ha hb hn
      · exact hno i (List.getElem?_eq_some_iff.1 ha).1 j b a h' hb ha (near_comm.1 hn)
    · intro j
      rw [List.mem_range]
      exact ⟨fun h => ⟨h, hno j h⟩, fun h => h.1⟩
    · apply List.ext_getElem (by simp)
      intro n h1 h2
      simp [List.getD_eq_getElem?_getD, h1]
    · intro hg
      apply List.ext_getElem (by simp [hg])
      intro n h1 h2
      simp [List.getD_eq_getElem?_getD, h1]
  | cons p cmap =>
    simp only
    set scmap := sort (p :: cmap) with hsc
    have hp : scmap.Perm ((query x).map fun p => (p.1, (p.2 : ℤ) - (x.length : ℤ))) := by
      rw [e]; exact hs _
    set left := fixEqi x.length scmap with hleft
    have hmem : ∀ j, j ∈ left ↔ j < x.length ∧
        ∀ (i : ℕ) (a b : Fin d → K), i < j → x[i]? = some a → x[j]? = some b → ¬ Near eps a b := by
      intro j
      rw [hleft, fixEqi_eq (hq x) hp]
      constructor
      · rintro ⟨h1, h2⟩
        exact ⟨h1, (hmemQ j h1).1 h2⟩
      · rintro ⟨h1, h2⟩
        exact ⟨h1, (hmemQ j h1).2 h2⟩
    have hlp : left.Pairwise (· < ·) := (hsort _).filter _
    have hlget : ∀ (k : ℕ) (a : Fin d → K), (left.map fun j => x.getD j 0)[k]? = some a →
        ∃ j, left[k]? = some j ∧ x[j]? = some a := by
      intro k a h
      rw [List.getElem?_map, Option.map_eq_some_iff] at h
      obtain ⟨j, hj, e'⟩ := h
      have hjl := ((hmem j).1 (List.mem_of_getElem? hj)).1
      refine ⟨j, hj, ?_⟩
      rw [← e', List.getD_eq_getElem?_getD, List.getElem?_eq_getElem hjl]
      rfl
    have hsep : Sep eps (left.map fun j => x.getD j 0) := by
      have hlt : ∀ (i j : ℕ) (a b : Fin d → K), i < j → (left.map fun j => x.getD j 0)[i]? = some a →
          (left.map fun j => x.getD j 0)[j]? = some b → ¬ Near eps a b := by
        intro i j a b hij ha hb
        obtain ⟨i', hi, ha⟩ := hlget i a ha
        obtain ⟨j', hj, hb⟩ := hlget j b hb
        obtain ⟨p1, p2⟩ := List.getElem?_eq_some_iff.1 hi
        obtain ⟨q1, q2⟩ := List.getElem?_eq_some_iff.1 hj
        have : i' < j' := by
          rw [← p2, ← q2]
          exact List.pairwise_iff_getElem.1 hlp i j p1 q1 hij
        exact ((hmem j').1 (List.mem_of_getElem? hj)).2 i' a b this ha hb
      intro i j a b hij ha hb hn
      rcases lt_or_gt_of_ne hij with h' | h'
      · exact hlt i j a b h' ha hb hn
      · exact hlt j i b a h' hb ha (near_comm.1 hn)
    -- The second query is empty.
    have hQ2 : query (left.map fun j => x.getD j 0) = [] := by
      rw [List.eq_nil_iff_forall_not_mem]
      rintro ⟨i, j⟩ hij
      obtain ⟨h1, a, b, ha, hb, hn⟩ := ((hq _).mem i j).1 hij
      exact hsep i j a b (by omega) ha hb hn
    refine ⟨left.map (fun j => x.getD j 0), left.map (fun j => g.getD j 0),
      conns.map fun conn => conn.map fun row => row.map fun v =>
        fixRemap x.length scmap (npPos x.length v), ?_, hsep, left, hlp, hmem, rfl, fun _ => rfl⟩
    have : (fixStep x g conns scmap) = (left.map (fun j => x.getD j 0), left.map (fun j => g.getD j 0),
      conns.map fun conn => conn.map fun row => row.map fun v =>
        fixRemap x.length scmap (npPos x.length v)) := rfl
    rw [this]
    unfold fixDoubleNodes
    rw [findMap_true]
    simp only [hQ2, List.map_nil]

/-- **Pairs of double nodes are merged**: if no node has both a near node with a smaller number and a
near node with a greater number, then the cells of the result refer to nodes near (or equal) to the
original ones. -/
theorem C68_fix_double_map {eps : K} {x : List (Fin d → K)} {Q : List (ℕ × ℕ)} (hQ : IsPairs eps x Q)
    {scmap : List (ℕ × ℤ)} (hp : scmap.Perm (Q.map fun p => (p.1, (p.2 : ℤ) - x.length)))
    (hch : ∀ (i j k : ℕ) (a b c : Fin d → K), i < j → j < k → x[i]? = some a → x[j]? = some b →
      x[k]? = some c → Near eps a b → ¬ Near eps b c)
    (g : List ℕ) (conns : List (List (List ℤ)))
    (hc : ∀ conn ∈ conns, ∀ row ∈ conn, ∀ v ∈ row, 0 ≤ v ∧ v < (x.length : ℤ)) :
    ∃ r : ℕ → ℕ,
      (fixStep x g conns scmap).2.2 =
        conns.map (fun conn => conn.map fun row => row.map fun v => (r v.toNat : ℤ)) ∧
      (∀ (v : ℕ) (a : Fin d → K), x[v]? = some a →
        ∃ b, (fixStep x g conns scmap).1[r v]? = some b ∧ Near eps a b ∧
        ((∀ (i : ℕ) (a' : Fin d → K), i < v → x[i]? = some a' → ¬ Near eps a' a) → b = a)) := by
  set left := fixEqi x.length scmap with hleft
  have hrem := fix_removed hQ hp
  -- A node that is left.
  have hnum : ∀ j, j < x.length → (¬ ∃ i, (i, j) ∈ Q) → ∃ k : ℕ, left[k]? = some j ∧
      fixEq x.length scmap j = (k : ℤ) := by
    intro j hj h
    have : j ∈ left := (fixEqi_eq hQ hp j).2 ⟨hj, h⟩
    obtain ⟨k, hk⟩ := List.getElem?_of_mem this
    exact ⟨k, hk, fixEq_left hk⟩
  have hkey : ∀ (v : ℕ) (a : Fin d → K), x[v]? = some a → ∃ k : ℕ, fixRemap x.length scmap v = (k : ℤ) ∧
      ∃ b, (left.map fun j => x.getD j 0)[k]? = some b ∧ Near eps a b ∧
      ((∀ (i : ℕ) (a' : Fin d → K), i < v → x[i]? = some a' → ¬ Near eps a' a) → b = a) := by
    intro v a ha
    have hv := (List.getElem?_eq_some_iff.1 ha).1
    by_cases h : ∃ i, (i, v) ∈ Q
    · obtain ⟨p, hp1, e1, e2⟩ := scatter_mem
        (scmap.map fun p => (npPos x.length p.2, fixEq x.length scmap p.1)) (fixEq x.length scmap) v (by
          obtain ⟨q, hq, eq⟩ := List.mem_map.1 ((hrem v).2 h)
          exact ⟨_, List.mem_map.2 ⟨q, hq, rfl⟩, eq⟩)
      obtain ⟨⟨i, k⟩, hq, rfl⟩ := List.mem_map.1 hp1
      obtain ⟨j, rfl, hij⟩ := (fix_mem hQ hp i k).1 hq
      simp only at e1 e2
      rw [npPos_sub (isPairs_lt hQ hij).2] at e1
      subst e1
      obtain ⟨hlt, ai, b, hai, hb, hn⟩ := (hQ.mem i j).1 hij
      rw [ha] at hb
      have := Option.some.inj hb
      subst this
      have hno : ¬ ∃ i', (i', i) ∈ Q := by
        rintro ⟨i', hi'⟩
        obtain ⟨hlt', a', b', ha', hb', hn'⟩ := (hQ.mem i' i).1 hi'
        rw [hai] at hb'
        have := Option.some.inj hb'
        subst this
        exact hch i' i j a' ai a hlt' hlt ha' hai ha hn' hn
      obtain ⟨k, hk1, hk2⟩ := hnum i (by omega) hno
      refine ⟨k, by unfold fixRemap; rw [e2, hk2], ai, ?_, near_comm.1 hn, ?_⟩
      · rw [List.getElem?_map, hk1]
        simp [List.getD_eq_getElem?_getD, hai]
      · intro h'
        exact absurd hn (h' i ai hlt hai)
    · obtain ⟨k, hk1, hk2⟩ := hnum v hv h
      refine ⟨k, ?_, a, ?_, near_self eps a, fun _ => rfl⟩
      · unfold fixRemap
        rw [scatter_of_not_mem, hk2]
        intro p hp1 e
        obtain ⟨q, hq, rfl⟩ := List.mem_map.1 hp1
        exact h ((hrem v).1 (List.mem_map.2 ⟨q, hq, e⟩))
      · rw [List.getElem?_map, hk1]
        simp [List.getD_eq_getElem?_getD, ha]
  refine ⟨fun v => (fixRemap x.length scmap v).toNat, ?_, ?_⟩
  · simp only [fixStep]
    refine List.map_congr_left fun conn hconn => List.map_congr_left fun row hrow =>
      List.map_congr_left fun v hv => ?_
    have hb := hc conn hconn row hrow v hv
    have e1 : npPos x.length v = v.toNat := by unfold npPos; rw [if_neg (by omega)]
    have hlt : v.toNat < x.length := by omega
    obtain ⟨k, hk, -⟩ := hkey v.toNat _ (List.getElem?_eq_getElem hlt)
    rw [e1, hk]
    simp
  · intro v a ha
    obtain ⟨k, hk, b, hb, h1, h2⟩ := hkey v a ha
    refine ⟨b, ?_, h1, h2⟩
    simp only [hk, Int.toNat_natCast]
    exact hb

/-- **Chains of double nodes break the mesh**: if a node `k` is near to a node `j < k`, that is near to
a node `i < j`, and the pair `(j, k)` is the last one of the pairs with `k` in the sorted map, then
cells with the node `k` get the vertex -1. -/
theorem C68_fix_double_chain {eps : K} {x : List (Fin d → K)} {Q : List (ℕ × ℕ)} (hQ : IsPairs eps x Q)
    {scmap l l' : List (ℕ × ℤ)} (hp : scmap.Perm (Q.map fun p => (p.1, (p.2 : ℤ) - x.length)))
    {i j k : ℕ} (h1 : (i, j) ∈ Q) (h2 : (j, k) ∈ Q) (hl : scmap = l ++ (j, (k : ℤ) - x.length) :: l')
    (hl' : ∀ p ∈ l', p.2 ≠ (k : ℤ) - x.length) (g : List ℕ) (row : List ℤ) (hrow : (k : ℤ) ∈ row) :
    ∃ row' : List ℤ, (fixStep x g [[row]] scmap).2.2 = [[row']] ∧ (-1 : ℤ) ∈ row' := by
  refine ⟨_, rfl, List.mem_map.2 ⟨(k : ℤ), hrow, ?_⟩⟩
  rw [npPos_nat]
  unfold fixRemap
  have hj : fixEq x.length scmap j = -1 := fixEq_removed ((fix_removed hQ hp j).2 ⟨i, h1⟩)
  have hsplit : (scmap.map fun p => (npPos x.length p.2, fixEq x.length scmap p.1)) =
      (l.map fun p => (npPos x.length p.2, fixEq x.length scmap p.1)) ++
        (k, -1) :: (l'.map fun p => (npPos x.length p.2, fixEq x.length scmap p.1)) := by
    conv_lhs => rw [hl]
    rw [List.map_append, List.map_cons]
    simp only
    rw [npPos_sub (isPairs_lt hQ h2).2, ← hl, hj]
  rw [hsplit, scatter_append, scatter_cons, scatter_of_not_mem]
  · exact upd_same _ _ _
  · intro p hp' e
    obtain ⟨⟨i', k'⟩, hq, rfl⟩ := List.mem_map.1 hp'
    have hm : (i', k') ∈ scmap := by rw [hl]; simp [hq]
    obtain ⟨j', rfl, hij⟩ := (fix_mem hQ hp i' k').1 hm
    simp only at e
    rw [npPos_sub (isPairs_lt hQ hij).2] at e
    subst e
    exact hl' _ hq rfl

end

end Verif.Mesh
