/-
C68: examples and counterexamples.
-/
import Mathlib.Data.List.Nodup
import Mathlib.Data.List.Permutation
import Mathlib.Tactic.IntervalCases
import Mathlib.Tactic.NormNum
import Verif.Mesh.PropsFixDouble
import Verif.Mesh.PropsMatch

namespace Verif.Mesh

section

variable {d : ℕ} {K : Type} [Field K] [LinearOrder K]

/-- A search of pairs by comparing all of them: the hypotheses about `query_pairs()` can be met. -/
def allPairs (eps : K) (x : List (Fin d → K)) : List (ℕ × ℕ) :=
  (List.range x.length).flatMap fun j => ((List.range j).filter fun i =>
    dist2 (x.getD i 0) (x.getD j 0) ≤ eps ^ 2).map fun i => (i, j)

theorem allPairs_isPairs (eps : K) (x : List (Fin d → K)) : IsPairs eps x (allPairs eps x) := by
  constructor
  · unfold allPairs
    rw [List.nodup_flatMap]
    refine ⟨fun j _ => ?_, ?_⟩
    · exact (List.Nodup.filter _ List.nodup_range).map fun a b h => (Prod.mk.inj h).1
    · refine List.nodup_range.imp ?_
      intro j j' hne p hp hp'
      obtain ⟨i, -, rfl⟩ := List.mem_map.1 hp
      obtain ⟨i', -, e⟩ := List.mem_map.1 hp'
      exact hne (Prod.mk.inj e).2.symm
  · intro i j
    unfold allPairs
    rw [List.mem_flatMap]
    constructor
    · rintro ⟨j', hj', h⟩
      obtain ⟨i', hi', e⟩ := List.mem_map.1 h
      obtain ⟨rfl, rfl⟩ := Prod.mk.inj e
      rw [List.mem_filter, List.mem_range, decide_eq_true_eq] at hi'
      have hj' := List.mem_range.1 hj'
      refine ⟨hi'.1, _, _, List.getElem?_eq_getElem (by omega), List.getElem?_eq_getElem hj', ?_⟩
      have := hi'.2
      rw [List.getD_eq_getElem?_getD, List.getD_eq_getElem?_getD,
        List.getElem?_eq_getElem (show i' < x.length by omega), List.getElem?_eq_getElem hj'] at this
      exact this
    · rintro ⟨hij, a, b, ha, hb, hn⟩
      have hj := (List.getElem?_eq_some_iff.1 hb).1
      refine ⟨j, List.mem_range.2 hj, List.mem_map.2 ⟨i, ?_, rfl⟩⟩
      rw [List.mem_filter, List.mem_range, decide_eq_true_eq]
      refine ⟨hij, ?_⟩
      rw [List.getD_eq_getElem?_getD, List.getD_eq_getElem?_getD, ha, hb]
      exact hn

/-- An `argsort`. -/
def argsort (c : List K) : List ℕ :=
  (List.range c.length).mergeSort fun a b => decide (c.getD a 0 ≤ c.getD b 0)

theorem argsort_isArgsort (c : List K) : IsArgsort c (argsort c) := by
  constructor
  · exact List.mergeSort_perm _ _
  · have := List.pairwise_mergeSort (le := fun a b : ℕ => decide (c.getD a 0 ≤ c.getD b 0))
      (by intro a b e; simp only [decide_eq_true_eq]; exact le_trans)
      (by intro a b; simp only [Bool.or_eq_true, decide_eq_true_eq]; exact le_total _ _)
      (List.range c.length)
    exact this.imp fun h => by simpa using h

end

/-! ### Merging -/

def seg1 : MData (Fin 2 → ℚ) :=
  { coors := [![0, 0], ![1, 0], ![1, 1], ![0, 1]], ngroups := [1, 2, 3, 4], conn := [[0, 1, 2, 3]], mats := [7] }

def seg2 : MData (Fin 2 → ℚ) :=
  { coors := [![2, 1], ![1, 1], ![1, 0], ![2, 0]], ngroups := [5, 6, 7, 8], conn := [[2, 3, 0, 1]], mats := [8] }

/-- Two squares with a common edge. -/
example : ((addMesh (1 / 100) seg1 seg2 [(1, 6), (2, 5)]).map fun m =>
    (m.coors.map fun x => (x 0, x 1), m.ngroups, m.conn, m.mats)) =
    some ([(0, 0), (1, 0), (1, 1), (0, 1), (2, 1), (2, 0)], [1, 2, 3, 4, 5, 8],
      [[0, 1, 2, 3], [1, 5, 4, 2]], [7, 8]) := by
  decide +kernel

example : allPairs (1 / 100) (seg1.coors ++ seg2.coors) = [(2, 5), (1, 6)] := by decide +kernel

/-- The hypotheses of `C68_merge` hold for it. -/
example : ∃ m r, addMesh (1 / 100) seg1 seg2 (allPairs (1 / 100) (seg1.coors ++ seg2.coors)) = some m ∧
    Merged (1 / 100) seg1 seg2 m r := by
  have hs : (addMesh (1 / 100) seg1 seg2 (allPairs (1 / 100) (seg1.coors ++ seg2.coors))).isSome = true := by
    decide +kernel
  obtain ⟨m, hm⟩ := Option.isSome_iff_exists.1 hs
  obtain ⟨r, hr⟩ := C68_merge (allPairs_isPairs _ _) hm (by decide) (by decide) (by decide)
  exact ⟨m, r, hm, hr⟩

/-- Refused merging of eleven common nodes. -/
example : addMesh (1 / 100 : ℚ) { coors := lineNodes (1 / 100) 0 11, ngroups := [], conn := [], mats := [] }
    { coors := lineNodes (1 / 100 : ℚ) (1 / 100) 11, ngroups := [], conn := [], mats := [] }
    (allPairs (1 / 100 : ℚ) (lineNodes (1 / 100) 0 11 ++ lineNodes (1 / 100) (1 / 100) 11)) = none :=
  (C68_merge_refused (by norm_num) (by norm_num) rfl rfl (allPairs_isPairs _ _)).2.2.2

/-- The error of line 59 does not see the last coordinate. -/
example : mergeErr [![0, 0]] [![0, (5 : ℚ)]] [(0, 0)] = 0 := by decide +kernel

/-! ### Double nodes -/

/-- Two nodes at the same place. -/
example : ((fixDoubleNodes (allPairs (1 / 100 : ℚ)) (fun l => l) 1
      [(fun _ => 0 : Fin 1 → ℚ), fun _ => 1, fun _ => 0, fun _ => 2] [1, 2, 3, 4] [[[0, 1], [2, 3]]]).map fun r =>
    (r.1.map fun x => x 0, r.2)) = some ([0, 1, 2], [1, 2, 4], [[[0, 1], [0, 2]]]) := by
  decide +kernel

/-- **Three nodes at the same place**: the third one gets the number -1 for the order of pairs given
here (allowed by the specifications of the search and of the sort). -/
theorem C68_fix_double_triple :
    IsPairs (1 / 100 : ℚ) [(fun _ => 0 : Fin 1 → ℚ), fun _ => 0, fun _ => 0] [(0, 1), (0, 2), (1, 2)] ∧
    (fixStep [(fun _ => 0 : Fin 1 → ℚ), fun _ => 0, fun _ => 0] [1, 2, 3] [[[0, 1, 2]]]
      [(0, -2), (0, -1), (1, -1)]).2.2 = [[[0, 0, -1]]] := by
  refine ⟨?_, by decide +kernel⟩
  have : allPairs (1 / 100 : ℚ) [(fun _ => 0 : Fin 1 → ℚ), fun _ => 0, fun _ => 0] =
      [(0, 1), (0, 2), (1, 2)] := by decide +kernel
  rw [← this]
  exact allPairs_isPairs _ _

/-! ### Matching -/

/-- **A wrong matching is accepted**: with a point of `x1` near to two points of `x2` and a point
without a partner the number of pairs is right; the second point of `x1` is left out. -/
theorem C68_match_plane_wrong :
    matchPlane (1 : ℚ) (allPairs 1) [(fun _ => 0 : Fin 1 → ℚ), fun _ => 10]
      [fun _ => -9 / 10, fun _ => 9 / 10] none = some ([0, 0], [0, 1]) := by
  decide +kernel

/-- Matching along the first axis. -/
example : matchPlane (1 / 100 : ℚ) (allPairs (1 / 100))
    [(![0, 0] : Fin 2 → ℚ), ![0, 1], ![0, 3]] [![5, 3], ![5, 0], ![5, 1]] (some ![1, 0]) =
    some ([2, 0, 1], [0, 1, 2]) := by
  decide +kernel

def pl1 : List (Fin 2 → ℚ) := [![0, 0], ![0, 1], ![0, 3]]

def pl2 : List (Fin 2 → ℚ) := [![5, 3], ![5, 0], ![5, 1]]

theorem sep_of_check {eps : ℚ} {x : List (Fin 2 → ℚ)}
    (h : (allPairs eps x) = []) : Sep eps x := by
  have hp := allPairs_isPairs eps x
  intro i j a b hij ha hb hn
  rcases lt_or_gt_of_ne hij with h' | h'
  · have := (hp.mem i j).2 ⟨h', a, b, ha, hb, hn⟩
    rw [h] at this
    exact absurd this (by simp)
  · have := (hp.mem j i).2 ⟨h', b, a, hb, ha, near_comm.1 hn⟩
    rw [h] at this
    exact absurd this (by simp)

/-- The hypotheses of `C68_match_plane_complete` hold for these points. -/
example : ∃ i1 i2 : List ℕ, matchPlane (1 / 100 : ℚ) (allPairs (1 / 100)) pl1 pl2 (some ![1, 0]) =
    some (i1, i2.map fun j : ℕ => (j : ℤ)) := by
  obtain ⟨i1, i2, h, -⟩ := C68_match_plane_complete (eps := (1 / 100 : ℚ)) (epsM := 1 / 100) (by norm_num)
    (fun x => allPairs_isPairs (1 / 100) x) (x1 := pl1) (x2 := pl2) (dir := some ![1, 0]) rfl
    (s := ![-5, 0]) (by decide +kernel)
    (Or.inr ⟨![1, 0], rfl, by decide +kernel, by decide +kernel, by decide +kernel⟩)
    (sep_of_check (by decide +kernel)) (sep_of_check (by decide +kernel))
  exact ⟨i1, i2, h⟩

/-- A line. -/
example : matchLine (1 / 10 : ℚ) (fun c => if c = [0, 2, 1] then [0, 2, 1] else [2, 1, 0])
    [(fun _ => 0 : Fin 1 → ℚ), fun _ => 2, fun _ => 1] [fun _ => 2, fun _ => 1, fun _ => 0] 0 =
    some ([0, 2, 1], [2, 1, 0]) := by
  decide +kernel

example : ∃ r, matchLine (1 / 10 : ℚ) argsort [(fun _ => 0 : Fin 1 → ℚ), fun _ => 2] [fun _ => 2, fun _ => 0] 0 =
    some r := by
  refine (C68_match_line argsort_isArgsort 0).1.2 ⟨[0, 2], List.Perm.swap _ _ _, ?_⟩
  refine .cons (by norm_num) (.cons (by norm_num) .nil)

/-- **A wrong matching from the cache**: the second call pairs 0 with 1. -/
theorem C68_cache_wrong (sort : List ℚ → List ℕ) (hs : ∀ c, IsArgsort c (sort c)) :
    let x : List (Fin 1 → ℚ) := [fun _ => 0, fun _ => 1]
    let y : List (Fin 1 → ℚ) := [fun _ => 1, fun _ => 0]
    ∃ r r', matchLine (1 / 10) sort x x 0 = some r ∧ matchLine (1 / 10) sort x y 0 = some r' ∧
      (matchGridLine (1 / 10) sort (matchGridLine (1 / 10) sort [] x x 0 true).1 x y 0 true).2 = some r ∧
      r.1 = r.2 ∧ r'.1 ≠ r'.2 := by
  intro x y
  have e1 : ∀ (c : List ℚ), c = [0, 1] → sort c = [0, 1] := by
    rintro c rfl
    have h := hs [0, 1]
    have hp : sort [0, 1] ∈ [0, 1].permutations' := List.mem_permutations'.2 h.perm
    simp [List.permutations'] at hp
    rcases hp with hp | hp
    · exact hp
    · have := h.sorted
      rw [hp] at this
      norm_num at this
  have e2 : ∀ (c : List ℚ), c = [1, 0] → sort c = [1, 0] := by
    rintro c rfl
    have h := hs [1, 0]
    have hp : sort [1, 0] ∈ [0, 1].permutations' := List.mem_permutations'.2 h.perm
    simp [List.permutations'] at hp
    rcases hp with hp | hp
    · have := h.sorted
      rw [hp] at this
      norm_num at this
    · exact hp
  have hx : x.map (fun v => v 0) = [0, 1] := rfl
  have hy : y.map (fun v => v 0) = [1, 0] := rfl
  have m1 : matchLine (1 / 10) sort x x 0 = some ([0, 1], [0, 1]) := by
    unfold matchLine
    simp only [hx, e1 [0, 1] rfl]
    simp
  have m2 : matchLine (1 / 10) sort x y 0 = some ([0, 1], [1, 0]) := by
    unfold matchLine
    simp only [hx, hy, e1 [0, 1] rfl, e2 [1, 0] rfl]
    simp [x, y]
  exact ⟨_, _, m1, m2, C68_cache_stale m1 rfl rfl, rfl, by decide⟩

end Verif.Mesh
