/-
The Lagrange bases with a forced bubble.
-/
import Verif.Fem.PropsLagGrad

namespace Verif.Fem

open Finset

section
variable {K : Type} [Field K]

theorem length_simplexB (g : Gel) (o : ℕ) : (simplexBNodes g o).length = (simplexNodes g o).length + 1 := by
  simp [simplexBNodes]

theorem rowB_lt {g : Gel} {o k : ℕ} (hk : k < (simplexNodes g o).length) :
    rowAt (simplexBNodes g o) k = rowAt (simplexNodes g o) k := by
  rw [rowAt, rowAt, simplexBNodes, List.getElem?_append_left hk]

theorem rowB_last (g : Gel) (o : ℕ) :
    rowAt (simplexBNodes g o) (simplexNodes g o).length = fun i => if i < g.nV then 1 else 0 := by
  simp [rowAt, simplexBNodes]

theorem bubbleOrder (nV : ℕ) : (List.range nV).foldl (fun o (i : ℕ) => o + if i < nV then 1 else 0) 0 = nV := by
  rw [foldl_add, zero_add, sum_congr rfl fun i hi => if_pos (mem_range.1 hi)]
  simp

/-- The bubble. -/
theorem bubble_eq (nV : ℕ) (bc : ℕ → K) :
    bubbleVal nV bc (fun i => if i < nV then 1 else 0) = ∏ i ∈ range nV, nV * bc i := by
  rw [bubbleVal, bubbleOrder, lagVal_eq]
  refine prod_congr rfl fun i hi => ?_
  rw [if_pos (mem_range.1 hi)]
  simp [ch]

theorem bValue_lt {g : Gel} {o k : ℕ} (bc : ℕ → K) (hk : k < (simplexNodes g o).length) :
    bValue g.nV o (simplexBNodes g o).length (rowAt (simplexBNodes g o)) bc k =
      lagVal g.nV o bc (rowAt (simplexNodes g o) k) -
        1 / ((simplexNodes g o).length : K) * ∏ i ∈ range g.nV, g.nV * bc i := by
  rw [bValue, length_simplexB, Nat.add_sub_cancel, if_neg (by omega), rowB_lt hk, rowB_last, bubble_eq]

theorem bValue_last (g : Gel) (o : ℕ) (bc : ℕ → K) :
    bValue g.nV o (simplexBNodes g o).length (rowAt (simplexBNodes g o)) bc (simplexNodes g o).length =
      ∏ i ∈ range g.nV, g.nV * bc i := by
  rw [bValue, length_simplexB, Nat.add_sub_cancel, if_pos rfl, rowB_last, bubble_eq]

theorem length_simplex_pos {g : Gel} (hg : IsSimplex g) {o : ℕ} : 1 ≤ (simplexNodes g o).length := by
  rcases hg with rfl | rfl | rfl
  · rw [(shape12 o).length]; simp only [gel12]; omega
  · rw [(shape23 o).length]; simp only [gel23]; omega
  · rw [(shape34 o).length]; simp only [gel34]; omega

end

section
variable {K : Type} [Field K] [LinearOrder K] [IsStrictOrderedRing K]

theorem evalSimplexB_eq {g : Gel} {o : ℕ} {mtxI : ℕ → ℕ → K} {eps : K} (he : 0 ≤ eps) {ce : Bool} {x : ℕ → K}
    (h : Clean g.nV mtxI eps ce x) :
    ∃ φ, evalSimplexB g.nV o mtxI eps ce (simplexBNodes g o) x = some φ ∧
      φ.length = (simplexNodes g o).length + 1 ∧
      (∀ k < (simplexNodes g o).length, φ[k]? = some (lagVal g.nV o (baryVal g.nV mtxI x) (rowAt (simplexNodes g o) k) -
        1 / ((simplexNodes g o).length : K) * ∏ i ∈ range g.nV, g.nV * baryVal g.nV mtxI x i)) ∧
      φ[(simplexNodes g o).length]? = some (∏ i ∈ range g.nV, g.nV * baryVal g.nV mtxI x i) := by
  obtain ⟨bc, e, hb⟩ := baryCoors_eq he h
  have hp : ∏ i ∈ range g.nV, g.nV * bc i = ∏ i ∈ range g.nV, g.nV * baryVal g.nV mtxI x i :=
    prod_congr rfl fun i hi => by rw [hb i (mem_range.1 hi)]
  have hl := length_simplexB g o
  refine ⟨_, by rw [evalSimplexB, e]; rfl, by simp [hl], fun k hk => ?_, ?_⟩
  · rw [List.getElem?_map, List.getElem?_range (by omega), Option.map_some, bValue_lt bc hk, hp, lagVal_congr hb]
  · rw [List.getElem?_map, List.getElem?_range (by omega), Option.map_some, bValue_last, hp]

/-- The sum of the functions is one. -/
theorem C56_bubble_unity (g : Gel) (hg : IsSimplex g) (o : ℕ) (ho : 1 ≤ o) (coors mtxI : ℕ → ℕ → K)
    (h : IsRefInv g.nV coors mtxI) (eps : K) (he : 0 ≤ eps) (ce : Bool) (x : ℕ → K)
    (hx : Clean g.nV mtxI eps ce x) :
    ∃ φ, evalSimplexB g.nV o mtxI eps ce (simplexBNodes g o) x = some φ ∧
      φ.length = (simplexBNodes g o).length ∧ φ.sum = 1 := by
  obtain ⟨φ, e, hlen, h1, h2⟩ := evalSimplexB_eq (o := o) he hx
  refine ⟨φ, e, by rw [hlen, length_simplexB], ?_⟩
  set n := (simplexNodes g o).length with hn
  have hs : φ.sum = ∑ k ∈ range (n + 1), φ.getD k 0 := by
    rw [← hlen, Finset.sum_range, ← Fin.sum_univ_getElem]
    exact sum_congr rfl fun i _ => by simp
  have hu := lag_repro hg ho h x 1 (by simp)
  simp only [map_one, mul_one] at hu
  have hpos : (n : K) ≠ 0 := Nat.cast_ne_zero.2 (by have := length_simplex_pos hg (o := o); omega)
  rw [hs, sum_range_succ, List.getD_eq_getElem?_getD, h2, Option.getD_some]
  have : ∀ k ∈ range n, φ.getD k 0 = lagVal g.nV o (baryVal g.nV mtxI x) (rowAt (simplexNodes g o) k) -
        1 / (n : K) * ∏ i ∈ range g.nV, g.nV * baryVal g.nV mtxI x i := fun k hk => by
    rw [List.getD_eq_getElem?_getD, h1 k (mem_range.1 hk), Option.getD_some]
  rw [sum_congr rfl this, sum_sub_distrib, hu]
  simp only [sum_const, card_range, nsmul_eq_mul]
  rw [← mul_assoc, mul_one_div_cancel hpos]
  ring

/-- On the boundary the bubble is zero and the other functions are the functions of the space without the
bubble. -/
theorem C56_bubble_boundary (g : Gel) (o : ℕ) (mtxI : ℕ → ℕ → K) (eps : K) (he : 0 ≤ eps) (ce : Bool) (x : ℕ → K)
    (hx : Clean g.nV mtxI eps ce x) (i : ℕ) (hi : i < g.nV) (h0 : baryVal g.nV mtxI x i = 0) :
    ∃ φ φ', evalSimplexB g.nV o mtxI eps ce (simplexBNodes g o) x = some φ ∧
      evalSimplex g.nV o mtxI eps ce (simplexNodes g o) x = some φ' ∧ φ = φ' ++ [0] := by
  obtain ⟨φ, e, hlen, h1, h2⟩ := evalSimplexB_eq (o := o) he hx
  obtain ⟨φ', e', h'⟩ := evalSimplex_eq (o := o) he hx (simplexNodes g o)
  have hlen' : φ'.length = (simplexNodes g o).length := by
    rw [evalSimplex, Option.map_eq_some_iff] at e'
    obtain ⟨bc, _, e'⟩ := e'
    rw [← e', List.length_map]
  have hz : ∏ i ∈ range g.nV, (g.nV : K) * baryVal g.nV mtxI x i = 0 := prod_eq_zero (mem_range.2 hi) (by rw [h0, mul_zero])
  refine ⟨φ, φ', e, e', List.ext_getElem? fun k => ?_⟩
  rcases lt_trichotomy k (simplexNodes g o).length with hk | hk | hk
  · rw [h1 k hk, List.getElem?_append_left (by omega), h' k hk, hz, mul_zero, sub_zero]
  · rw [hk, h2, hz, List.getElem?_append_right (by omega), hlen']; simp
  · rw [List.getElem?_eq_none (by omega), List.getElem?_eq_none (by simp; omega)]

/-- The bubble in the center is one. -/
theorem C56_bubble_center (g : Gel) (hg : IsSimplex g) (o : ℕ) (coors mtxI : ℕ → ℕ → K)
    (h : IsRefInv g.nV coors mtxI) (eps : K) (he : 0 ≤ eps) (ce : Bool) :
    ∃ φ, evalSimplexB g.nV o mtxI eps ce (simplexBNodes g o) (centerCoor g.nV coors) = some φ ∧
      φ.getLast? = some 1 := by
  have hn : (0 : K) < g.nV := by rcases hg with rfl | rfl | rfl <;> norm_num [gel12, gel23, gel34]
  have hb : ∀ i < g.nV, baryVal g.nV mtxI (centerCoor g.nV coors) i = 1 / g.nV := fun i hi => by
    have e : centerCoor g.nV coors = fun r => ∑ j ∈ range g.nV, (1 / g.nV : K) * coors j r := by
      funext r; rw [centerCoor, ← mul_sum]; ring
    rw [e, bary_combo h (fun _ => 1 / (g.nV : K)) (by simp [ne_of_gt hn]) hi]
  have hx : Clean g.nV mtxI eps ce (centerCoor g.nV coors) := fun i hi => by
    left
    rw [hb i hi]
    have h1 : (1 : K) ≤ g.nV := by rcases hg with rfl | rfl | rfl <;> norm_num [gel12, gel23, gel34]
    exact ⟨by positivity, by rw [div_le_one hn]; exact h1⟩
  obtain ⟨φ, e, hlen, h1, h2⟩ := evalSimplexB_eq (o := o) he hx
  refine ⟨φ, e, ?_⟩
  rw [List.getLast?_eq_getElem?, hlen, Nat.add_sub_cancel, h2]
  congr 1
  exact prod_eq_one fun i hi => by rw [hb i (mem_range.1 hi), mul_one_div_cancel (ne_of_gt hn)]

/-- The functions of the order 1 with the bubble are nodal: in a vertex, all but the vertex function are zero,
in the center, all but the bubble are zero. -/
theorem C56_bubble_nodal (g : Gel) (hg : IsSimplex g) (coors mtxI : ℕ → ℕ → K)
    (h : IsRefInv g.nV coors mtxI) (eps : K) (he : 0 ≤ eps) (ce : Bool) :
    (simplexNodes g 1).length = g.nV ∧
    (∀ k < g.nV, ∃ φ, evalSimplexB g.nV 1 mtxI eps ce (simplexBNodes g 1) (coors k) = some φ ∧
      ∀ k' < g.nV + 1, φ[k']? = some (if k' = k then 1 else 0)) ∧
    ∃ φ, evalSimplexB g.nV 1 mtxI eps ce (simplexBNodes g 1) (centerCoor g.nV coors) = some φ ∧
      ∀ k' < g.nV + 1, φ[k']? = some (if k' = g.nV then 1 else 0) := by
  have hlen : (simplexNodes g 1).length = g.nV := by
    rcases hg with rfl | rfl | rfl
    · rw [(shape12 1).length]; rfl
    · rw [(shape23 1).length]; rfl
    · rw [(shape34 1).length]; rfl
  have hrow : ∀ k < g.nV, rowAt (simplexNodes g 1) k = fun i => if i = k then 1 else 0 := by
    intro k hk
    rcases hg with rfl | rfl | rfl
    · exact row12_vert hk
    · exact row23_vert hk
    · exact row34_vert hk
  have hval : ∀ (bc : ℕ → K), ∀ k < g.nV, lagVal g.nV 1 bc (rowAt (simplexNodes g 1) k) = bc k := by
    intro bc k hk
    rw [lagVal_eq, hrow k hk, prod_eq_single k]
    · simp [ch]
    · intro i _ hik; simp [hik]
    · intro hc; simp [hk] at hc
  have hn : (0 : K) < g.nV := by rcases hg with rfl | rfl | rfl <;> norm_num [gel12, gel23, gel34]
  have hn2 : 2 ≤ g.nV := by rcases hg with rfl | rfl | rfl <;> decide
  refine ⟨hlen, fun k hk => ?_, ?_⟩
  · have hb : ∀ i < g.nV, baryVal g.nV mtxI (coors k) i = if i = k then 1 else 0 := fun i hi => by
      rw [baryVal_eq, h.left i k hi hk]
    have hx : Clean g.nV mtxI eps ce (coors k) := fun i hi => by
      left
      rw [hb i hi]
      split_ifs <;> norm_num
    obtain ⟨φ, e, _, h1, h2⟩ := evalSimplexB_eq (o := 1) he hx
    have hz : ∏ i ∈ range g.nV, (g.nV : K) * baryVal g.nV mtxI (coors k) i = 0 := by
      obtain ⟨j, hj, hjk⟩ : ∃ j < g.nV, j ≠ k := by
        by_cases h0 : k = 0
        · exact ⟨1, by omega, by omega⟩
        · exact ⟨0, by omega, by omega⟩
      exact prod_eq_zero (mem_range.2 hj) (by rw [hb j hj, if_neg hjk, mul_zero])
    refine ⟨φ, e, fun k' hk' => ?_⟩
    by_cases hl : k' = g.nV
    · rw [hl, ← hlen, h2, hz, hlen, if_neg (by omega)]
    · rw [h1 k' (by omega), hz, mul_zero, sub_zero, hval _ _ (by omega), hb k' (by omega)]
  · have hb : ∀ i < g.nV, baryVal g.nV mtxI (centerCoor g.nV coors) i = 1 / g.nV := fun i hi => by
      have e : centerCoor g.nV coors = fun r => ∑ j ∈ range g.nV, (1 / g.nV : K) * coors j r := by
        funext r; rw [centerCoor, ← mul_sum]; ring
      rw [e, bary_combo h (fun _ => 1 / (g.nV : K)) (by simp [ne_of_gt hn]) hi]
    have hx : Clean g.nV mtxI eps ce (centerCoor g.nV coors) := fun i hi => by
      left
      rw [hb i hi]
      have h1 : (1 : K) ≤ g.nV := by rcases hg with rfl | rfl | rfl <;> norm_num [gel12, gel23, gel34]
      exact ⟨by positivity, by rw [div_le_one hn]; exact h1⟩
    obtain ⟨φ, e, _, h1, h2⟩ := evalSimplexB_eq (o := 1) he hx
    have ho : ∏ i ∈ range g.nV, (g.nV : K) * baryVal g.nV mtxI (centerCoor g.nV coors) i = 1 :=
      prod_eq_one fun i hi => by rw [hb i (mem_range.1 hi), mul_one_div_cancel (ne_of_gt hn)]
    refine ⟨φ, e, fun k' hk' => ?_⟩
    by_cases hl : k' = g.nV
    · rw [hl, ← hlen, h2, ho, hlen, if_pos rfl]
    · rw [h1 k' (by omega), ho, hval _ _ (by omega), hb k' (by omega), hlen, mul_one, sub_self, if_neg hl]

end

/-- The gradients of the functions with the bubble are their partial derivatives. -/
theorem C56_bubble_gradient (nV o nNod : ℕ) (nodes : ℕ → ℕ → ℕ) (mtxI : ℕ → ℕ → ℝ) (x : ℕ → ℝ) (k r : ℕ)
    (hr : r < nV - 1) :
    HasDerivAt (fun t => bValue nV o nNod nodes (baryVal nV mtxI (Function.update x r t)) k)
      (bGrad nV o nNod nodes mtxI (baryVal nV mtxI x) k r) (x r) := by
  have key := fun o row => hasDerivAt_lagVal nV o row mtxI r (b := fun t => baryVal nV mtxI (Function.update x r t))
    (t := x r) fun i _ => hasDerivAt_bary nV mtxI x hr i
  simp only [Function.update_eq_self] at key
  simp only [bValue, bGrad, bubbleVal, bubbleGrad]
  split_ifs
  · exact key _ _
  · exact (key _ _).sub ((key _ _).const_mul _)

end Verif.Fem
