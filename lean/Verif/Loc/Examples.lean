/-
Concrete cases of the location of points: a rectangle 4 x 3 of two triangles.
-/
import Verif.Loc.PropsWalk
import Verif.Loc.PropsTensor

namespace Verif.Loc

open Finset Verif.Fem

/-- The vertices of the two triangles `(0,3), (0,0), (4,0)` and `(4,0), (4,3), (0,3)`. -/
def triE (c i r : ℕ) : ℚ :=
  ((([[[0, 3], [0, 0], [4, 0]], [[4, 0], [4, 3], [0, 3]]] : List (List (List ℚ))).getD c []).getD i []).getD r 0

/-- The centroids. -/
def triC (c r : ℕ) : ℚ := (([[4 / 3, 1], [8 / 3, 2]] : List (List ℚ)).getD c []).getD r 0

def pt (x y : ℚ) (r : ℕ) : ℚ := if r = 0 then x else y

/-- The square root in the used points. -/
def sqrtEx (x : ℚ) : ℚ := if x = 1 / 225 then 1 / 15 else x

theorem tri_nonDegenerate : ∀ c < 2, NonDegenerate 2 (triE c) := by
  intro c hc
  unfold NonDegenerate vertexMatrix
  rw [Matrix.det_fin_three]
  interval_cases c <;> simp [triE] <;> norm_num

/-- An inner point of the second triangle. -/
theorem tri_inside : InSimplex 2 (triE 1) (pt 3 (3 / 2)) := by
  refine ⟨fun i => if i = 0 then 1 / 2 else 1 / 4, ?_, ?_, ?_⟩
  · intro i _; simp only; split <;> norm_num
  · norm_num [sum_range_succ]
  · intro r hr
    interval_cases r <;> norm_num [sum_range_succ, triE, pt]

/-- The hypotheses of `C111_locate_complete` are met. -/
example : (locateSimplex sqrtEx 2 2 triE triC (1 / 10) (1 / 10 ^ 15) [] (fun _ => 0) (pt 3 (3 / 2))).status = 0 :=
  C111_locate_complete (by norm_num) tri_nonDegenerate _ _ _ _ (by norm_num) _ _ _ (by norm_num : 1 < 2) tri_inside

/-- The point is found in the second triangle with its coordinates. -/
example : (locateSimplex sqrtEx 2 2 triE triC (1 / 10) (1 / 10 ^ 15) [] (fun _ => 0) (pt 3 (3 / 2))).cell = 1 ∧
    (locateSimplex sqrtEx 2 2 triE triC (1 / 10) (1 / 10 ^ 15) [] (fun _ => 0) (pt 3 (3 / 2))).xi 0 = 1 / 4 ∧
    (locateSimplex sqrtEx 2 2 triE triC (1 / 10) (1 / 10 ^ 15) [] (fun _ => 0) (pt 3 (3 / 2))).xi 1 = 1 / 4 := by
  decide +kernel

/-- A point far from the mesh has no potential cells, without extrapolation. -/
example : (locateSimplex sqrtEx 2 2 triE triC 0 (1 / 10 ^ 15) [] (fun _ => 0) (pt 30 0)).status = 5 := by
  decide +kernel

/-- The basis of the linear triangle in the coordinates `xi`. -/
def p1Basis (xi : ℕ → ℚ) (k : ℕ) : ℚ := if k = 0 then 1 - xi 0 - xi 1 else xi (k - 1)

/-- The field `y` of the mesh: the vertices are numbered by their coordinates, `(x, y)` is `x + 10 y`. -/
def yField (j : ℤ) : ℚ := (j / 10 : ℤ)

def triConn (ck : ℕ × ℕ) : ℤ := (([[30, 0, 4], [4, 34, 30]] : List (List ℤ)).getD ck.1 []).getD ck.2 0

/-- **C110, the exception.** The point `(3, -1/5)` is outside of the rectangle, at the distance `1/15` of the first triangle
(in its coordinates), within the default limit 0.1.  It gets the status 1 and the first triangle, but the coordinates
in the second one, the last candidate: the linear field `y` is evaluated to `16/5` instead of `-1/5`. -/
theorem C110_extrapolation_mixes_cells :
    (locateSimplex sqrtEx 2 2 triE triC (1 / 10) (1 / 10 ^ 15) [] (fun _ => 0) (pt 3 (-1 / 5))).status = 1 ∧
    (locateSimplex sqrtEx 2 2 triE triC (1 / 10) (1 / 10 ^ 15) [] (fun _ => 0) (pt 3 (-1 / 5))).cell = 0 ∧
    (locateSimplex sqrtEx 2 2 triE triC (1 / 10) (1 / 10 ^ 15) [] (fun _ => 0) (pt 3 (-1 / 5))).xi 0 ≠
      (xiDistSimplex 2 (pt 3 (-1 / 5)) (triE 0)).xi 0 ∧
    (locateSimplex sqrtEx 2 2 triE triC (1 / 10) (1 / 10 ^ 15) [] (fun _ => 0) (pt 3 (-1 / 5))).xi 0 =
      (xiDistSimplex 2 (pt 3 (-1 / 5)) (triE 1)).xi 0 ∧
    evaluateInRc p1Basis triConn yField 3
      (locateSimplex sqrtEx 2 2 triE triC (1 / 10) (1 / 10 ^ 15) [] (fun _ => 0) (pt 3 (-1 / 5))) = 16 / 5 := by
  decide +kernel

/-- Inside, the field is evaluated right. -/
example : evaluateInRc p1Basis triConn yField 3
    (locateSimplex sqrtEx 2 2 triE triC (1 / 10) (1 / 10 ^ 15) [] (fun _ => 0) (pt 3 (3 / 2))) = 3 / 2 := by
  decide +kernel

/-- The hypotheses of `C110_closest` are met by this point. -/
example : (∀ c ∈ [0, 1], ¬ Accepted (1 / 10 ^ 15) (xiDistSimplex 2 (pt 3 (-1 / 5)) (triE c))) ∧
    ∃ c ∈ [0, 1], (xiDistSimplex 2 (pt 3 (-1 / 5)) (triE c)).dist < 10 ^ 10 := by
  unfold Accepted
  decide +kernel

/-! ### The walk -/

/-- The two triangles: the facets are the edges `01`, `12`, `20`, with the first vertex and the outer unit normal; the
edge `20` is common. -/
def triWalk : Walk ℚ where
  nFacet _ := 3
  centroid := triC
  facetPoint c i := triE c i
  normal c i r := ((([[[-1, 0], [0, -1], [3 / 5, 4 / 5]], [[1, 0], [0, 1], [-3 / 5, -4 / 5]]] :
    List (List (List ℚ))).getD c []).getD i []).getD r 0
  neighbour c i := if i = 2 then some (1 - c) else none

/-- The walk from the first triangle finds a point of the second one. -/
example : (findRefCoorsConvex sqrtEx true 2 (1 / 10 ^ 15) (1 / 10) triWalk
    (fun c => xiDistSimplex 2 (pt 3 (3 / 2)) (triE c)) (pt 3 (3 / 2)) 0).map (fun f => (f.cell, f.status, f.xi 0)) =
    some (1, 0, 1 / 4) := by
  decide +kernel

/-- The hypotheses of `C113_found_inside` are met. -/
example : findRefCoorsConvex sqrtEx true 2 (1 / 10 ^ 15) (1 / 10) triWalk
    (fun c => xiDistSimplex 2 (pt 3 (3 / 2)) (triE c)) (pt 3 (3 / 2)) 1 =
      some { cell := 1, status := 0, xi := xiSimplex 2 (pt 3 (3 / 2)) (triE 1) } := by
  refine C113_found_inside (B := 3) (by norm_num) (by norm_num) triWalk _ ?_ ?_ ?_ ?_ _ _ _
    (accepted_of_inSimplex (by norm_num) (tri_nonDegenerate 1 (by norm_num)) tri_inside (by norm_num))
  · intro i hi
    have : i < 3 := hi
    interval_cases i <;> norm_num [sum_range_succ, triWalk, triE, triC]
  · intro i hi
    have : i < 3 := hi
    interval_cases i <;> norm_num [sum_range_succ, triWalk, triE, pt]
  · intro i hi
    have : i < 3 := hi
    interval_cases i <;> norm_num [sum_range_succ, triWalk, triE, triC, pt]
  · norm_num [sum_range_succ, triWalk, triC, pt, abs_of_pos, abs_of_neg]

/-- **C113, the exception.** The centroid of the first triangle is not found by the walk that starts there, with any number
of passes, although it is in the triangle: the general strategy finds it. -/
theorem C113_centroid_example : findRefCoorsConvex sqrtEx true 2 (1 / 10 ^ 15) (1 / 10) triWalk
    (fun c => xiDistSimplex 2 (pt (4 / 3) 1) (triE c)) (pt (4 / 3) 1) 0 = none ∧
    (locateSimplex sqrtEx 2 2 triE triC (1 / 10) (1 / 10 ^ 15) [] (fun _ => 0) (pt (4 / 3) 1)).status = 0 := by
  constructor
  · unfold findRefCoorsConvex
    rw [C113_centroid_lost (a := 0) (b := 1) (m := 2) (by norm_num) (by norm_num) triWalk _ rfl ?_ rfl ?_]
    · rfl
    · norm_num [sum_range_succ, triWalk, triC, pt]
    · intro imin
      have h : exitFacet 2 (1 / 10 ^ 15) triWalk (pt (4 / 3) 1) 1 imin = (2, 1 / 2) := by
        have t0 : linePlane 2 (triWalk.centroid 1) (pt (4 / 3) 1) (triWalk.facetPoint 1 0) (triWalk.normal 1 0) = -1 := by
          decide +kernel
        have t1 : linePlane 2 (triWalk.centroid 1) (pt (4 / 3) 1) (triWalk.facetPoint 1 1) (triWalk.normal 1 1) = -1 := by
          decide +kernel
        have t2 : linePlane 2 (triWalk.centroid 1) (pt (4 / 3) 1) (triWalk.facetPoint 1 2) (triWalk.normal 1 2) = 1 / 2 := by
          decide +kernel
        have hn : triWalk.nFacet 1 = 3 := rfl
        unfold exitFacet
        rw [hn]
        simp only [List.range_succ, List.range_zero, List.nil_append, List.cons_append, List.foldl_cons, List.foldl_nil,
          t0, t1, t2]
        norm_num
      rw [h]
      exact ⟨by norm_num, rfl⟩
  · decide +kernel

/-! ### Quadrilaterals -/

/-- A rectangle 4 x 3 as one quadrilateral. -/
def quadE (_c k r : ℕ) : ℚ := (([[0, 0], [4, 0], [4, 3], [0, 3]] : List (List ℚ)).getD k []).getD r 0

def mtx1d (i r : ℕ) : ℚ := (([[-1, 1], [1, 0]] : List (List ℚ)).getD i []).getD r 0

def quadA (d r : ℕ) : ℚ := if d = r then (if d = 0 then 4 else 3) else 0

theorem quad_affine : IsAffine 2 (fun _ => 0) quadA (quadE 0) := by
  intro k hk r hr
  have : k < 4 := hk
  interval_cases k <;> interval_cases r <;> norm_num [sum_range_succ, vertexMap, quadA, quadE]

/-- The hypotheses of `C112_locate_complete` are met. -/
example : (locateTensor (fun x => x) (1 / 10 ^ 8) 100 gel24 mtx1d 1 quadE (fun _ r => if r = 0 then 2 else 3 / 2) (1 / 10)
    (1 / 10 ^ 15) [] (fun _ => 0) (pt 3 (3 / 2))).status = 0 := by
  refine C112_locate_complete (Or.inl rfl) (by norm_num) rfl rfl (a := fun _ _ => 0) (A := fun _ => quadA)
    (fun c _ => quad_affine) ?_ 98 _ _ _ (by norm_num) _ _ _ (by norm_num : 0 < 1)
    (xi := fun d => if d = 0 then 3 / 4 else 1 / 2) ?_ ?_
  · intro c _
    show 1 / 10 ^ 55 ≤ |(Matrix.of fun r s : Fin 2 => quadA r s).det|
    rw [Matrix.det_fin_two]
    norm_num [quadA]
  · intro d _; by_cases hd : d = 0 <;> simp only [hd, if_true, if_false] <;> norm_num
  · intro r hr
    have : r < 2 := hr
    show pt 3 (3 / 2) r = mapX 2 (quadE 0) _ r
    interval_cases r <;> norm_num [mapX, sum_range_succ, prod_range_succ, vertexMap, quadE, pt]

example : (locateTensor (fun x => x) (1 / 10 ^ 8) 100 gel24 mtx1d 1 quadE (fun _ r => if r = 0 then 2 else 3 / 2) (1 / 10)
    (1 / 10 ^ 15) [] (fun _ => 0) (pt 3 (3 / 2))).xi 0 = 3 / 4 := by
  decide +kernel

/-- The reference simplex in two dimensions and the inverse matrix of `LagrangeSimplexPolySpace`. -/
def mtxI23 (i s : ℕ) : ℚ := (([[-1, -1, 1], [1, 0, 0], [0, 1, 0]] : List (List ℚ)).getD i []).getD s 0

theorem refInv23 : IsRefInv 3 (refSimplex : ℕ → ℕ → ℚ) mtxI23 where
  pos := by norm_num
  left := by
    intro i j hi hj
    interval_cases i <;> interval_cases j <;> norm_num [sum_range_succ, refSimplex, mtxI23]
  coor := by
    intro r s hr hs
    have : r < 2 := hr
    interval_cases r <;> interval_cases s <;> norm_num [sum_range_succ, refSimplex, mtxI23]
  ones := by
    intro s hs
    interval_cases s <;> norm_num [sum_range_succ, mtxI23]

/-- The hypotheses of `C111_evaluate_exact` are met by quadratic elements on the two triangles: the DOFs are numbered by
cells. -/
example (p : MvPolynomial (Fin 2) ℚ) (hp : p.totalDegree ≤ 2) :
    evaluateInRc (simplexBasis gel23 2 mtxI23) (fun ck => ((10 * ck.1 + ck.2 : ℕ) : ℤ))
      (fun j => MvPolynomial.eval (fun r : Fin 2 => simplexNodeCoor 3 2 (triE (j / 10).toNat)
        (rowAt (simplexNodes gel23 2) (j % 10).toNat) r) p) (simplexNodes gel23 2).length
      (locateSimplex sqrtEx 2 2 triE triC (1 / 10) (1 / 10 ^ 15) [] (fun _ => 0) (pt 3 (3 / 2))) =
      MvPolynomial.eval (fun r : Fin 2 => pt 3 (3 / 2) r) p := by
  refine C111_evaluate_exact (g := gel23) (Or.inr (Or.inl rfl)) (o := 2) (by norm_num) refInv23 (nEl := 2) (e := triE)
    tri_nonDegenerate sqrtEx triC (1 / 10) (1 / 10 ^ 15) (by norm_num) [] (by simp) (fun _ => 0) (pt 3 (3 / 2))
    (C111_locate_complete (by norm_num) tri_nonDegenerate _ _ _ _ (by norm_num) _ _ _ (by norm_num : 1 < 2) tri_inside) p hp _ _
    ?_
  intro c hc k hk
  have hk' : k < 10 := lt_of_lt_of_le hk (by decide)
  have e1 : (((10 * c + k : ℕ) : ℤ) / 10).toNat = c := by omega
  have e2 : (((10 * c + k : ℕ) : ℤ) % 10).toNat = k := by omega
  simp only [e1, e2]
  rfl

end Verif.Loc
