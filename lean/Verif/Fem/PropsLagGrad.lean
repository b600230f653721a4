/-
The gradients and the second derivatives of the Lagrange bases are the derivatives of the values.
-/
import Verif.Fem.PropsLagTensor
import Mathlib.Analysis.Calculus.Deriv.Mul
import Mathlib.Analysis.Calculus.Deriv.Add
import Mathlib.Analysis.Calculus.Deriv.Pi

namespace Verif.Fem

open Finset

theorem filter_ne_erase (s : Finset ℕ) (a : ℕ) : (s.filter fun i => ¬ i = a) = s.erase a := by
  ext i; simp [and_comm]

theorem filter_ne_erase' (s : Finset ℕ) (a : ℕ) : (s.filter fun i => ¬ a = i) = s.erase a := by
  ext i; simp only [mem_filter, mem_erase]; constructor <;> rintro ⟨h1, h2⟩
  · exact ⟨fun h => h2 h.symm, h1⟩
  · exact ⟨h2, fun h => h1 h.symm⟩

section
variable {K : Type} [Field K]

theorem lagVV_eq (nV o : ℕ) (bc : ℕ → K) (node : ℕ → ℕ) (ii : ℕ) :
    lagVV nV o bc node ii = ∏ i ∈ (range nV).erase ii, ch (o * bc i) (node i) := by
  simp only [lagVV, foldl_mul]
  rw [foldl_mul_skip, one_mul, filter_ne_erase]
  rfl

theorem lagDval_eq (o : ℕ) (b : K) (n : ℕ) :
    lagDval o b n = ∑ i ∈ range n, (∏ j ∈ (range n).erase i, (o * b - j) / (j + 1)) * (o / (i + 1)) := by
  simp only [lagDval, foldl_mul_skip, foldl_add, zero_add, one_mul, filter_ne_erase']
  exact sum_congr rfl fun i _ => by rw [mul_div_assoc]

theorem lagGrad_eq (nV o : ℕ) (mtxI : ℕ → ℕ → K) (bc : ℕ → K) (node : ℕ → ℕ) (r : ℕ) :
    lagGrad nV o mtxI bc node r = ∑ ii ∈ range nV,
      (∏ i ∈ (range nV).erase ii, ch (o * bc i) (node i)) * lagDval o (bc ii) (node ii) * mtxI ii r := by
  simp only [lagGrad, foldl_add, zero_add, lagVV_eq]

theorem hessVal_eq (nV o : ℕ) (bc : ℕ → K) (node : ℕ → ℕ) (om : List ℕ) :
    hessVal nV o bc node om = ∏ i ∈ range nV with ¬ i ∈ om, ch (o * bc i) (node i) := by
  simp only [hessVal, foldl_mul]
  rw [foldl_mul_skip, one_mul]
  rfl

theorem hessDer_eq (o : ℕ) (b : K) (n : ℕ) (om : List ℕ) :
    hessDer o b n om = ∑ i ∈ range n with ¬ i ∈ om,
      (∏ j ∈ range n with ¬ (i = j ∨ j ∈ om), (o * b - j) / (j + 1)) * (o / (i + 1)) := by
  simp only [hessDer, foldl_mul_skip, foldl_add_skip, zero_add, one_mul]
  exact sum_congr rfl fun i _ => by rw [mul_div_assoc]

theorem hessDer_nil (o : ℕ) (b : K) (n : ℕ) : hessDer o b n [] = lagDval o b n := by
  rw [hessDer_eq, lagDval_eq]
  simp only [List.not_mem_nil, not_false_iff, filter_true, or_false, filter_ne_erase']

theorem hessDer_single (o : ℕ) (b : K) (n i : ℕ) : hessDer o b n [i] = ∑ j ∈ (range n).erase i,
    (∏ l ∈ ((range n).erase i).erase j, (o * b - l) / (l + 1)) * (o / (j + 1)) := by
  rw [hessDer_eq]
  simp only [List.mem_singleton, filter_ne_erase]
  refine sum_congr rfl fun j _ => ?_
  congr 1
  refine prod_congr ?_ fun _ _ => rfl
  ext l
  simp only [mem_filter, mem_erase, not_or]
  tauto

end

/-! ### Derivatives -/

/-- The derivative of a barycentric coordinate. -/
theorem hasDerivAt_bary (nV : ℕ) (mtxI : ℕ → ℕ → ℝ) (x : ℕ → ℝ) {r : ℕ} (hr : r < nV - 1) (i : ℕ) :
    HasDerivAt (fun t => baryVal nV mtxI (Function.update x r t) i) (mtxI i r) (x r) := by
  have e : (fun t => baryVal nV mtxI (Function.update x r t) i) =
      fun t => mtxI i r * t + (∑ s ∈ (range (nV - 1)).erase r, mtxI i s * x s + mtxI i (nV - 1)) := by
    funext t
    rw [baryVal_eq, ← add_sum_erase _ _ (mem_range.2 hr), Function.update_self, add_assoc]
    congr 2
    exact sum_congr rfl fun s hs => by rw [Function.update_of_ne (ne_of_mem_erase hs)]
  rw [e]
  simpa using ((hasDerivAt_id (x r)).const_mul (mtxI i r)).add_const
    (∑ s ∈ (range (nV - 1)).erase r, mtxI i s * x s + mtxI i (nV - 1))

theorem hasDerivAt_factor (o j : ℕ) {b : ℝ → ℝ} {b' t : ℝ} (h : HasDerivAt b b' t) :
    HasDerivAt (fun t => ((o : ℝ) * b t - j) / (j + 1)) ((o : ℝ) / (j + 1) * b') t := by
  have := ((h.const_mul (o : ℝ)).sub_const (j : ℝ)).div_const ((j : ℝ) + 1)
  refine this.congr_deriv ?_
  ring

theorem hasDerivAt_prod {u : Finset ℕ} {f : ℕ → ℝ → ℝ} {f' : ℕ → ℝ} {t : ℝ} (h : ∀ i ∈ u, HasDerivAt (f i) (f' i) t) :
    HasDerivAt (fun t => ∏ i ∈ u, f i t) (∑ i ∈ u, (∏ j ∈ u.erase i, f j t) * f' i) t := by
  have := HasDerivAt.fun_finsetProd h
  simpa [smul_eq_mul] using this

theorem hasDerivAt_sum {u : Finset ℕ} {f : ℕ → ℝ → ℝ} {f' : ℕ → ℝ} {t : ℝ} (h : ∀ i ∈ u, HasDerivAt (f i) (f' i) t) :
    HasDerivAt (fun t => ∑ i ∈ u, f i t) (∑ i ∈ u, f' i) t := HasDerivAt.fun_sum h

/-- The derivative of a factor of a basis function. -/
theorem hasDerivAt_ch (o n : ℕ) {b : ℝ → ℝ} {b' t : ℝ} (h : HasDerivAt b b' t) :
    HasDerivAt (fun t => ch ((o : ℝ) * b t) n) (lagDval o (b t) n * b') t := by
  have := hasDerivAt_prod (u := range n) fun j _ => hasDerivAt_factor o j h
  refine this.congr_deriv ?_
  rw [lagDval_eq, sum_mul]
  exact sum_congr rfl fun i _ => by rw [mul_assoc]

theorem hasDerivAt_dval (o n : ℕ) {b : ℝ → ℝ} {b' t : ℝ} (h : HasDerivAt b b' t) :
    HasDerivAt (fun t => lagDval o (b t) n)
      ((∑ i ∈ range n, hessDer o (b t) n [i] * o / (i + 1)) * b') t := by
  have := hasDerivAt_sum (u := range n) fun i _ =>
    (hasDerivAt_prod (u := (range n).erase i) fun j _ => hasDerivAt_factor o j h).mul_const ((o : ℝ) / (i + 1))
  simp only [lagDval_eq]
  refine this.congr_deriv ?_
  rw [sum_mul]
  refine sum_congr rfl fun i _ => ?_
  rw [hessDer_single]
  simp only [sum_mul, sum_div]
  exact sum_congr rfl fun j _ => by ring

/-- The derivative of a function of a simplex along a path of the barycentric coordinates. -/
theorem hasDerivAt_lagVal (nV o : ℕ) (node : ℕ → ℕ) (mtxI : ℕ → ℕ → ℝ) (r : ℕ) {b : ℝ → ℕ → ℝ} {t : ℝ}
    (h : ∀ i < nV, HasDerivAt (fun t => b t i) (mtxI i r) t) :
    HasDerivAt (fun t => lagVal nV o (b t) node) (lagGrad nV o mtxI (b t) node r) t := by
  simp only [lagVal_eq]
  have := hasDerivAt_prod (u := range nV) fun i hi => hasDerivAt_ch o (node i) (h i (mem_range.1 hi))
  refine this.congr_deriv ?_
  rw [lagGrad_eq]
  exact sum_congr rfl fun i _ => by ring

theorem hessItem_self {K : Type} [Field K] (nV o : ℕ) (bc : ℕ → K) (node : ℕ → ℕ) (i : ℕ) :
    hessItem nV o bc node i i = (∏ l ∈ (range nV).erase i, ch (o * bc l) (node l)) *
      ∑ j ∈ range (node i), hessDer o (bc i) (node i) [j] * o / (j + 1) := by
  rw [hessItem, if_pos rfl, hessVal_eq, foldl_add, zero_add]
  simp only [List.mem_singleton, filter_ne_erase]

theorem hessItem_ne {K : Type} [Field K] (nV o : ℕ) (bc : ℕ → K) (node : ℕ → ℕ) {i j : ℕ} (h : i ≠ j) :
    hessItem nV o bc node i j = (∏ l ∈ ((range nV).erase i).erase j, ch (o * bc l) (node l)) *
      lagDval o (bc i) (node i) * lagDval o (bc j) (node j) := by
  rw [hessItem, if_neg h, hessVal_eq, hessDer_nil, hessDer_nil]
  congr 2
  refine prod_congr ?_ fun _ _ => rfl
  ext l
  simp only [mem_filter, mem_erase, List.mem_cons, List.not_mem_nil, or_false, not_or]
  tauto

theorem lagHess_eq {K : Type} [Field K] (nV o : ℕ) (mtxI : ℕ → ℕ → K) (bc : ℕ → K) (node : ℕ → ℕ) (r c : ℕ) :
    lagHess nV o mtxI bc node r c =
      ∑ i ∈ range nV, ∑ j ∈ range nV, hessItem nV o bc node i j * mtxI i c * mtxI j r := by
  simp only [lagHess, foldl_add, zero_add]

/-- The derivative of a gradient of a function of a simplex along a path of the barycentric coordinates. -/
theorem hasDerivAt_lagGrad (nV o : ℕ) (node : ℕ → ℕ) (mtxI : ℕ → ℕ → ℝ) (r c : ℕ) {b : ℝ → ℕ → ℝ} {t : ℝ}
    (h : ∀ i < nV, HasDerivAt (fun t => b t i) (mtxI i c) t) :
    HasDerivAt (fun t => lagGrad nV o mtxI (b t) node r) (lagHess nV o mtxI (b t) node r c) t := by
  simp only [lagGrad_eq]
  have := hasDerivAt_sum (u := range nV) fun i hi =>
    ((hasDerivAt_prod (u := (range nV).erase i) fun j hj =>
      hasDerivAt_ch o (node j) (h j (mem_range.1 (mem_of_mem_erase hj)))).fun_mul
      (hasDerivAt_dval o (node i) (h i (mem_range.1 hi)))).mul_const (mtxI i r)
  refine this.congr_deriv ?_
  symm
  rw [lagHess_eq, sum_comm]
  refine sum_congr rfl fun i hi => ?_
  rw [← add_sum_erase _ _ hi, hessItem_self, add_mul, add_comm]
  congr 1
  · rw [sum_mul, sum_mul]
    refine sum_congr rfl fun j hj => ?_
    rw [hessItem_ne nV o (b t) node (ne_of_mem_erase hj), erase_right_comm]
    ring
  · ring

/-! ### The bases on the reference elements -/

theorem lagGrad_congr {K : Type} [Field K] {nV o : ℕ} {mtxI : ℕ → ℕ → K} {bc bc' : ℕ → K} {row : ℕ → ℕ} {r : ℕ}
    (h : ∀ i < nV, bc i = bc' i) : lagGrad nV o mtxI bc row r = lagGrad nV o mtxI bc' row r := by
  rw [lagGrad_eq, lagGrad_eq]
  refine sum_congr rfl fun i hi => ?_
  rw [h i (mem_range.1 hi)]
  congr 2
  exact prod_congr rfl fun j hj => by rw [h j (mem_range.1 (mem_of_mem_erase hj))]

/-- The gradients of the functions of a simplex are their partial derivatives. -/
theorem C56_simplex_gradient (nV o : ℕ) (mtxI : ℕ → ℕ → ℝ) (eps : ℝ) (he : 0 ≤ eps) (ce : Bool) (N : List Nod)
    (x : ℕ → ℝ) (hx : Clean nV mtxI eps ce x) :
    ∃ G, evalSimplexGrad nV o mtxI eps ce N x = some G ∧ G.length = N.length ∧
      ∀ k < N.length, ∀ r < nV - 1,
        HasDerivAt (fun t => lagVal nV o (baryVal nV mtxI (Function.update x r t)) (rowAt N k))
          (G.getD k (fun _ => 0) r) (x r) := by
  obtain ⟨bc, e, hb⟩ := baryCoors_eq he hx
  refine ⟨_, by rw [evalSimplexGrad, e]; rfl, by rw [List.length_map], fun k hk r hr => ?_⟩
  rw [List.getD_eq_getElem?_getD, map_row N (fun r => lagGrad nV o mtxI bc r) hk, Option.getD_some, lagGrad_congr hb]
  have := hasDerivAt_lagVal nV o (rowAt N k) mtxI r (b := fun t => baryVal nV mtxI (Function.update x r t)) (t := x r)
    fun i _ => hasDerivAt_bary nV mtxI x hr i
  simpa only [Function.update_eq_self] using this

/-- The second derivatives of the functions of a simplex are the derivatives of the gradients. -/
theorem C56_simplex_hessian (nV o : ℕ) (mtxI : ℕ → ℕ → ℝ) (x : ℕ → ℝ) (row : ℕ → ℕ) (r c : ℕ) (hc : c < nV - 1) :
    HasDerivAt (fun t => lagGrad nV o mtxI (baryVal nV mtxI (Function.update x c t)) row r)
      (lagHess nV o mtxI (baryVal nV mtxI x) row r c) (x c) := by
  have := hasDerivAt_lagGrad nV o row mtxI r c (b := fun t => baryVal nV mtxI (Function.update x c t)) (t := x c)
    fun i _ => hasDerivAt_bary nV mtxI x hc i
  simpa only [Function.update_eq_self] using this

/-! ### Tensor products -/

/-- The two barycentric coordinates in each direction. -/
abbrev bary2 {K : Type} [Field K] (mtxI : ℕ → ℕ → K) (x : ℕ → K) (d : ℕ) : ℕ → K := baryVal 2 mtxI fun _ => x d

theorem hasDerivAt_bary2 (mtxI : ℕ → ℕ → ℝ) (x : ℕ → ℝ) (d i : ℕ) :
    HasDerivAt (fun t => bary2 mtxI (Function.update x d t) d i) (mtxI i 0) (x d) := by
  have h := hasDerivAt_bary 2 mtxI (fun _ => x d) (r := 0) (by norm_num) i
  refine h.congr_of_eventuallyEq (Filter.Eventually.of_forall fun t => ?_)
  refine congrFun (baryVal_two mtxI _ _ ?_) i
  simp

theorem bary2_ne {K : Type} [Field K] (mtxI : ℕ → ℕ → K) (x : ℕ → K) {d e : ℕ} (h : d ≠ e) (t : K) :
    bary2 mtxI (Function.update x e t) d = bary2 mtxI x d := by
  simp [bary2, Function.update_of_ne h]

theorem tenGrad_eq {K : Type} [Field K] (dim o : ℕ) (mtxI : ℕ → ℕ → K) (bc : ℕ → ℕ → K) (node : ℕ → ℕ) {r : ℕ}
    (hr : r < dim) : tenGrad dim o mtxI bc node r =
      (lagGrad 2 o mtxI (bc r) (fun i => node (2 * r + i)) 0) *
        ∏ d ∈ (range dim).erase r, lagVal 2 o (bc d) fun i => node (2 * d + i) := by
  rw [tenGrad, foldl_mul, one_mul, ← mul_prod_erase _ _ (mem_range.2 hr), if_pos rfl]
  congr 1
  exact prod_congr rfl fun d hd => by rw [if_neg (ne_of_mem_erase hd)]

theorem hasDerivAt_tenVal (dim o : ℕ) (mtxI : ℕ → ℕ → ℝ) (x : ℕ → ℝ) (row : ℕ → ℕ) {r : ℕ} (hr : r < dim) :
    HasDerivAt (fun t => tenVal dim o (bary2 mtxI (Function.update x r t)) row)
      (tenGrad dim o mtxI (bary2 mtxI x) row r) (x r) := by
  have e : (fun t => tenVal dim o (bary2 mtxI (Function.update x r t)) row) = fun t =>
      lagVal 2 o (bary2 mtxI (Function.update x r t) r) (fun i => row (2 * r + i)) *
        ∏ d ∈ (range dim).erase r, lagVal 2 o (bary2 mtxI x d) fun i => row (2 * d + i) := by
    funext t
    rw [tenVal_eq, ← mul_prod_erase _ _ (mem_range.2 hr)]
    congr 1
    exact prod_congr rfl fun d hd => by rw [bary2_ne _ _ (ne_of_mem_erase hd)]
  rw [e, tenGrad_eq _ _ _ _ _ hr]
  have := hasDerivAt_lagVal 2 o (fun i => row (2 * r + i)) mtxI 0
    (b := fun t => bary2 mtxI (Function.update x r t) r) (t := x r) fun i _ => hasDerivAt_bary2 mtxI x r i
  simp only [Function.update_eq_self] at this
  exact this.mul_const _

/-- The gradients of the functions of a tensor product element are their partial derivatives. -/
theorem C56_tensor_gradient (dim o : ℕ) (mtxI : ℕ → ℕ → ℝ) (eps : ℝ) (he : 0 ≤ eps) (ce : Bool) (N : List Nod)
    (x : ℕ → ℝ) (hx : CleanT dim mtxI eps ce x) :
    ∃ G, evalTensorGrad dim o mtxI eps ce N x = some G ∧ G.length = N.length ∧
      ∀ k < N.length, ∀ r < dim,
        HasDerivAt (fun t => tenVal dim o (fun d => baryVal 2 mtxI fun _ => Function.update x r t d) (rowAt N k))
          (G.getD k (fun _ => 0) r) (x r) := by
  obtain ⟨bc, e, hb⟩ := tenCoors_eq he hx
  refine ⟨_, by rw [evalTensorGrad, e]; rfl, by rw [List.length_map], fun k hk r hr => ?_⟩
  rw [List.getD_eq_getElem?_getD, map_row N (fun r => tenGrad dim o mtxI bc r) hk, Option.getD_some]
  refine (hasDerivAt_tenVal dim o mtxI x (rowAt N k) hr).congr_deriv ?_
  rw [tenGrad_eq _ _ _ _ _ hr, tenGrad_eq _ _ _ _ _ hr, lagGrad_congr (hb r hr)]
  congr 1
  exact prod_congr rfl fun d hd => (lagVal_congr (hb d (mem_range.1 (mem_of_mem_erase hd)))).symm

/-- The second derivatives of the functions of a tensor product element are the derivatives of the gradients. -/
theorem C56_tensor_hessian (dim o : ℕ) (mtxI : ℕ → ℕ → ℝ) (x : ℕ → ℝ) (row : ℕ → ℕ) (r c : ℕ) (hr : r < dim)
    (hc : c < dim) :
    HasDerivAt (fun t => tenGrad dim o mtxI (fun d => baryVal 2 mtxI fun _ => Function.update x c t d) row r)
      (tenHess dim o mtxI (fun d => baryVal 2 mtxI fun _ => x d) row r c) (x c) := by
  show HasDerivAt (fun t => tenGrad dim o mtxI (bary2 mtxI (Function.update x c t)) row r)
    (tenHess dim o mtxI (bary2 mtxI x) row r c) (x c)
  by_cases hcr : c = r
  · subst hcr
    have e : (fun t => tenGrad dim o mtxI (bary2 mtxI (Function.update x c t)) row c) = fun t =>
        lagGrad 2 o mtxI (bary2 mtxI (Function.update x c t) c) (fun i => row (2 * c + i)) 0 *
          ∏ d ∈ (range dim).erase c, lagVal 2 o (bary2 mtxI x d) fun i => row (2 * d + i) := by
      funext t
      rw [tenGrad_eq _ _ _ _ _ hc]
      congr 1
      exact prod_congr rfl fun d hd => by rw [bary2_ne _ _ (ne_of_mem_erase hd)]
    have h := hasDerivAt_lagGrad 2 o (fun i => row (2 * c + i)) mtxI 0 0
      (b := fun t => bary2 mtxI (Function.update x c t) c) (t := x c) fun i _ => hasDerivAt_bary2 mtxI x c i
    simp only [Function.update_eq_self] at h
    rw [e]
    refine (h.mul_const _).congr_deriv ?_
    simp only [tenHess, if_true]
    rw [foldl_mul_skip, filter_ne_erase]
  · have e : (fun t => tenGrad dim o mtxI (bary2 mtxI (Function.update x c t)) row r) = fun t =>
        lagVal 2 o (bary2 mtxI (Function.update x c t) c) (fun i => row (2 * c + i)) *
        (lagGrad 2 o mtxI (bary2 mtxI x r) (fun i => row (2 * r + i)) 0 *
          ∏ d ∈ ((range dim).erase r).erase c, lagVal 2 o (bary2 mtxI x d) fun i => row (2 * d + i)) := by
      funext t
      rw [tenGrad_eq _ _ _ _ _ hr, ← mul_prod_erase _ _ (mem_erase.2 ⟨hcr, mem_range.2 hc⟩),
        bary2_ne _ _ (fun h => hcr h.symm), mul_left_comm]
      congr 2
      exact prod_congr rfl fun d hd => by rw [bary2_ne _ _ (ne_of_mem_erase hd)]
    have h := hasDerivAt_lagVal 2 o (fun i => row (2 * c + i)) mtxI 0
      (b := fun t => bary2 mtxI (Function.update x c t) c) (t := x c) fun i _ => hasDerivAt_bary2 mtxI x c i
    simp only [Function.update_eq_self] at h
    rw [e]
    refine (h.mul_const _).congr_deriv ?_
    simp only [tenHess, if_neg hcr]
    rw [foldl_mul_skip, zero_add]
    have hs : (range dim).filter (fun i => ¬ (i = r ∨ i = c)) = ((range dim).erase r).erase c := by
      ext l; simp only [mem_filter, mem_erase, not_or]; tauto
    rw [hs]
    ring

end Verif.Fem
