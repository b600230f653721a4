import Verif.Iga.ConnProofs
import Mathlib.Analysis.Calculus.Deriv.Inv
import Mathlib.Analysis.Calculus.Deriv.Polynomial

/-!
# Proofs: evaluation of the NURBS basis
-/

namespace Iga

section General

variable {K : Type*} [Field K]

/-- The numerator of the local function `l`. -/
theorem numerators_eq (factors : List (ℕ → K)) (ns : List ℕ) (W : ℕ → K) :
    numerators factors (tp ns) W = (tp ns).map fun l => prodAt factors l * W (ravel ns l) := by
  unfold numerators
  rw [mapIdx_tp]

theorem numerators_get (factors : List (ℕ → K)) (ns l : List ℕ) (W : ℕ → K) (hl : Valid ns l) :
    (numerators factors (tp ns) W)[ravel ns l]? = some (prodAt factors l * W (ravel ns l)) := by
  rw [numerators_eq, List.getElem?_map, tp_get hl]; rfl

/-- The shape of a basis. -/
def shape (bs : List (Basis1d K)) : List ℕ := bs.map fun b => b.p + 1

/-- The denominator. -/
def denom (bs : List (Basis1d K)) (W : ℕ → K) : K :=
  ((tp (shape bs)).map fun l => prodAt (bs.map Basis1d.N) l * W (ravel (shape bs) l)).sum

/-- Its derivative as the code computes it. -/
def ddenom (bs : List (Basis1d K)) (W : ℕ → K) (j : ℕ) : K :=
  ((tp (shape bs)).map fun l => prodAt (diffFactors bs j) l * W (ravel (shape bs) l)).sum

theorem evalR_get (bs : List (Basis1d K)) (W : ℕ → K) (l : List ℕ) (hl : Valid (shape bs) l) :
    (evalR bs W)[ravel (shape bs) l]?
      = some (prodAt (bs.map Basis1d.N) l * W (ravel (shape bs) l) / denom bs W) := by
  unfold evalR
  simp only [List.getElem?_map]
  rw [show (bs.map fun b => b.p + 1) = shape bs from rfl, numerators_get _ _ _ _ hl, numerators_eq]
  rfl

theorem evalR_length (bs : List (Basis1d K)) (W : ℕ → K) : (evalR bs W).length = (shape bs).prod := by
  simp [evalR, numerators, tp_length, shape]

theorem evalDR_get (bs : List (Basis1d K)) (W : ℕ → K) (j : ℕ) (l : List ℕ) (hl : Valid (shape bs) l) :
    (evalDR bs W j)[ravel (shape bs) l]?
      = some ((prodAt (diffFactors bs j) l * W (ravel (shape bs) l)
          - prodAt (bs.map Basis1d.N) l * W (ravel (shape bs) l) / denom bs W * ddenom bs W j)
          / denom bs W) := by
  unfold evalDR
  simp only [List.getElem?_zipWith]
  rw [show (bs.map fun b => b.p + 1) = shape bs from rfl, numerators_get _ _ _ _ hl, evalR_get _ _ _ hl,
    numerators_eq, numerators_eq]
  rfl

theorem sum_map_div (l : List K) (w : K) : (l.map fun r => r / w).sum = l.sum / w := by
  induction l with
  | nil => simp
  | cons a l ih => simp [ih, add_div]

/-- **C77.** The NURBS basis functions of an element sum up to one in every point where the weight
function is not zero, for any number of dimensions, degrees, operators and weights. -/
theorem C77_partition_of_unity (bs : List (Basis1d K)) (W : ℕ → K) (h : denom bs W ≠ 0) :
    (evalR bs W).sum = 1 := by
  unfold evalR
  simp only
  rw [sum_map_div, numerators_eq]
  exact div_self h

theorem sum_list_range (l : List K) : ∑ a ∈ Finset.range l.length, l.getD a 0 = l.sum := by
  induction l with
  | nil => rfl
  | cons a l ih => rw [List.length_cons, Finset.sum_range_succ', List.sum_cons, ← ih, add_comm]; rfl

theorem sum_zipWith_sub (l : List (List ℕ)) (f g : List ℕ → K) (w d : K) :
    (List.zipWith (fun x r => (x - r * d) / w) (l.map f) (l.map g)).sum
      = ((l.map f).sum - (l.map g).sum * d) / w := by
  induction l with
  | nil => simp
  | cons a l ih =>
    simp only [List.map_cons, List.zipWith_cons_cons, List.sum_cons, ih]
    ring

/-- **C77.** The derivatives of the basis functions sum up to zero. -/
theorem C77_derivatives_sum (bs : List (Basis1d K)) (W : ℕ → K) (j : ℕ) (h : denom bs W ≠ 0) :
    (evalDR bs W j).sum = 0 := by
  have h1 := C77_partition_of_unity bs W h
  unfold evalDR
  simp only
  rw [show (bs.map fun b => b.p + 1) = shape bs from rfl]
  unfold evalR at h1 ⊢
  rw [show (bs.map fun b => b.p + 1) = shape bs from rfl] at *
  simp only [numerators_eq, List.map_map, Function.comp_def] at h1 ⊢
  rw [sum_zipWith_sub, h1]
  simp

/-- **C77.** The chain rule: the gradients in the physical domain, multiplied by the Jacobian matrix of
the mapping, are the derivatives in the reference domain, if the matrix `dxiDx` is the inverse of the
Jacobian matrix. -/
theorem C77_chain_rule (bs : List (Basis1d K)) (W : ℕ → K) (P dxiDx : ℕ → ℕ → K)
    (hinv : ∀ j < bs.length, ∀ k < bs.length,
      ∑ i ∈ Finset.range bs.length, dxiDx j i * dxDxi bs W P i k = if j = k then 1 else 0)
    (a k : ℕ) (hk : k < bs.length) :
    ∑ i ∈ Finset.range bs.length, dRdx bs W dxiDx a i * dxDxi bs W P i k
      = (evalDR bs W k).getD a 0 := by
  unfold dRdx
  simp only [Finset.sum_mul]
  rw [Finset.sum_comm]
  have : ∀ j ∈ Finset.range bs.length,
      ∑ i ∈ Finset.range bs.length, (evalDR bs W j).getD a 0 * dxiDx j i * dxDxi bs W P i k
        = if j = k then (evalDR bs W j).getD a 0 else 0 := by
    intro j hj
    simp only [mul_assoc]
    rw [← Finset.mul_sum, hinv j (Finset.mem_range.1 hj) k hk]
    simp
  rw [Finset.sum_congr rfl this, Finset.sum_ite_eq' (Finset.range bs.length) k,
    if_pos (Finset.mem_range.2 hk)]

/-- **C77.** The gradient of the coordinates, interpolated from the control points, is the identity. -/
theorem C77_gradient_of_coordinates (bs : List (Basis1d K)) (W : ℕ → K) (P dxiDx : ℕ → ℕ → K)
    (hinv : ∀ i < bs.length, ∀ m < bs.length,
      ∑ j ∈ Finset.range bs.length, dxDxi bs W P i j * dxiDx j m = if i = m then 1 else 0)
    (i m : ℕ) (hi : i < bs.length) (hm : m < bs.length) :
    ∑ a ∈ Finset.range (shape bs).prod, P a i * dRdx bs W dxiDx a m = if i = m then 1 else 0 := by
  rw [← hinv i hi m hm]
  unfold dRdx dxDxi shape
  simp only [Finset.mul_sum, Finset.sum_mul]
  rw [Finset.sum_comm]
  refine Finset.sum_congr rfl fun j _ => Finset.sum_congr rfl fun a _ => ?_
  ring

/-- **C77.** The gradients of the basis functions in the physical domain sum up to zero. -/
theorem C77_gradients_sum (bs : List (Basis1d K)) (W : ℕ → K) (dxiDx : ℕ → ℕ → K) (m : ℕ)
    (h : denom bs W ≠ 0) :
    ∑ a ∈ Finset.range (shape bs).prod, dRdx bs W dxiDx a m = 0 := by
  unfold dRdx
  rw [Finset.sum_comm]
  refine Finset.sum_eq_zero fun j _ => ?_
  rw [← Finset.sum_mul]
  have hlen : (evalDR bs W j).length = (shape bs).prod := by
    simp [evalDR, evalR, numerators, tp_length, shape]
  rw [← hlen, sum_list_range, C77_derivatives_sum bs W j h, zero_mul]

end General

/-! ### The derivatives are derivatives -/

section Deriv

/-- The 1D bases in the point `ξ`; `pcs` are the degrees and the operators of the element
(sfepy/discrete/iga/iga.py:779-795). -/
noncomputable def basesAt {K : Type*} [Field K] (pcs : List (ℕ × Op K)) (ξ : List K) : List (Basis1d K) :=
  List.zipWith (fun pc x => evalBasis1d pc.1 pc.2 x) pcs ξ

theorem hasDerivAt_basis1d (p : ℕ) (C : Op ℝ) (x : ℝ) (i : ℕ) :
    HasDerivAt (fun y => (evalBasis1d p C y).N i) ((evalBasis1d p C x).dN i) x := by
  unfold evalBasis1d
  simp only
  apply HasDerivAt.fun_sum
  intro k hk
  apply HasDerivAt.const_mul
  have hk' : k ≤ p := by have := Finset.mem_range.1 hk; omega
  rw [C76_bernstein_derivatives x p k hk']
  have e : (fun y => (evalBernstein y p).1 k) = fun y => (bernsteinPolynomial ℝ p k).eval y := by
    funext y
    rw [C76_bernstein_values y p k, ← bern_eq, bern_eval]
  rw [e]
  exact Polynomial.hasDerivAt _ _

theorem prodAt_dN (bs : List (Basis1d ℝ)) :
    (bs.mapIdx fun d b => if d + 1 = 0 then b.dN else b.N) = bs.map Basis1d.N := by
  simp [List.mapIdx_eq_zipIdx_map]
  apply List.ext_getElem?
  intro k
  simp [List.getElem?_map, List.getElem?_zipIdx]
  cases bs[k]? <;> rfl

theorem hasDerivAt_prodAt (pcs : List (ℕ × Op ℝ)) (ξ : List ℝ) (j : ℕ) (hlen : ξ.length = pcs.length)
    (hj : j < ξ.length) (l : List ℕ) (hl : l.length = pcs.length) :
    HasDerivAt (fun y => prodAt ((basesAt pcs (ξ.set j y)).map Basis1d.N) l)
      (prodAt (diffFactors (basesAt pcs ξ) j) l) (ξ.getD j 0) := by
  induction pcs generalizing ξ j l with
  | nil => simp at hlen; simp [hlen] at hj
  | cons pc pcs ih =>
    obtain ⟨x, ξ, rfl⟩ : ∃ x ξ', ξ = x :: ξ' := by
      cases ξ with
      | nil => simp at hlen
      | cons x ξ => exact ⟨x, ξ, rfl⟩
    obtain ⟨i, l, rfl⟩ : ∃ i l', l = i :: l' := by
      cases l with
      | nil => simp at hl
      | cons i l => exact ⟨i, l, rfl⟩
    cases j with
    | zero =>
      have e : prodAt (diffFactors (basesAt (pc :: pcs) (x :: ξ)) 0) (i :: l)
          = (evalBasis1d pc.1 pc.2 x).dN i * prodAt ((basesAt pcs ξ).map Basis1d.N) l := by
        unfold diffFactors basesAt
        rw [List.zipWith_cons_cons, List.mapIdx_cons, if_pos rfl, prodAt, prodAt_dN]
      rw [e]
      simp only [List.set_cons_zero, List.getD_cons_zero, basesAt, List.zipWith_cons_cons, List.map_cons,
        prodAt]
      exact (hasDerivAt_basis1d pc.1 pc.2 x i).mul_const _
    | succ j =>
      have e : prodAt (diffFactors (basesAt (pc :: pcs) (x :: ξ)) (j + 1)) (i :: l)
          = (evalBasis1d pc.1 pc.2 x).N i * prodAt (diffFactors (basesAt pcs ξ) j) l := by
        unfold diffFactors basesAt
        rw [List.zipWith_cons_cons, List.mapIdx_cons, if_neg (by omega), prodAt]
        congr 2
        congr 1
        funext d b
        simp
      rw [e]
      simp only [List.set_cons_succ, List.getD_cons_succ, basesAt, List.zipWith_cons_cons, List.map_cons,
        prodAt]
      exact (ih ξ j (by simpa using hlen) (by simpa using hj) l (by simpa using hl)).const_mul _

theorem shape_basesAt {K : Type*} [Field K] (pcs : List (ℕ × Op K)) (ξ : List K) (hlen : ξ.length = pcs.length) :
    shape (basesAt pcs ξ) = pcs.map fun pc => pc.1 + 1 := by
  induction pcs generalizing ξ with
  | nil => simp [basesAt, shape]
  | cons pc pcs ih =>
    cases ξ with
    | nil => simp at hlen
    | cons x ξ =>
      have := ih ξ (by simpa using hlen)
      unfold shape basesAt at this ⊢
      rw [List.zipWith_cons_cons, List.map_cons, this]
      rfl

theorem hasDerivAt_list_sum (l : List (List ℕ)) (f : List ℕ → ℝ → ℝ) (f' : List ℕ → ℝ) (x : ℝ)
    (h : ∀ i ∈ l, HasDerivAt (f i) (f' i) x) :
    HasDerivAt (fun y => (l.map fun i => f i y).sum) (l.map f').sum x := by
  induction l with
  | nil => simpa using hasDerivAt_const x (0 : ℝ)
  | cons a l ih =>
    simp only [List.map_cons, List.sum_cons]
    exact (h a (List.mem_cons_self ..)).add (ih fun i hi => h i (List.mem_cons_of_mem _ hi))

/-- **C77.** The evaluated derivatives are the partial derivatives of the evaluated NURBS basis
functions by the reference coordinates, for any number of dimensions, degrees, operators and weights, in
every point where the weight function is not zero. -/
theorem C77_derivatives (pcs : List (ℕ × Op ℝ)) (W : ℕ → ℝ) (ξ : List ℝ) (j : ℕ)
    (hlen : ξ.length = pcs.length) (hj : j < ξ.length) (hw : denom (basesAt pcs ξ) W ≠ 0) (a : ℕ)
    (ha : a < (pcs.map fun pc => pc.1 + 1).prod) :
    HasDerivAt (fun y => (evalR (basesAt pcs (ξ.set j y)) W).getD a 0)
      ((evalDR (basesAt pcs ξ) W j).getD a 0) (ξ.getD j 0) := by
  obtain ⟨l, hl, rfl⟩ := exists_ravel ha
  have hsh : ∀ y, shape (basesAt pcs (ξ.set j y)) = pcs.map fun pc => pc.1 + 1 := fun y =>
    shape_basesAt pcs _ (by simpa using hlen)
  have hsh0 := shape_basesAt pcs ξ hlen
  have hset : ξ.set j (ξ.getD j 0) = ξ := by
    rw [List.getD_eq_getElem _ _ hj, List.set_getElem_self]
  have hll : ∀ l, Valid (pcs.map fun pc => pc.1 + 1) l → l.length = pcs.length := by
    intro l h; have := h.length_eq; simpa using this.symm
  have e1 : (fun y => (evalR (basesAt pcs (ξ.set j y)) W).getD
        (ravel (pcs.map fun pc => pc.1 + 1) l) 0)
      = fun y => prodAt ((basesAt pcs (ξ.set j y)).map Basis1d.N) l
          * W (ravel (pcs.map fun pc => pc.1 + 1) l)
          / ((tp (pcs.map fun pc => pc.1 + 1)).map fun m =>
              prodAt ((basesAt pcs (ξ.set j y)).map Basis1d.N) m
                * W (ravel (pcs.map fun pc => pc.1 + 1) m)).sum := by
    funext y
    have := evalR_get (basesAt pcs (ξ.set j y)) W l (by rw [hsh]; exact hl)
    rw [hsh] at this
    rw [List.getD_eq_getElem?_getD, this]
    unfold denom
    rw [hsh]
    rfl
  have e2 := evalDR_get (basesAt pcs ξ) W j l (by rw [hsh0]; exact hl)
  rw [hsh0] at e2
  rw [e1, List.getD_eq_getElem?_getD, e2]
  unfold ddenom
  unfold denom at hw ⊢
  rw [hsh0] at hw ⊢
  have d1 := (hasDerivAt_prodAt pcs ξ j hlen hj l (hll l hl)).mul_const
    (W (ravel (pcs.map fun pc => pc.1 + 1) l))
  have d2 := hasDerivAt_list_sum (tp (pcs.map fun pc => pc.1 + 1))
    (fun m y => prodAt ((basesAt pcs (ξ.set j y)).map Basis1d.N) m
      * W (ravel (pcs.map fun pc => pc.1 + 1) m))
    (fun m => prodAt (diffFactors (basesAt pcs ξ) j) m * W (ravel (pcs.map fun pc => pc.1 + 1) m))
    (ξ.getD j 0)
    (fun m hm => (hasDerivAt_prodAt pcs ξ j hlen hj m (hll m (mem_tp.1 hm))).mul_const _)
  have := d1.fun_div d2 (by rw [hset]; exact hw)
  refine this.congr_deriv ?_
  rw [hset]
  simp only [Option.getD_some]
  field_simp

end Deriv

end Iga
