/-
The spectral elements: nodal basis, polynomials, gradients, quadrature in the nodes, continuity.
-/
import Verif.Poly.SemQuad
import Verif.Quad.Spec

namespace Verif.Poly

open Finset Verif.Fem

/-! ### The 1D functions -/

section
variable {K : Type} [Field K]

theorem foldl_ite_mul (n : ℕ) (P : ℕ → Prop) [DecidablePred P] (f : ℕ → K) (a : K) :
    (List.range n).foldl (fun v (i : ℕ) => if P i then v * f i else v) a =
      a * ∏ i ∈ range n, if P i then f i else 1 := by
  induction n with
  | zero => simp
  | succ n ih =>
    rw [List.range_succ, List.foldl_append, ih, prod_range_succ]
    by_cases h : P n <;> simp [h, mul_assoc]

theorem foldl_ite_add (n : ℕ) (P : ℕ → Prop) [DecidablePred P] (f : ℕ → K) (a : K) :
    (List.range n).foldl (fun v (i : ℕ) => if P i then v else v + f i) a =
      a + ∑ i ∈ range n, if P i then 0 else f i := by
  induction n with
  | zero => simp
  | succ n ih =>
    rw [List.range_succ, List.foldl_append, ih, sum_range_succ]
    by_cases h : P n <;> simp [h, add_assoc]

theorem lag1dVal_eq (n : ℕ) (nc : ℕ → K) (x : K) (ib : ℕ) :
    lag1dVal n nc x ib = ∏ ic ∈ (range n).erase ib, (x - nc ic) / (nc ib - nc ic) := by
  rw [lag1dVal, foldl_ite_mul, one_mul, ← Finset.prod_filter]
  congr 1
  ext i
  simp [and_comm, eq_comm]

theorem lag1dVal_basis (n : ℕ) (nc : ℕ → K) (x : K) (ib : ℕ) :
    lag1dVal n nc x ib = (Lagrange.basis (range n) nc ib).eval x := by
  rw [lag1dVal_eq, Lagrange.basis, Polynomial.eval_prod]
  refine prod_congr rfl fun i _ => ?_
  rw [Lagrange.basisDivisor]
  simp only [Polynomial.eval_mul, Polynomial.eval_C, Polynomial.eval_sub, Polynomial.eval_X]
  rw [div_eq_inv_mul]

theorem lag1dDval_eq (n : ℕ) (nc : ℕ → K) (x : K) (ib : ℕ) :
    lag1dDval n nc x ib = ∑ ik ∈ (range n).erase ib, 1 / (nc ib - nc ik) *
      ∏ ic ∈ ((range n).erase ib).erase ik, (x - nc ic) / (nc ib - nc ic) := by
  rw [lag1dDval]
  simp only [foldl_ite_mul]
  rw [foldl_ite_add, zero_add]
  have : (range n).erase ib = (range n).filter fun i => ¬ ib = i := by ext i; simp [and_comm, eq_comm]
  rw [this, Finset.sum_filter]
  refine sum_congr rfl fun ik _ => ?_
  by_cases h : ib = ik
  · simp [h]
  · rw [if_neg h, if_pos h, ← Finset.prod_filter]
    congr 2
    ext i
    simp only [mem_filter, mem_erase]
    tauto

/-- The nodes of the 1D element are different. -/
def Distinct (p : ℕ) (nc : ℕ → K) : Prop := ∀ i ≤ p, ∀ j ≤ p, nc i = nc j → i = j

theorem Distinct.injOn {p : ℕ} {nc : ℕ → K} (h : Distinct p nc) : Set.InjOn nc (range (p + 1)) := fun i hi j hj e =>
  h i (by simpa [Nat.lt_succ_iff] using hi) j (by simpa [Nat.lt_succ_iff] using hj) e

theorem lag1dVal_node {p : ℕ} {nc : ℕ → K} (h : Distinct p nc) {a b : ℕ} (ha : a ≤ p) (hb : b ≤ p) :
    lag1dVal (p + 1) nc (nc b) a = if a = b then 1 else 0 := by
  rw [lag1dVal_basis]
  split_ifs with e
  · subst e
    exact Lagrange.eval_basis_self h.injOn (mem_range.2 (by omega))
  · exact Lagrange.eval_basis_of_ne e (mem_range.2 (by omega))

/-- The interpolation in the nodes is exact for the polynomials of the degree at most `p`. -/
theorem lag1d_interp {p : ℕ} {nc : ℕ → K} (h : Distinct p nc) (f : Polynomial K) (hf : f.natDegree ≤ p) (x : K) :
    ∑ a ∈ range (p + 1), f.eval (nc a) * lag1dVal (p + 1) nc x a = f.eval x := by
  have hd : f.degree < (range (p + 1)).card := by
    rw [card_range]
    exact lt_of_le_of_lt Polynomial.degree_le_natDegree (by exact_mod_cast Nat.lt_succ_of_le hf)
  conv_rhs => rw [Lagrange.eq_interpolate h.injOn hd]
  rw [Lagrange.interpolate_apply, Polynomial.eval_finset_sum]
  refine sum_congr rfl fun a _ => ?_
  rw [Polynomial.eval_mul, Polynomial.eval_C, lag1dVal_basis]

/-! ### The functions of an element -/

variable [CharZero K]

/-- **C107**: the functions of a spectral element are one in their node and zero in the other nodes of the element. -/
theorem C107_sem_nodal (g : Gel) (hg : IsTensor g) (p : ℕ) (hp : 1 ≤ p) (nc : ℕ → K) (hnc : Distinct p nc) (k k' : ℕ)
    (hk : k < (tensorNodes g p).length) (hk' : k' < (tensorNodes g p).length) :
    (evalSem g.dim p nc (tensorNodes g p) (semNodeCoor nc (rowAt (tensorNodes g p) k'))).getD k 0 =
      if k = k' then 1 else 0 := by
  rw [evalSem, getElem_map_row _ (fun r => prodVal g.dim
    (fun ii => lag1dVal (p + 1) nc (semNodeCoor nc (rowAt (tensorNodes g p) k') ii)) (oddCols r)) hk, prodVal_eq]
  have h1 := tensor_trow hg hp hk
  have h2 := tensor_trow hg hp hk'
  have e : ∀ i ∈ range g.dim, lag1dVal (p + 1) nc (semNodeCoor nc (rowAt (tensorNodes g p) k') i)
      (oddCols (rowAt (tensorNodes g p) k) i) =
      if rowAt (tensorNodes g p) k (2 * i + 1) = rowAt (tensorNodes g p) k' (2 * i + 1) then 1 else 0 := by
    intro i hi
    have a := h1 i (mem_range.1 hi)
    have b := h2 i (mem_range.1 hi)
    exact lag1dVal_node hnc (by rw [oddCols]; omega) (by rw [oddCols]; omega)
  rw [prod_congr rfl e]
  split_ifs with h
  · subst h
    simp
  · have : ∃ i < g.dim, rowAt (tensorNodes g p) k (2 * i + 1) ≠ rowAt (tensorNodes g p) k' (2 * i + 1) := by
      by_contra hc
      push Not at hc
      exact h (tensor_rows_inj hg hp hk hk' hc)
    obtain ⟨i, hi, hne⟩ := this
    exact prod_eq_zero (mem_range.2 hi) (if_neg hne)

/-- **C107**: a polynomial of the degree at most the order in each variable is the combination of the functions of a
spectral element with its values in the nodes. -/
theorem C107_sem_polynomials (g : Gel) (hg : IsTensor g) (p : ℕ) (hp : 1 ≤ p) (nc : ℕ → K) (hnc : Distinct p nc)
    (P : MvPolynomial (Fin g.dim) K) (hP : ∀ d, P.degreeOf d ≤ p) (x : ℕ → K) :
    ∑ k ∈ range (tensorNodes g p).length,
      MvPolynomial.eval (fun r : Fin g.dim => semNodeCoor nc (rowAt (tensorNodes g p) k) r) P *
        (evalSem g.dim p nc (tensorNodes g p) x).getD k 0 = MvPolynomial.eval (fun r : Fin g.dim => x r) P := by
  let al : (Fin g.dim →₀ ℕ) → ℕ → ℕ := fun e i => if h : i < g.dim then e ⟨i, h⟩ else 0
  have hal : ∀ e (i : Fin g.dim), al e i = e i := fun e i => by simp [al]
  simp only [MvPolynomial.eval_eq', sum_mul]
  rw [sum_comm]
  refine sum_congr rfl fun e he => ?_
  have h1 : ∀ k ∈ range (tensorNodes g p).length, (P.coeff e * ∏ i : Fin g.dim,
      semNodeCoor nc (rowAt (tensorNodes g p) k) i ^ e i) * (evalSem g.dim p nc (tensorNodes g p) x).getD k 0 =
      P.coeff e * ∏ i ∈ range g.dim,
      (fun (i : ℕ) (a : ℕ) => nc a ^ al e i * lag1dVal (p + 1) nc (x i) a) i
        (rowAt (tensorNodes g p) k (2 * i + 1)) := by
    intro k hk
    rw [evalSem, getElem_map_row _
      (fun r => prodVal g.dim (fun ii => lag1dVal (p + 1) nc (x ii)) (oddCols r)) (mem_range.1 hk), prodVal_eq,
      mul_assoc, prod_mul_distrib, prod_range fun i => nc (rowAt (tensorNodes g p) k (2 * i + 1)) ^ al e i]
    simp only [hal]
    rfl
  rw [sum_congr rfl h1, ← mul_sum, tensor_prod_sum hg hp
    (fun (i : ℕ) (a : ℕ) => nc a ^ al e i * lag1dVal (p + 1) nc (x i) a), prod_range]
  congr 1
  refine prod_congr rfl fun i _ => ?_
  rw [hal]
  have := lag1d_interp hnc (Polynomial.X ^ e i)
    ((Polynomial.natDegree_X_pow_le _).trans (MvPolynomial.degreeOf_le_iff.1 (hP i) e he)) (x i)
  simpa using this

/-- **C107**: the functions of a spectral element are a partition of unity. -/
theorem C107_sem_unity (g : Gel) (hg : IsTensor g) (p : ℕ) (hp : 1 ≤ p) (nc : ℕ → K) (hnc : Distinct p nc) (x : ℕ → K) :
    (evalSem g.dim p nc (tensorNodes g p) x).sum = 1 := by
  rw [evalSem, map_sum_row _ fun r => prodVal g.dim (fun ii => lag1dVal (p + 1) nc (x ii)) (oddCols r)]
  simp only [prodVal_eq, oddCols]
  rw [tensor_prod_sum hg hp fun i => lag1dVal (p + 1) nc (x i)]
  refine prod_eq_one fun i _ => ?_
  have := lag1d_interp hnc (Polynomial.C 1) (by simp) (x i)
  simpa using this

/-! ### The quadrature in the nodes -/

omit [CharZero K] in
theorem semNodeWeight_eq (dim : ℕ) (w : ℕ → K) (row : ℕ → ℕ) :
    semNodeWeight dim w row = ∏ i ∈ range dim, w (row (2 * i + 1)) := by
  rw [semNodeWeight, foldl_mul, one_mul]
  rfl

/-- **C108**: with the quadrature in the nodes of a spectral element the mass matrix is diagonal, with the weights of
the nodes. -/
theorem C108_sem_mass_diagonal (g : Gel) (hg : IsTensor g) (p : ℕ) (hp : 1 ≤ p) (nc w : ℕ → K) (hnc : Distinct p nc)
    (i j : ℕ) (hi : i < (tensorNodes g p).length) (hj : j < (tensorNodes g p).length) :
    ∑ q ∈ range (tensorNodes g p).length, semNodeWeight g.dim w (rowAt (tensorNodes g p) q) *
      ((evalSem g.dim p nc (tensorNodes g p) (semNodeCoor nc (rowAt (tensorNodes g p) q))).getD i 0 *
        (evalSem g.dim p nc (tensorNodes g p) (semNodeCoor nc (rowAt (tensorNodes g p) q))).getD j 0) =
      if i = j then semNodeWeight g.dim w (rowAt (tensorNodes g p) i) else 0 := by
  rw [sum_eq_single_of_mem i (mem_range.2 hi)]
  · rw [C107_sem_nodal g hg p hp nc hnc i i hi hi, C107_sem_nodal g hg p hp nc hnc j i hj hi, if_pos rfl]
    by_cases h : i = j
    · simp [h]
    · rw [if_neg h, if_neg (Ne.symm h)]; simp
  · intro q hq hne
    rw [C107_sem_nodal g hg p hp nc hnc i q hi (mem_range.1 hq), if_neg (Ne.symm hne)]
    simp

/-! ### Continuity -/

theorem lag1d_sym1 {p : ℕ} {nc : ℕ → K} (hnc : Distinct p nc) (h0 : nc 0 = 0)
    (hs : ∀ i ≤ p, nc (p - i) = 1 - nc i) : Sym1 p (fun s : K => lag1dVal (p + 1) nc s) where
  zero a ha := by
    have := lag1dVal_node hnc ha (Nat.zero_le p)
    rwa [h0] at this
  symm a ha s := by
    rw [lag1dVal_eq, lag1dVal_eq]
    refine prod_bij' (fun i _ => p - i) (fun i _ => p - i) ?_ ?_ ?_ ?_ ?_
    · intro i hi
      rw [mem_erase, mem_range] at *
      omega
    · intro i hi
      rw [mem_erase, mem_range] at *
      omega
    · intro i hi
      rw [mem_erase, mem_range] at hi
      omega
    · intro i hi
      rw [mem_erase, mem_range] at hi
      omega
    · intro i hi
      rw [mem_erase, mem_range] at hi
      rw [hs a ha, hs i (by omega), ← neg_div_neg_eq]
      congr 1 <;> ring

/-- **C109**: the functions of a spectral element field are continuous, for 1D nodes that are symmetric with the first
node in zero. -/
theorem C109_continuous_sem (g : Gel) (hg : IsTensor g) (p : ℕ) (hp : 1 ≤ p) (nc : ℕ → K) (hnc : Distinct p nc)
    (h0 : nc 0 = 0) (hs : ∀ i ≤ p, nc (p - i) = 1 - nc i) (d : FieldData)
    (M : MeshOk g d) (u : ℤ → K) (el el' : ℕ) (hel : el < d.cells.length) (hel' : el' < d.cells.length) (x x' : ℕ → K)
    (hw : ∀ v, meshWeight g.nV (d.conn (d.cells.getD el 0)) (tensorWeight g.dim (unitBc x)) v =
      meshWeight g.nV (d.conn (d.cells.getD el' 0)) (tensorWeight g.dim (unitBc x')) v) :
    fieldValue (setupGlobalBasis g (tensorNodes g p) p d).1 u
        (fun k => (evalSem g.dim p nc (tensorNodes g p) x).getD k 0) (tensorNodes g p).length el =
      fieldValue (setupGlobalBasis g (tensorNodes g p) p d).1 u
        (fun k => (evalSem g.dim p nc (tensorNodes g p) x').getD k 0) (tensorNodes g p).length el' := by
  have key : ∀ el x, fieldValue (setupGlobalBasis g (tensorNodes g p) p d).1 u
      (fun k => (evalSem g.dim p nc (tensorNodes g p) x).getD k 0) (tensorNodes g p).length el =
      fieldValue (setupGlobalBasis g (tensorNodes g p) p d).1 u (fun k => ∏ i ∈ range g.dim,
        (fun (s : K) => lag1dVal (p + 1) nc s) (unitBc x i 1) (rowAt (tensorNodes g p) k (2 * i + 1)))
        (tensorNodes g p).length el := by
    intro el x
    refine sum_congr rfl fun k hk => ?_
    simp only
    rw [evalSem, getElem_map_row _
      (fun r => prodVal g.dim (fun ii => lag1dVal (p + 1) nc (x ii)) (oddCols r)) (mem_range.1 hk), prodVal_eq]
    rfl
  rw [key, key]
  haveI := lag1d_sym1 hnc h0 hs
  exact continuous_tensor (φ := fun (s : K) => lag1dVal (p + 1) nc s) g hg p hp d M u el el' hel hel' _ _
    (fun i _ => by simp [unitBc]) (fun i _ => by simp [unitBc]) hw

end

/-! ### The nodes of the code -/

/-- The nodes of the code are symmetric in `[0, 1]`, whatever the number of the passes is. -/
theorem sem_nodes_ends (p : ℕ) (hp : 1 ≤ p) (n : ℕ) : semCoors1 (lglNodes p (lglGuess p) n) 0 = 0 ∧
    ∀ i ≤ p, semCoors1 (lglNodes p (lglGuess p) n) (p - i) = 1 - semCoors1 (lglNodes p (lglGuess p) n) i := by
  obtain ⟨h0, -, hs, -⟩ := C108_lgl_symmetric p hp n
  constructor
  · rw [semCoors1, h0]; norm_num
  · intro i hi
    rw [semCoors1, semCoors1, hs i hi]; ring

/-- **C109**: the functions of a spectral element field with the nodes computed by the code are continuous, whatever
the number of the passes is, if the nodes are different. -/
theorem C109_continuous_sem_lgl (g : Gel) (hg : IsTensor g) (p : ℕ) (hp : 1 ≤ p) (n : ℕ)
    (hnc : Distinct p (semCoors1 (lglNodes p (lglGuess p) n))) (d : FieldData)
    (M : MeshOk g d) (u : ℤ → ℝ) (el el' : ℕ) (hel : el < d.cells.length) (hel' : el' < d.cells.length) (x x' : ℕ → ℝ)
    (hw : ∀ v, meshWeight g.nV (d.conn (d.cells.getD el 0)) (tensorWeight g.dim (unitBc x)) v =
      meshWeight g.nV (d.conn (d.cells.getD el' 0)) (tensorWeight g.dim (unitBc x')) v) :
    fieldValue (setupGlobalBasis g (tensorNodes g p) p d).1 u
        (fun k => (evalSem g.dim p (semCoors1 (lglNodes p (lglGuess p) n)) (tensorNodes g p) x).getD k 0)
        (tensorNodes g p).length el =
      fieldValue (setupGlobalBasis g (tensorNodes g p) p d).1 u
        (fun k => (evalSem g.dim p (semCoors1 (lglNodes p (lglGuess p) n)) (tensorNodes g p) x').getD k 0)
        (tensorNodes g p).length el' :=
  C109_continuous_sem g hg p hp _ hnc (sem_nodes_ends p hp n).1 (sem_nodes_ends p hp n).2 d M u el el' hel hel' x x' hw

/-! ### The cubature in the nodes -/

/-- The 1D rule on `[0, 1]`. -/
theorem sem_quad1 (p : ℕ) (hp : 1 ≤ p) (xs : ℕ → ℝ) (hinj : Distinct p xs)
    (hP : ∀ i ≤ p, legP p (xs i) ≠ 0) (hfix : ∀ i ≤ p, lglStep p (xs i) = xs i) {e : ℕ} (he : e ≤ 2 * p - 1) :
    ∑ a ∈ range (p + 1), semWeights1 (lglWeights p xs 1) a * semCoors1 xs a ^ e = 1 / ((e : ℝ) + 1) := by
  have h := (C108_lgl_quadrature p hp xs hinj hP hfix).2 ((Polynomial.C (1 / 2) * (1 - Polynomial.X)) ^ e) (by
    refine Polynomial.natDegree_pow_le.trans ?_
    have : (Polynomial.C (1 / 2 : ℝ) * (1 - Polynomial.X)).natDegree ≤ 1 :=
      (Polynomial.natDegree_C_mul_le _ _).trans ((Polynomial.natDegree_sub_le _ _).trans (by simp))
    exact (Nat.mul_le_mul_left e this).trans (by omega))
  simp only [Polynomial.eval_pow, Polynomial.eval_mul, Polynomial.eval_C, Polynomial.eval_sub, Polynomial.eval_one,
    Polynomial.eval_X] at h
  have hi : ∫ x in (-1 : ℝ)..1, (1 / 2 * (1 - x)) ^ e = 2 / ((e : ℝ) + 1) := by
    have h1 := intervalIntegral.integral_comp_mul_add (a := -1) (b := 1) (fun u : ℝ => u ^ e)
      (c := -(1 / 2)) (by norm_num) (1 / 2)
    rw [show (fun x : ℝ => (1 / 2 * (1 - x)) ^ e) = fun x : ℝ => (-(1 / 2) * x + 1 / 2) ^ e by funext x; congr 1; ring, h1,
      integral_pow]
    norm_num
    ring
  rw [hi] at h
  have e2 : ∑ a ∈ range (p + 1), semWeights1 (lglWeights p xs 1) a * semCoors1 xs a ^ e =
      1 / 2 * ∑ a ∈ range (p + 1), lglWeights p xs 1 a * (1 / 2 * (1 - xs a)) ^ e := by
    rw [mul_sum]
    refine sum_congr rfl fun a _ => ?_
    rw [semWeights1, semCoors1]; ring
  rw [e2, h]
  ring

theorem momCube_expList {n : ℕ} (m : Fin n →₀ ℕ) :
    (Quad.momCube (Quad.expList m) : ℝ) = ∏ i : Fin n, 1 / ((m i : ℝ) + 1) := by
  rw [Quad.momCube, Quad.expList, List.map_ofFn, List.prod_ofFn]
  rfl

/-- **C108**: the nodes of a spectral element with the weights of the nodes integrate each polynomial of the degree at
most `2 p - 1` in each variable over the reference element exactly, for 1D nodes that are not changed by a pass. -/
theorem C108_sem_cubature (g : Gel) (hg : IsTensor g) (p : ℕ) (hp : 1 ≤ p) (xs : ℕ → ℝ) (hinj : Distinct p xs)
    (hP : ∀ i ≤ p, legP p (xs i) ≠ 0) (hfix : ∀ i ≤ p, lglStep p (xs i) = xs i)
    (P : MvPolynomial (Fin g.dim) ℝ) (hd : ∀ i, P.degreeOf i ≤ 2 * p - 1) :
    ∑ k ∈ range (tensorNodes g p).length,
      semNodeWeight g.dim (semWeights1 (lglWeights p xs 1)) (rowAt (tensorNodes g p) k) *
        MvPolynomial.eval (fun r : Fin g.dim => semNodeCoor (semCoors1 xs) (rowAt (tensorNodes g p) k) r) P =
      Quad.cubeInt g.dim (Quad.evalAt P) := by
  let al : (Fin g.dim →₀ ℕ) → ℕ → ℕ := fun e i => if h : i < g.dim then e ⟨i, h⟩ else 0
  have hal : ∀ e (i : Fin g.dim), al e i = e i := fun e i => by simp [al]
  rw [Quad.cubeInt_poly]
  simp only [MvPolynomial.eval_eq', mul_sum]
  rw [sum_comm]
  refine sum_congr rfl fun e he => ?_
  have h1 : ∀ k ∈ range (tensorNodes g p).length,
      semNodeWeight g.dim (semWeights1 (lglWeights p xs 1)) (rowAt (tensorNodes g p) k) *
      (P.coeff e * ∏ i : Fin g.dim, semNodeCoor (semCoors1 xs) (rowAt (tensorNodes g p) k) i ^ e i) =
      P.coeff e * ∏ i ∈ range g.dim,
      (fun (i : ℕ) (a : ℕ) => semWeights1 (lglWeights p xs 1) a * semCoors1 xs a ^ al e i) i
        (rowAt (tensorNodes g p) k (2 * i + 1)) := by
    intro k hk
    rw [semNodeWeight_eq, prod_mul_distrib,
      prod_range fun i => semCoors1 xs (rowAt (tensorNodes g p) k (2 * i + 1)) ^ al e i]
    simp only [hal, semNodeCoor, oddCols]
    ring
  rw [sum_congr rfl h1, ← mul_sum, tensor_prod_sum hg hp
    (fun (i : ℕ) (a : ℕ) => semWeights1 (lglWeights p xs 1) a * semCoors1 xs a ^ al e i), prod_range, momCube_expList]
  congr 1
  refine prod_congr rfl fun i _ => ?_
  rw [hal]
  exact sem_quad1 p hp xs hinj hP hfix (MvPolynomial.degreeOf_le_iff.1 (hd i) e he)

/-! ### Gradients -/

theorem hasDerivAt_lag1d (n : ℕ) (nc : ℕ → ℝ) (ib : ℕ) (s : ℝ) :
    HasDerivAt (fun s => lag1dVal n nc s ib) (lag1dDval n nc s ib) s := by
  have e : (fun s => lag1dVal n nc s ib) = fun s => ∏ ic ∈ (range n).erase ib, (s - nc ic) / (nc ib - nc ic) := by
    funext s; rw [lag1dVal_eq]
  rw [e, lag1dDval_eq]
  have := hasDerivAt_prod (u := (range n).erase ib) fun i _ =>
    ((hasDerivAt_id s).sub_const (nc i)).div_const (nc ib - nc i)
  simp only [id, smul_eq_mul] at this
  convert this using 1
  exact sum_congr rfl fun i _ => mul_comm _ _

/-- **C107**: the gradients of the functions of a spectral element are their partial derivatives. -/
theorem C107_sem_gradient (g : Gel) (p : ℕ) (nc : ℕ → ℝ) (N : List Nod) (x : ℕ → ℝ) (r : ℕ) (hr : r < g.dim) (k : ℕ)
    (hk : k < N.length) :
    HasDerivAt (fun t => (evalSem g.dim p nc N (Function.update x r t)).getD k 0)
      ((evalSemGrad g.dim p nc N x r).getD k 0) (x r) := by
  simp only [evalSem, evalSemGrad]
  rw [getElem_map_row _ (fun row => prodGrad g.dim (fun ii => lag1dVal (p + 1) nc (x ii))
    (fun ii => lag1dDval (p + 1) nc (x ii)) (oddCols row) r) hk]
  refine (hasDerivAt_prodVal (fun s => lag1dVal (p + 1) nc s) (fun s => lag1dDval (p + 1) nc s) x
    (oddCols (rowAt N k)) hr (hasDerivAt_lag1d (p + 1) nc _ _)).congr_of_eventuallyEq
    (Filter.Eventually.of_forall fun t => ?_)
  exact getElem_map_row _ (fun row => prodVal g.dim
      (fun ii => lag1dVal (p + 1) nc (Function.update x r t ii)) (oddCols row)) hk 0

end Verif.Poly
