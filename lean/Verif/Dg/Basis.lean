import Mathlib.Algebra.Polynomial.Derivative
import Mathlib.Algebra.Polynomial.Eval.Degree
import Mathlib.RingTheory.Polynomial.ShiftedLegendre
import Mathlib.Analysis.Calculus.Deriv.Polynomial
import Mathlib.Analysis.Calculus.Deriv.Inv
import Mathlib.Analysis.Calculus.IteratedDeriv.Defs
import Mathlib.Data.Real.Basic
import Mathlib.Tactic.Ring
import Mathlib.Tactic.FieldSimp
import Mathlib.Tactic.IntervalCases
import Mathlib.Tactic.LinearCombination
import Verif.Dg.Index

/-!
# The DG basis functions (discrete/dg/poly_spaces.py)
-/

namespace Dg

open Polynomial

/-! ## The explicit Legendre functions on [0, 1] -/

/-- The sum of `get_nth_fun()` (sfepy/discrete/dg/poly_spaces.py:341-346). -/
noncomputable def legendreSum (n : ℕ) (x : ℝ) : ℝ :=
  (∑ k ∈ Finset.range (n + 1), (n.choose k : ℝ) * ((n + k).choose k : ℝ) * (-x) ^ k) *
    (if n % 2 = 1 then -1 else 1)

/-- `get_nth_fun(n)`: the table `legendre_funs` for `n < 6`, the sum otherwise
(sfepy/discrete/dg/poly_spaces.py:310-319, 336-348). -/
noncomputable def nthFun (n : ℕ) (x : ℝ) : ℝ :=
  match n with
  | 0 => 0 * x + 1
  | 1 => 2 * x - 1
  | 2 => 6 * x ^ 2 - 6 * x + 1
  | 3 => 20 * x ^ 3 - 30 * x ^ 2 + 12 * x - 1
  | 4 => 70 * x ^ 4 - 140 * x ^ 3 + 90 * x ^ 2 - 20 * x + 1
  | 5 => 252 * x ^ 5 - 630 * x ^ 4 + 560 * x ^ 3 - 210 * x ^ 2 + 30 * x - 1
  | n + 6 => legendreSum (n + 6) x

/-- `get_nth_fun_der(n, diff)` (sfepy/discrete/dg/poly_spaces.py:369-388). -/
noncomputable def nthFunDer (n d : ℕ) (x : ℝ) : ℝ :=
  (∑ k ∈ (Finset.range (n + 1)).filter (fun k => d ≤ k),
    (n.choose k : ℝ) * ((n + k).choose k : ℝ) * (k.factorial : ℝ) / ((k - d).factorial : ℝ) *
      (-x) ^ (k - d)) *
    (if ((n : ℤ) - (d : ℤ)) % 2 = 1 then -1 else 1)

/-! ## The basis on the tensor product cells -/

/-- `_combine_polyvals()` on the reference cell: the product of the 1D polynomials in the coordinates
transformed to [-1, 1] (sfepy/discrete/dg/poly_spaces.py:157, 178-184, 475-476).  Simplification: the 1D
polynomials (scipy.special.eval_jacobi) are arbitrary. -/
noncomputable def tensorVal (p : ℕ → ℝ[X]) {dim : ℕ} (idx : Fin dim → ℕ) (x : Fin dim → ℝ) : ℝ :=
  ∏ d, (p (idx d)).eval (2 * x d - 1)

/-- `2 * _combine_polyvals_diff()`, the derivative with respect to the coordinate `e`
(sfepy/discrete/dg/poly_spaces.py:157-177, 478-482). -/
noncomputable def tensorDiff (p : ℕ → ℝ[X]) {dim : ℕ} (idx : Fin dim → ℕ) (e : Fin dim)
    (x : Fin dim → ℝ) : ℝ :=
  2 * ∏ d, if d = e then (derivative (p (idx d))).eval (2 * x d - 1) else (p (idx d)).eval (2 * x d - 1)

/-- `build_interpol_scheme()` in 2D: the row of F of the function `idx`, for the exponents `L`
(sfepy/discrete/dg/poly_spaces.py:501-516). -/
noncomputable def schemeRow (p : ℕ → ℝ[X]) (L : List (ℕ × ℕ)) (idx : ℕ × ℕ) : List ℝ :=
  L.map fun e => (p idx.1).coeff e.1 * (p idx.2).coeff e.2

/-- The value of a function given by a row of F and by the exponents, by the specification of gmsh
(sfepy/discrete/dg/poly_spaces.py:189-206). -/
noncomputable def schemeVal (row : List ℝ) (L : List (ℕ × ℕ)) (x y : ℝ) : ℝ :=
  (List.zipWith (fun c e => c * (x ^ e.1 * y ^ e.2)) row L).sum

/-! ## The basis on the triangles -/

/-- `_combine_polyvals()` on a triangle, in the coordinates r, s of the [-1, 1] triangle
(sfepy/discrete/dg/poly_spaces.py:551-558).  `p al n` stands for the Jacobi polynomial with the parameters
(al, 0) of the degree n. -/
noncomputable def simplexVal (p : ℕ → ℕ → ℝ[X]) (idx : ℕ × ℕ) (r s : ℝ) : ℝ :=
  (p 0 idx.1).eval (2 * (1 + r) / (1 - s) - 1) * (p (2 * idx.1 + 1) idx.2).eval s * (1 - s) ^ idx.1

/-- `_combine_polyvals_diff()` on a triangle, the derivatives with respect to r (`dvar = 0`) and s
(sfepy/discrete/dg/poly_spaces.py:582-616). -/
noncomputable def simplexDiff (p : ℕ → ℕ → ℝ[X]) (dvar : ℕ) (idx : ℕ × ℕ) (r s : ℝ) : ℝ :=
  let a := 2 * (1 + r) / (1 - s) - 1
  let b := s
  let di := idx.1
  let fa := (p 0 di).eval a
  let dfa := (derivative (p 0 di)).eval a
  let gb := (p (2 * di + 1) idx.2).eval b
  let dgb := (derivative (p (2 * di + 1) idx.2)).eval b
  if dvar = 0 then
    let dmodedr := dfa * gb
    let dmodedr := if 0 < di then dmodedr * (0.5 * (1 - b)) ^ (di - 1) else dmodedr
    2 ^ di * dmodedr
  else
    let dmodeds := dfa * (gb * (0.5 * (1 + a)))
    let dmodeds := if 0 < di then dmodeds * (0.5 * (1 - b)) ^ (di - 1) else dmodeds
    let tmp := dgb * (0.5 * (1 - b)) ^ di
    let tmp := if 0 < di then tmp - 0.5 * di * gb * (0.5 * (1 - b)) ^ (di - 1) else tmp
    let dmodeds := dmodeds + fa * tmp
    2 ^ di * dmodeds

/-- `_eval_basis()` of a triangle: the coordinates of the reference cell are transformed, and the derivatives
scaled by two (sfepy/discrete/dg/poly_spaces.py:157-184). -/
noncomputable def triVal (p : ℕ → ℕ → ℝ[X]) (idx : ℕ × ℕ) (x y : ℝ) : ℝ :=
  simplexVal p idx (2 * x - 1) (2 * y - 1)

/-- See `triVal()` (sfepy/discrete/dg/poly_spaces.py:157-177). -/
noncomputable def triDiff (p : ℕ → ℕ → ℝ[X]) (dvar : ℕ) (idx : ℕ × ℕ) (x y : ℝ) : ℝ :=
  2 * simplexDiff p dvar idx (2 * x - 1) (2 * y - 1)

/-- The Jacobi polynomials with the parameters (al, 0), natural al: the library function
`scipy.special.eval_jacobi(n, al, 0, x)` used in sfepy/discrete/dg/poly_spaces.py:417-418, 557-558. -/
noncomputable def jacobi (al n : ℕ) : ℝ[X] :=
  ∑ s ∈ Finset.range (n + 1),
    C (((n + al).choose (n - s) : ℝ) * (n.choose s : ℝ)) *
      (C (1 / 2) * (X - 1)) ^ s * (C (1 / 2) * (X + 1)) ^ (n - s)

/-- `simplex_coefM5` (sfepy/discrete/dg/poly_spaces.py:665-687). -/
def simplexCoefM5 : List (List ℤ) := [
  [1, 0, 0, 0, 0, 0, 0, 0, 0, 0, 0, 0, 0, 0, 0, 0, 0, 0, 0, 0, 0],
  [-1, 3, 0, 0, 0, 0, 0, 0, 0, 0, 0, 0, 0, 0, 0, 0, 0, 0, 0, 0, 0],
  [-2, 2, 4, 0, 0, 0, 0, 0, 0, 0, 0, 0, 0, 0, 0, 0, 0, 0, 0, 0, 0],
  [1, -8, 0, 10, 0, 0, 0, 0, 0, 0, 0, 0, 0, 0, 0, 0, 0, 0, 0, 0, 0],
  [2, -12, -4, 10, 20, 0, 0, 0, 0, 0, 0, 0, 0, 0, 0, 0, 0, 0, 0, 0, 0],
  [4, -8, -24, 4, 24, 24, 0, 0, 0, 0, 0, 0, 0, 0, 0, 0, 0, 0, 0, 0, 0],
  [-1, 15, 0, -45, 0, 0, 35, 0, 0, 0, 0, 0, 0, 0, 0, 0, 0, 0, 0, 0, 0],
  [-2, 26, 4, -66, -48, 0, 42, 84, 0, 0, 0, 0, 0, 0, 0, 0, 0, 0, 0, 0, 0],
  [-4, 36, 24, -60, -192, -24, 28, 168, 168, 0, 0, 0, 0, 0, 0, 0, 0, 0, 0, 0, 0],
  [-8, 24, 96, -24, -192, -240, 8, 96, 240, 160, 0, 0, 0, 0, 0, 0, 0, 0, 0, 0, 0],
  [1, -24, 0, 126, 0, 0, -224, 0, 0, 0, 126, 0, 0, 0, 0, 0, 0, 0, 0, 0, 0],
  [2, -44, -4, 210, 84, 0, -336, -336, 0, 0, 168, 336, 0, 0, 0, 0, 0, 0, 0, 0, 0],
  [4, -72, -24, 276, 408, 24, -352, -1248, -384, 0, 144, 864, 864, 0, 0, 0, 0, 0, 0, 0, 0],
  [8, -96, -96, 240, 1056, 240, -224, -1824, -2400, -160, 72, 864, 2160, 1440, 0, 0, 0, 0, 0, 0, 0],
  [16, -64, -320, 96, 960, 1440, -64, -960, -2880, -2240, 16, 320, 1440, 2240, 1120, 0, 0, 0, 0, 0, 0],
  [-1, 35, 0, -280, 0, 0, 840, 0, 0, 0, -1050, 0, 0, 0, 0, 462, 0, 0, 0, 0, 0],
  [-2, 66, 4, -496, -128, 0, 1392, 864, 0, 0, -1620, -1920, 0, 0, 0, 660, 1320, 0, 0, 0, 0],
  [-4, 116, 24, -760, -672, -24, 1848, 3888, 648, 0, -1860, -7200, -3240, 0, 0, 660, 3960, 3960, 0, 0, 0],
  [-8, 184, 96, -944, -2112, -240, 1808, 9216, 5040, 160, -1480, -12480, -18000, -3200, 0, 440, 5280, 13200, 8800, 0, 0],
  [-16, 240, 320, -800, -4480, -1440, 1120, 11520, 18720, 2240, -720, -10880, -33120, -26880, -1120, 176, 3520, 15840, 24640, 12320, 0],
  [-32, 160, 960, -320, -3840, -6720, 320, 5760, 20160, 17920, -160, -3840, -20160, -35840, -20160, 32, 960, 6720, 17920, 20160, 8064]]

/-- `simplex_expoM5`, without its third column of zeros (sfepy/discrete/dg/poly_spaces.py:689-711). -/
def simplexExpoM5 : List (ℕ × ℕ) :=
  [(0, 0), (0, 1), (1, 0), (0, 2), (1, 1), (2, 0), (0, 3), (1, 2), (2, 1), (3, 0), (0, 4), (1, 3), (2, 2), (3, 1), (4, 0), (0, 5), (1, 4), (2, 3), (3, 2), (4, 1), (5, 0)]

/-! ## Proofs: the explicit Legendre functions -/

/-- The polynomial of `get_nth_fun()`. -/
noncomputable def legendrePoly (n : ℕ) : ℝ[X] :=
  ∑ k ∈ Finset.range (n + 1), C ((-1) ^ n * (-1) ^ k * (n.choose k : ℝ) * ((n + k).choose k : ℝ)) * X ^ k

theorem sign_pow (n : ℕ) : (if n % 2 = 1 then (-1 : ℝ) else 1) = (-1) ^ n := by
  rcases Nat.even_or_odd n with h | h
  · rw [h.neg_one_pow, if_neg]
    have := Nat.even_iff.mp h
    omega
  · rw [h.neg_one_pow, if_pos (Nat.odd_iff.mp h)]

theorem legendreSum_eq (n : ℕ) (x : ℝ) : legendreSum n x = (legendrePoly n).eval x := by
  unfold legendreSum legendrePoly
  rw [sign_pow, Finset.sum_mul, eval_finsetSum]
  refine Finset.sum_congr rfl fun k _ => ?_
  simp only [eval_mul, eval_C, eval_pow, eval_X]
  rw [neg_pow]
  ring

theorem nthFun_eq (n : ℕ) (x : ℝ) : nthFun n x = legendreSum n x := by
  match n with
  | 0 => simp [nthFun, legendreSum]
  | 1 => simp [nthFun, legendreSum, Finset.sum_range_succ]; ring
  | 2 =>
    simp [nthFun, legendreSum, Finset.sum_range_succ, Nat.choose]; ring
  | 3 => simp [nthFun, legendreSum, Finset.sum_range_succ, Nat.choose]; ring
  | 4 => simp [nthFun, legendreSum, Finset.sum_range_succ, Nat.choose]; ring
  | 5 => simp [nthFun, legendreSum, Finset.sum_range_succ, Nat.choose]; ring
  | n + 6 => rfl

theorem legendrePoly_shifted (n : ℕ) :
    legendrePoly n = C ((-1) ^ n) * (shiftedLegendre n).map (Int.castRingHom ℝ) := by
  ext k
  rw [coeff_C_mul, coeff_map, coeff_shiftedLegendre]
  unfold legendrePoly
  rw [finsetSum_coeff]
  simp_rw [coeff_C_mul_X_pow]
  by_cases hk : k < n + 1
  · rw [Finset.sum_eq_single k]
    · have hsym : (n + k).choose k = (n + k).choose n := by
        rw [← Nat.choose_symm (Nat.le_add_left k n), Nat.add_sub_cancel]
      simp [hsym]
      ring
    · intro j _ hj
      simp [Ne.symm hj]
    · intro h
      exact absurd (Finset.mem_range.mpr hk) h
  · rw [Finset.sum_eq_zero]
    · simp [Nat.choose_eq_zero_of_lt (show n < k by omega)]
    · intro j hj
      rw [Finset.mem_range] at hj
      simp [show ¬ k = j by omega]

/-- C83: `get_nth_fun(n)` is the n-th Legendre polynomial shifted to [0, 1]: Rodrigues' formula
n! P_n(x) = d^n/dx^n (x^2 - x)^n. -/
theorem C83_nth_fun (n : ℕ) (x : ℝ) :
    (n.factorial : ℝ) * nthFun n x = (derivative^[n] ((X ^ 2 - X) ^ n : ℝ[X])).eval x := by
  rw [nthFun_eq, legendreSum_eq, legendrePoly_shifted]
  have h := congrArg (Polynomial.map (Int.castRingHom ℝ)) (factorial_mul_shiftedLegendre_eq n)
  rw [← iterate_derivative_map] at h
  simp only [Polynomial.map_mul, Polynomial.map_natCast, Polynomial.map_pow, Polynomial.map_X,
    Polynomial.map_sub, Polynomial.map_one] at h
  have e : ((X ^ 2 - X) ^ n : ℝ[X]) = C ((-1) ^ n) * (X ^ n * (1 - X) ^ n) := by
    rw [C_pow, ← mul_pow, ← mul_pow]
    congr 1
    simp
    ring
  rw [e, iterate_derivative_C_mul, ← h]
  simp only [eval_mul, eval_C, eval_natCast]
  ring

theorem iteratedDeriv_eval (p : ℝ[X]) (d : ℕ) (x : ℝ) :
    iteratedDeriv d (fun y => p.eval y) x = (derivative^[d] p).eval x := by
  induction d generalizing x with
  | zero => simp
  | succ d ih =>
    rw [iteratedDeriv_succ, Function.iterate_succ_apply']
    have : iteratedDeriv d (fun y => p.eval y) = fun y => (derivative^[d] p).eval y := funext ih
    rw [this]
    exact Polynomial.deriv _

/-- C83: `get_nth_fun_der(n, diff)` is the derivative of the order `diff` of `get_nth_fun(n)`, for all degrees
and orders. -/
theorem C83_nth_fun_der (n d : ℕ) (x : ℝ) :
    iteratedDeriv d (nthFun n) x = nthFunDer n d x := by
  have h0 : nthFun n = fun y => (legendrePoly n).eval y :=
    funext fun y => by rw [nthFun_eq, legendreSum_eq]
  rw [h0, iteratedDeriv_eval]
  unfold legendrePoly nthFunDer
  rw [iterate_derivative_sum, eval_finsetSum, Finset.sum_filter, Finset.sum_mul]
  refine Finset.sum_congr rfl fun k _ => ?_
  rw [iterate_derivative_C_mul, iterate_derivative_X_pow_eq_C_mul]
  simp only [eval_mul, eval_C, eval_pow, eval_X]
  by_cases hdk : d ≤ k
  · rw [if_pos hdk]
    have hf : (k.descFactorial d : ℝ) = (k.factorial : ℝ) / ((k - d).factorial : ℝ) := by
      have hne : ((k - d).factorial : ℝ) ≠ 0 := by exact_mod_cast (k - d).factorial_ne_zero
      rw [eq_div_iff hne]
      exact_mod_cast (by rw [mul_comm]; exact Nat.factorial_mul_descFactorial hdk)
    have hs : (if ((n : ℤ) - (d : ℤ)) % 2 = 1 then (-1 : ℝ) else 1) = (-1) ^ (n + d) := by
      rw [← sign_pow]
      refine if_congr ?_ rfl rfl
      omega
    have hs2 : ((-1 : ℝ)) ^ k = (-1) ^ (k - d) * (-1) ^ d := by
      rw [← pow_add, Nat.sub_add_cancel hdk]
    rw [hf, hs, neg_pow x, hs2, pow_add]
    ring
  · rw [if_neg hdk, Nat.descFactorial_of_lt (by omega)]
    simp

/-! ## Proofs: the tensor product cells -/

/-- C83: the gradient of the basis on the tensor product cells is the gradient of its values, for every
dimension and index. -/
theorem C83_tensor_gradient (p : ℕ → ℝ[X]) {dim : ℕ} (idx : Fin dim → ℕ) (e : Fin dim)
    (x : Fin dim → ℝ) :
    HasDerivAt (fun t => tensorVal p idx (Function.update x e t)) (tensorDiff p idx e x) (x e) := by
  have h1 : (fun t => tensorVal p idx (Function.update x e t)) = fun t =>
      (p (idx e)).eval (2 * t - 1) * ∏ d ∈ Finset.univ.erase e, (p (idx d)).eval (2 * x d - 1) := by
    funext t
    unfold tensorVal
    rw [← Finset.mul_prod_erase _ _ (Finset.mem_univ e)]
    congr 1
    · simp
    · refine Finset.prod_congr rfl fun d hd => ?_
      rw [Function.update_of_ne (Finset.ne_of_mem_erase hd)]
  rw [h1]
  have h2 : HasDerivAt (fun t : ℝ => 2 * t - 1) 2 (x e) :=
    (((hasDerivAt_id (x e)).const_mul 2).sub_const 1).congr_deriv (by simp)
  have h3 := ((p (idx e)).hasDerivAt (2 * x e - 1)).comp (x e) h2
  refine (h3.mul_const _).congr_deriv ?_
  unfold tensorDiff
  rw [← Finset.mul_prod_erase Finset.univ (fun d => if d = e then _ else _) (Finset.mem_univ e)]
  rw [if_pos rfl]
  have : ∏ d ∈ Finset.univ.erase e, (if d = e then (derivative (p (idx d))).eval (2 * x d - 1)
      else (p (idx d)).eval (2 * x d - 1)) =
      ∏ d ∈ Finset.univ.erase e, (p (idx d)).eval (2 * x d - 1) :=
    Finset.prod_congr rfl fun d hd => if_neg (Finset.ne_of_mem_erase hd)
  rw [this]
  ring

theorem schemeVal_eq_sum (p : ℕ → ℝ[X]) (L : List (ℕ × ℕ)) (idx : ℕ × ℕ) (x y : ℝ) :
    schemeVal (schemeRow p L idx) L x y =
      (L.map fun e => ((p idx.1).coeff e.1 * x ^ e.1) * ((p idx.2).coeff e.2 * y ^ e.2)).sum := by
  unfold schemeVal schemeRow
  induction L with
  | nil => rfl
  | cons e L ih =>
    simp only [List.map_cons, List.zipWith_cons_cons, List.sum_cons]
    rw [ih]
    ring

/-- C83: the coefficients and exponents given to gmsh for quadrilaterals describe the product basis on
[-1, 1] x [-1, 1]. -/
theorem C83_tensor_scheme (p : ℕ → ℝ[X]) (n : ℕ) (hp : ∀ k, k ≤ n → (p k).natDegree ≤ n) (idx : ℕ × ℕ)
    (hidx : idx ∈ iterOrder2 n true) (x y : ℝ) :
    schemeVal (schemeRow p (iterOrder2 n true) idx) (iterOrder2 n true) x y =
      (p idx.1).eval x * (p idx.2).eval y := by
  obtain ⟨hnd, hmem, -⟩ := C82_indices_2d_extended n
  have hi := (hmem idx.1 idx.2).mp hidx
  rw [schemeVal_eq_sum, ← List.sum_toFinset _ hnd]
  have hset : (iterOrder2 n true).toFinset = Finset.range (n + 1) ×ˢ Finset.range (n + 1) := by
    ext ⟨i, j⟩
    rw [List.mem_toFinset, hmem]
    simp
  rw [hset, Finset.sum_product]
  rw [eval_eq_sum_range' (Nat.lt_succ_of_le (hp _ hi.1)), eval_eq_sum_range' (Nat.lt_succ_of_le (hp _ hi.2)),
    Finset.sum_mul_sum]

/-! ## Proofs: the triangles -/

theorem half_pow (S : ℝ) (i : ℕ) : S ^ i = 2 ^ i * (0.5 * S) ^ i := by
  rw [← mul_pow]; congr 1; ring

theorem alg_x (A B S : ℝ) (hS : S ≠ 0) (i : ℕ) :
    A * (4 / S) * B * S ^ (i + 1) = 2 * (2 ^ (i + 1) * (A * B * (0.5 * S) ^ i)) := by
  rw [pow_succ S i, half_pow S i, pow_succ 2 i]
  field_simp
  ring

theorem alg_y (A F B D Y S n : ℝ) (hS : S ≠ 0) (i : ℕ) :
    (A * (2 * Y * 2 / S ^ 2) * B + F * (D * 2)) * S ^ (i + 1) + F * B * (n * S ^ i * -2) =
      2 * (2 ^ (i + 1) * (A * (B * (0.5 * (1 + (2 * Y / S - 1)))) * (0.5 * S) ^ i +
        F * (D * (0.5 * S) ^ (i + 1) - 0.5 * n * B * (0.5 * S) ^ i))) := by
  rw [pow_succ S i, half_pow S i, pow_succ 2 i, pow_succ (0.5 * S) i]
  generalize (0.5 * S) ^ i = T
  generalize (2 : ℝ) ^ i = Q
  field_simp
  ring

theorem natDegree_zero_deriv {q : ℝ[X]} (h : q.natDegree = 0) : derivative q = 0 := by
  rw [eq_C_of_natDegree_eq_zero h, derivative_C]

/-- C83: the derivative of the basis of a triangle with respect to the first reference coordinate, for every
index and every point off the collapsed vertex (y = 1). -/
theorem C83_triangle_gradient_x (p : ℕ → ℕ → ℝ[X]) (hp0 : (p 0 0).natDegree = 0) (idx : ℕ × ℕ) (x y : ℝ)
    (hy : y ≠ 1) :
    HasDerivAt (fun t => triVal p idx t y) (triDiff p 0 idx x y) x := by
  have hs : (1 - (2 * y - 1)) ≠ 0 := fun h => hy (by linarith)
  have h2 : HasDerivAt (fun t : ℝ => 2 * (1 + (2 * t - 1)) / (1 - (2 * y - 1)) - 1)
      (4 / (1 - (2 * y - 1))) x := by
    have : HasDerivAt (fun t : ℝ => 2 * (1 + (2 * t - 1))) 4 x :=
      (((((hasDerivAt_id x).const_mul 2).sub_const 1).const_add 1).const_mul 2).congr_deriv (by
        norm_num)
    exact (this.div_const _).sub_const 1
  have h3 := ((p 0 idx.1).hasDerivAt _).comp x h2
  have h4 := (h3.mul_const ((p (2 * idx.1 + 1) idx.2).eval (2 * y - 1))).mul_const
    ((1 - (2 * y - 1)) ^ idx.1)
  refine h4.congr_deriv ?_
  unfold triDiff simplexDiff
  simp only [if_true]
  obtain ⟨i, j⟩ := idx
  simp only
  cases i with
  | zero =>
    rw [natDegree_zero_deriv hp0]
    simp
  | succ i =>
    simp only [Nat.succ_pos, if_true, Nat.add_sub_cancel]
    exact alg_x _ _ _ hs i

/-- C83: the derivative of the basis of a triangle with respect to the second reference coordinate, for every
index and every point off the collapsed vertex (y = 1). -/
theorem C83_triangle_gradient_y (p : ℕ → ℕ → ℝ[X]) (hp0 : (p 0 0).natDegree = 0) (idx : ℕ × ℕ) (x y : ℝ)
    (hy : y ≠ 1) :
    HasDerivAt (fun t => triVal p idx x t) (triDiff p 1 idx x y) y := by
  have hs : (1 - (2 * y - 1)) ≠ 0 := fun h => hy (by linarith)
  have hs' : HasDerivAt (fun t : ℝ => 2 * t - 1) 2 y :=
    (((hasDerivAt_id y).const_mul 2).sub_const 1).congr_deriv (by simp)
  have h1 : HasDerivAt (fun t : ℝ => 1 - (2 * t - 1)) (-2) y := hs'.const_sub 1
  have h2 : HasDerivAt (fun t : ℝ => 2 * (1 + (2 * x - 1)) / (1 - (2 * t - 1)) - 1)
      (2 * (1 + (2 * x - 1)) * 2 / (1 - (2 * y - 1)) ^ 2) y := by
    refine (((h1.inv hs).const_mul (2 * (1 + (2 * x - 1)))).sub_const 1).congr_deriv ?_ |>.congr_of_eventuallyEq ?_
    · ring
    · exact Filter.Eventually.of_forall fun t => by simp [div_eq_mul_inv]
  have h3 := ((p 0 idx.1).hasDerivAt _).comp y h2
  have h4 := ((p (2 * idx.1 + 1) idx.2).hasDerivAt _).comp y hs'
  have h5 := h1.pow idx.1
  have h6 := (h3.mul h4).mul h5
  refine (h6.congr_deriv ?_)
  unfold triDiff simplexDiff
  obtain ⟨i, j⟩ := idx
  simp only [one_ne_zero, if_false, Function.comp]
  cases i with
  | zero =>
    rw [natDegree_zero_deriv hp0]
    simp
    ring
  | succ i =>
    simp only [Nat.succ_pos, if_true, Nat.add_sub_cancel]
    exact alg_y _ _ _ _ _ _ _ hs i

theorem jacobi_eval (al n : ℕ) (x : ℝ) :
    (jacobi al n).eval x = ∑ s ∈ Finset.range (n + 1),
      ((n + al).choose (n - s) : ℝ) * (n.choose s : ℝ) * (1 / 2 * (x - 1)) ^ s *
        (1 / 2 * (x + 1)) ^ (n - s) := by
  unfold jacobi
  rw [eval_finsetSum]
  simp

theorem tri_alg (x y : ℝ) (hy : y ≠ 1) :
    ∃ a, 2 * (1 + (2 * x - 1)) / (1 - (2 * y - 1)) - 1 = a ∧ (a + 1) * (1 - y) = 2 * x := by
  refine ⟨_, rfl, ?_⟩
  have : 1 - y ≠ 0 := fun h => hy (by linarith)
  have : (1 - (2 * y - 1)) ≠ 0 := fun h => hy (by linarith)
  field_simp
  ring

set_option maxHeartbeats 4000000 in
/-- C83: the table of the coefficients and exponents given to gmsh for triangles describes the basis of the
reference triangle, for all 21 functions up to the order 5 and all points off the collapsed vertex. -/
theorem C83_triangle_scheme (m : ℕ) (row : List ℤ) (idx : ℕ × ℕ) (hrow : simplexCoefM5[m]? = some row)
    (hidx : (iterOrder2 5 false)[m]? = some idx) (x y : ℝ) (hy : y ≠ 1) :
    schemeVal (row.map fun c : ℤ => (c : ℝ)) simplexExpoM5 x y = triVal jacobi idx x y := by
  have hm : m < 21 := by
    by_contra h
    rw [List.getElem?_eq_none (by simpa [simplexCoefM5] using h)] at hrow
    simp at hrow
  obtain ⟨a, ha, hxa⟩ := tri_alg x y hy
  have hx : x = (a + 1) * (1 - y) / 2 := by linarith
  have hL : iterOrder2 5 false = [(0, 0), (0, 1), (1, 0), (0, 2), (1, 1), (2, 0), (0, 3), (1, 2), (2, 1),
    (3, 0), (0, 4), (1, 3), (2, 2), (3, 1), (4, 0), (0, 5), (1, 4), (2, 3), (3, 2), (4, 1), (5, 0)] := by
    decide
  rw [hL] at hidx
  unfold triVal simplexVal
  rw [ha, jacobi_eval, jacobi_eval]
  clear ha hxa
  subst hx
  interval_cases m <;> (
    simp only [simplexCoefM5, List.getElem?_cons_succ, List.getElem?_cons_zero, Option.some.injEq] at hrow
    simp only [List.getElem?_cons_succ, List.getElem?_cons_zero, Option.some.injEq] at hidx
    subst hrow hidx
    simp only [schemeVal, simplexExpoM5, List.map_cons, List.map_nil, List.zipWith_cons_cons,
      List.zipWith_nil_left, List.sum_cons, List.sum_nil, Finset.sum_range_succ, Finset.sum_range_zero]
    norm_num [Nat.choose] <;> ring)

end Dg
