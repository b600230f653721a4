/-
Lemmas about sums for the term kernels.
-/
import Verif.Term.KerScalar
import Verif.Term.SpecWeak
import Mathlib.Tactic.Ring
import Mathlib.Tactic.Linarith
import Mathlib.Algebra.Order.Field.Basic
import Mathlib.Algebra.Order.BigOperators.Ring.Finset

namespace Verif.Term

open Finset

variable {K : Type} [Field K]

theorem Fld.x1_apply (f : Fld K) (c q i j : ℕ) : f.x1 c q i j = f.at c q i j := by
  unfold Fld.x1 Fld.at
  by_cases h : f.nCell ≤ 1
  · rw [if_pos h, if_neg (by omega)]
  · rw [if_neg h, if_pos (by omega)]

theorem ptr_det (m : Mapping K) (c q : ℕ) : ptr (m.det c) q = m.w c q := rfl

theorem ptr_x1 (f : Fld K) (c q : ℕ) : ptr (f.x1 c) q = f.at c q 0 0 := f.x1_apply c q 0 0

theorem sum_blocks (d n : ℕ) (f : ℕ → K) : ∑ s ∈ range (d * n), f s = ∑ a ∈ range d, ∑ k ∈ range n, f (n * a + k) := by
  induction d with
  | zero => simp
  | succ d ih =>
    rw [Nat.succ_mul, sum_range_add, ih, sum_range_succ, Nat.mul_comm d n]

theorem divmod_block {n a k : ℕ} (hk : k < n) : (n * a + k) / n = a ∧ (n * a + k) % n = k := by
  have hn : 0 < n := by omega
  constructor
  · rw [Nat.mul_add_div hn, Nat.div_eq_of_lt hk, Nat.add_zero]
  · rw [Nat.mul_add_mod, Nat.mod_eq_of_lt hk]

theorem bil_sumLev (n m nQP : ℕ) (v u : ℕ → K) (a : Lev K) (w : ℕ → K) :
    bil n m v (sumLev nQP a w) u = integ nQP w fun q => bil n m v (a q) u := by
  unfold bil sumLev integ
  simp only [mul_sum, sum_mul]
  rw [sum_congr rfl fun r _ => sum_comm]
  rw [sum_comm]
  refine sum_congr rfl fun q _ => sum_congr rfl fun r _ => sum_congr rfl fun s _ => by ring

theorem lin_sumLev (n nQP : ℕ) (v : ℕ → K) (a : Lev K) (w : ℕ → K) :
    lin n v (sumLev nQP a w) = integ nQP w fun q => lin n v (a q) := by
  unfold lin sumLev integ
  simp only [mul_sum]
  rw [sum_comm]
  refine sum_congr rfl fun q _ => sum_congr rfl fun r _ => by ring

theorem integ_congr {nQP : ℕ} {w w' f g : ℕ → K} (hw : ∀ q < nQP, w q = w' q) (h : ∀ q < nQP, f q = g q) :
    integ nQP w f = integ nQP w' g := by
  unfold integ
  refine sum_congr rfl fun q hq => ?_
  rw [hw q (mem_range.1 hq), h q (mem_range.1 hq)]

/-- A sum of products of two sums. -/
theorem sum_mul_sum' (n m p : ℕ) (v u : ℕ → K) (A B : ℕ → ℕ → K) :
    ∑ r ∈ range n, ∑ s ∈ range m, v r * (∑ k ∈ range p, A r k * B k s) * u s =
      ∑ k ∈ range p, (∑ r ∈ range n, v r * A r k) * ∑ s ∈ range m, B k s * u s := by
  simp only [mul_sum, sum_mul]
  rw [sum_congr rfl fun r _ => sum_comm, sum_comm]
  refine sum_congr rfl fun k _ => ?_
  rw [sum_comm]
  refine sum_congr rfl fun r _ => sum_congr rfl fun s _ => by ring

theorem bil_mulAB (n m p : ℕ) (v u : ℕ → K) (a b : Lev K) (q : ℕ) :
    bil n m v (mulAB p a b q) u =
      ∑ k ∈ range p, (∑ r ∈ range n, v r * a q r k) * ∑ s ∈ range m, b q k s * u s :=
  sum_mul_sum' n m p v u (a q) (b q)

theorem bil_mulATB (n m p : ℕ) (v u : ℕ → K) (a b : Lev K) (q : ℕ) :
    bil n m v (mulATB p a b q) u =
      ∑ k ∈ range p, (∑ r ∈ range n, v r * a q k r) * ∑ s ∈ range m, b q k s * u s :=
  sum_mul_sum' n m p v u (fun i k => a q k i) (b q)

theorem lin_mulATB (n p : ℕ) (v : ℕ → K) (a b : Lev K) (q : ℕ) :
    lin n v (mulATB p a b q) = ∑ k ∈ range p, (∑ r ∈ range n, v r * a q k r) * b q k 0 := by
  unfold lin mulATB
  simp only [mul_sum, sum_mul]
  rw [sum_comm]
  refine sum_congr rfl fun r _ => sum_congr rfl fun s _ => by ring

theorem lin_mulAB (n p : ℕ) (v : ℕ → K) (a b : Lev K) (q : ℕ) :
    lin n v (mulAB p a b q) = ∑ k ∈ range p, (∑ r ∈ range n, v r * a q r k) * b q k 0 := by
  unfold lin mulAB
  simp only [mul_sum, sum_mul]
  rw [sum_comm]
  refine sum_congr rfl fun r _ => sum_congr rfl fun s _ => by ring

theorem bil_mulF (n m : ℕ) (v u : ℕ → K) (a : Lev K) (val : ℕ → K) (q : ℕ) :
    bil n m v (mulF a val q) u = val q * bil n m v (a q) u := by
  unfold bil mulF
  simp only [mul_sum]
  refine sum_congr rfl fun r _ => sum_congr rfl fun s _ => by ring

theorem lin_mulF (n : ℕ) (v : ℕ → K) (a : Lev K) (val : ℕ → K) (q : ℕ) :
    lin n v (mulF a val q) = val q * lin n v (a q) := by
  unfold lin mulF
  simp only [mul_sum]
  refine sum_congr rfl fun r _ => by ring

theorem sum_v_grad (nEP : ℕ) (G : ℕ → ℕ → K) (v : ℕ → K) (k : ℕ) :
    ∑ r ∈ range nEP, v r * G k r = fgrad nEP G v k 0 := by
  unfold fgrad
  refine sum_congr rfl fun r _ => by rw [Nat.mul_zero, Nat.zero_add]; ring

theorem sum_grad_u (nEP : ℕ) (G : ℕ → ℕ → K) (v : ℕ → K) (k : ℕ) :
    ∑ r ∈ range nEP, G k r * v r = fgrad nEP G v k 0 := by
  unfold fgrad
  refine sum_congr rfl fun r _ => by rw [Nat.mul_zero, Nat.zero_add]

theorem sum_v_val (nEP : ℕ) (φ : ℕ → K) (v : ℕ → K) : ∑ r ∈ range nEP, v r * φ r = fval nEP φ v 0 := by
  unfold fval
  refine sum_congr rfl fun r _ => by rw [Nat.mul_zero, Nat.zero_add]; ring

theorem sum_val_u (nEP : ℕ) (φ : ℕ → K) (v : ℕ → K) : ∑ r ∈ range nEP, φ r * v r = fval nEP φ v 0 := by
  unfold fval
  refine sum_congr rfl fun r _ => by rw [Nat.mul_zero, Nat.zero_add]

/-- Sums over all the degrees of freedom of a vector field of a product by blocks. -/
theorem sum_v_actt (d nEP : ℕ) (φ : ℕ → K) (f : ℕ → K) (v : ℕ → K) :
    ∑ r ∈ range (d * nEP), v r * (φ (r % nEP) * f (r / nEP)) = ∑ a ∈ range d, fval nEP φ v a * f a := by
  rw [sum_blocks]
  refine sum_congr rfl fun a _ => ?_
  unfold fval
  rw [sum_mul]
  refine sum_congr rfl fun k hk => ?_
  obtain ⟨h1, h2⟩ := divmod_block (a := a) (mem_range.1 hk)
  rw [h1, h2]
  ring

theorem lin_bfActt (d nEP : ℕ) (v : ℕ → K) (bf inp : Lev K) (q : ℕ) :
    lin (d * nEP) v (bfActt nEP bf inp q) = ∑ a ∈ range d, fval nEP (bf q 0) v a * inp q a 0 :=
  sum_v_actt d nEP (bf q 0) (fun a => inp q a 0) v

theorem bil_bfActt (d m nEP : ℕ) (v u : ℕ → K) (bf inp : Lev K) (q : ℕ) :
    bil (d * nEP) m v (bfActt nEP bf inp q) u =
      ∑ a ∈ range d, fval nEP (bf q 0) v a * ∑ s ∈ range m, inp q a s * u s := by
  unfold bil bfActt
  rw [← sum_v_actt]
  refine sum_congr rfl fun r _ => ?_
  rw [mul_sum, mul_sum]
  refine sum_congr rfl fun s _ => by ring

theorem sum_bfRact (d nEP : ℕ) (u : ℕ → K) (bf inp : Lev K) (q i : ℕ) :
    ∑ s ∈ range (d * nEP), bfRact nEP bf inp q i s * u s = ∑ a ∈ range d, inp q i a * fval nEP (bf q 0) u a := by
  rw [sum_blocks]
  refine sum_congr rfl fun a _ => ?_
  unfold fval bfRact
  rw [mul_sum]
  refine sum_congr rfl fun k hk => ?_
  obtain ⟨h1, h2⟩ := divmod_block (a := a) (mem_range.1 hk)
  rw [h1, h2]
  ring

theorem dqGrad_eq (n : ℕ) (m : Mapping K) (state : ℕ → K) (conn : ℕ → ℕ → ℕ) (c q i a : ℕ) :
    dqGrad n m state conn c q i a = fgrad m.nEP (m.G c q) (locDofs n m.nEP state (conn c)) i a := by
  unfold dqGrad mulABn1 fgrad
  refine sum_congr rfl fun k hk => ?_
  obtain ⟨h1, h2⟩ := divmod_block (a := a) (mem_range.1 hk)
  unfold locDofs
  rw [h1, h2]
  rfl

theorem dqState_eq (n : ℕ) (m : Mapping K) (state : ℕ → K) (conn : ℕ → ℕ → ℕ) (c q a : ℕ) :
    dqState n m.nEP m.bf state conn c q a 0 = fval m.nEP (m.phi c q) (locDofs n m.nEP state (conn c)) a := by
  unfold dqState bfAct fval
  refine sum_congr rfl fun k hk => ?_
  obtain ⟨h1, h2⟩ := divmod_block (a := a) (mem_range.1 hk)
  unfold locDofs
  rw [h1, h2, Fld.x1_apply]
  rfl

theorem dqDiv_eq (m : Mapping K) (state : ℕ → K) (conn : ℕ → ℕ → ℕ) (c q : ℕ) :
    dqDiv m state conn c q 0 0 = fdiv m.dim m.nEP (m.G c q) (locDofs m.dim m.nEP state (conn c)) := by
  unfold dqDiv mulABn1 fdiv
  rw [Nat.mul_comm, sum_blocks]
  refine sum_congr rfl fun a _ => sum_congr rfl fun k hk => ?_
  obtain ⟨h1, h2⟩ := divmod_block (a := a) (mem_range.1 hk)
  unfold locDofs pretend extractDBD
  simp only [Nat.mul_zero, Nat.zero_add, Nat.one_mul, Nat.add_zero]
  rw [h1, h2]
  rfl

/-! ### Consequences of `IsForm`, `IsLin` -/

theorem bil_single {n m r s : ℕ} (hr : r < n) (hs : s < m) (A : ℕ → ℕ → K) :
    bil n m (Pi.single r 1) A (Pi.single s 1) = A r s := by
  unfold bil
  rw [sum_eq_single_of_mem r (mem_range.2 hr), sum_eq_single_of_mem s (mem_range.2 hs)]
  · simp
  · intro b _ hb
    rw [Pi.single_eq_of_ne hb, mul_zero]
  · intro b _ hb
    refine sum_eq_zero fun j _ => ?_
    rw [Pi.single_eq_of_ne hb, zero_mul, zero_mul]

theorem bil_single_left {n m r : ℕ} (hr : r < n) (A : ℕ → ℕ → K) (u : ℕ → K) :
    bil n m (Pi.single r 1) A u = ∑ s ∈ range m, A r s * u s := by
  unfold bil
  rw [sum_eq_single_of_mem r (mem_range.2 hr)]
  · simp
  · intro b _ hb
    refine sum_eq_zero fun j _ => ?_
    rw [Pi.single_eq_of_ne hb, zero_mul, zero_mul]

theorem lin_single {n r : ℕ} (hr : r < n) (b : ℕ → ℕ → K) : lin n (Pi.single r 1) b = b r 0 := by
  unfold lin
  rw [sum_eq_single_of_mem r (mem_range.2 hr)]
  · simp
  · intro b _ hb
    rw [Pi.single_eq_of_ne hb, zero_mul]

/-- The residual is the matrix times the degrees of freedom. -/
theorem IsForm.residual {n m nQP : ℕ} {w : ℕ → K} {A b : ℕ → ℕ → K} {B : ℕ → (ℕ → K) → (ℕ → K) → K} {u : ℕ → K}
    (hA : IsForm n m nQP w A B) (hb : IsLin n nQP w b fun q v => B q v u) (r : ℕ) (hr : r < n) :
    b r 0 = ∑ s ∈ range m, A r s * u s := by
  rw [← lin_single hr b, ← bil_single_left hr, hb, hA]

/-- The matrix of a symmetric form is symmetric. -/
theorem IsForm.symm {n nQP : ℕ} {w : ℕ → K} {A : ℕ → ℕ → K} {B : ℕ → (ℕ → K) → (ℕ → K) → K}
    (hA : IsForm n n nQP w A B) (hB : ∀ q < nQP, ∀ v u, B q v u = B q u v) (r s : ℕ) (hr : r < n) (hs : s < n) :
    A r s = A s r := by
  rw [← bil_single hr hs A, ← bil_single hs hr A, hA, hA]
  exact integ_congr (fun _ _ => rfl) fun q hq => hB q hq _ _

/-- The matrices of transposed forms are transposed. -/
theorem IsForm.transpose {n m nQP : ℕ} {w : ℕ → K} {A A' : ℕ → ℕ → K} {B B' : ℕ → (ℕ → K) → (ℕ → K) → K}
    (hA : IsForm n m nQP w A B) (hA' : IsForm m n nQP w A' B') (hB : ∀ q < nQP, ∀ v u, B q v u = B' q u v)
    (r s : ℕ) (hr : r < n) (hs : s < m) : A r s = A' s r := by
  rw [← bil_single hr hs A, ← bil_single hs hr A', hA, hA']
  exact integ_congr (fun _ _ => rfl) fun q hq => hB q hq _ _

theorem IsForm.nonneg {F : Type} [Field F] [LinearOrder F] [IsStrictOrderedRing F] {n nQP : ℕ} {w : ℕ → F}
    {A : ℕ → ℕ → F} {B : ℕ → (ℕ → F) → (ℕ → F) → F} (hA : IsForm n n nQP w A B) (hw : ∀ q < nQP, 0 ≤ w q)
    (u : ℕ → F) (hB : ∀ q < nQP, 0 ≤ B q u u) : 0 ≤ bil n n u A u := by
  rw [hA]
  exact sum_nonneg fun q hq => mul_nonneg (hw q (mem_range.1 hq)) (hB q (mem_range.1 hq))

theorem IsForm.kernel {n m nQP : ℕ} {w : ℕ → K} {A : ℕ → ℕ → K} {B : ℕ → (ℕ → K) → (ℕ → K) → K} {u : ℕ → K}
    (hA : IsForm n m nQP w A B) (hB : ∀ q < nQP, ∀ v, B q v u = 0) (r : ℕ) (hr : r < n) :
    ∑ s ∈ range m, A r s * u s = 0 := by
  rw [← bil_single_left hr, hA]
  refine sum_eq_zero fun q hq => ?_
  simp only [hB q (mem_range.1 hq), mul_zero]

end Verif.Term
