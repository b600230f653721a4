/-
Lemmas on the elasticity kernels.
-/
import Verif.Term.KerElastic
import Verif.Term.SpecElastic
import Verif.Term.PropsDot
import Mathlib.Algebra.BigOperators.Field

namespace Verif.Term

open Finset

variable {K : Type} [Field K]

theorem actOpGTVS3_block {dim : ℕ} (h : 1 ≤ dim ∧ dim ≤ 3) (nEP : ℕ) (g vec : Lev K) :
    ∃ o, actOpGTVS3 dim nEP g vec = some o ∧ ∀ l j, ∀ a < dim, ∀ k < nEP,
      o l (nEP * a + k) j = ∑ i ∈ range dim, g l i k * vec l (voigt dim i a) 0 := by
  obtain ⟨h1, h2⟩ := h
  interval_cases dim
  · refine ⟨_, rfl, fun l j a ha k hk => ?_⟩
    obtain ⟨e1, e2⟩ := divmod_block (a := a) hk
    interval_cases a
    simp only [e2, sum_range_one]
    rfl
  · refine ⟨_, rfl, fun l j a ha k hk => ?_⟩
    obtain ⟨e1, e2⟩ := divmod_block (a := a) hk
    simp only [e2, e1]
    interval_cases a <;> simp [sum_range_succ, voigt]
  · refine ⟨_, rfl, fun l j a ha k hk => ?_⟩
    obtain ⟨e1, e2⟩ := divmod_block (a := a) hk
    simp only [e2, e1]
    interval_cases a <;> simp [sum_range_succ, voigt]

theorem actOpGTM3_block {dim : ℕ} (h : 1 ≤ dim ∧ dim ≤ 3) (nEP : ℕ) (g mtx : Lev K) :
    ∃ o, actOpGTM3 dim nEP g mtx = some o ∧ ∀ l j, ∀ a < dim, ∀ k < nEP,
      o l (nEP * a + k) j = ∑ i ∈ range dim, g l i k * mtx l (voigt dim i a) j := by
  obtain ⟨h1, h2⟩ := h
  interval_cases dim
  · refine ⟨_, rfl, fun l j a ha k hk => ?_⟩
    obtain ⟨e1, e2⟩ := divmod_block (a := a) hk
    interval_cases a
    simp only [e2, sum_range_one]
    rfl
  · refine ⟨_, rfl, fun l j a ha k hk => ?_⟩
    obtain ⟨e1, e2⟩ := divmod_block (a := a) hk
    simp only [e2, e1]
    interval_cases a <;> simp [sum_range_succ, voigt]
  · refine ⟨_, rfl, fun l j a ha k hk => ?_⟩
    obtain ⟨e1, e2⟩ := divmod_block (a := a) hk
    simp only [e2, e1]
    interval_cases a <;> simp [sum_range_succ, voigt]

theorem actOpGRM3_block {dim : ℕ} (h : 1 ≤ dim ∧ dim ≤ 3) (nEP : ℕ) (mtx g : Lev K) :
    ∃ o, actOpGRM3 dim nEP mtx g = some o ∧ ∀ l i, ∀ b < dim, ∀ k < nEP,
      o l i (nEP * b + k) = ∑ m ∈ range dim, g l m k * mtx l i (voigt dim m b) := by
  obtain ⟨h1, h2⟩ := h
  interval_cases dim
  · refine ⟨_, rfl, fun l j a ha k hk => ?_⟩
    obtain ⟨e1, e2⟩ := divmod_block (a := a) hk
    interval_cases a
    simp only [e2, sum_range_one]
    rfl
  · refine ⟨_, rfl, fun l j a ha k hk => ?_⟩
    obtain ⟨e1, e2⟩ := divmod_block (a := a) hk
    simp only [e2, e1]
    interval_cases a <;> simp [sum_range_succ, voigt]
  · refine ⟨_, rfl, fun l j a ha k hk => ?_⟩
    obtain ⟨e1, e2⟩ := divmod_block (a := a) hk
    simp only [e2, e1]
    interval_cases a <;> simp [sum_range_succ, voigt]

theorem nonsymGradOp_block {dim : ℕ} (h : 1 ≤ dim ∧ dim ≤ 3) (nEP : ℕ) (g : Lev K) :
    ∃ o, nonsymGradOp dim nEP g = some o ∧ ∀ l, ∀ a < dim, ∀ i < dim, ∀ b < dim, ∀ k < nEP,
      o l (dim * a + i) (nEP * b + k) = if a = b then g l i k else 0 := by
  obtain ⟨h1, h2⟩ := h
  interval_cases dim
  · refine ⟨_, rfl, fun l a ha i hi b hb k hk => ?_⟩
    interval_cases a
    interval_cases b
    interval_cases i
    simp [hk]
  · refine ⟨_, rfl, fun l a ha i hi b hb k hk => ?_⟩
    interval_cases a <;> interval_cases b
    · rw [if_pos (by omega), if_pos rfl]; simp
    · rw [if_neg (by omega), if_neg (by omega), if_neg (by omega)]
    · rw [if_neg (by omega), if_neg (by omega), if_neg (by omega)]
    · rw [if_neg (by omega), if_pos (by omega), if_pos rfl]; congr 1 <;> omega
  · refine ⟨_, rfl, fun l a ha i hi b hb k hk => ?_⟩
    interval_cases a <;> interval_cases b <;>
      first
        | (rw [if_pos (by omega), if_pos rfl]; congr 1 <;> omega)
        | (rw [if_neg (by omega), if_pos (by omega), if_pos rfl]; congr 1 <;> omega)
        | (rw [if_neg (by omega), if_neg (by omega), if_pos (by omega), if_pos rfl]; congr 1 <;> omega)
        | (rw [if_neg (by omega), if_neg (by omega), if_neg (by omega), if_neg (by omega)])

/-- The strains in the symmetric storage contracted with a vector. -/
theorem strainVS_sum {dim : ℕ} (h : 1 ≤ dim ∧ dim ≤ 3) (dg : Lev K) :
    ∃ E, strainVS dim dg = some E ∧ ∀ q j (f : ℕ → K), ∑ s ∈ range (symOf dim), f s * E q s j =
      ∑ k ∈ range dim, ∑ l ∈ range dim, f (voigt dim k l) * dg q k l := by
  obtain ⟨h1, h2⟩ := h
  interval_cases dim <;> refine ⟨_, rfl, fun q j f => ?_⟩ <;> simp [symOf, sum_range_succ, voigt] <;> ring

theorem strainVS_val {dim : ℕ} (h : 1 ≤ dim ∧ dim ≤ 3) (dg E : Lev K) (hE : strainVS dim dg = some E) (q c i j : ℕ)
    (hi : i < dim) (hj : j < dim) :
    E q (voigt dim i j) c = if i = j then dg q i i else dg q i j + dg q j i := by
  obtain ⟨h1, h2⟩ := h
  interval_cases dim <;> simp only [strainVS, Option.some.injEq] at hE <;> subst hE <;>
    interval_cases i <;> interval_cases j <;> simp [voigt, add_comm]

theorem lin_of_block {dim nEP : ℕ} {o : ℕ → ℕ → K} {g : ℕ → ℕ → K} {s : ℕ → ℕ → K}
    (h : ∀ a < dim, ∀ k < nEP, o (nEP * a + k) 0 = ∑ i ∈ range dim, g i k * s i a) (v : ℕ → K) :
    lin (dim * nEP) v o = ∑ i ∈ range dim, ∑ a ∈ range dim, fgrad nEP g v i a * s i a := by
  unfold lin
  rw [sum_blocks, sum_comm (s := range dim) (t := range dim)]
  refine sum_congr rfl fun a ha => ?_
  simp only [fgrad, sum_mul]
  rw [sum_comm]
  refine sum_congr rfl fun k hk => ?_
  rw [h a (mem_range.1 ha) k (mem_range.1 hk), mul_sum]
  refine sum_congr rfl fun i _ => by ring

theorem bil_of_block {dim nEP mEP : ℕ} {A : ℕ → ℕ → K} {g g' : ℕ → ℕ → K} {S : ℕ → ℕ → ℕ → ℕ → K}
    (h : ∀ a < dim, ∀ k < nEP, ∀ b < dim, ∀ l < mEP, A (nEP * a + k) (mEP * b + l) =
      ∑ i ∈ range dim, ∑ m ∈ range dim, g i k * S i a m b * g' m l) (v u : ℕ → K) :
    bil (dim * nEP) (dim * mEP) v A u = ∑ i ∈ range dim, ∑ a ∈ range dim, ∑ m ∈ range dim, ∑ b ∈ range dim,
      S i a m b * fgrad nEP g v i a * fgrad mEP g' u m b := by
  unfold bil
  have step : ∀ r, ∑ s ∈ range (dim * mEP), v r * A r s * u s =
      v r * ∑ b ∈ range dim, ∑ l ∈ range mEP, A r (mEP * b + l) * u (mEP * b + l) := by
    intro r
    rw [sum_blocks, mul_sum]
    refine sum_congr rfl fun b _ => ?_
    rw [mul_sum]
    refine sum_congr rfl fun l _ => by ring
  simp only [step]
  have hlin := lin_of_block (dim := dim) (nEP := nEP) (g := g)
    (o := fun r _ => ∑ b ∈ range dim, ∑ l ∈ range mEP, A r (mEP * b + l) * u (mEP * b + l))
    (s := fun i a => ∑ m ∈ range dim, ∑ b ∈ range dim, S i a m b * fgrad mEP g' u m b) ?_ v
  · unfold lin at hlin
    rw [hlin]
    refine sum_congr rfl fun i _ => sum_congr rfl fun a _ => ?_
    rw [mul_sum]
    refine sum_congr rfl fun m _ => ?_
    rw [mul_sum]
    refine sum_congr rfl fun b _ => by ring
  · intro a ha k hk
    have : ∀ b ∈ range dim, ∑ l ∈ range mEP, A (nEP * a + k) (mEP * b + l) * u (mEP * b + l) =
        ∑ i ∈ range dim, g i k * ∑ m ∈ range dim, S i a m b * fgrad mEP g' u m b := by
      intro b hb
      have : ∀ l ∈ range mEP, A (nEP * a + k) (mEP * b + l) * u (mEP * b + l) =
          ∑ i ∈ range dim, ∑ m ∈ range dim, g i k * S i a m b * (g' m l * u (mEP * b + l)) := by
        intro l hl
        rw [h a ha k hk b (mem_range.1 hb) l (mem_range.1 hl), sum_mul]
        refine sum_congr rfl fun i _ => ?_
        rw [sum_mul]
        refine sum_congr rfl fun m _ => by ring
      rw [sum_congr rfl this, sum_comm]
      refine sum_congr rfl fun i _ => ?_
      rw [sum_comm, mul_sum]
      refine sum_congr rfl fun m _ => ?_
      rw [← mul_sum]
      unfold fgrad
      ring
    rw [sum_congr rfl this, sum_comm]
    refine sum_congr rfl fun i _ => ?_
    rw [← mul_sum]
    congr 1
    exact sum_comm

theorem voigt_comm (dim i j : ℕ) : voigt dim i j = voigt dim j i := by
  unfold voigt
  by_cases h : i = j
  · rw [if_pos h, if_pos h.symm, h]
  · rw [if_neg h, if_neg (Ne.symm h), Nat.add_comm i j]

/-- A symmetric tensor sees only the symmetric part. -/
theorem sum_symm (h2 : (2 : K) ≠ 0) (n : ℕ) (s x : ℕ → ℕ → K) (hs : ∀ i j, s i j = s j i) :
    ∑ i ∈ range n, ∑ j ∈ range n, x i j * s i j = ∑ i ∈ range n, ∑ j ∈ range n, (x j i + x i j) / 2 * s i j := by
  have h := sum_comm (s := range n) (t := range n) (f := fun i j => x i j * s i j)
  have e : ∑ i ∈ range n, ∑ j ∈ range n, (x j i + x i j) / 2 * s i j =
      ((∑ i ∈ range n, ∑ j ∈ range n, x j i * s i j) + ∑ i ∈ range n, ∑ j ∈ range n, x i j * s i j) / 2 := by
    rw [← sum_add_distrib, Finset.sum_div]
    refine sum_congr rfl fun i _ => ?_
    rw [← sum_add_distrib, Finset.sum_div]
    refine sum_congr rfl fun j _ => by ring
  rw [e]
  have e2 : ∑ i ∈ range n, ∑ j ∈ range n, x j i * s i j = ∑ i ∈ range n, ∑ j ∈ range n, x i j * s i j := by
    rw [h]
    refine sum_congr rfl fun i _ => sum_congr rfl fun j _ => ?_
    rw [hs i j]
  rw [e2, ← two_mul, mul_div_cancel_left₀ _ h2]

theorem tensorForm_grad (h2 : (2 : K) ≠ 0) (dim : ℕ) (D : ℕ → ℕ → K) (x y : ℕ → ℕ → K) :
    ∑ i ∈ range dim, ∑ a ∈ range dim, ∑ m ∈ range dim, ∑ b ∈ range dim,
      D (voigt dim i a) (voigt dim m b) * x i a * y m b =
    tensorForm dim D (fun i j => (x j i + x i j) / 2) fun i j => (y j i + y i j) / 2 := by
  have s1 : ∀ i a, ∑ m ∈ range dim, ∑ b ∈ range dim, D (voigt dim i a) (voigt dim m b) * x i a * y m b =
      x i a * ∑ m ∈ range dim, ∑ b ∈ range dim, y m b * D (voigt dim i a) (voigt dim m b) := by
    intro i a
    rw [mul_sum]
    refine sum_congr rfl fun m _ => ?_
    rw [mul_sum]
    refine sum_congr rfl fun b _ => by ring
  simp only [s1]
  rw [sum_symm h2 dim (fun i a => ∑ m ∈ range dim, ∑ b ∈ range dim, y m b * D (voigt dim i a) (voigt dim m b)) x
    fun i j => by rw [voigt_comm]]
  unfold tensorForm
  refine sum_congr rfl fun i _ => sum_congr rfl fun a _ => ?_
  rw [sum_symm h2 dim (fun m b => D (voigt dim i a) (voigt dim m b)) y fun m b => by rw [voigt_comm dim m b], mul_sum]
  refine sum_congr rfl fun m _ => ?_
  rw [mul_sum]
  refine sum_congr rfl fun b _ => by ring

theorem bil_mulC (n m : ℕ) (v u : ℕ → K) (a : ℕ → ℕ → K) (t : K) : bil n m v (mulC a t) u = t * bil n m v a u := by
  unfold bil mulC
  simp only [mul_sum]
  refine sum_congr rfl fun r _ => sum_congr rfl fun s _ => by ring

theorem lin_mulC (n : ℕ) (v : ℕ → K) (a : ℕ → ℕ → K) (t : K) : lin n v (mulC a t) = t * lin n v a := by
  unfold lin mulC
  simp only [mul_sum]
  refine sum_congr rfl fun r _ => by ring

theorem integ_mul (nQP : ℕ) (w f : ℕ → K) (t : K) : t * integ nQP w f = integ nQP w fun q => t * f q := by
  unfold integ
  rw [mul_sum]
  refine sum_congr rfl fun q _ => by ring

end Verif.Term
