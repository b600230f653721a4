/-
Auxiliary lemmas for C63: the block operators of flow and coupling terms.
-/
import Verif.Term.KerFlow
import Verif.Term.SpecFlow
import Verif.Term.PropsElastic2
import Mathlib.Tactic.IntervalCases

namespace Verif.Term

open Finset

variable {K : Type} [Field K]

theorem fconv_eq (dim nEP : ℕ) (G : ℕ → ℕ → K) (b u : ℕ → K) (a : ℕ) :
    fconv dim nEP G b u a = ∑ i ∈ range dim, b i * fgrad nEP G u i a := rfl

theorem convectVtg_block {dim : ℕ} (h : 1 ≤ dim ∧ dim ≤ 3) (nEP : ℕ) (g fv : Lev K) :
    ∃ o, convectVtg dim nEP g fv = some o ∧ ∀ l, ∀ a < dim, ∀ b < dim, ∀ k < nEP,
      o l a (nEP * b + k) = if a = b then ∑ i ∈ range dim, g l i k * fv l i 0 else 0 := by
  obtain ⟨h1, h2⟩ := h
  interval_cases dim
  · refine ⟨_, rfl, fun l a ha b hb k hk => ?_⟩
    interval_cases a
    interval_cases b
    simp [hk]
  · refine ⟨_, rfl, fun l a ha b hb k hk => ?_⟩
    have e1 : ¬ nEP + k < nEP := by omega
    have e2 : nEP + k < 2 * nEP := by omega
    have e3 : ¬ nEP ≤ k := by omega
    interval_cases a <;> interval_cases b <;> simp [hk, e2, e3, sum_range_succ]
  · refine ⟨_, rfl, fun l a ha b hb k hk => ?_⟩
    have e2 : nEP + k < 2 * nEP := by omega
    have e3 : ¬ nEP ≤ k := by omega
    have e4 : ¬ 2 * nEP ≤ nEP + k := by omega
    have e5 : ¬ 2 * nEP ≤ k := by omega
    have e6 : ¬ nEP * 2 + k < nEP := by omega
    have e7 : ¬ nEP * 2 + k < 2 * nEP := by omega
    have e8 : 2 * nEP ≤ nEP * 2 + k := by omega
    have e9 : nEP * 2 + k < 3 * nEP := by omega
    have e10 : nEP * 2 + k - 2 * nEP = k := by omega
    have e11 : ¬ nEP * 2 + k < nEP * 2 := by omega
    interval_cases a <;> interval_cases b <;>
      simp [hk, e2, e3, e4, e5, e6, e7, e8, e9, e10, e11, sum_range_succ]

/-- The operator applied to the degrees of freedom. -/
theorem convectVtg_apply {dim : ℕ} (h : 1 ≤ dim ∧ dim ≤ 3) (nEP : ℕ) (g fv : Lev K) :
    ∃ o, convectVtg dim nEP g fv = some o ∧ ∀ l, ∀ a < dim, ∀ u : ℕ → K,
      ∑ s ∈ range (dim * nEP), o l a s * u s = fconv dim nEP (g l) (fun i => fv l i 0) u a := by
  obtain ⟨o, e, hb⟩ := convectVtg_block h nEP g fv
  refine ⟨o, e, fun l a ha u => ?_⟩
  rw [sum_blocks, sum_eq_single_of_mem a (mem_range.2 ha)]
  · unfold fconv fgrad
    simp only [mul_sum]
    rw [sum_comm]
    refine sum_congr rfl fun k hk => ?_
    rw [hb l a ha a ha k (mem_range.1 hk), if_pos rfl, sum_mul]
    exact sum_congr rfl fun i _ => by ring
  · intro b hb' hne
    refine sum_eq_zero fun k hk => ?_
    rw [hb l a ha b (mem_range.1 hb') k (mem_range.1 hk), if_neg (Ne.symm hne), zero_mul]

theorem blockAt_eq {dim n a k b l e : ℕ} (ha : a < dim) (hk : k < n) (hb : b < dim) (hl : l < n) (he : e < dim) :
    blockAt (e * ((dim * n + 1) * n)) (dim * n) n n (n * a + k) (n * b + l) =
      if a = e ∧ b = e then some (k, l) else none := by
  have hn : 0 < n := by omega
  have hN : 0 < dim * n := Nat.mul_pos (by omega) hn
  have hbn : n * b + l < dim * n := by
    have : n * (b + 1) ≤ n * dim := Nat.mul_le_mul_left n hb
    rw [Nat.mul_comm dim n]
    linarith [Nat.mul_succ n b]
  have ho : e * ((dim * n + 1) * n) = dim * n * (n * e) + n * e := by ring
  unfold blockAt
  simp only [ho]
  by_cases hae : a < e
  · -- before the block
    have h1 : n * a + k + 1 ≤ n * e := by
      have : n * (a + 1) ≤ n * e := Nat.mul_le_mul_left n hae
      linarith [Nat.mul_succ n a]
    have h2 : dim * n * (n * a + k) + dim * n ≤ dim * n * (n * e) := by
      have := Nat.mul_le_mul_left (dim * n) h1
      linarith [Nat.mul_succ (dim * n) (n * a + k)]
    rw [if_neg (by omega), if_neg (by omega)]
  · push Not at hae
    obtain ⟨d, rfl⟩ := Nat.exists_eq_add_of_le hae
    have hf : dim * n * (n * (e + d) + k) = dim * n * (n * e) + dim * n * (n * d + k) := by ring
    by_cases hbe : e ≤ b
    · obtain ⟨f, rfl⟩ := Nat.exists_eq_add_of_le hbe
      have e1 : dim * n * (n * (e + d) + k) + (n * (e + f) + l) - (dim * n * (n * e) + n * e) =
          dim * n * (n * d + k) + (n * f + l) := by
        rw [hf, Nat.mul_add n e f]; omega
      have hle : dim * n * (n * e) + n * e ≤ dim * n * (n * (e + d) + k) + (n * (e + f) + l) := by
        rw [hf, Nat.mul_add n e f]; omega
      have hlt : n * f + l < dim * n := by rw [Nat.mul_add] at hbn; omega
      obtain ⟨g1, g2⟩ := divmod_block (a := n * d + k) hlt
      rw [e1, g1, g2]
      by_cases hd : d = 0
      · subst hd
        by_cases hf0 : f = 0
        · subst hf0
          rw [if_pos ⟨hle, by simpa using hk, by simpa using hl⟩, if_pos ⟨rfl, rfl⟩]
          simp
        · have : n * 1 ≤ n * f := Nat.mul_le_mul_left n (by omega)
          rw [if_neg (by omega), if_neg (by omega)]
      · have : n * 1 ≤ n * d := Nat.mul_le_mul_left n (by omega)
        rw [if_neg (by omega), if_neg (by omega)]
    · push Not at hbe
      rw [if_neg (c := e + d = e ∧ b = e) (by omega), if_neg]
      rintro ⟨q1, q2, q3⟩
      have hbe' : n * b + l < n * e := by
        have : n * (b + 1) ≤ n * e := Nat.mul_le_mul_left n hbe
        linarith [Nat.mul_succ n b]
      have hed : n * e + n ≤ dim * n := by
        have : n * (e + 1) ≤ n * dim := Nat.mul_le_mul_left n he
        rw [Nat.mul_comm dim n]
        linarith [Nat.mul_succ n e]
      rcases Nat.eq_zero_or_pos (n * d + k) with h0 | h0
      · rw [hf, h0] at q1
        omega
      · obtain ⟨m, hm⟩ := Nat.exists_eq_add_of_le h0
        have e1 : dim * n * (n * (e + d) + k) + (n * b + l) - (dim * n * (n * e) + n * e) =
            dim * n * m + (dim * n + (n * b + l) - n * e) := by
          rw [hf, hm]
          have : dim * n * (0 + 1 + m) = dim * n + dim * n * m := by ring
          have h1' : dim * n * (Nat.succ 0 + m) = dim * n + dim * n * m := by rw [← this]
          omega
        have hlt : dim * n + (n * b + l) - n * e < dim * n := by omega
        obtain ⟨g1, g2⟩ := divmod_block (a := m) hlt
        rw [e1, g2] at q3
        omega

theorem divgradGtg_block {dim : ℕ} (h : 1 ≤ dim ∧ dim ≤ 3) (n : ℕ) (gv gs : Lev K) :
    ∃ o, divgradGtg dim n n gv gs = some o ∧ ∀ q, ∀ a < dim, ∀ k < n, ∀ b < dim, ∀ l < n,
      o q (n * a + k) (n * b + l) = if a = b then ∑ i ∈ range dim, gv q i k * gs q i l else 0 := by
  obtain ⟨h1, h2⟩ := h
  interval_cases dim
  · refine ⟨_, rfl, fun q a ha k hk b hb l hl => ?_⟩
    interval_cases a
    interval_cases b
    simp
  · refine ⟨_, rfl, fun q a ha k hk b hb l hl => ?_⟩
    have b0 := blockAt_eq (e := 0) ha hk hb hl (by omega)
    have b1 := blockAt_eq (e := 1) ha hk hb hl (by omega)
    rw [Nat.zero_mul] at b0
    rw [Nat.one_mul] at b1
    simp only [b0, b1]
    interval_cases a <;> interval_cases b <;> simp [sum_range_succ]
  · refine ⟨_, rfl, fun q a ha k hk b hb l hl => ?_⟩
    have b0 := blockAt_eq (e := 0) ha hk hb hl (by omega)
    have b1 := blockAt_eq (e := 1) ha hk hb hl (by omega)
    have b2 := blockAt_eq (e := 2) ha hk hb hl (by omega)
    rw [Nat.zero_mul] at b0
    rw [Nat.one_mul] at b1
    rw [Nat.two_mul] at b2
    simp only [b0, b1, b2]
    interval_cases a <;> interval_cases b <;> simp [sum_range_succ]

theorem divgradActGtM_block {dim : ℕ} (h : 1 ≤ dim ∧ dim ≤ 3) (nEP : ℕ) (g mtx : Lev K) :
    ∃ o, divgradActGtM dim nEP g mtx = some o ∧ ∀ l j, ∀ a < dim, ∀ k < nEP,
      o l (nEP * a + k) j = ∑ i ∈ range dim, g l i k * mtx l (dim * a + i) j := by
  obtain ⟨h1, h2⟩ := h
  interval_cases dim <;> refine ⟨_, rfl, fun l j a ha k hk => ?_⟩ <;>
    obtain ⟨e1, e2⟩ := divmod_block (a := a) hk <;> interval_cases a <;>
    simp only [e1, e2] <;> simp [sum_range_succ]

theorem opNonsymBiot_block {dim : ℕ} (h : dim = 2 ∨ dim = 3) (nEP : ℕ) (g vec : Lev K) :
    ∃ o, opNonsymBiot dim nEP vec g = some o ∧ ∀ l, ∀ a < dim, ∀ k < nEP,
      o l (nEP * a + k) = ∑ i ∈ range dim, g l i k * vec l (dim * i + a) 0 := by
  rcases h with rfl | rfl <;> refine ⟨_, rfl, fun l a ha k hk => ?_⟩ <;>
    obtain ⟨e1, e2⟩ := divmod_block (a := a) hk <;> interval_cases a <;>
    simp only [e1, e2] <;> simp [sum_range_succ]

theorem mulAVSB3_eq {dim : ℕ} (h : 1 ≤ dim ∧ dim ≤ 3) (vs inp : Lev K) (q i j : ℕ) (hi : i < dim) :
    mulAVSB3 dim vs inp q i j = ∑ k ∈ range dim, vs q (voigt dim i k) 0 * inp q k j := by
  obtain ⟨h1, h2⟩ := h
  unfold mulAVSB3
  refine sum_congr rfl fun k hk => ?_
  rw [mem_range] at hk
  congr 2
  interval_cases dim <;> interval_cases i <;> interval_cases k <;> rfl

/-- The gradients taken as a row give the divergence. -/
theorem sum_gcl (m : Mapping K) (c q i : ℕ) (hi : i = 0) (u : ℕ → K) :
    ∑ s ∈ range (m.dim * m.nEP), pretend m.nEP (m.nEP * m.dim) (m.bfGM c) q i s * u s =
      fdiv m.dim m.nEP (m.G c q) u := by
  subst hi
  rw [sum_blocks]
  unfold fdiv fgrad
  refine sum_congr rfl fun a _ => sum_congr rfl fun k hk => ?_
  obtain ⟨h1, h2⟩ := divmod_block (a := a) (mem_range.1 hk)
  unfold pretend
  rw [Nat.mul_zero, Nat.zero_add, h1, h2]
  rfl

theorem sum_v_gcl (m : Mapping K) (c q : ℕ) (v : ℕ → K) :
    ∑ s ∈ range (m.dim * m.nEP), v s * pretend m.nEP (m.nEP * m.dim) (m.bfGM c) q 0 s =
      fdiv m.dim m.nEP (m.G c q) v := by
  rw [← sum_gcl m c q 0 rfl]
  exact sum_congr rfl fun s _ => mul_comm _ _

/-- The values of a cell as a column. -/
theorem stuv_eq (m : Mapping K) (st : ℕ → K) (conn : ℕ → ℕ) (q s j : ℕ) (hj : j = 0) (hs : s < m.dim * m.nEP) :
    pretend m.nEP 1 (extractDBD m.dim st conn) q s j = locDofs m.dim m.nEP st conn s := by
  subst hj
  unfold pretend extractDBD locDofs
  rw [Nat.one_mul, Nat.add_zero]

end Verif.Term
