/-
Specification of the elastic constants and the correctness of each row of the table of relations
(for C32 in `PropsConst.lean`).
-/
import Verif.Mech.Const
import Mathlib.Tactic.FieldSimp
import Mathlib.Tactic.Ring
import Mathlib.Tactic.Positivity
import Mathlib.Tactic.Linarith

namespace Verif.Mech

/-! ### Specification -/

/-- Specification: the elastic constants of the isotropic linear elastic material with the Lamé
parameters `lam`, `mu` (textbook definitions). -/
noncomputable def material (lam mu : ℝ) : EC → ℝ
  | .lam => lam
  | .mu => mu
  | .bulk => lam + 2 / 3 * mu
  | .young => mu * (3 * lam + 2 * mu) / (lam + mu)
  | .poisson => lam / (2 * (lam + mu))
  | .pWave => lam + 2 * mu

/-- Specification: the arguments of `ElasticConstants.init()` when just `a` and `b` are given, with
the values `v a`, `v b`. -/
def give (v : EC → ℝ) (a b : EC) : EC → Option ℝ :=
  fun c => if c = a ∨ c = b then some (v c) else none

/-- Specification: the pairs of constants which determine the material uniquely only under the
condition given here: `lam` with `poisson` or `young` (if `lam = 0`, then also `poisson = 0`, whatever
the other constants are in the first case), and `p_wave` with `young` (two materials share them, one
with negative, one with positive `poisson`; the table has the latter). -/
def PairOK (lam : ℝ) (a b : EC) : Prop :=
  ((a, b) = (.lam, .poisson) ∨ (a, b) = (.lam, .young) → lam ≠ 0) ∧
  ((a, b) = (.pWave, .young) → 0 ≤ lam)

/-! ### The rows of the table -/

namespace Ex
variable (v : EC → ℝ) (a b : Ex)

theorem val_2' : val v (2 : Ex) = 2 := by show ((2 : ℕ) : ℝ) = 2; norm_num
theorem val_3' : val v (3 : Ex) = 3 := by show ((3 : ℕ) : ℝ) = 3; norm_num
theorem val_4' : val v (4 : Ex) = 4 := by show ((4 : ℕ) : ℝ) = 4; norm_num
theorem val_6' : val v (6 : Ex) = 6 := by show ((6 : ℕ) : ℝ) = 6; norm_num
theorem val_8' : val v (8 : Ex) = 8 := by show ((8 : ℕ) : ℝ) = 8; norm_num
theorem val_9' : val v (9 : Ex) = 9 := by show ((9 : ℕ) : ℝ) = 9; norm_num
theorem val_10' : val v (10 : Ex) = 10 := by show ((10 : ℕ) : ℝ) = 10; norm_num
theorem val_12' : val v (12 : Ex) = 12 := by show ((12 : ℕ) : ℝ) = 12; norm_num
theorem val_18' : val v (18 : Ex) = 18 := by show ((18 : ℕ) : ℝ) = 18; norm_num
theorem val_81' : val v (81 : Ex) = 81 := by show ((81 : ℕ) : ℝ) = 81; norm_num
theorem val_90' : val v (90 : Ex) = 90 := by show ((90 : ℕ) : ℝ) = 90; norm_num
theorem val_one' : val v (1 : Ex) = 1 := by
  show ((1 : ℕ) : ℝ) = 1; simp
theorem val_var' (c : EC) : val v (.var c) = v c := rfl
theorem val_add' : val v (a + b) = val v a + val v b := rfl
theorem val_sub' : val v (a - b) = val v a - val v b := rfl
theorem val_mul' : val v (a * b) = val v a * val v b := rfl
theorem val_div' : val v (a / b) = val v a / val v b := rfl
theorem val_neg' : val v (-a) = -val v a := rfl
theorem val_sq' : val v (.sq a) = val v a ^ 2 := rfl
theorem val_sqrt' : val v (.sqrt a) = √(val v a) := rfl
theorem def_1' : Defined v (1 : Ex) ↔ True := Iff.rfl
theorem def_2' : Defined v (2 : Ex) ↔ True := Iff.rfl
theorem def_3' : Defined v (3 : Ex) ↔ True := Iff.rfl
theorem def_4' : Defined v (4 : Ex) ↔ True := Iff.rfl
theorem def_6' : Defined v (6 : Ex) ↔ True := Iff.rfl
theorem def_8' : Defined v (8 : Ex) ↔ True := Iff.rfl
theorem def_9' : Defined v (9 : Ex) ↔ True := Iff.rfl
theorem def_10' : Defined v (10 : Ex) ↔ True := Iff.rfl
theorem def_12' : Defined v (12 : Ex) ↔ True := Iff.rfl
theorem def_18' : Defined v (18 : Ex) ↔ True := Iff.rfl
theorem def_81' : Defined v (81 : Ex) ↔ True := Iff.rfl
theorem def_90' : Defined v (90 : Ex) ↔ True := Iff.rfl
theorem def_var' (c : EC) : Defined v (.var c) ↔ True := Iff.rfl
theorem def_add' : Defined v (a + b) ↔ Defined v a ∧ Defined v b := Iff.rfl
theorem def_sub' : Defined v (a - b) ↔ Defined v a ∧ Defined v b := Iff.rfl
theorem def_mul' : Defined v (a * b) ↔ Defined v a ∧ Defined v b := Iff.rfl
theorem def_div' : Defined v (a / b) ↔ Defined v a ∧ Defined v b ∧ val v b ≠ 0 := Iff.rfl
theorem def_neg' : Defined v (-a) ↔ Defined v a := Iff.rfl
theorem def_sq' : Defined v (.sq a) ↔ Defined v a := Iff.rfl
theorem def_sqrt' : Defined v (.sqrt a) ↔ Defined v a ∧ 0 ≤ val v a := Iff.rfl
end Ex

set_option maxHeartbeats 4000000 in
/-- Every row of the table computes the right constant of every admissible material, for the given
constants `a` and `b` with values taken from the material. -/
theorem relations_correct {lam mu : ℝ} (hmu : 0 < mu) (hb : 0 < 3 * lam + 2 * mu) (v : EC → ℝ)
    (a b c : EC) (hok : PairOK lam a b) (hva : v a = material lam mu a)
    (hvb : v b = material lam mu b) (e : Ex) (he : relations a b c = some e) :
    e.Defined v ∧ e.val v = material lam mu c := by
  have hs : 0 < lam + mu := by linarith
  have hp : 0 < lam + 2 * mu := by linarith
  obtain ⟨k, hk⟩ : ∃ k, k = lam + 2 / 3 * mu := ⟨_, rfl⟩
  obtain ⟨E, hE⟩ : ∃ E, E = mu * (3 * lam + 2 * mu) / (lam + mu) := ⟨_, rfl⟩
  obtain ⟨n, hn⟩ : ∃ n, n = lam / (2 * (lam + mu)) := ⟨_, rfl⟩
  obtain ⟨p, hpp⟩ : ∃ p, p = lam + 2 * mu := ⟨_, rfl⟩
  obtain ⟨s, hss⟩ : ∃ s, s = lam + mu := ⟨_, rfl⟩
  obtain ⟨t, ht⟩ : ∃ t, t = 3 * lam + 2 * mu := ⟨_, rfl⟩
  have hs0 : 0 < s := hss ▸ hs
  have ht0 : 0 < t := ht ▸ hb
  have hp0 : 0 < p := hpp ▸ hp
  have hml : mu = s - lam := by linarith
  have hk0 : 0 < k := by linarith
  have hE' : E = mu * t / s := by rw [hE, ht, hss]
  have hk' : k = t / 3 := by linarith
  have hn' : n = lam / (2 * s) := by rw [hn, hss]
  -- the denominators
  have d1 : -lam + 3 * k = 2 * s := by linarith
  have d2 : 1 + n = t / (2 * s) := by rw [hn']; field_simp; linarith
  have d3 : 1 - n = p / (2 * s) := by rw [hn']; field_simp; linarith
  have d4 : 2 - 2 * n = p / s := by rw [hn']; field_simp; linarith
  have d5 : 3 - 3 * n = 3 * p / (2 * s) := by rw [hn']; field_simp; linarith
  have d6 : -E + 9 * k = t ^ 2 / s := by rw [hE']; field_simp; subst hk hss ht; ring
  have d7 : 2 * lam + 2 * mu = 2 * s := by linarith
  have d8 : 2 * mu + 6 * k = 6 * s := by linarith
  have d9 : p + 3 * k = 4 * s := by linarith
  have d10 : -p - 3 * k = -(4 * s) := by linarith
  have d11 : 1 - 2 * n = mu / s := by rw [hn']; field_simp; linarith
  have d12 : 3 - 6 * n = 3 * mu / s := by rw [hn']; field_simp; linarith
  have d13 : lam + p = 2 * s := by linarith
  have d14 : mu + 3 * k = 3 * s := by linarith
  have d15 : -E + 3 * mu = mu ^ 2 / s := by rw [hE']; field_simp; subst hss ht; ring
  have d16 : -3 * E + 9 * mu = 3 * mu ^ 2 / s := by rw [hE']; field_simp; subst hss ht; ring
  have d17 : 2 + 2 * n = t / s := by rw [hn']; field_simp; linarith
  have d18 : -2 * p + 2 * mu = -(2 * s) := by linarith
  have d19 : mu - p = -s := by linarith
  have d20 : 1 - n - 2 * n ^ 2 = t * mu / (2 * s ^ 2) := by
    rw [hn']; field_simp; subst hss ht; ring
  have d20' : p / (2 * s) - 2 * n ^ 2 = t * mu / (2 * s ^ 2) := by rw [← d20, ← d3]
  have d21 : E - 3 * mu = -(mu ^ 2 / s) := by rw [← d15]; ring
  have d22 : lam + mu = s := hss.symm
  -- the square roots
  have q1 : 2 * lam * E + E ^ 2 + 9 * lam ^ 2
      = ((3 * lam ^ 2 + 4 * lam * mu + 2 * mu ^ 2) / s) ^ 2 := by
    rw [hE']; field_simp; subst hss ht; ring
  have q1p : 0 ≤ (3 * lam ^ 2 + 4 * lam * mu + 2 * mu ^ 2) / s := by
    apply div_nonneg _ hs0.le
    nlinarith [sq_nonneg (lam + mu), sq_nonneg lam]
  have q2 : 18 * lam * E + 9 * E ^ 2 + 81 * lam ^ 2
      = (3 * ((3 * lam ^ 2 + 4 * lam * mu + 2 * mu ^ 2) / s)) ^ 2 := by
    rw [mul_pow, ← q1]; ring
  have q3 : -10 * p * E + E ^ 2 + 9 * p ^ 2 = (lam * (3 * lam + 4 * mu) / s) ^ 2 := by
    rw [hE']; field_simp; subst hss ht hpp; ring
  have q4 : -90 * p * E + 9 * E ^ 2 + 81 * p ^ 2 = (3 * (lam * (3 * lam + 4 * mu) / s)) ^ 2 := by
    rw [mul_pow, ← q3]; ring
  have r1 : √(2 * lam * E + E ^ 2 + 9 * lam ^ 2) =
      (3 * lam ^ 2 + 4 * lam * mu + 2 * mu ^ 2) / s := by rw [q1, Real.sqrt_sq q1p]
  have r2 : √(18 * lam * E + 9 * E ^ 2 + 81 * lam ^ 2) =
      3 * ((3 * lam ^ 2 + 4 * lam * mu + 2 * mu ^ 2) / s) := by
    rw [q2, Real.sqrt_sq (by positivity)]
  have r3 : 0 ≤ lam → √(-10 * p * E + E ^ 2 + 9 * p ^ 2) = lam * (3 * lam + 4 * mu) / s :=
    fun h => by rw [q3, Real.sqrt_sq (by positivity)]
  have r4 : 0 ≤ lam → √(-90 * p * E + 9 * E ^ 2 + 81 * p ^ 2) =
      3 * (lam * (3 * lam + 4 * mu) / s) :=
    fun h => by rw [q4, Real.sqrt_sq (by positivity)]
  have e1 : 2 * lam * E + E ^ 2 + 9 * lam ^ 2 ≥ 0 := by rw [q1]; positivity
  have e2 : 18 * lam * E + 9 * E ^ 2 + 81 * lam ^ 2 ≥ 0 := by rw [q2]; positivity
  have e3 : -10 * p * E + E ^ 2 + 9 * p ^ 2 ≥ 0 := by rw [q3]; positivity
  have e4 : -90 * p * E + 9 * E ^ 2 + 81 * p ^ 2 ≥ 0 := by rw [q4]; positivity
  have hs1 := hs0.ne'
  have ht1 := ht0.ne'
  have hp1 := hp0.ne'
  have hm1 := hmu.ne'
  have hk1 := hk0.ne'
  have hm : material lam mu = fun
    | .lam => lam | .mu => mu | .bulk => k | .young => E | .poisson => n | .pWave => p := by
    funext c; cases c <;> simp only [material, hk, hE, hn, hpp]
  rw [hm] at hva hvb ⊢
  clear hm
  cases a <;> cases b <;> cases c <;> simp only [relations, reduceCtorEq, Option.some.injEq] at he
  all_goals subst he
  all_goals simp only at hva hvb ⊢
  all_goals simp only [Ex.val_2', Ex.val_3', Ex.val_4', Ex.val_6', Ex.val_8', Ex.val_9', Ex.val_10', Ex.val_12', Ex.val_18', Ex.val_81', Ex.val_90',
    Ex.val_one', Ex.val_var', Ex.val_add', Ex.val_sub', Ex.val_mul',
    Ex.val_div', Ex.val_neg', Ex.val_sq', Ex.val_sqrt', Ex.def_1', Ex.def_2', Ex.def_3', Ex.def_4', Ex.def_6', Ex.def_8', Ex.def_9', Ex.def_10', Ex.def_12', Ex.def_18', Ex.def_81', Ex.def_90',
    Ex.def_var', Ex.def_add',
    Ex.def_sub', Ex.def_mul', Ex.def_div', Ex.def_neg', Ex.def_sq', Ex.def_sqrt', hva, hvb,
    true_and, and_true]
  all_goals try simp only [d1, d2, d3, d4, d5, d6, d7, d8, d9, d10, d11, d12, d13, d14, d15, d16, d17,
    d18, d19, d20', d21, d22, ne_eq, OfNat.ofNat_ne_zero,
    not_false_eq_true, and_self, true_and, and_true]
  all_goals try refine ⟨?_, ?_⟩
  all_goals try first
    | positivity
    | assumption
    | exact ⟨e1, by simpa using hok.1 (Or.inr rfl)⟩
    | exact ⟨e3, by positivity⟩
    | exact neg_ne_zero.2 (by positivity)
    | (have hl : lam ≠ 0 := hok.1 (Or.inl rfl)
       rw [hn']; positivity)
  all_goals try rw [r1]
  all_goals try rw [r2]
  all_goals try rw [r3 (hok.2 rfl)]
  all_goals try rw [r4 (hok.2 rfl)]
  all_goals try have hl : lam ≠ 0 := hok.1 (Or.inl rfl)
  all_goals try have hl : lam ≠ 0 := hok.1 (Or.inr rfl)
  all_goals try simp only [hE', hn', hk']
  all_goals try field_simp
  all_goals try (subst hss ht hpp; ring)

end Verif.Mech
