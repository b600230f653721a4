/-
C32: the table of relations of the elastic constants is consistent, `ElasticConstants.init()`.
-/
import Verif.Mech.ConstTable

namespace Verif.Mech

theorem ecInit_eq {given : EC → Option ℝ} {x y a b : EC} (hk : ecKnown given = [x, y])
    (ha : a = if x.rank ≤ y.rank then x else y) (hb : b = if x.rank ≤ y.rank then y else x)
    (g : EC → ℝ)
    (h : ∀ c, (given c = some (g c)) ∨
      (given c = none ∧ ∃ e, relations a b c = some e ∧
        e.eval (fun c => (given c).getD 0) = some (g c))) :
    ecInit given = some g := by
  have hf : ∀ c, ecValue given a b c = some (g c) := by
    intro c
    rcases h c with h | ⟨h, e, he, hv⟩
    · rw [ecValue, h]
    · rw [ecValue, h]; simp only [he, Option.bind_some, hv]
  simp only [ecInit, hk, ← ha, ← hb, hf, Option.bind_eq_bind, Option.bind_some, Option.pure_def]
  congr 1
  funext c; cases c <;> rfl

theorem relations_total (a b c : EC) (hab : a.rank < b.rank) (hca : c ≠ a) (hcb : c ≠ b) :
    ∃ e, relations a b c = some e := by
  cases a <;> cases b <;> simp only [EC.rank] at hab <;> first
    | omega
    | (cases c <;> first | exact absurd rfl hca | exact absurd rfl hcb | exact ⟨_, rfl⟩)

theorem ecKnown_give (v : EC → ℝ) (a b : EC) (hab : a.rank < b.rank) :
    ∃ x y, ecKnown (give v a b) = [x, y] ∧ (a = if x.rank ≤ y.rank then x else y) ∧
      (b = if x.rank ≤ y.rank then y else x) := by
  have : ecKnown (give v a b) = EC.names.filter fun c => decide (c = a ∨ c = b) := by
    unfold ecKnown
    congr 1
    funext c
    by_cases h : c = a ∨ c = b <;> simp [give, h]
  rw [this]
  cases a <;> cases b <;> simp only [EC.rank] at hab <;> first
    | omega
    | exact ⟨_, _, rfl, rfl, rfl⟩

/-! ### Theorems -/

/-- C32: whichever two constants of an admissible material (positive shear modulus, positive bulk
modulus) are given to `ElasticConstants.init()`, all six constants of that material result.
(`a`, `b` in the alphabetical order; this is no restriction, see `C32_swap`.) -/
theorem C32_init {lam mu : ℝ} (hmu : 0 < mu) (hb : 0 < material lam mu .bulk) (a b : EC)
    (hab : a.rank < b.rank) (hok : PairOK lam a b) :
    ecInit (give (material lam mu) a b) = some (material lam mu) := by
  have hb' : 0 < 3 * lam + 2 * mu := by simp only [material] at hb; linarith
  obtain ⟨x, y, hk, ha, hb2⟩ := ecKnown_give (material lam mu) a b hab
  refine ecInit_eq hk ha hb2 _ fun c => ?_
  by_cases hc : c = a ∨ c = b
  · left; simp [give, hc]
  · right
    refine ⟨by simp [give, hc], ?_⟩
    push Not at hc
    obtain ⟨e, he⟩ := relations_total a b c hab hc.1 hc.2
    obtain ⟨h1, h2⟩ := relations_correct hmu hb'
      (fun c => (give (material lam mu) a b c).getD 0) a b c hok (by simp [give]) (by simp [give])
      e he
    exact ⟨e, he, by rw [Ex.eval, if_pos h1, h2]⟩

/-- The order in which the two constants are given is irrelevant. -/
theorem C32_swap (v : EC → ℝ) (a b : EC) : give v a b = give v b a := by
  funext c; simp only [give, or_comm]

/-- C32: any two of the constants are accepted: with a pair of different names, in any order. -/
theorem C32_any_pair {lam mu : ℝ} (hmu : 0 < mu) (hl : 0 < lam) (a b : EC) (hab : a ≠ b) :
    ecInit (give (material lam mu) a b) = some (material lam mu) := by
  have hb : 0 < material lam mu .bulk := by simp only [material]; positivity
  have hok : ∀ a b, PairOK lam a b := fun a b => ⟨fun _ => hl.ne', fun _ => hl.le⟩
  rcases lt_trichotomy a.rank b.rank with h | h | h
  · exact C32_init hmu hb a b h (hok _ _)
  · exfalso; apply hab; revert h; cases a <;> cases b <;> simp [EC.rank]
  · rw [C32_swap]; exact C32_init hmu hb b a h (hok _ _)

/-- C32: other than exactly two constants are refused (`ValueError`). -/
theorem C32_exactly_two (given : EC → Option ℝ)
    (h : (EC.names.filter fun c => (given c).isSome).length ≠ 2) : ecInit given = none := by
  unfold ecInit
  split
  · rename_i x y hk
    exact absurd (by rw [show (EC.names.filter fun c => (given c).isSome) = _ from hk]; rfl) h
  · rfl

/-- C32, two different constants of a material determine it: the results of `init()` for the same
values are the same material. -/
theorem C32_unique {lam mu lam' mu' : ℝ} (hmu : 0 < mu) (hb : 0 < material lam mu .bulk)
    (hmu' : 0 < mu') (hb' : 0 < material lam' mu' .bulk) (a b : EC) (hab : a.rank < b.rank)
    (hok : PairOK lam a b) (hok' : PairOK lam' a b)
    (ea : material lam mu a = material lam' mu' a) (eb : material lam mu b = material lam' mu' b) :
    lam = lam' ∧ mu = mu' := by
  have hg : give (material lam mu) a b = give (material lam' mu') a b := by
    funext c
    by_cases h1 : c = a
    · subst h1; simp [give, ea]
    · by_cases h2 : c = b
      · subst h2; simp [give, eb]
      · simp [give, h1, h2]
  have := C32_init hmu hb a b hab hok
  rw [hg, C32_init hmu' hb' a b hab hok'] at this
  have h := Option.some.inj this
  exact ⟨(congrFun h .lam).symm, (congrFun h .mu).symm⟩

/-- Counterexample for the excluded pair: for every auxetic material (`lam < 0`, i.e. a negative
Poisson ratio) the constants computed from `p_wave` and `young` are not those of the material: the
table returns the other root. -/
theorem C32_auxetic_wrong {lam mu : ℝ} (_hmu : 0 < mu) (hb : 0 < material lam mu .bulk)
    (hl : lam < 0) : ecInit (give (material lam mu) .pWave .young) ≠ some (material lam mu) := by
  have hb' : 0 < 3 * lam + 2 * mu := by simp only [material] at hb; linarith
  have hs : 0 < lam + mu := by linarith
  obtain ⟨x, y, hk, ha, hb2⟩ := ecKnown_give (material lam mu) .pWave .young (by decide)
  intro h
  have hl' : ∃ e, relations .pWave .young .lam = some e := ⟨_, rfl⟩
  obtain ⟨e, he⟩ := hl'
  have hv : e.eval (fun c => (give (material lam mu) .pWave .young c).getD 0) = some lam := by
    unfold ecInit at h
    rw [hk] at h
    simp only [← ha, ← hb2, Option.bind_eq_bind, Option.bind_eq_some_iff, Option.pure_def,
      Option.some.injEq] at h
    obtain ⟨k, -, l, h2, m, -, e', -, n, -, p, -, h7⟩ := h
    have h8 := congrFun h7 .lam
    simp only [material] at h8
    subst h8
    simpa [ecValue, give, he] using h2
  rw [Ex.eval] at hv
  split at hv
  · rename_i hd
    have hv := Option.some.inj hv
    cases he
    simp only [Ex.val_10', Ex.val_4', Ex.val_9', Ex.val_var', Ex.val_add', Ex.val_mul', Ex.val_div',
      Ex.val_neg', Ex.val_sq', Ex.val_sqrt', give, reduceCtorEq, or_false, or_true, if_true,
      Option.getD_some, material] at hv
    set E := mu * (3 * lam + 2 * mu) / (lam + mu) with hE
    have hs0 := Real.sqrt_nonneg (-10 * (lam + 2 * mu) * E + E ^ 2 + 9 * (lam + 2 * mu) ^ 2)
    have hpe : lam + 2 * mu - E = lam ^ 2 / (lam + mu) := by
      rw [hE]; field_simp; ring
    have : 0 < lam ^ 2 / (lam + mu) := div_pos (by have := hl.ne; positivity) hs
    nlinarith
  · cases hv

/-- Counterexample for the excluded pairs: with `lam = 0` the constant `poisson` cannot be computed
from `lam` and `young` although it is 0 (the table has 0 / 0). -/
theorem C32_lam_zero_undefined {mu : ℝ} :
    ecInit (give (material 0 mu) .lam .young) = none := by
  obtain ⟨x, y, hk, ha, hb2⟩ := ecKnown_give (material 0 mu) .lam .young (by decide)
  have hz : (relations .lam .young .poisson).bind
      (Ex.eval fun c => (give (material 0 mu) .lam .young c).getD 0) = none := by
    simp only [relations, Option.bind_some]
    rw [Ex.eval, if_neg]
    intro h
    rw [Ex.def_div'] at h
    apply h.2.2
    rw [Ex.val_mul', Ex.val_var']
    simp [give, material]
  by_contra hne
  obtain ⟨g, hg⟩ := Option.ne_none_iff_exists'.1 hne
  unfold ecInit at hg
  rw [hk] at hg
  simp only [← ha, ← hb2, Option.bind_eq_bind, Option.bind_eq_some_iff, Option.pure_def,
    Option.some.injEq] at hg
  obtain ⟨k, -, l, -, m, -, e', -, n, h5, p, -, h7⟩ := hg
  have h6 : give (material 0 mu) .lam .young .poisson = none := by simp [give]
  rw [ecValue, h6] at h5
  simp only [hz] at h5
  cases h5

/-- Non-vacuity: steel-like values, `lam = 1`, `mu = 1`: `young = 5/2`, `poisson = 1/4`. -/
example : ecInit (give (material 1 1) .poisson .young) = some (material 1 1) ∧
    material 1 1 .young = 5 / 2 ∧ material 1 1 .poisson = 1 / 4 :=
  ⟨C32_init one_pos (by norm_num [material]) _ _ (by decide) ⟨by simp, by simp⟩,
    by norm_num [material], by norm_num [material]⟩

/-- Non-vacuity: an auxetic material `lam = -1/2`, `mu = 1`. -/
example : 0 < material (-1 / 2) 1 .bulk ∧ material (-1 / 2) 1 .poisson = -1 / 2 := by
  norm_num [material]

end Verif.Mech
