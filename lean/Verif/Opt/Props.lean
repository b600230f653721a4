import Verif.Opt.Model
import Mathlib.Algebra.Order.Archimedean.Basic
import Mathlib.Tactic.Linarith
import Mathlib.Tactic.NormNum

/-! # Claims about the steepest descent solver (C117) -/

namespace Verif.Opt

variable {K V : Type} [Field K] [LinearOrder K] [AddCommGroup V] [Module K V]

/-! ### Specification -/

/-- A history of iterates that ends in `x`: each is the previous one minus the step times the gradient; the step is the initial one
reduced several times; an accepted step decreases the value by the factor `ls_on`, a step that was not accepted is
smaller than the minimum. -/
def Hist (c : SdConf K) (f : V → Option K) (grad : V → V) (x0 : V) : List (SdRec K V) → V → Prop
  | [], x => x = x0
  | r :: log, x =>
    x = r.x - r.alpha • grad r.x ∧ f r.x = some r.fx ∧
    (∃ i j : ℕ, r.alpha = c.ls0 * c.lsRed ^ i * c.lsRedWarp ^ j) ∧
    (r.accepted = true → ∃ v, f x = some v ∧ v < r.fx * c.lsOn) ∧
    (r.accepted = false → r.alpha < c.lsMin) ∧ Hist c f grad x0 log r.x

/-! ### Backtracking -/

theorem backtrack_spec (c : SdConf K) (f : V → Option K) (x g : V) (fx : K) :
    ∀ (n i j : ℕ) (alpha : K) (acc : Bool),
      backtrack c f x g fx n (c.ls0 * c.lsRed ^ i * c.lsRedWarp ^ j) = some (.step alpha acc) →
      (∃ i j : ℕ, alpha = c.ls0 * c.lsRed ^ i * c.lsRedWarp ^ j) ∧
      (acc = true → ∃ v, f (x - alpha • g) = some v ∧ v < fx * c.lsOn) ∧ (acc = false → alpha < c.lsMin)
  | 0, _, _, _, _, h => by simp [backtrack] at h
  | n + 1, i, j, alpha, acc, h => by
    have e1 : c.ls0 * c.lsRed ^ i * c.lsRedWarp ^ j * c.lsRedWarp = c.ls0 * c.lsRed ^ i * c.lsRedWarp ^ (j + 1) := by ring
    have e2 : c.ls0 * c.lsRed ^ i * c.lsRedWarp ^ j * c.lsRed = c.ls0 * c.lsRed ^ (i + 1) * c.lsRedWarp ^ j := by ring
    simp only [backtrack] at h
    cases hf : f (x - (c.ls0 * c.lsRed ^ i * c.lsRedWarp ^ j) • g) with
    | none =>
      simp only [hf, e1] at h
      split_ifs at h with h1
      · simp at h
      · exact backtrack_spec c f x g fx n i (j + 1) alpha acc h
    | some aux =>
      simp only [hf, e2] at h
      split_ifs at h with h1 h2
      · simp only [Option.some.injEq, BtOut.step.injEq] at h
        obtain ⟨rfl, rfl⟩ := h
        exact ⟨⟨i, j, rfl⟩, fun _ => ⟨aux, hf, h1⟩, fun h => by simp at h⟩
      · simp only [Option.some.injEq, BtOut.step.injEq] at h
        obtain ⟨rfl, rfl⟩ := h
        exact ⟨⟨i + 1, j, rfl⟩, fun h => by simp at h, fun _ => h2⟩
      · exact backtrack_spec c f x g fx n (i + 1) j alpha acc h

theorem sdConvTest_cases (c : SdConf K) (it : ℕ) (fx fx0 gn : K) :
    let r := sdConvTest c it fx fx0 gn
    (r = -1 ∧ (it : ℤ) < c.iMax) ∨ (r = 0 ∧ |fx| < c.epsOf) ∨ (r = 1 ∧ c.iMax ≤ it ∧ c.epsOf ≤ |fx|) ∨
    (r = 2 ∧ gn < c.epsOfg ∧ gn ≠ 0) ∨ (r = 3 ∧ 0 < it ∧ |fx0 - fx| < c.epsRd * |fx0|) := by
  simp only [sdConvTest]
  by_cases h1 : |fx| < c.epsOf <;> by_cases h2 : gn ≠ 0 ∧ gn < c.epsOfg <;>
    by_cases h3 : it > 0 ∧ |fx0 - fx| < c.epsRd * |fx0| <;> by_cases h4 : (it : ℤ) ≥ c.iMax <;>
    simp [h1, h2, h3, h4] <;> first | omega | (exact not_lt.mp h1)

/-- **C117.** When the steepest descent solver returns, then the value reported is that in the state returned, the states are
a history of steps against the gradient from the initial state, the number of iterations is the number of the steps and
does not exceed `i_max`, and the status says why it stopped. -/
theorem C117_result (c : SdConf K) (f : V → Option K) (grad : V → V) (norm : V → K) (btFuel fuel : ℕ) (x0 x : V) (fx : K)
    (ret : ℤ) (it : ℕ) (log : List (SdRec K V))
    (h : fminSd c f grad norm btFuel fuel x0 = some (.done x fx ret it, log)) :
    f x = some fx ∧ Hist c f grad x0 log x ∧ it = log.length ∧ (it : ℤ) ≤ max c.iMax 0 ∧
    ((ret = 0 ∧ |fx| < c.epsOf) ∨ (ret = 1 ∧ c.iMax ≤ it ∧ c.epsOf ≤ |fx|) ∨
      (ret = 2 ∧ norm (grad x) < c.epsOfg ∧ norm (grad x) ≠ 0) ∨
      (ret = 3 ∧ ∃ r, log.head? = some r ∧ |r.fx - fx| < c.epsRd * |r.fx|)) := by
  have key : ∀ (n it : ℕ) (y : V) (fx0 : Option K) (lg : List (SdRec K V)), Hist c f grad x0 lg y → it = lg.length →
      fx0 = lg.head?.map SdRec.fx → (it : ℤ) ≤ max c.iMax 0 → ∀ (x : V) (fx : K) (ret : ℤ) (it' : ℕ) log,
      sdLoop c f grad norm btFuel n it y fx0 lg = some (.done x fx ret it', log) →
      f x = some fx ∧ Hist c f grad x0 log x ∧ it' = log.length ∧ (it' : ℤ) ≤ max c.iMax 0 ∧
      ((ret = 0 ∧ |fx| < c.epsOf) ∨ (ret = 1 ∧ c.iMax ≤ it' ∧ c.epsOf ≤ |fx|) ∨
        (ret = 2 ∧ norm (grad x) < c.epsOfg ∧ norm (grad x) ≠ 0) ∨
        (ret = 3 ∧ ∃ r, log.head? = some r ∧ |r.fx - fx| < c.epsRd * |r.fx|)) := by
    intro n
    induction n with
    | zero => intro it y fx0 lg _ _ _ _ x fx ret it' log h; simp [sdLoop] at h
    | succ n ih =>
      intro it y fx0 lg hh hl hf0 hle x fx ret it' log h
      simp only [sdLoop] at h
      cases hf : f y with
      | none => simp [hf] at h
      | some v =>
        simp only [hf] at h
        rcases sdConvTest_cases c it v (fx0.getD v) (norm (grad y)) with hc | hc | hc | hc | hc
        · have hneg : ¬ sdConvTest c it v (fx0.getD v) (norm (grad y)) ≥ 0 := by rw [hc.1] <;> norm_num
          simp only [hneg, if_false] at h
          cases hb : backtrack c f y (grad y) v btFuel c.ls0 with
          | none => simp [hb] at h
          | some o =>
            cases o with
            | giveUp => simp [hb] at h
            | step alpha acc =>
              simp only [hb] at h
              obtain ⟨h1, h2, h3⟩ := backtrack_spec c f y (grad y) v btFuel 0 0 alpha acc (by simpa using hb)
              refine ih (it + 1) (y - alpha • grad y) (some v) (⟨y, v, alpha, acc⟩ :: lg) ⟨rfl, hf, h1, h2, h3, hh⟩ (by simp [hl]) rfl ?_ _ _ _ _ _ h
              have := hc.2
              push_cast
              omega
        all_goals
          have hpos : sdConvTest c it v (fx0.getD v) (norm (grad y)) ≥ 0 := by rw [hc.1] <;> norm_num
          simp only [hpos, if_true, Option.some.injEq, Prod.mk.injEq, SdOut.done.injEq] at h
          obtain ⟨⟨rfl, rfl, rfl, rfl⟩, rfl⟩ := h
          refine ⟨hf, hh, hl, hle, ?_⟩
        · exact Or.inl hc
        · exact Or.inr (Or.inl hc)
        · exact Or.inr (Or.inr (Or.inl hc))
        · refine Or.inr (Or.inr (Or.inr ⟨hc.1, ?_⟩))
          cases lg with
          | nil => simp at hl; omega
          | cons r lg =>
            refine ⟨r, rfl, ?_⟩
            rw [hf0] at hc
            exact hc.2.2
  exact key fuel 0 x0 none [] rfl rfl rfl (by simp) x fx ret it log h

/-- **C117.** When all the steps were accepted, the value decreases geometrically. -/
theorem C117_decrease [IsStrictOrderedRing K] (c : SdConf K) (f : V → Option K) (grad : V → V) (x0 : V) (f0 : K) (hon : 0 < c.lsOn)
    (h0 : f x0 = some f0) (log : List (SdRec K V)) (hacc : ∀ r ∈ log, r.accepted = true) (x : V)
    (hh : Hist c f grad x0 log x) : ∃ fx, f x = some fx ∧ fx ≤ f0 * c.lsOn ^ log.length := by
  induction log generalizing x with
  | nil => simp only [Hist] at hh; subst hh; exact ⟨f0, h0, by simp⟩
  | cons r log ih =>
    obtain ⟨_, h2, _, h3, _, h4⟩ := hh
    obtain ⟨v, hv, hlt⟩ := h3 (hacc r (by simp))
    obtain ⟨fx, hfx, hle⟩ := ih (fun r hr => hacc r (by simp [hr])) _ h4
    rw [h2] at hfx
    simp only [Option.some.injEq] at hfx
    subst hfx
    refine ⟨v, hv, hlt.le.trans ?_⟩
    rw [List.length_cons, pow_succ, ← mul_assoc]
    exact mul_le_mul_of_nonneg_right hle hon.le

/-! ### Termination -/

theorem backtrack_terminates [IsStrictOrderedRing K] (c : SdConf K) (f : V → Option K) (x g : V) (fx ρ : K) (hρ : ρ ≤ 1)
    (h1 : c.lsRed ≤ ρ) (h2 : c.lsRedWarp ≤ ρ) (h10 : 0 ≤ c.lsRed) (h20 : 0 ≤ c.lsRedWarp) :
    ∀ (n m : ℕ) (alpha : K), 0 ≤ alpha → alpha * ρ ^ n < c.lsMin → n + 1 ≤ m → backtrack c f x g fx m alpha ≠ none := by
  intro n
  induction n with
  | zero =>
    intro m alpha ha hlt hm
    obtain ⟨m, rfl⟩ : ∃ k, m = k + 1 := ⟨m - 1, by omega⟩
    rw [pow_zero, mul_one] at hlt
    have e1 : alpha * c.lsRedWarp < c.lsMin :=
      lt_of_le_of_lt (mul_le_of_le_one_right ha (h2.trans hρ)) hlt
    have e2 : alpha * c.lsRed < c.lsMin := lt_of_le_of_lt (mul_le_of_le_one_right ha (h1.trans hρ)) hlt
    simp only [backtrack]
    cases f (x - alpha • g) with
    | none => simp [e1]
    | some aux => simp only [e2, if_true]; split_ifs <;> simp
  | succ n ih =>
    intro m alpha ha hlt hm
    obtain ⟨m, rfl⟩ : ∃ k, m = k + 1 := ⟨m - 1, by omega⟩
    have hρ0 : 0 ≤ ρ := h10.trans h1
    have key : ∀ red : K, 0 ≤ red → red ≤ ρ → alpha * red * ρ ^ n < c.lsMin := by
      intro red _ hr
      refine lt_of_le_of_lt ?_ hlt
      rw [pow_succ, mul_comm (ρ ^ n) ρ, ← mul_assoc]
      exact mul_le_mul_of_nonneg_right (mul_le_mul_of_nonneg_left hr ha) (pow_nonneg hρ0 n)
    simp only [backtrack]
    cases f (x - alpha • g) with
    | none =>
      simp only
      split_ifs
      · simp
      · exact ih m _ (mul_nonneg ha h20) (key _ h20 h2) (by omega)
    | some aux =>
      simp only
      split_ifs
      · simp
      · simp
      · exact ih m _ (mul_nonneg ha h10) (key _ h10 h1) (by omega)

/-- **C117.** The solver stops, for any objective function, also one without values in some states, and any gradient: the
number of the passes of the line search has a bound that depends only on the options. -/
theorem C117_terminates [IsStrictOrderedRing K] [Archimedean K] (c : SdConf K) (h0 : 0 ≤ c.ls0) (hmin : 0 < c.lsMin)
    (h10 : 0 ≤ c.lsRed) (h20 : 0 ≤ c.lsRedWarp) (h1 : c.lsRed < 1) (h2 : c.lsRedWarp < 1) :
    ∃ B : ℕ, ∀ (f : V → Option K) (grad : V → V) (norm : V → K) (btFuel fuel : ℕ) (x0 : V), B ≤ btFuel →
      c.iMax.toNat < fuel → fminSd c f grad norm btFuel fuel x0 ≠ none := by
  obtain ⟨n, hn⟩ : ∃ n : ℕ, c.ls0 * (max c.lsRed c.lsRedWarp) ^ n < c.lsMin := by
    rcases h0.eq_or_lt with h | h
    · exact ⟨0, by rw [← h]; simpa using hmin⟩
    · obtain ⟨n, hn⟩ := exists_pow_lt_of_lt_one (div_pos hmin h) (max_lt h1 h2)
      exact ⟨n, by rw [mul_comm]; exact (lt_div_iff₀ h).mp hn⟩
  refine ⟨n + 1, fun f grad norm btFuel fuel x0 hB hfuel => ?_⟩
  have key : ∀ (m it : ℕ) (y : V) (fx0 : Option K) (lg : List (SdRec K V)), c.iMax < (it : ℤ) + m →
      sdLoop c f grad norm btFuel m it y fx0 lg ≠ none ∨ (m = 0) := by
    intro m
    induction m with
    | zero => intros; right; rfl
    | succ m ih =>
      intro it y fx0 lg hlt
      left
      simp only [sdLoop]
      cases f y with
      | none => simp
      | some v =>
        simp only
        rcases sdConvTest_cases c it v (fx0.getD v) (norm (grad y)) with hc | hc | hc | hc | hc
        · have hneg : ¬ sdConvTest c it v (fx0.getD v) (norm (grad y)) ≥ 0 := by rw [hc.1] <;> norm_num
          simp only [hneg, if_false]
          have hb := backtrack_terminates c f y (grad y) v (max c.lsRed c.lsRedWarp) (max_lt h1 h2).le (le_max_left _ _)
            (le_max_right _ _) h10 h20 n btFuel c.ls0 h0 hn hB
          cases hbt : backtrack c f y (grad y) v btFuel c.ls0 with
          | none => exact absurd hbt hb
          | some o =>
            cases o with
            | giveUp => simp
            | step alpha acc =>
              simp only
              rcases ih (it + 1) (y - alpha • grad y) (some v) (⟨y, v, alpha, acc⟩ :: lg) (by push_cast at hlt ⊢; omega)
                with h | h
              · exact h
              · exfalso
                have := hc.2
                subst h
                push_cast at hlt
                omega
        all_goals
          have hpos : sdConvTest c it v (fx0.getD v) (norm (grad y)) ≥ 0 := by rw [hc.1] <;> norm_num
          simp [hpos]
  rcases key fuel 0 x0 none [] (by push_cast; omega) with h | h
  · exact h
  · omega

/-! ### Findings -/

/-- **C117.** The finding: for a negative value, a larger value can be accepted as a decrease. -/
theorem C117_negative_increase (c : SdConf K) (f : V → Option K) (x g : V) (fx aux : K) (n : ℕ)
    (ht : f (x - c.ls0 • g) = some aux) (hinc : aux < fx * c.lsOn) :
    backtrack c f x g fx (n + 1) c.ls0 = some (.step c.ls0 true) := by
  simp [backtrack, ht, hinc]

/-- **C117.** The finding: a zero gradient is not recognized (the status 2 needs a nonzero one): the solver started in a stationary state with
a value that is not small does one iteration with a failed line search and stops with the status 3 in the same state. -/
theorem C117_zero_gradient [IsStrictOrderedRing K] (c : SdConf K) (f : V → Option K) (grad : V → V) (norm : V → K)
    (btFuel fuel : ℕ) (x0 : V)
    (v : K) (hv : f x0 = some v) (hg : grad x0 = 0) (hn : norm 0 = 0) (hof : c.epsOf ≤ |v|) (h0 : 0 < c.epsOf)
    (hi : 0 < c.iMax) (hrd : 0 < c.epsRd) (hpos : 0 ≤ v) (hon : c.lsOn ≤ 1) (out : SdOut K V × List (SdRec K V))
    (h : fminSd c f grad norm btFuel (fuel + 2) x0 = some out) :
    ∃ alpha, out = (.done x0 v 3 1, [⟨x0, v, alpha, false⟩]) := by
  have hbt : ∀ (n : ℕ) (a : K) (o : BtOut K), backtrack c f x0 0 v n a = some o → ∃ alpha, o = .step alpha false := by
    intro n
    induction n with
    | zero => intro a o h; simp [backtrack] at h
    | succ n ih =>
      intro a o h
      have e : x0 - a • (0 : V) = x0 := by simp
      have hnot : ¬ v < v * c.lsOn := not_lt.mpr (mul_le_of_le_one_right hpos hon)
      simp only [backtrack, e, hv, hnot, if_false] at h
      split_ifs at h with h1
      · simp only [Option.some.injEq] at h; exact ⟨_, h.symm⟩
      · exact ih _ _ h
  have hv0 : 0 < |v| := lt_of_lt_of_le h0 hof
  have e0 : sdConvTest c 0 v v 0 = -1 := by
    simp [sdConvTest, not_lt.mpr hof, hi]
  have e1 : sdConvTest c 1 v v 0 = 3 := by
    simp [sdConvTest, not_lt.mpr hof, mul_pos hrd hv0]
  unfold fminSd at h
  simp only [sdLoop, hv, hg, hn, Option.getD_none, e0] at h
  norm_num at h
  cases hb : backtrack c f x0 0 v btFuel c.ls0 with
  | none => simp [hb] at h
  | some o =>
    obtain ⟨alpha, rfl⟩ := hbt _ _ _ hb
    simp only [hb, smul_zero, sub_zero, hv, hg, hn, Option.getD_some, e1] at h
    norm_num at h
    exact ⟨alpha, h.symm⟩

/-! ### Examples -/

/-- The options. -/
def exConf : SdConf ℚ := ⟨10, 1 / 100, 1 / 10, 1 / 1000, 99 / 100, 1, 1 / 2, 1 / 10, 1 / 1000⟩

/-- The objective function `x^2 + 1`, no value for large arguments. -/
def exF (x : ℚ) : Option ℚ := if 10 < |x| then none else some (x ^ 2 + 1)

/-- A run from the state 3 with the gradient 2 x: the step 1 is not accepted, the step 1/2 leads to the minimum, where the
gradient is zero and the status is 3. -/
example : ((fminSd exConf exF (fun x => 2 * x) (fun x => |x|) 20 20 3).bind fun o =>
      match o.1 with
        | .done x fx ret it => some (x, fx, ret, it)
        | _ => none) = some ((0 : ℚ), (1 : ℚ), (3 : ℤ), (2 : ℕ)) := by decide +kernel

/-- The records of the run. -/
example : ((fminSd exConf exF (fun x => 2 * x) (fun x => |x|) 20 20 3).map fun o => o.2.map fun r => (r.x, r.fx, r.accepted)) =
    some [((0 : ℚ), (1 : ℚ), false), (3, 10, true)] := by decide +kernel

/-- The claims for the run. -/
example : ∃ B : ℕ, ∀ (f : ℚ → Option ℚ) (grad : ℚ → ℚ) (norm : ℚ → ℚ) (btFuel fuel : ℕ) (x0 : ℚ), B ≤ btFuel →
    exConf.iMax.toNat < fuel → fminSd exConf f grad norm btFuel fuel x0 ≠ none :=
  C117_terminates exConf (by norm_num [exConf]) (by norm_num [exConf]) (by norm_num [exConf]) (by norm_num [exConf])
    (by norm_num [exConf]) (by norm_num [exConf])

/-- The value -1 grows to -0.995. -/
example : backtrack exConf (fun x => some (x - 1)) (0 : ℚ) (-1 / 200) (-1) 5 1 = some (.step 1 true) :=
  C117_negative_increase exConf _ _ _ _ (-199 / 200) 4 (by norm_num [exConf]) (by norm_num [exConf])

end Verif.Opt
