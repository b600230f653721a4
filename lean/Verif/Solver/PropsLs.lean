import Verif.Solver.Model
import Mathlib.Tactic.Linarith
import Mathlib.Tactic.Ring
import Mathlib.Tactic.FieldSimp
import Mathlib.Tactic.NormNum
import Mathlib.Data.List.Basic
import Mathlib.Algebra.Order.Ring.Rat

/-!
C26 (convergence test) and C27 (backtracking line search).
-/

namespace Verif.Solver

variable {K : Type} [Field K] [LinearOrder K]
variable {V M : Type} [AddCommGroup V] [Module K V]

/-! ### C26 -/

/-- Specification: the tolerances are met in iteration `it`. -/
def TolMet (conf : Conf K) (it : Nat) (err err0 : K) : Prop :=
  let A := err ≤ conf.epsA
  let R := (|err0| < conf.macheps ∧ 0 ≤ conf.epsR) ∨
    (¬ |err0| < conf.macheps ∧ err / err0 ≤ conf.epsR)
  if it = 0 then A else if conf.epsOr then A ∨ R else A ∧ R

theorem convTest_cases (conf : Conf K) (it : Nat) (err err0 : K) :
    (TolMet conf it err err0 ∧ convTest conf it err err0 = 0) ∨
    (¬ TolMet conf it err err0 ∧ conf.iMax ≤ it ∧ convTest conf it err err0 = 1) ∨
    (¬ TolMet conf it err err0 ∧ (it : Int) < conf.iMax ∧ convTest conf it err err0 = -1) := by
  unfold TolMet convTest
  by_cases h0 : it = 0 <;> by_cases hm : |err0| < conf.macheps <;>
    by_cases hA : err ≤ conf.epsA <;> by_cases hR : (0 : K) ≤ conf.epsR <;>
    by_cases hR' : err / err0 ≤ conf.epsR <;>
    by_cases ho : conf.epsOr = true <;> by_cases hi : conf.iMax ≤ (it : Int) <;>
    simp [Nat.pos_iff_ne_zero, h0, hm, hA, hR, hR', ho, hi, -not_le, -not_lt] <;> omega

/-- C26: the convergence test returns 0 exactly when the tolerances are met, otherwise 1
exactly when the maximum number of iterations is reached, otherwise -1. -/
theorem C26_conv_test (conf : Conf K) (it : Nat) (err err0 : K) :
    (convTest conf it err err0 = 0 ↔ TolMet conf it err err0) ∧
    (convTest conf it err err0 = 1 ↔ ¬ TolMet conf it err err0 ∧ conf.iMax ≤ it) ∧
    (convTest conf it err err0 = -1 ↔ ¬ TolMet conf it err err0 ∧ (it : Int) < conf.iMax) := by
  rcases convTest_cases conf it err err0 with ⟨h, e⟩ | ⟨h, i, e⟩ | ⟨h, i, e⟩
  · simp [h, e]
  · have : ¬ (it : Int) < conf.iMax := by omega
    simp [h, e, i, this]
  · have : ¬ conf.iMax ≤ (it : Int) := by omega
    simp [h, e, i, this]

/-- C26, a consequence: the iteration counter bounds the test: at `it ≥ i_max` the solver
always stops. -/
theorem C26_stops (conf : Conf K) (it : Nat) (err err0 : K) (h : conf.iMax ≤ it) :
    0 ≤ convTest conf it err err0 := by
  rcases convTest_cases conf it err err0 with ⟨_, e⟩ | ⟨_, _, e⟩ | ⟨_, i, _⟩
  · simp [e]
  · simp [e]
  · omega

/-- A configuration used in the examples. -/
def confEx : Conf ℚ :=
  { iMax := 3, epsA := 1/10, epsR := 1/100, epsOr := false, macheps := 1/1000000,
    lsMode := .residual, lsOn := 99/100, lsRed := 1/10, lsRedWarp := 1/1000, lsMin := 1/100000,
    giveUpWarp := false, stepRed := 1, isLinear := false }

example : convTest confEx 0 (1/20) (1/20) = 0 ∧ convTest confEx 1 (1/20) 1 = -1 ∧
    convTest { confEx with epsOr := true } 1 (1/20) 1 = 0 ∧ convTest confEx 3 (1/20) 1 = 1 := by
  unfold convTest confEx
  norm_num

/-! ### C27: specification -/

/-- The line search criterion for the residual `r` with norm `err`. -/
def Sufficient (conf : Conf K) (env : LsEnv K V) (dx0 : V) (errLast : K) (r : V) (err : K) :
    Prop :=
  match conf.lsMode with
  | .residual => err < errLast * conf.lsOn
  | .error => ∃ edx0 edx, env.norm dx0 = some edx0 ∧ env.norm (env.relin r) = some edx ∧
      edx < edx0 * conf.lsOn
  | .other => False

/-- The step factor of the `k`-th trial: 1 first, then multiplied by `ls_red` after a
successful and by `ls_red_warp` after a failed residual evaluation. -/
def lsSeq (conf : Conf K) (f : V → FunOut V) (x0 dx0 : V) : Nat → K
  | 0 => 1
  | k + 1 => lsSeq conf f x0 dx0 k *
      match f (x0 - lsSeq conf f x0 dx0 k • dx0) with
      | .valueError => conf.lsRedWarp
      | .ok _ => conf.lsRed

/-- The `k`-th trial point. -/
def trial (conf : Conf K) (f : V → FunOut V) (x0 dx0 : V) (k : Nat) : V :=
  x0 - lsSeq conf f x0 dx0 k • dx0

/-- The `k`-th trial does not end the search. -/
def Continues (conf : Conf K) (env : LsEnv K V) (x0 dx0 : V) (it : Nat) (errLast : K)
    (k : Nat) : Prop :=
  it ≠ 0 ∧ conf.lsMin ≤ lsSeq conf env.f x0 dx0 k ∧
  ((env.f (trial conf env.f x0 dx0 k) = .valueError ∧ conf.giveUpWarp = false) ∨
   (∃ r err, env.f (trial conf env.f x0 dx0 k) = .ok r ∧ env.norm r = some err ∧
      conf.lsMode ≠ .other ∧ ¬ Sufficient conf env dx0 errLast r err))

/-- The way the search ends with trial `n`. -/
def EndsWith (conf : Conf K) (env : LsEnv K V) (x0 dx0 : V) (it : Nat) (errLast : K)
    (n : Nat) : LsOut K V → Prop
  | .ret x r err true => x = trial conf env.f x0 dx0 n ∧ env.f x = .ok r ∧
      env.norm r = some err ∧
      (it = 0 ∨ Sufficient conf env dx0 errLast r err ∨
        (conf.lsMode ≠ .other ∧ lsSeq conf env.f x0 dx0 n < conf.lsMin))
  | .ret x r err false => x = trial conf env.f x0 dx0 n ∧ env.f x = .valueError ∧
      conf.giveUpWarp = true ∧ it ≠ 0 ∧ 0 < n ∧
      env.f (trial conf env.f x0 dx0 (n - 1)) = .ok r ∧ env.norm r = some err
  | .valueError =>
      (env.f (trial conf env.f x0 dx0 n) = .valueError ∧
        (it = 0 ∨ lsSeq conf env.f x0 dx0 n < conf.lsMin)) ∨
      (∃ r, env.f (trial conf env.f x0 dx0 n) = .ok r ∧
        (env.norm r = none ∨ (it ≠ 0 ∧ conf.lsMode = .other)))
  | .unbound => n = 0 ∧ env.f (x0 - dx0) = .valueError ∧ conf.giveUpWarp = true ∧ it ≠ 0

/-! ### Proofs -/

/-- Loop invariant. -/
structure LsInv (conf : Conf K) (env : LsEnv K V) (x0 dx0 : V) (it : Nat) (errLast : K)
    (k : Nat) (st : LsState K V) : Prop where
  ls : st.ls = lsSeq conf env.f x0 dx0 k
  dx : st.dx = lsSeq conf env.f x0 dx0 k • dx0
  calls : st.calls = ((List.range k).map (trial conf env.f x0 dx0)).reverse
  before : ∀ j < k, Continues conf env x0 dx0 it errLast j
  prev : conf.giveUpWarp = true →
    (k = 0 ∧ st.prev = none) ∨
    (0 < k ∧ ∃ r err, st.prev = some (r, err) ∧
      env.f (trial conf env.f x0 dx0 (k - 1)) = .ok r ∧ env.norm r = some err)

/-- The final state. -/
structure LsFin (conf : Conf K) (env : LsEnv K V) (x0 dx0 : V) (it : Nat) (errLast : K)
    (k : Nat) (o : LsOut K V × List V) : Prop where
  calls : o.2 = ((List.range (k + 1)).map (trial conf env.f x0 dx0)).reverse
  before : ∀ j < k, Continues conf env x0 dx0 it errLast j
  out : EndsWith conf env x0 dx0 it errLast k o.1

theorem range_succ_rev {α : Type} (g : Nat → α) (k : Nat) :
    ((List.range (k + 1)).map g).reverse = g k :: ((List.range k).map g).reverse := by
  rw [List.range_succ, List.map_append, List.reverse_append]; rfl

theorem lsTail_spec (conf : Conf K) (env : LsEnv K V) (x0 dx0 : V) (it : Nat) (errLast : K)
    (k : Nat) (st : LsState K V) (h : LsInv conf env x0 dx0 it errLast k st) (hit : it ≠ 0)
    (r : V) (err : K) (hf : env.f (trial conf env.f x0 dx0 k) = .ok r)
    (hn : env.norm r = some err) (hmode : conf.lsMode ≠ .other)
    (hs : ¬ Sufficient conf env dx0 errLast r err) :
    match lsTail conf dx0 (trial conf env.f x0 dx0 k) r err true conf.lsRed
        ⟨st.ls, st.dx, some (r, err), trial conf env.f x0 dx0 k :: st.calls⟩ with
    | .inr o => LsFin conf env x0 dx0 it errLast k o
    | .inl st' => LsInv conf env x0 dx0 it errLast (k + 1) st' := by
  unfold lsTail
  by_cases hl : st.ls < conf.lsMin
  · simp only [hl, if_true]
    refine ⟨?_, h.before, ?_⟩
    · simp only [range_succ_rev, h.calls]
    · exact ⟨rfl, hf, hn, .inr (.inr ⟨hmode, h.ls ▸ hl⟩)⟩
  · simp only [hl, if_false]
    have hseq : lsSeq conf env.f x0 dx0 (k + 1) = lsSeq conf env.f x0 dx0 k * conf.lsRed := by
      have : env.f (x0 - lsSeq conf env.f x0 dx0 k • dx0) = .ok r := hf
      simp only [lsSeq, this]
    refine ⟨?_, ?_, ?_, ?_, ?_⟩
    · simp only [hseq, h.ls]
    · simp only [hseq, h.ls]
    · simp only [range_succ_rev, h.calls]
    · intro j hj
      rcases Nat.lt_succ_iff_lt_or_eq.mp hj with h1 | h1
      · exact h.before j h1
      · subst h1
        exact ⟨hit, by rw [← h.ls]; exact not_lt.mp hl, .inr ⟨r, err, hf, hn, hmode, hs⟩⟩
    · intro _
      exact .inr ⟨Nat.succ_pos _, r, err, rfl, by simpa using hf, hn⟩

theorem lsStep_spec (conf : Conf K) (env : LsEnv K V) (x0 dx0 : V) (it : Nat) (errLast : K)
    (k : Nat) (st : LsState K V) (h : LsInv conf env x0 dx0 it errLast k st) :
    match lsStep conf env x0 dx0 it errLast st with
    | .inr o => LsFin conf env x0 dx0 it errLast k o
    | .inl st' => LsInv conf env x0 dx0 it errLast (k + 1) st' := by
  have hx : x0 - st.dx = trial conf env.f x0 dx0 k := by rw [h.dx]; rfl
  have hcalls : trial conf env.f x0 dx0 k :: st.calls
      = ((List.range (k + 1)).map (trial conf env.f x0 dx0)).reverse := by
    rw [range_succ_rev, h.calls]
  unfold lsStep
  simp only [hx]
  cases hf : env.f (trial conf env.f x0 dx0 k) with
  | valueError =>
    simp only
    by_cases h1 : it = 0 ∨ st.ls < conf.lsMin
    · simp only [h1, if_true]
      exact ⟨hcalls, h.before, .inl ⟨hf, by rw [← h.ls]; exact h1⟩⟩
    · simp only [h1, if_false]
      have hit : it ≠ 0 := fun e => h1 (.inl e)
      have hl : ¬ st.ls < conf.lsMin := fun e => h1 (.inr e)
      by_cases hg : conf.giveUpWarp = true
      · simp only [hg, if_true]
        rcases h.prev hg with ⟨hk, hp⟩ | ⟨hk, r, err, hp, hr, hn⟩
        · simp only [hp]
          subst hk
          refine ⟨hcalls, h.before, rfl, ?_, hg, hit⟩
          simpa [trial, lsSeq] using hf
        · simp only [hp]
          exact ⟨hcalls, h.before, rfl, hf, hg, hit, hk, hr, hn⟩
      · simp only [hg]
        have hseq : lsSeq conf env.f x0 dx0 (k + 1)
            = lsSeq conf env.f x0 dx0 k * conf.lsRedWarp := by
          have : env.f (x0 - lsSeq conf env.f x0 dx0 k • dx0) = .valueError := hf
          simp only [lsSeq, this]
        refine ⟨?_, ?_, hcalls, ?_, fun e => absurd e hg⟩
        · simp only [hseq, h.ls]
        · simp only [hseq, h.ls]
        · intro j hj
          rcases Nat.lt_succ_iff_lt_or_eq.mp hj with h1 | h1
          · exact h.before j h1
          · subst h1
            exact ⟨hit, by rw [← h.ls]; exact not_lt.mp hl, .inl ⟨hf, by simpa using hg⟩⟩
  | ok r =>
    simp only
    cases hn : env.norm r with
    | none => exact ⟨hcalls, h.before, .inr ⟨r, hf, .inl hn⟩⟩
    | some err =>
      simp only
      by_cases hit : it = 0
      · simp only [hit, if_true]
        exact ⟨hcalls, by rw [← hit]; exact h.before, rfl, hf, hn, .inl rfl⟩
      · simp only [hit, if_false]
        cases hm : conf.lsMode with
        | residual =>
          simp only
          by_cases hs : err < errLast * conf.lsOn
          · simp only [hs, if_true]
            exact ⟨hcalls, h.before, rfl, hf, hn, .inr (.inl (by simp [Sufficient, hm, hs]))⟩
          · simp only [hs, if_false]
            exact lsTail_spec conf env x0 dx0 it errLast k st h hit r err hf hn (by simp [hm])
              (by simpa [Sufficient, hm] using hs)
        | error =>
          simp only
          cases h0 : env.norm dx0 with
          | none =>
            exact lsTail_spec conf env x0 dx0 it errLast k st h hit r err hf hn (by simp [hm])
              (by simp [Sufficient, hm, h0])
          | some edx0 =>
            cases h1 : env.norm (env.relin r) with
            | none =>
              exact lsTail_spec conf env x0 dx0 it errLast k st h hit r err hf hn (by simp [hm])
                (by simp [Sufficient, hm, h1])
            | some edx =>
              simp only
              by_cases hs : edx < edx0 * conf.lsOn
              · simp only [hs, if_true]
                exact ⟨hcalls, h.before, rfl, hf, hn,
                  .inr (.inl (by simp [Sufficient, hm, h0, h1, hs]))⟩
              · simp only [hs, if_false]
                exact lsTail_spec conf env x0 dx0 it errLast k st h hit r err hf hn
                  (by simp [hm]) (by simpa [Sufficient, hm, h0, h1] using hs)
        | other => exact ⟨hcalls, h.before, .inr ⟨r, hf, .inr ⟨hit, hm⟩⟩⟩

theorem lsLoop_spec (conf : Conf K) (env : LsEnv K V) (x0 dx0 : V) (it : Nat) (errLast : K)
    (n : Nat) : ∀ (k : Nat) (st : LsState K V) (o : LsOut K V × List V),
    LsInv conf env x0 dx0 it errLast k st →
    lsLoop conf env x0 dx0 it errLast n st = some o →
    ∃ k', k ≤ k' ∧ LsFin conf env x0 dx0 it errLast k' o := by
  induction n with
  | zero => intro k st o _ h; simp [lsLoop] at h
  | succ n ih =>
    intro k st o hi h
    have hs := lsStep_spec conf env x0 dx0 it errLast k st hi
    unfold lsLoop at h
    cases hst : lsStep conf env x0 dx0 it errLast st with
    | inr o' =>
      rw [hst] at h hs
      simp only [Option.some.injEq] at h
      subst h
      exact ⟨k, le_refl _, hs⟩
    | inl st' =>
      rw [hst] at h hs
      obtain ⟨k', hk, hf⟩ := ih (k + 1) st' o hs h
      exact ⟨k', by omega, hf⟩

theorem lsInv_init (conf : Conf K) (env : LsEnv K V) (x0 dx0 : V) (it : Nat) (errLast : K) :
    LsInv conf env x0 dx0 it errLast 0 ⟨1, dx0, none, []⟩ :=
  ⟨rfl, by simp [lsSeq], rfl, fun j hj => absurd hj (Nat.not_lt_zero _), fun _ => .inl ⟨rfl, rfl⟩⟩

/-- C27: whenever the backtracking line search ends, after calling the residual function at
`n + 1` points: the points are `x0 - ls_k * dx0` with `ls_0 = 1` and `ls_{k+1}` equal to `ls_k`
times `ls_red` (or `ls_red_warp` if the residual could not be evaluated); no trial but the last
one met the line search criterion or any other reason to stop; and the outcome is the one that
the last trial determines. -/
theorem C27_line_search (conf : Conf K) (env : LsEnv K V) (x0 dx0 : V) (it : Nat) (errLast : K)
    (fuel : Nat) (o : LsOut K V) (calls : List V)
    (h : lineSearch conf env x0 dx0 it errLast fuel = some (o, calls)) :
    ∃ n, calls = (List.range (n + 1)).map (trial conf env.f x0 dx0) ∧
      (∀ k < n, Continues conf env x0 dx0 it errLast k) ∧
      EndsWith conf env x0 dx0 it errLast n o := by
  unfold lineSearch at h
  rw [Option.map_eq_some_iff] at h
  obtain ⟨o', h1, h2⟩ := h
  obtain ⟨k', _, hf⟩ := lsLoop_spec conf env x0 dx0 it errLast fuel 0 _ o'
    (lsInv_init conf env x0 dx0 it errLast) h1
  have e1 : o'.1 = o := congrArg Prod.fst h2
  have e2 : o'.2.reverse = calls := congrArg Prod.snd h2
  refine ⟨k', ?_, hf.before, e1 ▸ hf.out⟩
  rw [← e2, hf.calls, List.reverse_reverse]

/-- C27: without `give_up_warp`, a point returned by the line search is the last trial point,
its residual was evaluated successfully and is the one returned, and `ok` is True. -/
theorem C27_ret (conf : Conf K) (env : LsEnv K V) (x0 dx0 : V) (it : Nat) (errLast : K)
    (fuel : Nat) (x r : V) (err : K) (ok : Bool) (calls : List V)
    (hg : conf.giveUpWarp = false)
    (h : lineSearch conf env x0 dx0 it errLast fuel = some (.ret x r err ok, calls)) :
    ok = true ∧ env.f x = .ok r ∧ env.norm r = some err ∧ calls.getLast? = some x := by
  obtain ⟨n, h1, _, h3⟩ := C27_line_search conf env x0 dx0 it errLast fuel _ calls h
  cases ok with
  | false => simp only [EndsWith, hg] at h3; simp at h3
  | true =>
    refine ⟨rfl, h3.2.1, h3.2.2.1, ?_⟩
    rw [h1, List.range_succ, List.map_append, List.getLast?_append]
    simp [h3.1]

section Ordered
variable [IsStrictOrderedRing K]

theorem lsSeq_le (conf : Conf K) (f : V → FunOut V) (x0 dx0 : V) (c : K)
    (h1 : 0 ≤ conf.lsRed) (h2 : 0 ≤ conf.lsRedWarp) (h3 : conf.lsRed ≤ c)
    (h4 : conf.lsRedWarp ≤ c) (k : Nat) :
    0 ≤ lsSeq conf f x0 dx0 k ∧ lsSeq conf f x0 dx0 k ≤ c ^ k := by
  induction k with
  | zero => simp [lsSeq]
  | succ k ih =>
    obtain ⟨i1, i2⟩ := ih
    have hc : 0 ≤ c := le_trans h1 h3
    rw [lsSeq, pow_succ]
    cases f (x0 - lsSeq conf f x0 dx0 k • dx0) with
    | valueError => exact ⟨mul_nonneg i1 h2, mul_le_mul i2 h4 h2 (pow_nonneg hc _)⟩
    | ok r => exact ⟨mul_nonneg i1 h1, mul_le_mul i2 h3 h1 (pow_nonneg hc _)⟩

theorem lsStep_inl_ls (conf : Conf K) (env : LsEnv K V) (x0 dx0 : V) (it : Nat) (errLast : K)
    (k : Nat) (st st' : LsState K V) (h : LsInv conf env x0 dx0 it errLast k st)
    (hs : lsStep conf env x0 dx0 it errLast st = .inl st') :
    conf.lsMin ≤ lsSeq conf env.f x0 dx0 k := by
  have := lsStep_spec conf env x0 dx0 it errLast k st h
  rw [hs] at this
  exact (this.before k (Nat.lt_succ_self k)).2.1

theorem lsLoop_terminates (conf : Conf K) (env : LsEnv K V) (x0 dx0 : V) (it : Nat) (errLast : K)
    (N : Nat) (hN : ∀ k, N ≤ k → lsSeq conf env.f x0 dx0 k < conf.lsMin) (n : Nat) :
    ∀ (k : Nat) (st : LsState K V), LsInv conf env x0 dx0 it errLast k st → N ≤ k + n →
      (lsLoop conf env x0 dx0 it errLast (n + 1) st).isSome = true := by
  induction n with
  | zero =>
    intro k st hi hk
    unfold lsLoop
    cases hs : lsStep conf env x0 dx0 it errLast st with
    | inr o => rfl
    | inl st' =>
      exact absurd (lsStep_inl_ls conf env x0 dx0 it errLast k st st' hi hs)
        (not_le.mpr (hN k (by omega)))
  | succ n ih =>
    intro k st hi hk
    unfold lsLoop
    have hspec := lsStep_spec conf env x0 dx0 it errLast k st hi
    cases hs : lsStep conf env x0 dx0 it errLast st with
    | inr o => rfl
    | inl st' =>
      rw [hs] at hspec
      exact ih (k + 1) st' hspec (by omega)

/-- C27: an explicit bound: if both reduction factors are in `[0, c]` with `c ≤ 1`
and `c ^ N < ls_min`, the line search ends after at most `N + 1` trials, for every residual
function, norm, iteration and starting point. -/
theorem C27_bound (conf : Conf K) (env : LsEnv K V) (x0 dx0 : V) (it : Nat) (errLast : K)
    (c : K) (N : Nat) (h1 : 0 ≤ conf.lsRed) (h2 : 0 ≤ conf.lsRedWarp) (h3 : conf.lsRed ≤ c)
    (h4 : conf.lsRedWarp ≤ c) (hc : c ≤ 1) (hN : c ^ N < conf.lsMin) :
    ∃ o calls, lineSearch conf env x0 dx0 it errLast (N + 1) = some (o, calls) ∧
      calls.length ≤ N + 1 := by
  have hseq : ∀ k, N ≤ k → lsSeq conf env.f x0 dx0 k < conf.lsMin := fun k hk =>
    lt_of_le_of_lt (le_trans (lsSeq_le conf env.f x0 dx0 c h1 h2 h3 h4 k).2
      (pow_le_pow_of_le_one (le_trans h1 h3) hc hk)) hN
  have hsome := lsLoop_terminates conf env x0 dx0 it errLast N hseq N 0 _
    (lsInv_init conf env x0 dx0 it errLast) (by omega)
  obtain ⟨o, ho⟩ := Option.isSome_iff_exists.mp hsome
  have hls : lineSearch conf env x0 dx0 it errLast (N + 1) = some (o.1, o.2.reverse) := by
    unfold lineSearch; rw [ho]; rfl
  refine ⟨o.1, o.2.reverse, hls, ?_⟩
  obtain ⟨n, hn, hb, _⟩ := C27_line_search conf env x0 dx0 it errLast (N + 1) _ _ hls
  rw [hn, List.length_map, List.length_range]
  by_contra hlt
  exact absurd (hb N (by omega)).2.1 (not_le.mpr (hseq N (le_refl _)))

/-- C27: termination: for reduction factors in (0, 1) and `ls_min > 0` the backtracking line
search ends, whatever the residual function does. -/
theorem C27_terminates [Archimedean K] (conf : Conf K) (env : LsEnv K V) (x0 dx0 : V) (it : Nat)
    (errLast : K) (h1 : 0 < conf.lsRed) (h1' : conf.lsRed < 1) (h2 : 0 < conf.lsRedWarp)
    (h2' : conf.lsRedWarp < 1) (h3 : 0 < conf.lsMin) :
    ∃ fuel o calls, lineSearch conf env x0 dx0 it errLast fuel = some (o, calls) := by
  obtain ⟨N, hN⟩ := exists_pow_lt_of_lt_one h3 (max_lt h1' h2')
  obtain ⟨o, calls, h, _⟩ := C27_bound conf env x0 dx0 it errLast (max conf.lsRed conf.lsRedWarp)
    N h1.le h2.le (le_max_left _ _) (le_max_right _ _) (max_lt h1' h2').le hN
  exact ⟨N + 1, o, calls, h⟩

/-- C27: all trial points lie on the segment from `x0 - dx0` (first) towards `x0`: the factors
are positive and strictly decreasing. -/
theorem C27_factors_decrease (conf : Conf K) (f : V → FunOut V) (x0 dx0 : V)
    (h1 : 0 < conf.lsRed) (h1' : conf.lsRed < 1) (h2 : 0 < conf.lsRedWarp)
    (h2' : conf.lsRedWarp < 1) (k : Nat) :
    0 < lsSeq conf f x0 dx0 k ∧ lsSeq conf f x0 dx0 (k + 1) < lsSeq conf f x0 dx0 k := by
  have hpos : ∀ k, 0 < lsSeq conf f x0 dx0 k := by
    intro k
    induction k with
    | zero => simp [lsSeq]
    | succ k ih =>
      rw [lsSeq]
      cases f (x0 - lsSeq conf f x0 dx0 k • dx0) with
      | valueError => exact mul_pos ih h2
      | ok r => exact mul_pos ih h1
  refine ⟨hpos k, ?_⟩
  rw [lsSeq]
  cases f (x0 - lsSeq conf f x0 dx0 k • dx0) with
  | valueError => exact mul_lt_of_lt_one_right (hpos k) h2'
  | ok r => exact mul_lt_of_lt_one_right (hpos k) h1'

/-- The bound is necessary: with `ls_red = 1` the search does not end when the residual does
not decrease. -/
theorem C27_no_reduction_diverges : ∃ (conf : Conf ℚ) (env : LsEnv ℚ ℚ),
    conf.lsRed = 1 ∧ 0 < conf.lsMin ∧
    ∀ fuel, lineSearch conf env 0 1 1 1 fuel = none := by
  refine ⟨{ confEx with lsRed := 1 }, ⟨fun _ => .ok 1, fun r => some r, fun r => r⟩, rfl,
    by norm_num [confEx], ?_⟩
  intro fuel
  unfold lineSearch
  rw [Option.map_eq_none_iff]
  have : ∀ (n : Nat) (p : Option (ℚ × ℚ)) (cs : List ℚ),
      lsLoop { confEx with lsRed := 1 }
        (⟨fun _ => .ok 1, fun r => some r, fun r => r⟩ : LsEnv ℚ ℚ) 0 1 1 1 n
        ⟨1, 1, p, cs⟩ = none := by
    intro n
    induction n with
    | zero => intros; rfl
    | succ n ih =>
      intro p cs
      unfold lsLoop
      have : lsStep { confEx with lsRed := 1 }
          (⟨fun _ => .ok 1, fun r => some r, fun r => r⟩ : LsEnv ℚ ℚ) 0 1 1 1 ⟨1, 1, p, cs⟩
          = .inl ⟨1, 1, some (1, 1), (0 - 1) :: cs⟩ := by
        norm_num [lsStep, lsTail, confEx]
      rw [this]
      exact ih _ _
  exact this fuel _ _

end Ordered

/-- Finding: with `give_up_warp` a failed residual in the first trial makes the function fail
with an unbound local variable. -/
theorem C27_give_up_unbound (conf : Conf K) (env : LsEnv K V) (x0 dx0 : V) (it fuel : Nat)
    (errLast : K) (hg : conf.giveUpWarp = true) (hit : it ≠ 0) (hl : ¬ (1 : K) < conf.lsMin)
    (hf : env.f (x0 - dx0) = .valueError) :
    lineSearch conf env x0 dx0 it errLast (fuel + 1) = some (.unbound, [x0 - dx0]) := by
  simp [lineSearch, lsLoop, lsStep, hf, hit, hl, hg]

/-- A residual that fails for large steps and decreases only slowly. -/
def envEx : LsEnv ℚ ℚ :=
  ⟨fun x => if x < -1/2 then .valueError else .ok (1 + x + 11 * x * x), fun r => some |r|,
    fun r => r⟩

/-- Non-vacuity: a failed trial (`ls = 1`) is followed by `ls = 1/1000`, which is accepted;
with `ls_red_warp = 1/4` by an insufficient one. -/
example : lineSearch confEx envEx 0 1 1 10 5 =
      some (.ret (-1/1000) (1 - 1/1000 + 11/1000000) (1 - 1/1000 + 11/1000000) true,
        [-1, -1/1000]) ∧
    lineSearch { confEx with lsRedWarp := 1/4 } envEx 0 1 1 1 5 =
      some (.ret (-1/40) (1 - 1/40 + 11/1600) (1 - 1/40 + 11/1600) true,
        [-1, -1/4, -1/40]) := by
  constructor
  · norm_num [lineSearch, lsLoop, lsStep, lsTail, confEx, envEx, abs]
  · norm_num [lineSearch, lsLoop, lsStep, lsTail, confEx, envEx, abs]

end Verif.Solver
