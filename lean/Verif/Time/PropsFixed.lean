/-
C20, C22 (fixed step), C23, C43: the fixed-step time stepper, the driver and the activity of
boundary conditions.
-/
import Verif.Time.Model
import Mathlib.Tactic.Linarith
import Mathlib.Tactic.FieldSimp
import Mathlib.Tactic.Ring
import Mathlib.Tactic.Positivity
import Mathlib.Data.Rat.Floor

namespace Verif.Time

set_option linter.unusedSectionVars false

variable {K : Type} [Field K] [LinearOrder K]

/-! ### Small specification -/

/-- The `i`-th of `n` equidistant times. -/
def equidistant (t0 t1 : K) (n i : Nat) : K :=
  if n ≤ 1 then t0 else t0 + (i : K) * ((t1 - t0) / ((n : K) - 1))

/-- The state of a fixed stepper at the step `s`. -/
structure AtStep (ts : TS K) (a b : K) (N s : Nat) : Prop where
  t0 : ts.t0 = a
  t1 : ts.t1 = b
  n : ts.nStep = N
  lt : s < N
  dt : ts.dt = if N ≤ 1 then b - a else (b - a) / ((N : K) - 1)
  len : ts.times.length = N
  times : ∀ i, i < N → ts.times.getD i 0 = equidistant a b N i
  step : ts.step = s
  time : ts.time = equidistant a b N s
  nt : ts.nt = (ts.time - a) / (b - a)

/-! ### Proofs -/

section
variable [IsStrictOrderedRing K]

theorem linspace_getD (t0 t1 : K) (n i : Nat) (hn : 1 < n) (hi : i < n) :
    (linspace t0 t1 n).getD i 0 = equidistant t0 t1 n i := by
  unfold linspace equidistant
  rw [List.getD_eq_getElem?_getD, List.getElem?_map, List.getElem?_range hi]
  simp only [Option.map_some, Option.getD_some]
  rw [if_neg (by omega : ¬ n ≤ 1)]
  split
  · next h =>
    have h1 : (n : K) - 1 ≠ 0 := by
      have : (1 : K) < n := by exact_mod_cast hn
      exact ne_of_gt (by linarith)
    have h2 : (i : K) = (n : K) - 1 := by
      rw [← h]; push_cast; ring
    rw [h2]
    field_simp
    ring
  · rfl
end

theorem linspace_length (t0 t1 : K) (n : Nat) : (linspace t0 t1 n).length = n := by
  simp [linspace]

theorem atStep_setStep {ts : TS K} {t0 t1 : K} {n s : Nat} (h : AtStep ts t0 t1 n s) (k : Int) :
    (∀ s' : Nat, s' < n → (k = s' ∨ k = (s' : Int) - n) →
      ∃ ts', ts.setStep k = .ok ts' ∧ AtStep ts' t0 t1 n s') ∧
    ((k < -(n : Int) ∨ (n : Int) ≤ k) → ts.setStep k = .error .value) := by
  constructor
  · intro s' hs hk
    unfold TS.setStep
    have hs2 : (if k < 0 then (ts.nStep : Int) + k else k) = (s' : Int) := by
      rw [h.n]; split <;> omega
    simp only [hs2]
    rw [if_neg (by rw [h.n]; omega)]
    refine ⟨_, rfl, ?_⟩
    have ht : ts.times.getD (s' : Int).toNat 0 = equidistant t0 t1 n s' := by
      rw [Int.toNat_natCast]; exact h.times s' hs
    exact ⟨h.t0, h.t1, h.n, hs, h.dt, h.len, h.times, rfl, ht, by
      show normalize ts.t0 ts.t1 _ = _
      rw [h.t0, h.t1]; rfl⟩
  · intro hk
    unfold TS.setStep
    simp only
    rw [if_pos]
    rw [h.n]
    split <;> omega

theorem atStep_advance {ts : TS K} {t0 t1 : K} {n s : Nat} (h : AtStep ts t0 t1 n s) :
    AtStep ts.advance t0 t1 n (min (s + 1) (n - 1)) ∧ (s + 1 = n → ts.advance = ts) := by
  unfold TS.advance
  rw [h.step, h.n]
  split
  · next hlt =>
    refine ⟨?_, fun h => by omega⟩
    have hm : min (s + 1) (n - 1) = s + 1 := by omega
    rw [hm]
    exact ⟨h.t0, h.t1, rfl, hlt, h.dt, h.len, h.times, rfl, h.times _ hlt, by
      show normalize ts.t0 ts.t1 _ = _
      rw [h.t0, h.t1]; rfl⟩
  · next hge =>
    have hm : min (s + 1) (n - 1) = s := by have := h.lt; omega
    rw [hm]
    exact ⟨h, fun _ => rfl⟩

/-- Operations on a fixed stepper. -/
inductive Op where
  | advance
  | setStep (k : Int)
deriving DecidableEq

/-- Failed calls (ValueError) leave the stepper as it is. -/
def Op.run (ts : TS K) : Op → TS K
  | .advance => ts.advance
  | .setStep k => match ts.setStep k with
    | .ok ts' => ts'
    | .error _ => ts

/-- Which step the operations lead to. -/
def Op.stepAfter (n : Nat) (s : Nat) : Op → Nat
  | .advance => if s + 1 < n then s + 1 else s
  | .setStep k =>
    if 0 ≤ k ∧ k < n then k.toNat else if -(n : Int) ≤ k ∧ k < 0 then (n + k).toNat else s

theorem atStep_op {ts : TS K} {t0 t1 : K} {n s : Nat} (h : AtStep ts t0 t1 n s) (o : Op) :
    AtStep (o.run ts) t0 t1 n (o.stepAfter n s) := by
  cases o with
  | advance =>
    have := (atStep_advance h).1
    have e : min (s + 1) (n - 1) = Op.stepAfter n s .advance := by
      simp only [Op.stepAfter]; have := h.lt; split <;> omega
    rw [e] at this
    exact this
  | setStep k =>
    simp only [Op.run, Op.stepAfter]
    by_cases h1 : 0 ≤ k ∧ k < n
    · obtain ⟨ts', a, b⟩ := (atStep_setStep h k).1 k.toNat (by omega) (.inl (by omega))
      rw [a, if_pos h1]; exact b
    · by_cases h2 : -(n : Int) ≤ k ∧ k < 0
      · obtain ⟨ts', a, b⟩ := (atStep_setStep h k).1 (n + k).toNat (by omega) (.inr (by omega))
        rw [a, if_neg h1, if_pos h2]; exact b
      · rw [(atStep_setStep h k).2 (by omega), if_neg h1, if_neg h2]
        exact h

theorem atStep_iterLoop {t0 t1 : K} {n : Nat} : ∀ (c s : Nat) (ts : TS K), AtStep ts t0 t1 n s →
    s + c ≤ n →
    (ts.iterLoop c).1 = (List.range' s c).map (fun i => (i, equidistant t0 t1 n i)) ∧
    AtStep (ts.iterLoop c).2 t0 t1 n (min (s + c) (n - 1)) := by
  intro c
  induction c with
  | zero =>
    intro s ts h hc
    have := h.lt
    have e : min (s + 0) (n - 1) = s := by omega
    rw [e]
    exact ⟨by simp [TS.iterLoop], h⟩
  | succ c ih =>
    intro s ts h hc
    unfold TS.iterLoop
    have hadv := (atStep_advance h).1
    by_cases hlast : s + 1 < n
    · have e : min (s + 1) (n - 1) = s + 1 := by omega
      rw [e] at hadv
      obtain ⟨a, b⟩ := ih (s + 1) _ hadv (by omega)
      refine ⟨?_, ?_⟩
      · simp only [a, List.range'_succ, List.map_cons]
        rw [h.step, h.time]
      · have e : s + (c + 1) = s + 1 + c := by omega
        rw [e]; exact b
    · obtain rfl : c = 0 := by omega
      have hs : s + 1 = n := by omega
      refine ⟨?_, ?_⟩
      · simp only [TS.iterLoop, List.range'_succ, List.range'_zero, List.map_cons, List.map_nil]
        rw [h.step, h.time]
      · simp only [TS.iterLoop]
        have e : min (s + (0 + 1)) (n - 1) = min (s + 1) (n - 1) := by omega
        rw [e]; exact hadv

/-! ### C20 -/

section
variable [IsStrictOrderedRing K] [FloorRing K]

/-- C20: a stepper constructed with `n ≥ 1` steps and `t0 ≠ t1` is at the step 0. -/
theorem C20_construct (t0 t1 : K) (h : t0 ≠ t1) (dt : Option K) (hd : dt ≠ some 0)
    (n : Nat) (hn : 0 < n)
    (ns : Option Int) (hns : ns = some (n : Int) ∨ (ns = none ∧ getNStep t0 t1 (dt.getD (t1 - t0)) = n)) :
    ∃ ts, TS.new t0 t1 dt ns = .ok ts ∧ AtStep ts t0 t1 n 0 := by
  unfold TS.new
  have hd' : ¬ (dt.getD (t1 - t0) = 0 ∨ t1 = t0) := by
    rintro (h1 | h1)
    · cases dt with
      | none => simp only [Option.getD_none] at h1; exact h (by linarith)
      | some x => simp only [Option.getD_some] at h1; subst h1; exact hd rfl
    · exact h h1.symm
  have hN : ns.getD (getNStep t0 t1 (dt.getD (t1 - t0))) = (n : Int) := by
    rcases hns with rfl | ⟨rfl, h2⟩
    · rfl
    · exact h2
  simp only [hN]
  rw [if_neg hd', if_neg (by omega), Int.toNat_natCast]
  have key : ∀ ts : TS K, AtStep ts t0 t1 n 0 →
      ∃ ts', ts.setStep 0 = .ok ts' ∧ AtStep ts' t0 t1 n 0 := by
    intro ts hts
    have := (atStep_setStep hts 0).1 0 hn (.inl rfl)
    exact this
  apply key
  by_cases h1 : n > 1
  · rw [if_pos h1]
    refine ⟨rfl, rfl, rfl, hn, by simp only; rw [if_neg (by omega)], linspace_length _ _ _, ?_, rfl, ?_, ?_⟩
    · intro i hi; exact linspace_getD t0 t1 n i h1 hi
    · simp [equidistant]
    · simp
  · rw [if_neg h1]
    obtain rfl : n = 1 := by omega
    refine ⟨rfl, rfl, rfl, hn, by simp, rfl, ?_, rfl, ?_, ?_⟩
    · intro i hi
      obtain rfl : i = 0 := by omega
      simp [equidistant]
    · simp [equidistant]
    · simp

/-- C20: fewer than one step, a zero time step or `t0 = t1` are rejected. -/
theorem C20_construct_rejects (t0 t1 : K) (dt : Option K) (ns : Option Int) :
    (t0 = t1 ∨ dt = some 0 → TS.new t0 t1 dt ns = .error .zeroDivision) ∧
    (∀ n, t0 ≠ t1 → dt ≠ some 0 → ns = some n → n ≤ 0 → TS.new t0 t1 dt ns = .error .value) := by
  constructor
  · intro h
    unfold TS.new
    simp only
    rw [if_pos]
    rcases h with rfl | rfl
    · right; rfl
    · left; rfl
  · intro n h1 h2 h3 h4
    subst h3
    unfold TS.new
    simp only [Option.getD_some]
    rw [if_neg, if_pos h4]
    rintro (h | h)
    · cases dt with
      | none => simp only [Option.getD_none] at h; exact h1 (by linarith)
      | some x => simp only [Option.getD_some] at h; subst h; exact h2 rfl
    · exact h1 h.symm

/-- C20: the number of steps computed from a time step `dt > 0`: `n - 1` steps of the length
`dt` differ from the interval length by at most `dt / 2`; in particular an interval of exactly `m`
steps gives `n = m + 1`. -/
theorem C20_n_step (t0 t1 dt : K) (ht : t0 < t1) (hd : 0 < dt) :
    0 < getNStep t0 t1 dt ∧
    |((getNStep t0 t1 dt : K) - 1) * dt - (t1 - t0)| ≤ dt / 2 ∧
    ∀ m : Nat, t1 - t0 = m * dt → getNStep t0 t1 dt = m + 1 := by
  have h1 := Int.floor_le ((t1 - t0) / dt + 1 / 2)
  have h2 := Int.lt_floor_add_one ((t1 - t0) / dt + 1 / 2)
  have hq : 0 < (t1 - t0) / dt := div_pos (by linarith) hd
  have hmul : (t1 - t0) / dt * dt = t1 - t0 := by field_simp
  refine ⟨?_, ?_, ?_⟩
  · unfold getNStep
    have : 0 ≤ ⌊(t1 - t0) / dt + 1 / 2⌋ := Int.floor_nonneg.2 (by linarith)
    omega
  · unfold getNStep
    push_cast
    rw [abs_le]
    constructor
    · nlinarith
    · nlinarith
  · intro m hm
    unfold getNStep
    have : ⌊(t1 - t0) / dt + 1 / 2⌋ = (m : Int) := by
      rw [Int.floor_eq_iff]
      have e : (t1 - t0) / dt = m := by rw [hm]; field_simp
      rw [e]
      constructor
      · push_cast; linarith
      · push_cast; linarith
    omega

end

/-- C20: after any sequence of `advance` and `set_step` calls the step is as expected (advance
stops at the last step, `set_step` accepts exactly `-n, ..., n-1`), and time, times and the
normalized time are those of this step. -/
theorem C20_operations (ts : TS K) (t0 t1 : K) (n s : Nat) (h : AtStep ts t0 t1 n s)
    (ops : List Op) :
    AtStep (ops.foldl Op.run ts) t0 t1 n (ops.foldl (Op.stepAfter n) s) := by
  induction ops generalizing ts s with
  | nil => exact h
  | cons o os ih => exact ih _ _ (atStep_op h o)

/-- C20: `set_step` raises ValueError exactly outside of `-n, ..., n-1`. -/
theorem C20_set_step_range (ts : TS K) (t0 t1 : K) (n s : Nat) (h : AtStep ts t0 t1 n s)
    (k : Int) : (∃ ts', ts.setStep k = .ok ts') ↔ -(n : Int) ≤ k ∧ k < n := by
  constructor
  · rintro ⟨ts', e⟩
    by_contra hk
    rw [(atStep_setStep h k).2 (by omega)] at e
    cases e
  · rintro ⟨h1, h2⟩
    by_cases hk : 0 ≤ k
    · obtain ⟨t, a, _⟩ := (atStep_setStep h k).1 k.toNat (by omega) (.inl (by omega))
      exact ⟨t, a⟩
    · obtain ⟨t, a, _⟩ := (atStep_setStep h k).1 (n + k).toNat (by omega) (.inr (by omega))
      exact ⟨t, a⟩

/-- C20: iteration from the step `s0` (or from the end, for a negative one) yields exactly the steps
`s0, ..., n-1` with their times, from any state of the stepper. -/
theorem C20_iteration (ts : TS K) (t0 t1 : K) (n s s0 : Nat) (h : AtStep ts t0 t1 n s)
    (hs : s0 < n) (k : Int) (hk : k = s0 ∨ k = (s0 : Int) - n) :
    ∃ ts', ts.iterFrom k = .ok ((List.range' s0 (n - s0)).map
        (fun i => (i, equidistant t0 t1 n i)), ts') ∧ AtStep ts' t0 t1 n (n - 1) := by
  obtain ⟨ts1, a, b⟩ := (atStep_setStep h k).1 s0 hs hk
  unfold TS.iterFrom
  rw [a]
  simp only
  have hl : sliceLen ts1.times.length k = n - s0 := by
    rw [b.len]
    unfold sliceLen
    split
    · split <;> omega
    · omega
  rw [hl]
  obtain ⟨p, q⟩ := atStep_iterLoop (n - s0) s0 ts1 b (by omega)
  refine ⟨_, congrArg Except.ok (Prod.ext p rfl), ?_⟩
  have e : min (s0 + (n - s0)) (n - 1) = n - 1 := by omega
  rw [e] at q
  exact q

section
variable [IsStrictOrderedRing K]

/-- C20: the times of a stepper are `t0, ..., t1`, increasing by the constant `dt`, and the
normalized time goes from 0 to 1 within `[0, 1]`. -/
theorem C20_times (ts : TS K) (t0 t1 : K) (n s : Nat) (h : AtStep ts t0 t1 n s) (ht : t0 < t1)
    (hn : 1 < n) :
    equidistant t0 t1 n 0 = t0 ∧ equidistant t0 t1 n (n - 1) = t1 ∧ 0 < ts.dt ∧
    (∀ i, equidistant t0 t1 n (i + 1) = equidistant t0 t1 n i + ts.dt) ∧
    0 ≤ ts.nt ∧ ts.nt ≤ 1 ∧ (ts.nt = 1 ↔ s + 1 = n) ∧ (ts.nt = 0 ↔ s = 0) := by
  have hpos : (0 : K) < (n : K) - 1 := by
    have : (1 : K) < n := by exact_mod_cast hn
    linarith
  have hdt : ts.dt = (t1 - t0) / ((n : K) - 1) := by rw [h.dt, if_neg (by omega)]
  have hnt : ts.nt = (s : K) / ((n : K) - 1) := by
    rw [h.nt, h.time]
    unfold equidistant
    rw [if_neg (by omega)]
    have : t1 - t0 ≠ 0 := sub_ne_zero.2 (ne_of_gt ht)
    have := ne_of_gt hpos
    field_simp
    ring
  have hs : (s : K) ≤ (n : K) - 1 := by
    have := h.lt
    have : ((s + 1 : Nat) : K) ≤ n := by exact_mod_cast this
    push_cast at this
    linarith
  refine ⟨by simp [equidistant], ?_, ?_, ?_, ?_, ?_, ?_, ?_⟩
  · unfold equidistant
    rw [if_neg (by omega)]
    have e : ((n - 1 : Nat) : K) = (n : K) - 1 := by
      rw [Nat.cast_sub (by omega)]; simp
    rw [e]
    have := ne_of_gt hpos
    field_simp
    ring
  · rw [hdt]; exact div_pos (by linarith) hpos
  · intro i
    rw [hdt]
    unfold equidistant
    rw [if_neg (by omega), if_neg (by omega)]
    push_cast
    ring
  · rw [hnt]; positivity
  · rw [hnt, div_le_one hpos]; exact hs
  · rw [hnt, div_eq_one_iff_eq (ne_of_gt hpos)]
    constructor
    · intro e
      have : ((s + 1 : Nat) : K) = n := by push_cast; linarith
      exact_mod_cast this
    · intro e
      have : ((s + 1 : Nat) : K) = n := by rw [e]
      push_cast at this
      linarith
  · rw [hnt, div_eq_zero_iff]
    constructor
    · rintro (e | e)
      · exact_mod_cast e
      · exact absurd e (ne_of_gt hpos)
    · intro e; left; exact_mod_cast e
end

/-! ### C22, fixed step -/

/-- C22: `set_state(get_state())` on another stepper with the same data restores the step, the time and
the normalized time; iterating on gives the same steps and times. -/
theorem C22_fixed (ts other : TS K) (t0 t1 : K) (n s s' : Nat) (h : AtStep ts t0 t1 n s)
    (ho : AtStep other t0 t1 n s') :
    ∃ r, other.setState ts.getState = .ok r ∧ AtStep r t0 t1 n s ∧
      r.step = ts.step ∧ r.time = ts.time ∧ r.nt = ts.nt ∧
      (r.iterLoop (n - s)).1 = (ts.iterLoop (n - s)).1 := by
  unfold TS.setState TS.getState
  rw [h.step]
  obtain ⟨r, a, b⟩ := (atStep_setStep ho (s : Int)).1 s h.lt (.inl rfl)
  refine ⟨r, a, b, b.step, by rw [b.time, h.time], by rw [b.nt, h.nt, b.time, h.time], ?_⟩
  rw [(atStep_iterLoop (n - s) s r b (by have := h.lt; omega)).1,
    (atStep_iterLoop (n - s) s ts h (by have := h.lt; omega)).1]

/-! ### C43 -/

theorem atStep_driveLoop {V : Type} (solve : Nat → K → V → V) {t0 t1 : K} {n : Nat} :
    ∀ (c s : Nat) (ts : TS K) (v : V), AtStep ts t0 t1 n s → s + c ≤ n →
    (driveLoop solve c ts v).1 =
      (List.range' s c).foldl (fun v i => solve i (equidistant t0 t1 n i) v) v ∧
    AtStep (driveLoop solve c ts v).2 t0 t1 n (min (s + c) (n - 1)) := by
  intro c
  induction c with
  | zero =>
    intro s ts v h hc
    have := h.lt
    have e : min (s + 0) (n - 1) = s := by omega
    rw [e]
    exact ⟨by simp [driveLoop], h⟩
  | succ c ih =>
    intro s ts v h hc
    unfold driveLoop
    have hadv := (atStep_advance h).1
    by_cases hlast : s + 1 < n
    · have e : min (s + 1) (n - 1) = s + 1 := by omega
      rw [e] at hadv
      obtain ⟨a, b⟩ := ih (s + 1) _ (solve ts.step ts.time v) hadv (by omega)
      refine ⟨?_, ?_⟩
      · rw [a, List.range'_succ, List.foldl_cons, h.step, h.time]
      · have e : s + (c + 1) = s + 1 + c := by omega
        rw [e]; exact b
    · obtain rfl : c = 0 := by omega
      refine ⟨?_, ?_⟩
      · simp only [driveLoop, List.range'_succ, List.range'_zero, List.foldl_cons, List.foldl_nil]
        rw [h.step, h.time]
      · simp only [driveLoop]
        have e : min (s + (0 + 1)) (n - 1) = min (s + 1) (n - 1) := by omega
        rw [e]; exact hadv

/-- C43: with at least two steps, the driver started at the step 0 handles the step 0 by
`solve_step0` and then each of the steps `1, ..., n-1` exactly once, in order, at its time, each from
the result of the previous one; started (restarted) at a step `s > 0`, it handles exactly the steps `s, ..., n-1`. -/
theorem C43_each_step_once {V : Type} (solve0 : K → V → V) (solve : Nat → K → V → V) (ts : TS K)
    (t0 t1 : K) (n s : Nat) (h : AtStep ts t0 t1 n s) (v : V) :
    (s = 0 → 1 < n → ∃ ts', drive solve0 solve ts v = .ok
      ((List.range' 1 (n - 1)).foldl (fun v i => solve i (equidistant t0 t1 n i) v) (solve0 t0 v),
        ts') ∧ AtStep ts' t0 t1 n (n - 1)) ∧
    (0 < s → ∃ ts', drive solve0 solve ts v = .ok
      ((List.range' s (n - s)).foldl (fun v i => solve i (equidistant t0 t1 n i) v) v, ts') ∧
        AtStep ts' t0 t1 n (n - 1)) := by
  constructor
  · rintro rfl hn
    unfold drive
    simp only [h.step, if_true]
    have hadv := (atStep_advance h).1
    have e : min (0 + 1) (n - 1) = 1 := by omega
    rw [e] at hadv
    rw [hadv.step]
    obtain ⟨ts1, a, b⟩ := (atStep_setStep hadv ((1 : Nat) : Int)).1 1 hn (.inl rfl)
    rw [a]
    simp only
    have hl : sliceLen ts1.times.length ((1 : Nat) : Int) = n - 1 := by
      rw [b.len]; unfold sliceLen; rw [if_neg (by omega)]; omega
    rw [hl]
    obtain ⟨p, q⟩ := atStep_driveLoop solve (n - 1) 1 ts1 (solve0 ts.time v) b (by omega)
    have ht : ts.time = t0 := by rw [h.time]; simp [equidistant]
    rw [ht] at p q ⊢
    refine ⟨_, congrArg Except.ok (Prod.ext p rfl), ?_⟩
    have e : min (1 + (n - 1)) (n - 1) = n - 1 := by omega
    rw [e] at q
    exact q
  · intro hs
    unfold drive
    simp only [h.step]
    rw [if_neg (by omega)]
    simp only [h.step]
    have hlt := h.lt
    obtain ⟨ts1, a, b⟩ := (atStep_setStep h (s : Int)).1 s hlt (.inl rfl)
    rw [a]
    simp only
    have hl : sliceLen ts1.times.length (s : Int) = n - s := by
      rw [b.len]; unfold sliceLen; rw [if_neg (by omega)]; omega
    rw [hl]
    obtain ⟨p, q⟩ := atStep_driveLoop solve (n - s) s ts1 v b (by omega)
    refine ⟨_, congrArg Except.ok (Prod.ext p rfl), ?_⟩
    have e : min (s + (n - s)) (n - 1) = n - 1 := by omega
    rw [e] at q
    exact q

/-- C43: a run that is stopped after the step `s < n - 1` and restarted from the stored step gives the
same result as the uninterrupted run. -/
theorem C43_restart {V : Type} (solve0 : K → V → V) (solve : Nat → K → V → V) (ts fresh : TS K)
    (t0 t1 : K) (n s s' : Nat) (h : AtStep ts t0 t1 n 0) (hf : AtStep fresh t0 t1 n s')
    (hs : s + 1 < n) (v : V) :
    ∃ (w : V) (r ts1 ts2 : TS K), drive solve0 solve ts v = .ok (w, ts2) ∧
      restartInit fresh s = .ok r ∧
      drive solve0 solve r
        ((List.range' 1 s).foldl (fun v i => solve i (equidistant t0 t1 n i) v) (solve0 t0 v))
        = .ok (w, ts1) := by
  obtain ⟨ts2, a, _⟩ := (C43_each_step_once solve0 solve ts t0 t1 n 0 h v).1 rfl (by omega)
  obtain ⟨r0, b, c⟩ := (atStep_setStep hf (s : Int)).1 s (by omega) (.inl rfl)
  have hadv := (atStep_advance c).1
  have e : min (s + 1) (n - 1) = s + 1 := by omega
  rw [e] at hadv
  obtain ⟨ts1, p, _⟩ := (C43_each_step_once solve0 solve r0.advance t0 t1 n (s + 1) hadv
    ((List.range' 1 s).foldl (fun v i => solve i (equidistant t0 t1 n i) v) (solve0 t0 v))).2
    (by omega)
  refine ⟨_, r0.advance, ts1, ts2, a, ?_, ?_⟩
  · unfold restartInit TS.setState
    rw [b]
  · rw [p, ← List.foldl_append]
    congr 3
    have : n - 1 = s + (n - (s + 1)) := by omega
    rw [this, Nat.add_comm s 1, List.range'_append_1]

/-- C43, a finding: with a single time step, the step 0 is handled twice: by `solve_step0` and then again
by `solve_step`. -/
theorem C43_counterexample_single_step {V : Type} (solve0 : K → V → V) (solve : Nat → K → V → V)
    (ts : TS K) (t0 t1 : K) (h : AtStep ts t0 t1 1 0) (v : V) :
    ∃ ts', drive solve0 solve ts v = .ok (solve 0 t0 (solve0 t0 v), ts') := by
  unfold drive
  simp only [h.step, if_true]
  rw [(atStep_advance h).2 rfl]
  obtain ⟨ts1, a, b⟩ := (atStep_setStep h ((0 : Nat) : Int)).1 0 (by omega) (.inl rfl)
  rw [h.step, a]
  simp only
  have hl : sliceLen ts1.times.length ((0 : Nat) : Int) = 1 := by
    rw [b.len]; rfl
  rw [hl]
  simp only [driveLoop]
  have e0 : equidistant t0 t1 1 0 = t0 := by simp [equidistant]
  exact ⟨_, by rw [b.step, b.time, h.time, e0]⟩

/-- C43, a finding: restarting from the file of the last step solves the last step again. -/
theorem C43_counterexample_restart_at_end {V : Type} (solve0 : K → V → V)
    (solve : Nat → K → V → V) (fresh : TS K) (t0 t1 : K) (n s' : Nat) (hn : 1 < n)
    (hf : AtStep fresh t0 t1 n s') (v : V) :
    ∃ r ts1, restartInit fresh (n - 1) = .ok r ∧
      drive solve0 solve r v = .ok (solve (n - 1) (equidistant t0 t1 n (n - 1)) v, ts1) := by
  obtain ⟨r0, b, c⟩ := (atStep_setStep hf ((n - 1 : Nat) : Int)).1 (n - 1) (by omega) (.inl rfl)
  have hadv : r0.advance = r0 := (atStep_advance c).2 (by omega)
  obtain ⟨ts1, p, _⟩ := (C43_each_step_once solve0 solve r0 t0 t1 n (n - 1) c v).2 (by omega)
  refine ⟨r0, ts1, ?_, ?_⟩
  · unfold restartInit TS.setState
    rw [b]
    simp only
    rw [hadv]
  · rw [p]
    have : n - (n - 1) = 1 := by omega
    rw [this]
    rfl

/-! ### Sub-steps -/

/-- C20, sub-steps: `set_substep_time` followed by `restore_step_time` returns to the time of
the step. -/
theorem C20_substep (ts : TS K) (d : K) (h : ts.start = none) :
    ((ts.setSubstep d).restore).time = ts.time ∧ (ts.setSubstep d).restore = ts := by
  refine ⟨rfl, ?_⟩
  cases ts
  simp only at h
  subst h
  rfl

/-- C20, a finding: after two `set_substep_time` calls in one step, or after an `advance` within a
sub-step, `restore_step_time` does not return to the time of the current step. -/
theorem C20_counterexample_substep :
    ∃ ts : TS ℚ, AtStep ts 0 1 3 0 ∧
      (((ts.setSubstep (1/4)).setSubstep (1/4)).restore).time = 1/4 ∧
      (((ts.setSubstep (1/4)).advance).restore).step = 1 ∧
      (((ts.setSubstep (1/4)).advance).restore).time = 0 := by
  obtain ⟨ts, _, h⟩ := C20_construct (0 : ℚ) 1 (by norm_num) none (by simp) 3 (by omega)
    (some 3) (.inl rfl)
  refine ⟨ts, h, ?_, ?_, ?_⟩
  · show ts.time + 1/4 = 1/4
    rw [h.time]; simp [equidistant]
  · simp only [TS.setSubstep, TS.advance, TS.restore, h.step, h.n]
    simp
  · simp only [TS.setSubstep, TS.advance, TS.restore, h.step, h.n]
    simp [h.time, equidistant]

/-! ### C23 -/

/-- C23: a condition is active iff it has no times, there is no time stepper, the current time is in
one of the half-open intervals, or its function says so; a name without functions is an error. -/
theorem C23_active (times : BcTimes K) (time : Option K) :
    (isActiveBc times time = .ok true ↔
      (∃ l, times = .intervals l ∧ ∃ t, time = some t ∧ ∃ p ∈ l, p.1 ≤ t ∧ t < p.2) ∨
      (∃ f t, times = .func f ∧ time = some t ∧ f t = true) ∨ times = .always ∨ time = none) ∧
    ((∃ e, isActiveBc times time = .error e) ↔ times = .unknownName ∧ time ≠ none) := by
  cases times <;> cases time <;> simp [isActiveBc]

/-- C23: intervals sharing an end point never overlap there. -/
theorem C23_adjacent (a b c : K) (hab : a < b) (hbc : b < c) :
    isActiveBc (.intervals [(a, b)]) (some b) = .ok false ∧
    isActiveBc (.intervals [(b, c)]) (some b) = .ok true ∧
    isActiveBc (.intervals [(a, b)]) (some a) = .ok true := by
  simp [isActiveBc, hab, hbc]

/-! ### Non-vacuity -/

/-- A stepper with 4 steps on `[0, 3]`. -/
example : ∃ ts : TS ℚ, TS.new 0 3 (some 1) none = .ok ts ∧ AtStep ts 0 3 4 0 := by
  apply C20_construct (0 : ℚ) 3 (by norm_num) (some 1) (by simp) 4 (by omega) none
  right
  refine ⟨rfl, ?_⟩
  simp only [Option.getD_some]
  have := (C20_n_step (0 : ℚ) 3 1 (by norm_num) (by norm_num)).2.2 3 (by norm_num)
  simpa using this

end Verif.Time
