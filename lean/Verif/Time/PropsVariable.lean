/-
C21, C22 (variable step), C44: the variable-step time stepper and the adaptivity loop.
-/
import Verif.Time.Model
import Mathlib.Tactic.Linarith
import Mathlib.Tactic.FieldSimp
import Mathlib.Tactic.Ring
import Mathlib.Tactic.Positivity
import Mathlib.Data.Rat.Floor
import Mathlib.Algebra.Order.Archimedean.Basic
import Mathlib.Algebra.BigOperators.Group.List.Basic

namespace Verif.Time

set_option linter.unusedSectionVars false

variable {K : Type} [Field K] [LinearOrder K]

/-! ### Small specification

What a user knows about the stepper: the sizes `ds` of the steps made so far and the size `dt` of the
next one. -/

/-- Operations on a variable stepper. -/
inductive VOp (K : Type) where
  | advance
  | setDt (dt : K) (update : Bool)
  | restart

/-- Effect of an operation on the step sizes: `advance` makes a step of the current size, a change
of the size with `update_time` changes the last step, too. -/
def VOp.effect : VOp K → List K × K → List K × K
  | .advance, (ds, dt) => (ds ++ [dt], dt)
  | .setDt d false, (ds, _) => (ds, d)
  | .setDt d true, (ds, _) => (ds.dropLast ++ [d], d)
  | .restart, (_, dt) => ([], dt)

/-- `update_time` makes sense only after a step. -/
def VOp.allowed : VOp K → List K × K → Prop
  | .setDt _ true, (ds, _) => ds ≠ []
  | _, _ => True

/-- All operations are allowed when called. -/
def allAllowed : List (VOp K) → List K × K → Prop
  | [], _ => True
  | o :: os, p => o.allowed p ∧ allAllowed os (o.effect p)

/-- The stepper as seen by the user: `times` are the partial sums of the step sizes from `t0`. -/
structure Shows (ts : VTS K) (a b : K) (ds : List K) (d : K) : Prop where
  t0 : ts.t0 = a
  t1 : ts.t1 = b
  dt : ts.dt = d
  step : ts.step = ds.length
  nStep : ts.nStep = ds.length + 1
  len : ts.times.length = ds.length + 1
  times : ∀ j, j ≤ ds.length → ts.times.getD j 0 = a + (ds.take j).sum
  time : ts.time = a + ds.sum
  nt : ts.nt = (ts.time - a) / (b - a)

/-- The model side of the operations. -/
def VOp.run : VOp K → VTS K → VTS K
  | .advance, ts => ts.advance
  | .setDt d u, ts => ts.setDt d u
  | .restart, ts => ts.reset

/-! ### Proofs -/

theorem getD_append_left' {l1 l2 : List K} {j : Nat} (h : j < l1.length) :
    (l1 ++ l2).getD j 0 = l1.getD j 0 := by
  simp [List.getD_eq_getElem?_getD, List.getElem?_append_left h]

theorem shows_advance {ts : VTS K} {t0 t1 : K} {ds : List K} {dt : K}
    (h : Shows ts t0 t1 ds dt) : Shows ts.advance t0 t1 (ds ++ [dt]) dt := by
  refine ⟨h.t0, h.t1, h.dt, ?_, ?_, ?_, ?_, ?_, ?_⟩
  · simp [VTS.advance, h.step]
  · simp [VTS.advance, h.step]
  · simp [VTS.advance, h.len]
  · intro j hj
    simp only [VTS.advance]
    rw [List.length_append, List.length_singleton] at hj
    by_cases hj' : j ≤ ds.length
    · rw [getD_append_left' (by rw [h.len]; omega), h.times j hj', List.take_append_of_le_length hj']
    · obtain rfl : j = ds.length + 1 := by omega
      rw [List.getD_eq_getElem?_getD, List.getElem?_append_right (by rw [h.len]), h.len,
        List.take_of_length_le (by simp), List.sum_append]
      simp [h.time, h.dt, add_assoc]
  · simp [VTS.advance, h.time, h.dt, add_assoc]
  · show normalize ts.t0 ts.t1 _ = _
    rw [h.t0, h.t1]; rfl

theorem shows_setDt_false {ts : VTS K} {t0 t1 : K} {ds : List K} {dt : K}
    (h : Shows ts t0 t1 ds dt) (d : K) : Shows (ts.setDt d false) t0 t1 ds d :=
  ⟨h.t0, h.t1, rfl, h.step, h.nStep, h.len, h.times, h.time, h.nt⟩

theorem shows_setDt_true {ts : VTS K} {t0 t1 : K} {ds : List K} {dt : K}
    (h : Shows ts t0 t1 ds dt) (hd : ds ≠ []) (d : K) :
    Shows (ts.setDt d true) t0 t1 (ds.dropLast ++ [d]) d := by
  have hpos : 0 < ds.length := List.length_pos_iff.2 hd
  have hl : (ds.dropLast ++ [d]).length = ds.length := by simp; omega
  have htake : ∀ j, j < ds.length → (ds.dropLast ++ [d]).take j = ds.take j := by
    intro j hj
    rw [List.take_append_of_le_length (by simp; omega), List.dropLast_eq_take, List.take_take]
    congr 1; omega
  have hprev : ts.times.getD (ts.step - 1) 0 = t0 + ds.dropLast.sum := by
    rw [h.step, h.times _ (by omega), List.dropLast_eq_take]
  have htime : (ts.setDt d true).time = t0 + (ds.dropLast ++ [d]).sum := by
    simp only [VTS.setDt, if_true]
    rw [if_neg (by rw [h.step]; omega), hprev]
    simp [add_assoc]
  refine ⟨h.t0, h.t1, rfl, ?_, ?_, ?_, ?_, htime, ?_⟩
  · rw [hl]; exact h.step
  · rw [hl]; exact h.nStep
  · rw [hl]; simp [VTS.setDt, h.len]
  · intro j hj
    rw [hl] at hj
    have e : (ts.setDt d true).times = ts.times.set ts.step (ts.setDt d true).time := by
      simp [VTS.setDt]
    rw [e, List.getD_eq_getElem?_getD, h.step]
    by_cases hj' : j < ds.length
    · rw [List.getElem?_set_ne (by omega), ← List.getD_eq_getElem?_getD, h.times j hj, htake j hj']
    · obtain rfl : j = ds.length := by omega
      rw [List.getElem?_set_self (by rw [h.len]; omega), List.take_of_length_le (by rw [hl])]
      simpa using htime
  · have e : (ts.setDt d true).nt = normalize ts.t0 ts.t1 (ts.setDt d true).time := by
      simp [VTS.setDt]
    rw [e, h.t0, h.t1]; rfl

theorem setDt_dt (ts : VTS K) (d : K) (u : Bool) : (ts.setDt d u).dt = d := by
  cases u <;> simp [VTS.setDt]

theorem shows_reset {ts : VTS K} {t0 t1 : K} {ds : List K} {dt : K}
    (h : Shows ts t0 t1 ds dt) : Shows ts.reset t0 t1 [] dt := by
  refine ⟨h.t0, h.t1, h.dt, rfl, rfl, rfl, ?_, ?_, ?_⟩
  · intro j hj
    obtain rfl : j = 0 := by simpa using hj
    simp [VTS.reset, h.t0]
  · simp [VTS.reset, h.t0]
  · simp [VTS.reset, h.t0]

/-- C21: the constructed stepper is at `t0`, with the default step size. -/
theorem C21_construct [FloorRing K] (t0 t1 : K) (ht : t0 ≠ t1) (dt : Option K) (hd : dt ≠ some 0)
    (nStep : Option Int) :
    ∃ ts, VTS.new t0 t1 dt nStep = .ok ts ∧ Shows ts t0 t1 [] ts.dt0 ∧
      ts.dt0 = (let n := nStep.getD (getNStep t0 t1 (dt.getD (t1 - t0)))
        if n > 1 then (t1 - t0) / ((n : K) - 1) else t1 - t0) := by
  unfold VTS.new
  have hd' : dt.getD (t1 - t0) ≠ 0 := by
    cases dt with
    | none => simpa using sub_ne_zero.2 ht.symm
    | some d => intro e; apply hd; simpa using e
  simp only
  rw [if_neg (by rintro (e | e); exacts [hd' e, ht e.symm])]
  refine ⟨_, rfl, ⟨rfl, rfl, rfl, rfl, rfl, rfl, ?_, ?_, ?_⟩, rfl⟩
  · intro j hj
    obtain rfl : j = 0 := by simpa using hj
    simp
  · simp
  · simp

/-- C21: after any sequence of allowed operations, the step number, the history of times, the current
time, the number of steps, the normalized time and the step size are those given by the sizes
of the steps made so far. -/
theorem C21_history (ops : List (VOp K)) (ts : VTS K) (t0 t1 : K) (ds : List K) (dt : K)
    (h : Shows ts t0 t1 ds dt) (ha : allAllowed ops (ds, dt)) :
    let p := ops.foldl (fun p o => o.effect p) (ds, dt)
    Shows (ops.foldl (fun t o => o.run t) ts) t0 t1 p.1 p.2 := by
  induction ops generalizing ts ds dt with
  | nil => exact h
  | cons o os ih =>
    obtain ⟨h1, h2⟩ := ha
    refine ih _ _ _ ?_ h2
    cases o with
    | advance => exact shows_advance h
    | setDt d u =>
      cases u with
      | false => exact shows_setDt_false h d
      | true => exact shows_setDt_true h h1 d
    | restart => exact shows_reset h

/-- C21: `set_step` accepts only 0 (go to the start), the current step and - with no effect -
negative numbers. -/
theorem C21_set_step (ts : VTS K) (k : Int) :
    ts.setStep k = if k = 0 then .ok ts.reset else if k < 0 ∨ k = ts.step then .ok ts
      else .error .value := by
  unfold VTS.setStep
  by_cases h0 : k = 0
  · subst h0; simp
  · by_cases h1 : k < 0
    · rw [if_neg (by omega), if_neg h0, if_neg h0, if_pos (.inl h1)]
    · by_cases h2 : k = ts.step
      · rw [if_neg (by omega), if_neg h0, if_neg h0, if_pos (.inr h2)]
      · rw [if_pos (by omega), if_neg h0, if_neg (by omega)]

/-- C21, a finding: `set_time_step(dt, update_time=True)` at the step 0 replaces the initial time:
the history no longer starts in `t0`. -/
theorem C21_counterexample_update_at_start (ts : VTS K) (t0 t1 dt : K)
    (h : Shows ts t0 t1 [] dt) (d : K) (hd : d ≠ 0) :
    (ts.setDt d true).step = 0 ∧ (ts.setDt d true).times = [t0 + d] ∧
      (ts.setDt d true).times ≠ [t0] := by
  have hs := h.step
  have ht : ts.times = [t0] := by
    have := h.len
    obtain ⟨x, hx⟩ : ∃ x, ts.times = [x] := List.length_eq_one_iff.1 (by simpa using this)
    have e := h.times 0 (by simp)
    rw [hx] at e ⊢
    simpa using e
  have e2 : (ts.setDt d true).times = [t0 + d] := by
    simp only [VTS.setDt, if_true, ht]
    rw [hs]
    simp
  refine ⟨hs, e2, ?_⟩
  rw [e2]
  simpa using hd

/-- The calls in a step as operations. -/
theorem foldl_setDt_eq (calls : List (K × Bool)) (ts : VTS K) :
    calls.foldl (fun t c => t.setDt c.1 c.2) ts
      = (calls.map fun c => VOp.setDt c.1 c.2).foldl (fun t o => o.run t) ts := by
  induction calls generalizing ts with
  | nil => rfl
  | cons c cs ih => exact ih _

section
variable [IsStrictOrderedRing K]

/-- The step sizes stay at least `δ`, and their number unchanged, under the calls. -/
theorem effect_calls (δ : K) (calls : List (K × Bool)) (hδ : ∀ c ∈ calls, δ ≤ c.1) :
    ∀ (ds : List K) (dt : K), (ds = [] → ∀ c ∈ calls, c.2 = false) → (∀ d ∈ ds, δ ≤ d) → δ ≤ dt →
    let ops := calls.map fun c => VOp.setDt c.1 c.2
    let p := ops.foldl (fun p o => o.effect p) (ds, dt)
    allAllowed ops (ds, dt) ∧ p.1.length = ds.length ∧ p.1.dropLast = ds.dropLast ∧
      (∀ d ∈ p.1, δ ≤ d) ∧ δ ≤ p.2 := by
  induction calls with
  | nil => intro ds dt _ h1 h2; exact ⟨trivial, rfl, rfl, h1, h2⟩
  | cons c cs ih =>
    intro ds dt h0 h1 h2
    obtain ⟨d, u⟩ := c
    have hd : δ ≤ d := hδ (d, u) (by simp)
    have ih' := ih (fun c hc => hδ c (by simp [hc]))
    cases u with
    | false =>
      obtain ⟨a, b, c, e, f⟩ := ih' ds d (fun hds c hc => h0 hds c (by simp [hc])) h1 hd
      exact ⟨⟨trivial, a⟩, b, c, e, f⟩
    | true =>
      have hne : ds ≠ [] := fun hds => by
        have := h0 hds (d, true) (by simp)
        simp at this
      have hpos : 0 < ds.length := List.length_pos_iff.2 hne
      obtain ⟨a, b, c, e, f⟩ := ih' (ds.dropLast ++ [d]) d (fun hds => by simp at hds) (by
        intro x hx
        rcases List.mem_append.1 hx with hx | hx
        · exact h1 x (List.dropLast_subset _ hx)
        · simp only [List.mem_singleton] at hx; subst hx; exact hd) hd
      refine ⟨⟨hne, a⟩, ?_, ?_, e, f⟩
      · refine Eq.trans b ?_
        rw [List.length_append, List.length_dropLast, List.length_singleton]
        omega
      · refine Eq.trans c ?_
        rw [List.dropLast_concat]

theorem sum_ge (δ : K) (ds : List K) (h : ∀ d ∈ ds, δ ≤ d) : (ds.length : K) * δ ≤ ds.sum := by
  induction ds with
  | nil => simp
  | cons d ds ih =>
    have h1 := ih fun x hx => h x (by simp [hx])
    have h2 := h d (by simp)
    simp only [List.length_cons, List.sum_cons]
    push_cast
    nlinarith

/-- C21: the iteration stops, whatever step sizes (with a positive lower bound) are chosen in the steps,
with the step size changes applied to the current step or only to the next one: it
yields consecutive steps, and when it stops, the history has increasing times, the last time - and only
it - reaching `t1`. -/
theorem C21_iteration [Archimedean K] (calls : VTS K → List (K × Bool)) (δ : K) (hδ : 0 < δ)
    (hc : ∀ ts c, c ∈ calls ts → δ ≤ c.1)
    (hu : ∀ ts : VTS K, ts.step = 0 → ∀ c ∈ calls ts, c.2 = false)
    (ts : VTS K) (t0 t1 : K) (ht : t0 < t1) (ds : List K) (dt : K) (h : Shows ts t0 t1 ds dt)
    (hds : ∀ d ∈ ds, δ ≤ d) (hdt : δ ≤ dt) (hin : t0 + ds.dropLast.sum < t1) :
    ∃ fuel, ∃ (ys : List (Nat × K)) (ts' : VTS K) (ds' : List K) (dt' : K),
      ts.iterate calls fuel = (ys, ts', true) ∧
      ys.map (·.1) = List.range' ds.length (ds'.length + 1 - ds.length) ∧
      Shows ts' t0 t1 ds' dt' ∧ ds.length ≤ ds'.length ∧ (∀ d ∈ ds', δ ≤ d) ∧
      t1 ≤ ts'.time ∧ t0 + ds'.dropLast.sum < t1 := by
  obtain ⟨N, hN⟩ := Archimedean.arch (t1 - t0) hδ
  have hN' : t1 - t0 ≤ (N : K) * δ := by simpa using hN
  have key : ∀ (m : Nat) (ts : VTS K) (ds : List K) (dt : K), N ≤ ds.length + m →
      Shows ts t0 t1 ds dt → (∀ d ∈ ds, δ ≤ d) → δ ≤ dt → t0 + ds.dropLast.sum < t1 →
      ∃ (ys : List (Nat × K)) (ts' : VTS K) (ds' : List K) (dt' : K),
      ts.iterate calls (m + 1) = (ys, ts', true) ∧
      ys.map (·.1) = List.range' ds.length (ds'.length + 1 - ds.length) ∧
      Shows ts' t0 t1 ds' dt' ∧ ds.length ≤ ds'.length ∧ (∀ d ∈ ds', δ ≤ d) ∧
      t1 ≤ ts'.time ∧ t0 + ds'.dropLast.sum < t1 := by
    intro m
    induction m with
    | zero =>
      intro ts ds dt hm h hds hdt hin
      obtain ⟨a, b, c, e, f⟩ := effect_calls δ (calls ts) (hc ts) ds dt
        (fun hds => hu ts (by rw [h.step, hds]; rfl)) hds hdt
      have hs := C21_history _ ts t0 t1 ds dt h a
      rw [← foldl_setDt_eq] at hs
      simp only at hs c b e f
      generalize hp : (List.foldl (fun p (o : VOp K) => o.effect p) (ds, dt)
        ((calls ts).map fun c => VOp.setDt c.1 c.2)) = p at hs b c e f
      have hge : t1 ≤ ((calls ts).foldl (fun t c => t.setDt c.1 c.2) ts).time := by
        rw [hs.time]
        have h1 := sum_ge δ p.1 e
        have h2 : (N : K) ≤ (p.1.length : K) := by rw [b]; exact_mod_cast (by omega)
        nlinarith
      have hnt : ((calls ts).foldl (fun t c => t.setDt c.1 c.2) ts).nt ≥ 1 := by
        rw [hs.nt, ge_iff_le, le_div_iff₀ (by linarith)]
        linarith
      refine ⟨[(ts.step, ts.time)], _, p.1, p.2, ?_, ?_, hs, by omega, e, hge, by rw [c]; exact hin⟩
      · unfold VTS.iterate
        simp only [hnt, if_true]
      · rw [b, h.step]
        have : ds.length + 1 - ds.length = 1 := by omega
        rw [this]; rfl
    | succ m ih =>
      intro ts ds dt hm h hds hdt hin
      obtain ⟨a, b, c, e, f⟩ := effect_calls δ (calls ts) (hc ts) ds dt
        (fun hds => hu ts (by rw [h.step, hds]; rfl)) hds hdt
      have hs := C21_history _ ts t0 t1 ds dt h a
      rw [← foldl_setDt_eq] at hs
      simp only at hs c b e f
      generalize hp : (List.foldl (fun p (o : VOp K) => o.effect p) (ds, dt)
        ((calls ts).map fun c => VOp.setDt c.1 c.2)) = p at hs b c e f
      rw [VTS.iterate]
      simp only
      by_cases hnt : ((calls ts).foldl (fun t c => t.setDt c.1 c.2) ts).nt ≥ 1
      · rw [if_pos hnt]
        refine ⟨_, _, p.1, p.2, rfl, ?_, hs, by omega, e, ?_, by rw [c]; exact hin⟩
        · rw [b, h.step]
          have : ds.length + 1 - ds.length = 1 := by omega
          rw [this]; rfl
        · rw [hs.nt, ge_iff_le, le_div_iff₀ (by linarith)] at hnt
          linarith
      · rw [if_neg hnt]
        have hlt : t0 + p.1.sum < t1 := by
          rw [hs.nt, ge_iff_le, le_div_iff₀ (by linarith), hs.time] at hnt
          linarith
        obtain ⟨ys, ts', ds', dt', i1, i2, i3, i4, i5, i6, i7⟩ := ih _ _ _
          (by simp only [List.length_append, List.length_singleton]; omega) (shows_advance hs)
          (by
            intro x hx
            rcases List.mem_append.1 hx with hx | hx
            · exact e x hx
            · simp only [List.mem_singleton] at hx; subst hx; exact f) f
          (by rw [List.dropLast_concat]; exact hlt)
        rw [List.length_append, List.length_singleton, b] at i4 i2
        refine ⟨(ts.step, ts.time) :: ys, ts', ds', dt', ?_, ?_, i3, by omega, i5, i6, i7⟩
        · rw [i1]
        · rw [List.map_cons, i2, h.step]
          have : ds'.length + 1 - ds.length = (ds'.length + 1 - (ds.length + 1)) + 1 := by omega
          rw [this, List.range'_succ]
  exact ⟨N + 1, key N ts ds dt (by omega) h hds hdt hin⟩

/-- C21: the times in the history are strictly increasing when the step sizes are positive. -/
theorem C21_increasing (ts : VTS K) (t0 t1 : K) (ds : List K) (dt : K) (h : Shows ts t0 t1 ds dt)
    (hds : ∀ d ∈ ds, 0 < d) (i j : Nat) (hij : i < j) (hj : j ≤ ds.length) :
    ts.times.getD i 0 < ts.times.getD j 0 := by
  rw [h.times i (by omega), h.times j hj]
  have e : ds.take j = ds.take i ++ (ds.drop i).take (j - i) := by
    conv_lhs => rw [show j = i + (j - i) by omega, List.take_add]
  rw [e, List.sum_append]
  have hpos : 0 < ((ds.drop i).take (j - i)).sum := by
    apply List.sum_pos
    · intro x hx
      exact hds x (List.drop_subset _ _ (List.take_subset _ _ hx))
    · intro e
      have := congrArg List.length e
      simp only [List.length_take, List.length_drop, List.length_nil] at this
      omega
  linarith

end

/-! ### C22, variable step -/

/-- C22: `set_state(get_state())` on another stepper with the same time interval and default
step size restores everything a solver uses, and from the next `advance` on the two steppers
are identical. -/
theorem C22_variable (ts other : VTS K) (t0 t1 : K) (ds ds' : List K) (dt dt' : K)
    (h : Shows ts t0 t1 ds dt) (ho : Shows other t0 t1 ds' dt') (hd : other.dt0 = ts.dt0) :
    ∃ r, other.setState ts.getState = .ok r ∧ r.step = ts.step ∧ r.time = ts.time ∧
      r.times = ts.times ∧ r.dt = ts.dt ∧ r.nt = ts.nt ∧ r.advance = ts.advance := by
  have hlast : ts.times.getLastD 0 = ts.time := by
    have e := h.times ds.length (le_refl _)
    rw [List.take_length, ← h.time] at e
    rw [← e, List.getLastD_eq_getLast?, List.getLast?_eq_getElem?, List.getD_eq_getElem?_getD, h.len]
    rfl
  unfold VTS.setState VTS.getState
  simp only [hlast]
  rw [if_pos (by rw [h.len, h.step])]
  have hnt : normalize other.t0 other.t1 ts.time = ts.nt := by
    rw [h.nt, ho.t0, ho.t1]; rfl
  refine ⟨_, rfl, rfl, rfl, rfl, rfl, hnt, ?_⟩
  have e0 : other.t0 = ts.t0 := by rw [ho.t0, h.t0]
  have e1 : other.t1 = ts.t1 := by rw [ho.t1, h.t1]
  simp only [VTS.advance]
  cases ts; cases other
  simp only at e0 e1 hd
  subst e0 e1 hd
  rfl

/-- C22, a finding: `n_step` is not restored: the stepper shows the number of steps of the
stepper `set_state` was called on until the next `advance`. -/
theorem C22_counterexample_n_step (ts fresh : VTS K) (t0 t1 : K) (ds : List K) (dt dt' : K)
    (h : Shows ts t0 t1 ds dt) (hds : ds ≠ []) (hf : Shows fresh t0 t1 [] dt') :
    ∃ r, fresh.setState ts.getState = .ok r ∧ r.step = ts.step ∧ r.nStep = 1 ∧
      ts.nStep ≠ 1 := by
  unfold VTS.setState VTS.getState
  simp only
  rw [if_pos (by rw [h.len, h.step])]
  refine ⟨_, rfl, rfl, hf.nStep, ?_⟩
  rw [h.nStep]
  have := List.length_pos_iff.2 hds
  omega

/-- C22, a finding: `get_state` returns the list of times of the stepper itself, not a copy: after an
`advance` the stored state (the old step and step size, the list already extended) is
refused by `set_state`. -/
theorem C22_counterexample_alias (ts other : VTS K) (t0 t1 : K) (ds : List K) (dt : K)
    (h : Shows ts t0 t1 ds dt) :
    other.setState (ts.getState.1, ts.getState.2.1, ts.advance.times) = .error .assertion := by
  unfold VTS.setState VTS.getState
  simp only
  rw [if_neg]
  simp [VTS.advance, h.len, h.step]

/-! ### C44: adaptivity -/

section
variable [IsStrictOrderedRing K]

/-- The values of `red` in the attempts: `red, red * f, red * f^2, ...`. -/
theorem attempts_aux (nls : Nat → VTS K → NlsStatus) (t0 t1 : K) :
    ∀ (fuel i : Nat) (ts : VTS K) (a : Adt K) (ds : List K) (d dt : K),
    Shows ts t0 t1 (ds ++ [d]) dt →
    ∀ (st : NlsStatus) (ts' : VTS K) (a' : Adt K), solveStep nls fuel i ts a = some (st, ts', a') →
    ∃ (k : Nat) (tk : VTS K) (dk : K),
      dk = (if k = 0 then d else a.dt0 * (a.red * a.redFactor ^ k)) ∧
      Shows tk t0 t1 (ds ++ [dk]) (if k = 0 then dt else dk) ∧ st = nls (i + k) tk ∧
      (∀ j, 0 < j → j ≤ k → a.redMax ≤ a.red * a.redFactor ^ j) ∧
      (st.converged = true ∨
        (st.converged = false ∧ a.red * a.redFactor ^ (k + 1) < a.redMax ∧
          a'.red = a.red * a.redFactor ^ (k + 1) ∧ ts' = tk)) ∧
      (st.converged = true →
        ts'.dt = tk.dt ∧ a'.red = a.red * a.redFactor ^ k ∨
        ts'.dt = a.dt0 * (a.red * a.redFactor ^ k * a.incFactor) ∧
          a'.red = a.red * a.redFactor ^ k * a.incFactor ∧ a.red * a.redFactor ^ k < 1 ∧
          st.nIter ≤ a.incOnIter) ∧
      ts'.step = tk.step ∧ ts'.time = tk.time ∧ ts'.times = tk.times := by
  intro fuel
  induction fuel with
  | zero => intro i ts a ds d dt h st ts' a' e; simp [solveStep] at e
  | succ fuel ih =>
    intro i ts a ds d dt h st ts' a' e
    unfold solveStep at e
    simp only at e
    by_cases hc : (nls i ts).converged = true
    · -- converged at once
      have hb : (adapt ts (nls i ts) a).1 = true := by
        unfold adapt
        rw [if_pos hc]
        split
        · split
          · split <;> rfl
          · rfl
        · rfl
      rw [hb] at e
      simp only [if_true, Option.some.injEq, Prod.mk.injEq] at e
      obtain ⟨rfl, e⟩ := e
      refine ⟨0, ts, d, rfl, by simpa using h, rfl, fun j h1 h2 => by omega, .inl hc, ?_, ?_⟩
      · intro _
        unfold adapt at e
        rw [if_pos hc] at e
        split at e
        · next hit =>
          split at e
          · split at e
            · next hred =>
              obtain ⟨rfl, rfl⟩ := Prod.mk.injEq .. ▸ e
              right
              simp only [pow_zero, mul_one]
              exact ⟨setDt_dt .., trivial, hred, hit⟩
            · obtain ⟨rfl, rfl⟩ := Prod.mk.injEq .. ▸ e
              left; simp
          · obtain ⟨rfl, rfl⟩ := Prod.mk.injEq .. ▸ e
            left; simp
        · obtain ⟨rfl, rfl⟩ := Prod.mk.injEq .. ▸ e
          left; simp
      · unfold adapt at e
        rw [if_pos hc] at e
        split at e
        · split at e
          · split at e
            · obtain ⟨rfl, rfl⟩ := Prod.mk.injEq .. ▸ e
              exact ⟨rfl, rfl, rfl⟩
            · obtain ⟨rfl, rfl⟩ := Prod.mk.injEq .. ▸ e
              exact ⟨rfl, rfl, rfl⟩
          · obtain ⟨rfl, rfl⟩ := Prod.mk.injEq .. ▸ e
            exact ⟨rfl, rfl, rfl⟩
        · obtain ⟨rfl, rfl⟩ := Prod.mk.injEq .. ▸ e
          exact ⟨rfl, rfl, rfl⟩
    · by_cases hr : a.red * a.redFactor < a.redMax
      · -- give up
        have had : adapt ts (nls i ts) a = (true, ts, { a with red := a.red * a.redFactor }) := by
          unfold adapt
          rw [if_neg hc, if_pos hr]
        rw [had] at e
        simp only [if_true, Option.some.injEq, Prod.mk.injEq] at e
        obtain ⟨rfl, rfl, rfl⟩ := e
        refine ⟨0, ts, d, rfl, by simpa using h, rfl, fun j h1 h2 => by omega,
          .inr ⟨by simpa using hc, by simpa using hr, by simp, rfl⟩, fun h => absurd h hc,
          rfl, rfl, rfl⟩
      · have had : adapt ts (nls i ts) a = (false, ts.setDt (a.dt0 * (a.red * a.redFactor)) true,
            { a with red := a.red * a.redFactor, wait := 0 }) := by
          unfold adapt
          rw [if_neg hc, if_neg hr]
        rw [had] at e
        simp only [Bool.false_eq_true, if_false] at e
        have hs := shows_setDt_true h (by simp) (a.dt0 * (a.red * a.redFactor))
        rw [List.dropLast_concat] at hs
        obtain ⟨k, tk, dk, h1, h2, h3, h4, h5, h6, h7⟩ := ih _ _ _ _ _ _ hs _ _ _ e
        simp only at h1 h2 h3 h4 h5 h6 h7
        have hp : ∀ j, a.red * a.redFactor * a.redFactor ^ j = a.red * a.redFactor ^ (j + 1) := by
          intro j; rw [pow_succ]; ring
        simp only [hp] at h1 h4 h5 h6
        have hdk : dk = a.dt0 * (a.red * a.redFactor ^ (k + 1)) := by
          rw [h1]
          split
          · next hk => subst hk; simp
          · rfl
        refine ⟨k + 1, tk, dk, by rw [if_neg (by omega)]; exact hdk, ?_, ?_, ?_, h5, h6, h7⟩
        · rw [if_neg (by omega)]
          have : (if k = 0 then a.dt0 * (a.red * a.redFactor) else dk) = dk := by
            split
            · next hk => rw [hdk, hk]; simp
            · rfl
          rw [this] at h2
          exact h2
        · rw [h3]; congr 1; omega
        · intro j hj1 hj2
          by_cases hj : j = 1
          · subst hj; simpa using not_lt.1 hr
          · have := h4 (j - 1) (by omega) (by omega)
            rwa [show j - 1 + 1 = j by omega] at this

/-- C44: what the adaptivity does in a step of size `d` following the steps of sizes `ds`.
The step is tried with the size `d`, then with the sizes `dt0 * red * f, dt0 * red * f^2, ...` until the solver
converges or the next `red` would be below the limit; the history of the previous steps is not
touched, the time of the step is always that of the previous step plus the size of the accepted
attempt.  After convergence the next size is the same, or - only if it was reduced before
and the solver needed few iterations - increased. Without convergence, the last attempt is kept. -/
theorem C44_attempts (nls : Nat → VTS K → NlsStatus) (t0 t1 : K) (fuel : Nat) (ts ts' : VTS K)
    (a a' : Adt K) (ds : List K) (d dt : K) (st : NlsStatus)
    (h : Shows ts t0 t1 (ds ++ [d]) dt) (hr : solveStep nls fuel 0 ts a = some (st, ts', a')) :
    ∃ (k : Nat) (tk : VTS K) (dk : K),
      dk = (if k = 0 then d else a.dt0 * (a.red * a.redFactor ^ k)) ∧
      Shows tk t0 t1 (ds ++ [dk]) (if k = 0 then dt else dk) ∧ st = nls k tk ∧
      (∀ j, 0 < j → j ≤ k → a.redMax ≤ a.red * a.redFactor ^ j) ∧
      (st.converged = true ∨
        (st.converged = false ∧ a.red * a.redFactor ^ (k + 1) < a.redMax ∧
          a'.red = a.red * a.redFactor ^ (k + 1) ∧ ts' = tk)) ∧
      (st.converged = true →
        ts'.dt = tk.dt ∧ a'.red = a.red * a.redFactor ^ k ∨
        ts'.dt = a.dt0 * (a.red * a.redFactor ^ k * a.incFactor) ∧
          a'.red = a.red * a.redFactor ^ k * a.incFactor ∧ a.red * a.redFactor ^ k < 1 ∧
          st.nIter ≤ a.incOnIter) ∧
      ts'.step = tk.step ∧ ts'.time = tk.time ∧ ts'.times = tk.times := by
  have := attempts_aux nls t0 t1 fuel 0 ts a ds d dt h st ts' a' hr
  simpa only [Nat.zero_add] using this

/-- C44: the adaptivity loop ends for every behaviour of the nonlinear solver. -/
theorem C44_terminates [Archimedean K] (nls : Nat → VTS K → NlsStatus) (ts : VTS K) (a : Adt K)
    (hf0 : 0 < a.redFactor) (hf1 : a.redFactor < 1) (hm : 0 < a.redMax) (hred : 0 < a.red) :
    ∃ fuel, solveStep nls fuel 0 ts a ≠ none := by
  obtain ⟨N, hN⟩ : ∃ N : Nat, a.red * a.redFactor ^ N < a.redMax := by
    obtain ⟨N, hN⟩ := exists_pow_lt_of_lt_one (div_pos hm hred) hf1
    refine ⟨N, ?_⟩
    rw [lt_div_iff₀ hred] at hN
    linarith [mul_comm a.red (a.redFactor ^ N)]
  have key : ∀ (m i : Nat) (ts : VTS K) (b : Adt K), b.redFactor = a.redFactor →
      b.redMax = a.redMax → 0 < b.red → b.red * b.redFactor ^ m < b.redMax →
      solveStep nls (m + 1) i ts b ≠ none := by
    intro m
    induction m with
    | zero =>
      intro i ts b h1 h2 h3 h4
      unfold solveStep
      have : (adapt ts (nls i ts) b).1 = true := by
        unfold adapt
        split
        · split
          · split
            · split <;> rfl
            · rfl
          · rfl
        · rw [if_pos]
          simp only [pow_zero, mul_one] at h4
          rw [h1]
          nlinarith
      simp [this]
    | succ m ih =>
      intro i ts b h1 h2 h3 h4
      unfold solveStep
      simp only
      by_cases hb : (adapt ts (nls i ts) b).1 = true
      · rw [if_pos hb]; simp
      · rw [if_neg hb]
        by_cases hc : (nls i ts).converged = true
        · exfalso; apply hb
          unfold adapt
          rw [if_pos hc]
          split
          · split
            · split <;> rfl
            · rfl
          · rfl
        · by_cases hr : b.red * b.redFactor < b.redMax
          · exfalso; apply hb
            unfold adapt
            rw [if_neg hc, if_pos hr]
          · have had : (adapt ts (nls i ts) b).2.2 =
                { b with red := b.red * b.redFactor, wait := 0 } := by
              unfold adapt
              rw [if_neg hc, if_neg hr]
            rw [had]
            refine ih _ _ _ h1 h2 ?_ ?_
            · simp only; rw [h1]; exact mul_pos h3 hf0
            · simp only
              rw [pow_succ] at h4
              linarith [mul_assoc b.red b.redFactor (b.redFactor ^ m),
                mul_comm b.redFactor (b.redFactor ^ m)]
  exact ⟨N + 1, key N 0 ts a rfl rfl hred hN⟩

/-- The states an adaptive run goes through, with any behaviour of the nonlinear solver; the flag
tells that some step was given up. -/
inductive AdaptRun (ts0 : VTS K) (a0 : Adt K) : VTS K → Adt K → Bool → Prop where
  | start : AdaptRun ts0 a0 ts0 a0 false
  | advance {ts a g} : AdaptRun ts0 a0 ts a g → AdaptRun ts0 a0 ts.advance a g
  | adapt {ts a g} (st : NlsStatus) : AdaptRun ts0 a0 ts a g →
      AdaptRun ts0 a0 (Time.adapt ts st a).2.1 (Time.adapt ts st a).2.2
        (g || (!st.converged && (Time.adapt ts st a).1))

theorem adapt_params (ts : VTS K) (st : NlsStatus) (a : Adt K) :
    (adapt ts st a).2.2.redFactor = a.redFactor ∧ (adapt ts st a).2.2.redMax = a.redMax ∧
    (adapt ts st a).2.2.incFactor = a.incFactor ∧ (adapt ts st a).2.2.dt0 = a.dt0 := by
  unfold adapt
  split
  · split
    · split
      · split <;> exact ⟨rfl, rfl, rfl, rfl⟩
      · exact ⟨rfl, rfl, rfl, rfl⟩
    · exact ⟨rfl, rfl, rfl, rfl⟩
  · split <;> exact ⟨rfl, rfl, rfl, rfl⟩


/-- C44: in a run started with the default step size, the step size never exceeds
`max(1, inc_factor)` times the default one, and, as long as no step was given up, it
never gets below `red_max` times the default one. -/
theorem C44_dt_bounds (ts0 : VTS K) (a0 : Adt K) (h0 : 0 < a0.dt0) (hdt : ts0.dt = a0.dt0)
    (hred : a0.red = 1) (hf0 : 0 < a0.redFactor) (hf1 : a0.redFactor ≤ 1) (hm : a0.redMax ≤ 1)
    (hi : 1 ≤ a0.incFactor) (ts : VTS K) (a : Adt K) (g : Bool)
    (h : AdaptRun ts0 a0 ts a g) :
    0 < ts.dt ∧ ts.dt ≤ a0.dt0 * a0.incFactor ∧
    (g = false → ts.dt = a0.dt0 * a.red ∧ a0.dt0 * a0.redMax ≤ ts.dt) := by
  suffices H : (a.redFactor = a0.redFactor ∧ a.redMax = a0.redMax ∧ a.incFactor = a0.incFactor ∧
      a.dt0 = a0.dt0) ∧ 0 < a.red ∧ a.red ≤ a0.incFactor ∧ 0 < ts.dt ∧
      ts.dt ≤ a0.dt0 * a0.incFactor ∧
      (g = false → ts.dt = a0.dt0 * a.red ∧ a0.redMax ≤ a.red) by
    obtain ⟨_, _, _, h1, h2, h3⟩ := H
    refine ⟨h1, h2, fun hg => ?_⟩
    obtain ⟨e, f⟩ := h3 hg
    exact ⟨e, by rw [e]; exact mul_le_mul_of_nonneg_left f h0.le⟩
  induction h with
  | start =>
    refine ⟨⟨rfl, rfl, rfl, rfl⟩, by rw [hred]; exact one_pos, by rw [hred]; exact hi,
      by rw [hdt]; exact h0, ?_, fun _ => ⟨by rw [hdt, hred, mul_one], by rw [hred]; exact hm⟩⟩
    rw [hdt]; nlinarith
  | advance _ ih => exact ih
  | @adapt ts a g st _ ih =>
    obtain ⟨⟨p1, p2, p3, p4⟩, r0, r1, d0, d1, hg⟩ := ih
    obtain ⟨q1, q2, q3, q4⟩ := adapt_params ts st a
    refine ⟨⟨q1.trans p1, q2.trans p2, q3.trans p3, q4.trans p4⟩, ?_⟩
    unfold adapt
    by_cases hc : st.converged = true
    · simp only [hc, if_true]
      split
      · split
        · split
          · next hlt =>
            have e1 : 0 < a.red * a.incFactor := mul_pos r0 (by rw [p3]; linarith)
            have e2 : a.red * a.incFactor ≤ a0.incFactor := by rw [p3]; nlinarith
            simp only [setDt_dt]
            refine ⟨e1, e2, by rw [p4]; exact mul_pos h0 e1, by
              rw [p4]; exact mul_le_mul_of_nonneg_left e2 h0.le, fun hgf => ?_⟩
            rw [p4]
            refine ⟨rfl, ?_⟩
            have := (hg (by simpa using hgf)).2
            rw [p3]
            nlinarith
          · exact ⟨r0, r1, d0, d1, fun hgf => hg (by simpa using hgf)⟩
        · exact ⟨r0, r1, d0, d1, fun hgf => hg (by simpa using hgf)⟩
      · exact ⟨r0, r1, d0, d1, fun hgf => hg (by simpa using hgf)⟩
    · have hc' : st.converged = false := by simpa using hc
      have e1 : 0 < a.red * a.redFactor := mul_pos r0 (by rw [p1]; exact hf0)
      have e2 : a.red * a.redFactor ≤ a0.incFactor := by rw [p1]; nlinarith
      simp only [hc', Bool.false_eq_true, if_false]
      split
      · refine ⟨e1, e2, d0, d1, fun hgf => ?_⟩
        simp at hgf
      · next hge =>
        simp only [setDt_dt]
        refine ⟨e1, e2, by rw [p4]; exact mul_pos h0 e1, by
          rw [p4]; exact mul_le_mul_of_nonneg_left e2 h0.le, fun hgf => ?_⟩
        rw [p4]
        exact ⟨rfl, by rw [← p2]; exact not_lt.1 hge⟩

end

/-- C44: after a reduction the step size is increased exactly when `dt_inc_wait + 1` consecutive steps
converged in at most `dt_inc_on_iter` iterations: before that nothing but the counter changes; a
slowly converging step starts the counting again. -/
theorem C44_increase (ts : VTS K) (a : Adt K) (hw : a.wait = 0) (sts : List NlsStatus)
    (hs : ∀ st ∈ sts, st.converged = true ∧ st.nIter ≤ a.incOnIter) (hl : sts.length ≤ a.incWait)
    (st : NlsStatus) (hc : st.converged = true) :
    let r := sts.foldl (fun (p : VTS K × Adt K) st => (adapt p.1 st p.2).2) (ts, a)
    r.1 = ts ∧ r.2.red = a.red ∧
    (st.nIter ≤ a.incOnIter → sts.length = a.incWait →
      ((adapt r.1 st r.2).2.1.dt = if a.red < 1 then a.dt0 * (a.red * a.incFactor) else ts.dt) ∧
      (adapt r.1 st r.2).2.2.wait = 0) ∧
    (a.incOnIter < st.nIter →
      (adapt r.1 st r.2).2.1 = ts ∧ (adapt r.1 st r.2).2.2 = a) := by
  have key : ∀ (sts : List NlsStatus), (∀ st ∈ sts, st.converged = true ∧ st.nIter ≤ a.incOnIter) →
      ∀ w, w + sts.length ≤ a.incWait →
      sts.foldl (fun (p : VTS K × Adt K) st => (adapt p.1 st p.2).2) (ts, { a with wait := w })
        = (ts, { a with wait := w + sts.length }) := by
    intro sts
    induction sts with
    | nil => intro _ w _; rfl
    | cons s ss ih =>
      intro h w hw
      obtain ⟨h1, h2⟩ := h s (by simp)
      rw [List.length_cons] at hw
      rw [List.foldl_cons]
      have e : (adapt ts s { a with wait := w }).2 = (ts, { a with wait := w + 1 }) := by
        unfold adapt
        rw [if_pos h1, if_pos h2, if_neg (by simp only; omega)]
      rw [e, ih (fun st hst => h st (by simp [hst])) (w + 1) (by omega), List.length_cons]
      rw [show w + 1 + ss.length = w + (ss.length + 1) by omega]
  have ha : ({ a with wait := 0 } : Adt K) = a := by cases a; simp only at hw; subst hw; rfl
  have e := key sts hs 0 (by omega)
  rw [ha] at e
  simp only
  rw [e]
  refine ⟨rfl, rfl, fun h1 h2 => ?_, fun h1 => ?_⟩
  · have hadapt : adapt ts st { a with wait := 0 + sts.length } =
        if a.red < 1 then
          (true, ts.setDt (a.dt0 * (a.red * a.incFactor)) false,
            { a with red := a.red * a.incFactor, wait := 0 })
        else (true, ts, { a with wait := 0 }) := by
      unfold adapt
      rw [if_pos hc, if_pos h1, if_pos (by simp only; omega)]
    rw [hadapt]
    split
    · exact ⟨setDt_dt .., rfl⟩
    · exact ⟨rfl, rfl⟩
  · have hadapt : adapt ts st { a with wait := 0 + sts.length } = (true, ts, a) := by
      unfold adapt
      rw [if_pos hc, if_neg (by simp only; omega)]
      rw [show ({ ({ a with wait := 0 + sts.length } : Adt K) with wait := 0 } : Adt K) = a from ha]
    rw [hadapt]
    exact ⟨rfl, rfl⟩

/-- C44, a finding: `red` is reduced also when a step is given up, although the step size stays: a later
"increase" of the step size then makes it smaller, below the limit.  Here `dt0 = 1`,
`red_factor = 1/10`, `red_max = 1/10`, `inc_factor = 2`: a step fails with the size 1, fails
with 1/10 and is given up; after the next quickly converging step the size "increased" from
1/10 is 2/100. -/
theorem C44_counterexample_give_up :
    ∃ (ts0 : VTS ℚ) (a0 : Adt ℚ), ts0.dt = 1 ∧ a0.dt0 = 1 ∧ a0.red = 1 ∧
      a0.redMax = 1/10 ∧ a0.incFactor = 2 ∧
      let r1 := adapt ts0 ⟨false, 1⟩ a0
      let r2 := adapt r1.2.1 ⟨false, 1⟩ r1.2.2
      let r3 := adapt r2.2.1.advance ⟨true, 1⟩ r2.2.2
      r1.1 = false ∧ r1.2.1.dt = 1/10 ∧ r2.1 = true ∧ r2.2.1.dt = 1/10 ∧
      r3.1 = true ∧ r3.2.1.dt = 1/50 ∧ r3.2.1.dt < a0.dt0 * a0.redMax := by
  refine ⟨⟨0, 10, 1, 1, 2, 1, 1, 1/10, [0, 1]⟩, ⟨1/10, 1/10, 2, 4, 0, 1, 0, 1⟩,
    rfl, rfl, rfl, rfl, rfl, ?_⟩
  norm_num [adapt, VTS.setDt, VTS.advance]

/-! ### Non-vacuity -/

/-- A stepper on `[0, 1]` with 5 steps, a reduction of the first step and an unchanged second one. -/
example : ∃ ts : VTS ℚ, VTS.new 0 1 none (some 5) = .ok ts ∧
    allAllowed [.advance, .setDt (1/8) true, .advance] (([] : List ℚ), ts.dt0) ∧
    ([VOp.advance, .setDt (1/8) true, .advance].foldl (fun p o => o.effect p) (([] : List ℚ), ts.dt0))
      = ([1/8, 1/8], 1/8) := by
  obtain ⟨ts, h, hs, _⟩ := C21_construct (0 : ℚ) 1 (by norm_num) none (by simp) (some 5)
  refine ⟨ts, h, ?_, ?_⟩
  · simp [allAllowed, VOp.allowed, VOp.effect]
  · simp [VOp.effect]

end Verif.Time
