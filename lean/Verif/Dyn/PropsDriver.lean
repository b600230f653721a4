/-
C46: the time loop of the elastodynamics solvers.
-/
import Verif.Dyn.Driver
import Verif.Time.PropsFixed
import Verif.Time.PropsVariable

namespace Verif.Dyn

open Verif.Time

variable {K : Type} [Field K] [LinearOrder K] {S C : Type}

/-! ### Specification -/

/-- A sequence of `poststep_fun` calls from the state `vec` at the time `prev`, the next step number
being `k`: consecutive step numbers, each time is the previous time plus the step size, each
state is computed from the previous one by a step of the scheme with the matrices of this step
size, the controller has accepted it, and the sequence ends with the first state at or behind the
final time. -/
inductive Trace (step : K → K → K → S → S) (accepted : K → K → S → S → Prop) (t1 : K) :
    K → S → Nat → List (Rec K S) → Prop
  | last {prev : K} {vec : S} {k : Nat} {r : Rec K S} (hk : r.step = k) (ht : r.time = prev + r.dt)
      (hv : r.vec = vec) (hs : r.vect = step r.dt r.time r.dt vec)
      (ha : accepted r.time r.dt r.vec r.vect) (hend : t1 ≤ r.time) :
      Trace step accepted t1 prev vec k [r]
  | cons {prev : K} {vec : S} {k : Nat} {r : Rec K S} {rest : List (Rec K S)} (hk : r.step = k)
      (ht : r.time = prev + r.dt)
      (hv : r.vec = vec) (hs : r.vect = step r.dt r.time r.dt vec)
      (ha : accepted r.time r.dt r.vec r.vect) (hend : r.time < t1)
      (h : Trace step accepted t1 r.time r.vect (k + 1) rest) :
      Trace step accepted t1 prev vec k (r :: rest)

/-- The times visited with a given sequence: those before the final time, then either the first
one at or behind it or, if there is none, the final time. -/
def visited (t1 : K) : List K → List K
  | [] => [t1]
  | a :: as => if t1 ≤ a then [a] else a :: visited t1 as

/-! ### Fixed step -/

section
variable [IsStrictOrderedRing K]

theorem fixed_aux (step : K → K → S → S) (t0 t1 : K) (n : Nat) (ht : t0 < t1) (hn : 1 < n) :
    ∀ (m s : Nat) (ts : TS K) (vec : S), AtStep ts t0 t1 n s → s + m + 1 = n →
      ∀ fuel, m < fuel → ∃ ret log, fixedLoop step fuel ts vec = some (ret, log) ∧
        log.length = m + 1 ∧
        Trace (fun _ => step) (fun _ _ _ _ => True) t1 (equidistant t0 t1 n s - ts.dt) vec s log ∧
        (∀ i (hi : i < log.length), (log[i]).time = equidistant t0 t1 n (s + i) ∧
          (log[i]).dt = ts.dt) ∧
        (∃ r, log.getLast? = some r ∧ ret = r.vec) := by
  intro m
  induction m with
  | zero =>
    intro s ts vec h hs fuel hf
    obtain ⟨fuel, rfl⟩ : ∃ f, fuel = f + 1 := ⟨fuel - 1, by omega⟩
    obtain ⟨-, hlast, -, -, -, -, hnt, -⟩ := C20_times ts t0 t1 n s h ht hn
    have h1 : ts.nt = 1 := hnt.2 (by omega)
    simp only [fixedLoop]
    rw [if_pos (by rw [h1])]
    refine ⟨_, _, rfl, rfl, ?_, ?_, _, rfl, rfl⟩
    · refine .last h.step ?_ rfl rfl trivial ?_
      · simp only [h.time]; ring
      · simp only [h.time]
        rw [show s = n - 1 by omega, hlast]
    · intro i hi
      obtain rfl : i = 0 := by simp only [List.length_singleton] at hi; omega
      exact ⟨h.time, rfl⟩
  | succ m ih =>
    intro s ts vec h hs fuel hf
    obtain ⟨fuel, rfl⟩ : ∃ f, fuel = f + 1 := ⟨fuel - 1, by omega⟩
    obtain ⟨-, hlast, hdt, hinc, -, hle, hnt, -⟩ := C20_times ts t0 t1 n s h ht hn
    have h1 : ¬ ts.nt ≥ 1 := by
      intro hc
      have := hnt.1 (le_antisymm hle hc)
      omega
    have hadv := (atStep_advance h).1
    rw [show min (s + 1) (n - 1) = s + 1 by omega] at hadv
    have hdt' : ts.advance.dt = ts.dt := by rw [hadv.dt, h.dt]
    obtain ⟨ret, log, e, hlen, htr, htimes, r, hr, hret⟩ :=
      ih (s + 1) ts.advance (step ts.time ts.dt vec) hadv (by omega) fuel (by omega)
    simp only [fixedLoop]
    rw [if_neg h1, e]
    refine ⟨ret, _, rfl, by simp [hlen], ?_, ?_, r, ?_, hret⟩
    · refine .cons h.step ?_ rfl rfl trivial ?_ ?_
      · simp only [h.time]; ring
      · show ts.time < t1
        have : ts.nt < 1 := lt_of_not_ge h1
        rw [h.nt, div_lt_one (by linarith)] at this
        linarith
      · rw [hdt', hinc] at htr
        simp only [h.time] at htr ⊢
        convert htr using 1
        ring
    · intro i hi
      cases i with
      | zero => exact ⟨h.time, rfl⟩
      | succ i =>
        simp only [List.length_cons] at hi
        have := htimes i (by omega)
        simp only [List.getElem_cons_succ]
        rw [this.1, this.2]
        exact ⟨by congr 1; omega, hdt'⟩
    · cases log with
      | nil => simp at hlen
      | cons x xs => simpa using hr

/-- C46, fixed step: with `n ≥ 2` time steps the solver terminates, calls `poststep_fun` exactly for
the steps `1, ..., n - 1`, at the equidistant times, each state being one step of the scheme from
the previous one, starting from the initial state with the initial acceleration. -/
theorem C46_fixed (init : S → S) (step : K → K → S → S) (ts : TS K) (t0 t1 : K) (n : Nat)
    (h : AtStep ts t0 t1 n 0) (ht : t0 < t1) (hn : 1 < n) (vec0 : S) (fuel : Nat)
    (hf : n ≤ fuel) :
    ∃ ret log, fixedCall init step fuel ts vec0 = some (ret, log) ∧ log.length = n - 1 ∧
      Trace (fun _ => step) (fun _ _ _ _ => True) t1 t0 (init vec0) 1 log ∧
      ∀ i (hi : i < log.length), (log[i]).time = equidistant t0 t1 n (i + 1) ∧
        (log[i]).dt = ts.dt := by
  have hadv := (atStep_advance h).1
  rw [show min (0 + 1) (n - 1) = 1 by omega] at hadv
  obtain ⟨ret, log, e, hlen, htr, htimes, -⟩ :=
    fixed_aux step t0 t1 n ht hn (n - 2) 1 ts.advance (init vec0) hadv (by omega) fuel (by omega)
  have hdt' : ts.advance.dt = ts.dt := by rw [hadv.dt, h.dt]
  obtain ⟨h0, -, -, hinc, -⟩ := C20_times ts t0 t1 n 0 h ht hn
  refine ⟨ret, log, ?_, by omega, ?_, ?_⟩
  · simp only [fixedCall]
    rw [if_pos h.step, e]
  · rw [hdt', show (1 : Nat) = 0 + 1 from rfl, hinc, h0] at htr
    convert htr using 1
    ring
  · intro i hi
    rw [(htimes i hi).1, (htimes i hi).2, hdt', Nat.add_comm]
    exact ⟨rfl, rfl⟩

/-- C46, restart: from a step `s` in the middle of the computation the remaining steps are the same
as those of the whole computation: the same states at the same times. -/
theorem C46_fixed_restart (init : S → S) (step : K → K → S → S) (ts tsr : TS K) (t0 t1 : K)
    (n s : Nat) (h : AtStep ts t0 t1 n 0) (hr : AtStep tsr t0 t1 n (s + 1)) (ht : t0 < t1)
    (hn : 1 < n) (hs : 0 < s) (vec0 : S) (fuel : Nat) (hf : n ≤ fuel) :
    ∃ ret log, fixedCall init step fuel ts vec0 = some (ret, log) ∧
      ∀ r, log[s - 1]? = some r →
        ∃ ret', fixedCall init step fuel tsr r.vect = some (ret', log.drop s) := by
  have key : ∀ (k s : Nat) (ts tsr : TS K) (vec : S) (fuel fuel' : Nat), AtStep ts t0 t1 n s →
      AtStep tsr t0 t1 n (s + k + 1) → n - s ≤ fuel → n - (s + k + 1) ≤ fuel' →
      ∃ ret log, fixedLoop step fuel ts vec = some (ret, log) ∧
      ∀ r, log[k]? = some r →
        ∃ ret', fixedLoop step fuel' tsr r.vect = some (ret', log.drop (k + 1)) := by
    intro k
    induction k with
    | zero =>
      intro s ts tsr vec fuel fuel' h hr hf hf'
      have hlt := hr.lt
      obtain ⟨fuel, rfl⟩ : ∃ f, fuel = f + 1 := ⟨fuel - 1, by omega⟩
      obtain ⟨-, -, -, -, -, hle, hnt, -⟩ := C20_times ts t0 t1 n s h ht hn
      have h1 : ¬ ts.nt ≥ 1 := by
        intro hc
        have := hnt.1 (le_antisymm hle hc)
        omega
      have hadv := (atStep_advance h).1
      rw [show min (s + 1) (n - 1) = s + 1 by omega] at hadv
      obtain ⟨ret, log, e, -⟩ := fixed_aux step t0 t1 n ht hn (n - (s + 2)) (s + 1) ts.advance
        (step ts.time ts.dt vec) hadv (by omega) fuel (by omega)
      refine ⟨ret, ⟨ts.step, ts.time, ts.dt, vec, step ts.time ts.dt vec⟩ :: log, ?_, ?_⟩
      · simp only [fixedLoop]
        rw [if_neg h1, e]; rfl
      · intro r hr'
        simp only [List.getElem?_cons_zero, Option.some.injEq] at hr'
        subst hr'
        refine ⟨ret, ?_⟩
        simp only [List.drop_succ_cons, List.drop_zero]
        -- the loop depends on the fields `time`, `dt`, `nt` along the steps only
        have loop_eq : ∀ (m s : Nat) (a b : TS K) (v : S) (f g : Nat), AtStep a t0 t1 n s →
            AtStep b t0 t1 n s → s + m + 1 = n → m < f → m < g →
            fixedLoop step f a v = fixedLoop step g b v := by
          intro m
          induction m with
          | zero =>
            intro s a b v f g ha hb hs hf hg
            obtain ⟨f, rfl⟩ : ∃ x, f = x + 1 := ⟨f - 1, by omega⟩
            obtain ⟨g, rfl⟩ : ∃ x, g = x + 1 := ⟨g - 1, by omega⟩
            obtain ⟨-, -, -, -, -, -, hna, -⟩ := C20_times a t0 t1 n s ha ht hn
            obtain ⟨-, -, -, -, -, -, hnb, -⟩ := C20_times b t0 t1 n s hb ht hn
            simp only [fixedLoop]
            rw [if_pos (by rw [hna.2 (by omega)]), if_pos (by rw [hnb.2 (by omega)]), ha.time,
              hb.time, ha.dt, hb.dt, ha.step, hb.step]
          | succ m ih =>
            intro s a b v f g ha hb hs hf hg
            obtain ⟨f, rfl⟩ : ∃ x, f = x + 1 := ⟨f - 1, by omega⟩
            obtain ⟨g, rfl⟩ : ∃ x, g = x + 1 := ⟨g - 1, by omega⟩
            obtain ⟨-, -, -, -, -, hla, hna, -⟩ := C20_times a t0 t1 n s ha ht hn
            obtain ⟨-, -, -, -, -, hlb, hnb, -⟩ := C20_times b t0 t1 n s hb ht hn
            have haa := (atStep_advance ha).1
            have hba := (atStep_advance hb).1
            rw [show min (s + 1) (n - 1) = s + 1 by omega] at haa hba
            simp only [fixedLoop]
            rw [if_neg (fun hc => by have := hna.1 (le_antisymm hla hc); omega),
              if_neg (fun hc => by have := hnb.1 (le_antisymm hlb hc); omega), ha.time,
              hb.time, ha.dt, hb.dt, ha.step, hb.step]
            rw [ih (s + 1) a.advance b.advance _ f g haa hba (by omega) (by omega) (by omega)]
        have hr0 : AtStep tsr t0 t1 n (s + 1) := hr
        rw [← e]
        exact (loop_eq (n - (s + 2)) (s + 1) _ _ _ _ _ hadv hr0 (by omega) (by omega)
          (by omega)).symm
    | succ k ih =>
      intro s ts tsr vec fuel fuel' h hr hf hf'
      have hlt := hr.lt
      obtain ⟨fuel, rfl⟩ : ∃ f, fuel = f + 1 := ⟨fuel - 1, by omega⟩
      obtain ⟨-, -, -, -, -, hle, hnt, -⟩ := C20_times ts t0 t1 n s h ht hn
      have h1 : ¬ ts.nt ≥ 1 := by
        intro hc
        have := hnt.1 (le_antisymm hle hc)
        omega
      have hadv := (atStep_advance h).1
      rw [show min (s + 1) (n - 1) = s + 1 by omega] at hadv
      obtain ⟨ret, log, e, hk⟩ := ih (s + 1) ts.advance tsr (step ts.time ts.dt vec) fuel fuel' hadv
        (by rw [show s + 1 + k + 1 = s + (k + 1) + 1 by omega]; exact hr) (by omega) (by omega)
      refine ⟨ret, ⟨ts.step, ts.time, ts.dt, vec, step ts.time ts.dt vec⟩ :: log, ?_, ?_⟩
      · simp only [fixedLoop]
        rw [if_neg h1, e]; rfl
      · intro r hr'
        simp only [List.getElem?_cons_succ] at hr'
        obtain ⟨ret', he⟩ := hk r hr'
        exact ⟨ret', by rw [he]; rfl⟩
  have hadv := (atStep_advance h).1
  rw [show min (0 + 1) (n - 1) = 1 by omega] at hadv
  obtain ⟨ret, log, e, hk⟩ := key (s - 1) 1 ts.advance tsr (init vec0) fuel fuel hadv
    (by rw [show 1 + (s - 1) + 1 = s + 1 by omega]; exact hr) (by omega) (by omega)
  refine ⟨ret, log, ?_, ?_⟩
  · simp only [fixedCall]
    rw [if_pos h.step, e]
  · intro r hr'
    obtain ⟨ret', he⟩ := hk r hr'
    refine ⟨ret', ?_⟩
    simp only [fixedCall]
    rw [if_neg (by rw [hr.step]; omega), he, show s - 1 + 1 = s by omega]

/-- The vector returned by the solver is not the state of the last step but that of the step
before. -/
theorem C46_counterexample_returned (init : S → S) (step : K → K → S → S) (ts : TS K) (t0 t1 : K)
    (n : Nat) (h : AtStep ts t0 t1 n 0) (ht : t0 < t1) (hn : 1 < n) (vec0 : S) (fuel : Nat)
    (hf : n ≤ fuel) :
    ∃ ret log r, fixedCall init step fuel ts vec0 = some (ret, log) ∧ log.getLast? = some r ∧
      ret = r.vec ∧ r.vect = step r.time r.dt ret := by
  have hadv := (atStep_advance h).1
  rw [show min (0 + 1) (n - 1) = 1 by omega] at hadv
  obtain ⟨ret, log, e, hlen, htr, htimes, r, hr, hret⟩ :=
    fixed_aux step t0 t1 n ht hn (n - 2) 1 ts.advance (init vec0) hadv (by omega) fuel (by omega)
  refine ⟨ret, log, r, ?_, hr, hret, ?_⟩
  · simp only [fixedCall]
    rw [if_pos h.step, e]
  · rw [hret]
    have : ∀ (l : List (Rec K S)) p v k, Trace (fun _ => step) (fun _ _ _ _ => True) t1 p v k l →
        ∀ r, l.getLast? = some r → r.vect = step r.time r.dt r.vec := by
      intro l p v k htr
      induction htr with
      | last hk ht hv hs ha hend =>
        intro r hr
        simp only [List.getLast?_singleton, Option.some.injEq] at hr
        subst hr
        rw [hs, hv]
      | cons hk ht hv hs ha hend h ih =>
        intro r hr
        apply ih
        cases h <;> simpa using hr
    exact this _ _ _ _ htr r hr

/-- With a single time step the solver never stops: the time is `t0` for ever. -/
theorem C46_counterexample_single_step (init : S → S) (step : K → K → S → S) (ts : TS K) (t0 t1 : K)
    (h : AtStep ts t0 t1 1 0) (vec0 : S) (fuel : Nat) :
    fixedCall init step fuel ts vec0 = none := by
  have hnt : ts.nt = 0 := by
    rw [h.nt, h.time]; simp [equidistant]
  have hadv : ts.advance = ts := (atStep_advance h).2 rfl
  have : ∀ f v, fixedLoop step f ts v = none := by
    intro f
    induction f with
    | zero => intro v; rfl
    | succ f ih =>
      intro v
      simp only [fixedLoop]
      rw [if_neg (by rw [hnt]; simp), hadv, ih]
      rfl
  simp only [fixedCall]
  rw [if_pos h.step, hadv, this]
end

/-! ### Adaptive step -/

theorem setDt_shows {ts : VTS K} {t0 t1 : K} {ds : List K} {d : K} (h : Shows ts t0 t1 ds d)
    (d' : K) :
    Shows (if d' ≠ ts.dt then ts.setDt d' false else ts) t0 t1 ds d' := by
  by_cases hd : d' = ts.dt
  · rw [if_neg (by simpa using hd), hd, h.dt]; exact h
  · rw [if_pos hd]; exact shows_setDt_false h d'

/-- The controller has accepted the step. -/
def Accepted (tsc : C → VTS K → S → S → K × Bool × C) (time dt : K) (vec vect : S) : Prop :=
  ∃ c ts, ts.time = time ∧ ts.dt = dt ∧ (tsc c ts vec vect).2.1 = true

section
variable [IsStrictOrderedRing K]

theorem adaptive_aux (step : K → K → K → S → S) (tsc : C → VTS K → S → S → K × Bool × C)
    (linear : Bool) (t0 t1 : K) (ht : t0 < t1) :
    ∀ (fuel : Nat) (ts : VTS K) (vec : S) (cache : Option K) (c : C) (ds : List K) (d : K)
      (ret : S) (log : List (Rec K S)) (ts' : VTS K),
      Shows ts t0 t1 (ds ++ [d]) d → (cache = none ∨ cache = some ts.dt) →
      adaptiveLoop step tsc linear fuel ts vec cache c = some (ret, log, ts') →
      Trace step (Accepted tsc) t1 (t0 + ds.sum) vec (ds.length + 1) log ∧
        Shows ts' t0 t1 (ds ++ log.map (·.dt)) ts'.dt ∧
        ∃ r, log.getLast? = some r ∧ ret = r.vec := by
  intro fuel
  induction fuel with
  | zero => intro ts vec cache c ds d ret log ts' _ _ h; simp [adaptiveLoop] at h
  | succ f ih =>
    intro ts vec cache c ds d ret log ts' hsh hc h
    have hused : cache.getD ts.dt = ts.dt := by rcases hc with hc | hc <;> rw [hc] <;> rfl
    have htime : ts.time = t0 + ds.sum + ts.dt := by rw [hsh.time, hsh.dt]; simp [add_assoc]
    have hstep : ts.step = ds.length + 1 := by rw [hsh.step]; simp
    simp only [adaptiveLoop, hused] at h
    generalize hv : step ts.dt ts.time ts.dt vec = vect at h
    generalize hd : tsc c ts vec vect = r at h
    obtain ⟨nd, acc, c'⟩ := r
    simp only at h
    cases acc with
    | false =>
      simp only [if_true] at h
      have hs' := shows_setDt_true hsh (by simp) nd
      rw [List.dropLast_concat] at hs'
      refine ih _ _ _ _ _ nd _ _ _ hs' ?_ h
      rw [setDt_dt]
      by_cases hne : nd = ts.dt
      · subst hne
        cases linear <;> simp
      · left; rw [if_pos hne]
    | true =>
      rw [if_neg (by simp)] at h
      have hacc : Accepted tsc ts.time ts.dt vec vect := ⟨c, ts, rfl, rfl, by rw [hd]⟩
      have hdiv : ts.nt = (ts.time - t0) / (t1 - t0) := hsh.nt
      by_cases hnt : ts.nt ≥ 1
      · rw [if_pos hnt] at h
        simp only [Option.some.injEq, Prod.mk.injEq] at h
        obtain ⟨rfl, rfl, rfl⟩ := h
        refine ⟨.last hstep htime rfl hv.symm hacc ?_, ?_, _, rfl, rfl⟩
        · rw [hdiv, ge_iff_le, one_le_div (by linarith)] at hnt
          show t1 ≤ ts.time
          linarith
        · simp only [List.map_cons, List.map_nil, hsh.dt]; exact hsh
      · rw [if_neg hnt] at h
        have hs1 := shows_advance (setDt_shows hsh nd)
        cases hrec : adaptiveLoop step tsc linear f
            (if nd ≠ ts.dt then ts.setDt nd false else ts).advance vect
            (if nd ≠ ts.dt then none else if linear then some ts.dt else none) c' with
        | none => rw [hrec] at h; simp at h
        | some p =>
          rw [hrec] at h
          simp only [Option.map_some, Option.some.injEq, Prod.mk.injEq] at h
          obtain ⟨rfl, rfl, rfl⟩ := h
          obtain ⟨htr, hsh', r, hr, hret⟩ := ih _ _ _ _ _ nd p.1 p.2.1 p.2.2 hs1 (by
            rw [hs1.dt]
            by_cases hne : nd = ts.dt
            · subst hne
              cases linear <;> simp
            · left; rw [if_pos hne]) hrec
          refine ⟨?_, ?_, r, ?_, hret⟩
          · refine .cons hstep htime rfl hv.symm hacc ?_ ?_
            · show ts.time < t1
              rw [hdiv, ge_iff_le, one_le_div (by linarith)] at hnt
              linarith
            · simp only [htime, hsh.dt]
              simpa [add_assoc, add_comm, add_left_comm] using htr
          · simpa [hsh.dt] using hsh'
          · cases hl : p.2.1 with
            | nil => rw [hl] at hr; simp at hr
            | cons x xs => rw [hl] at hr; simpa using hr

/-- C46, adaptive step: whatever the controller does, if the solver returns then the states passed to
`poststep_fun` form a chain from the initial state at `t0` to a time at or behind `t1`: each one is
a step of the scheme of the size shown in the time stepper, with the matrices of this step size (the
cached matrix is never used with another step size), from the previous state, and was accepted; the
rejected attempts leave no trace; the times of the time stepper are those of the accepted
steps. -/
theorem C46_adaptive (init : S → S) (step : K → K → K → S → S)
    (tsc : C → VTS K → S → S → K × Bool × C) (linear : Bool) (fuel : Nat) (ts ts' : VTS K)
    (t0 t1 d : K) (ht : t0 < t1) (h : Shows ts t0 t1 [] d) (vec0 : S) (dt0 : K) (c : C) (ret : S)
    (log : List (Rec K S))
    (hr : adaptiveCall init step tsc linear fuel ts vec0 dt0 c = some (ret, log, ts')) :
    Trace step (Accepted tsc) t1 t0 (init vec0) 1 log ∧
      Shows ts' t0 t1 (log.map (·.dt)) ts'.dt := by
  have h1 := shows_setDt_true (shows_advance h) (by simp) dt0
  have h2 := adaptive_aux step tsc linear t0 t1 ht fuel _ _ none c [] dt0 ret log ts'
    (by simpa using h1) (Or.inl rfl) hr
  simp only [List.sum_nil, add_zero, List.length_nil, Nat.zero_add, List.nil_append] at h2
  exact ⟨h2.1, h2.2.1⟩

omit [IsStrictOrderedRing K] in
theorem seq_end (step : K → K → K → S → S) (linear : Bool) (f : Nat) (ts : VTS K) (vec : S)
    (cache : Option K) (c : Solver.Tsc.TimesSeq K) (h : ts.nt ≥ 1) :
    adaptiveLoop step (seqTsc (S := S)) linear (f + 1) ts vec cache c =
      some (vec, [⟨ts.step, ts.time, ts.dt, vec, step (cache.getD ts.dt) ts.time ts.dt vec⟩], ts) := by
  simp only [adaptiveLoop, seqTsc, Bool.true_eq_false, if_false]
  rw [if_pos h]

omit [IsStrictOrderedRing K] in
theorem seq_next (step : K → K → K → S → S) (linear : Bool) (f : Nat) (ts : VTS K) (vec : S)
    (cache : Option K) (c c' : Solver.Tsc.TimesSeq K) (nd : K) (h : ¬ ts.nt ≥ 1)
    (hc : c.call ts.time ts.t1 = (nd, c')) :
    adaptiveLoop step (seqTsc (S := S)) linear (f + 1) ts vec cache c =
      (adaptiveLoop step (seqTsc (S := S)) linear f
        (if nd ≠ ts.dt then ts.setDt nd false else ts).advance
        (step (cache.getD ts.dt) ts.time ts.dt vec)
        (if nd ≠ ts.dt then none else if linear then some (cache.getD ts.dt) else none) c').map
      fun p => (p.1,
        ⟨ts.step, ts.time, ts.dt, vec, step (cache.getD ts.dt) ts.time ts.dt vec⟩ :: p.2.1,
        p.2.2) := by
  rw [adaptiveLoop]
  simp only [seqTsc, hc, Bool.true_eq_false, if_false]
  rw [if_neg h]

/-- C46, `tsc.time_sequence`: for a strictly increasing sequence of times after `t0`, the solver
terminates and visits exactly these times up to the first one at or behind the final time; if the
sequence ends earlier, it continues with the final time. -/
theorem C46_times_sequence (init : S → S) (step : K → K → K → S → S) (linear : Bool)
    (ts : VTS K) (t0 t1 d : K) (ht : t0 < t1) (h : Shows ts t0 t1 [] d) (vec0 : S) (a : K)
    (as : List K) (hinc : (t0 :: a :: as).Pairwise (· < ·)) (fuel : Nat)
    (hf : as.length + 2 ≤ fuel) :
    ∃ dt0 c ret log ts', (⟨a :: as⟩ : Solver.Tsc.TimesSeq K).initialDt ts.t0 = some (dt0, c) ∧
      adaptiveCall init step (seqTsc (S := S)) linear fuel ts vec0 dt0 c = some (ret, log, ts') ∧
      log.map (·.time) = visited t1 (a :: as) := by
  have key : ∀ (as : List K) (fuel : Nat) (ts : VTS K) (vec : S) (cache : Option K) (ds : List K)
      (dd : K), Shows ts t0 t1 ds dd → (ts.time :: as).Pairwise (· < ·) →
      (as.length + 2 ≤ fuel ∨ (t1 ≤ ts.time ∧ 1 ≤ fuel)) →
      ∃ ret log ts', adaptiveLoop step (seqTsc (S := S)) linear fuel ts vec cache ⟨as⟩ =
        some (ret, log, ts') ∧
        log.map (·.time) = visited t1 (ts.time :: as) := by
    intro as
    induction as with
    | nil =>
      intro fuel ts vec cache ds dd hsh hp hf
      have hnt : ts.nt ≥ 1 ↔ t1 ≤ ts.time := by
        rw [hsh.nt, ge_iff_le, one_le_div (by linarith)]
        constructor <;> intro h <;> linarith
      obtain ⟨fuel, rfl⟩ : ∃ f, fuel = f + 1 := ⟨fuel - 1, by omega⟩
      by_cases hc : t1 ≤ ts.time
      · exact ⟨_, _, _, seq_end step linear fuel ts vec cache _ (hnt.2 hc), by simp [visited, hc]⟩
      · have hf1 : 1 ≤ fuel := by
          rcases hf with hf | hf
          · simp only [List.length_nil] at hf; omega
          · exact absurd hf.1 hc
        obtain ⟨fuel, rfl⟩ : ∃ f, fuel = f + 1 := ⟨fuel - 1, by omega⟩
        have hne : t1 - ts.time ≠ 0 := by
          rw [sub_ne_zero]
          intro e
          exact hc e.le
        have hcall : (⟨[]⟩ : Solver.Tsc.TimesSeq K).call ts.time ts.t1 = (t1 - ts.time, ⟨[]⟩) := by
          simp only [Solver.Tsc.TimesSeq.call, hsh.t1]
          rw [if_neg hne]
        have hs1 := shows_advance (setDt_shows hsh (t1 - ts.time))
        have htm : (if t1 - ts.time ≠ ts.dt then ts.setDt (t1 - ts.time) false
            else ts).advance.time = t1 := by
          rw [hs1.time, List.sum_append, ← add_assoc, ← hsh.time]; simp
        have hnt1 : (if t1 - ts.time ≠ ts.dt then ts.setDt (t1 - ts.time) false
            else ts).advance.nt ≥ 1 := by
          rw [hs1.nt, htm, ge_iff_le, one_le_div (by linarith)]
        rw [seq_next step linear _ ts vec cache _ _ _ (by rw [hnt]; exact hc) hcall,
          seq_end step linear _ _ _ _ _ hnt1]
        refine ⟨_, _, _, rfl, ?_⟩
        simp only [List.map_cons, List.map_nil, htm, visited]
        rw [if_neg hc]
    | cons b bs ih =>
      intro fuel ts vec cache ds dd hsh hp hf
      have hnt : ts.nt ≥ 1 ↔ t1 ≤ ts.time := by
        rw [hsh.nt, ge_iff_le, one_le_div (by linarith)]
        constructor <;> intro h <;> linarith
      obtain ⟨fuel, rfl⟩ : ∃ f, fuel = f + 1 := ⟨fuel - 1, by omega⟩
      by_cases hc : t1 ≤ ts.time
      · exact ⟨_, _, _, seq_end step linear fuel ts vec cache _ (hnt.2 hc), by simp [visited, hc]⟩
      · have hlt : ts.time < b := by
          rw [List.pairwise_cons] at hp
          exact hp.1 b (by simp)
        have hne : b - ts.time ≠ 0 := by
          rw [sub_ne_zero]; exact hlt.ne'
        have hcall : (⟨b :: bs⟩ : Solver.Tsc.TimesSeq K).call ts.time ts.t1 =
            (b - ts.time, ⟨bs⟩) := by
          simp only [Solver.Tsc.TimesSeq.call]
          rw [if_neg hne]
        have hs1 := shows_advance (setDt_shows hsh (b - ts.time))
        have htm : (if b - ts.time ≠ ts.dt then ts.setDt (b - ts.time) false
            else ts).advance.time = b := by
          rw [hs1.time, List.sum_append, ← add_assoc, ← hsh.time]; simp
        have hp' : (b :: bs).Pairwise (· < ·) := (List.pairwise_cons.1 hp).2
        have hf' : bs.length + 2 ≤ fuel ∨ (t1 ≤ b ∧ 1 ≤ fuel) := by
          rcases hf with hf | hf
          · left
            simp only [List.length_cons] at hf
            omega
          · exact absurd hf.1 hc
        obtain ⟨ret, log, ts', e, hl⟩ := ih fuel _ (step (cache.getD ts.dt) ts.time ts.dt vec)
          (if b - ts.time ≠ ts.dt then none
            else if linear then some (cache.getD ts.dt) else none) _ _ hs1
          (by rw [htm]; exact hp') (by rw [htm]; exact hf')
        rw [seq_next step linear _ ts vec cache _ _ _ (by rw [hnt]; exact hc) hcall, e]
        refine ⟨_, _, _, rfl, ?_⟩
        simp only [List.map_cons, hl, htm]
        conv_rhs => rw [visited, if_neg hc]
  have h1 := shows_setDt_true (shows_advance h) (by simp) (a - t0)
  have htm : (ts.advance.setDt (a - t0) true).time = a := by rw [h1.time]; simp
  obtain ⟨ret, log, ts', e, hl⟩ := key as fuel _ (init vec0) none _ _ h1
    (by rw [htm]; exact (List.pairwise_cons.1 hinc).2) (Or.inl hf)
  refine ⟨a - t0, ⟨as⟩, ret, log, ts', ?_, e, ?_⟩
  · simp [Solver.Tsc.TimesSeq.initialDt, h.t0]
  · rw [hl, htm]
end

/-- A repeated time in the sequence makes the solver take a step of the size 1 instead: the
sequence `1, 1, 2` on `[0, 3]` visits `1, 2, 3`. -/
theorem C46_counterexample_repeated_time :
    (adaptiveCall (S := Unit) id (fun _ _ _ v => v) (seqTsc (K := ℚ)) true 5
        ⟨0, 3, 1, 1, 1, 0, 0, 0, [0]⟩ () 1 ⟨[1, 2]⟩).map (fun p => p.2.1.map (·.time)) =
      some [1, 2, 3] := by
  decide +kernel

/-- A linear problem solved with `has_time_derivatives` by a solver that calls `get_matrices`
without `unpack` (`generalized_alpha`, `central_difference`, `velocity_verlet`, `bathe`) raises
TypeError in the first step after a change of the step size, because the matrices were cleared and
`vec` is `None`; and so does every linear computation by these solvers that starts from a restart
file (no `get_a0`). With `unpack` (`newmark`) there is no error. -/
theorem C46_counterexample_cleared_matrices {A : Type} (grad : Option Nat → A) :
    getMatrices true grad false none none = .error .type ∧
      getMatrices true grad true none none = .ok (grad none, some (grad none)) ∧
      ∀ m, getMatrices true grad false none (some m) = .ok (m, some m) := ⟨rfl, rfl, fun _ => rfl⟩

end Verif.Dyn
