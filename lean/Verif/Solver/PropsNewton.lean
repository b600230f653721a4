import Verif.Solver.PropsLs
import Mathlib.Data.List.Chain

/-!
C40: the Newton solver.
-/

namespace Verif.Solver

variable {K : Type} [Field K] [LinearOrder K]
variable {V M : Type} [AddCommGroup V] [Module K V]

/-! ### Specification -/

/-- `e` describes iteration 0: the residual at the initial guess, the first matrix and the first
linear solve. -/
structure FirstIter (conf : Conf K) (env : NEnv K V M) (x0 : V) (e : SolveRec K V M) : Prop where
  it : e.it = 0
  x : e.x = x0
  r : env.f x0 = .ok e.r
  err : env.norm e.r = some e.err
  mtx : e.mtx = if conf.isLinear then env.gradLinear else env.grad x0
  itJac : e.itJac = 0
  dx : e.dx = env.linSolve e.mtx e.r e.x
  notYet : convTest conf 0 e.err e.err = -1

/-- The line search between two iterates: started in `e.x` in the direction `step_red * e.dx`, it
ends successfully with trial `n` in `x` with the residual `r` of norm `err`. -/
def SearchedTo (conf : Conf K) (env : NEnv K V M) (e : SolveRec K V M) (x r : V) (err : K) :
    Prop :=
  ∃ n, (∀ k < n, Continues conf ⟨env.f, env.norm, fun r => env.linSolve e.mtx r e.x⟩ e.x
      (conf.stepRed • e.dx) (e.it + 1) e.err k) ∧
    EndsWith conf ⟨env.f, env.norm, fun r => env.linSolve e.mtx r e.x⟩ e.x
      (conf.stepRed • e.dx) (e.it + 1) e.err n (.ret x r err true)

/-- `e'` is the Newton iteration that follows `e`; `err0` is the initial error. -/
structure NextIter (conf : Conf K) (env : NEnv K V M) (err0 : K) (e e' : SolveRec K V M) :
    Prop where
  it : e'.it = e.it + 1
  search : SearchedTo conf env e e'.x e'.r e'.err
  notYet : convTest conf e'.it e'.err err0 = -1
  mtx : (e'.mtx, e'.itJac) =
    if conf.isLinear then (env.gradLinear, e.itJac)
    else if env.isNew e'.it e.itJac e'.r e.r e'.x e.x then (env.grad e'.x, e'.it)
    else (e.mtx, e.itJac)
  dx : e'.dx = env.linSolve e'.mtx e'.r e'.x

/-- The list of the linear solves of a run. -/
def IsRun (conf : Conf K) (env : NEnv K V M) (x0 : V) (log : List (SolveRec K V M)) : Prop :=
  (∀ e, log.head? = some e → FirstIter conf env x0 e) ∧
  ∀ e0, log.head? = some e0 → log.IsChain (NextIter conf env e0.err)

/-- The state given by the log. -/
def StOk (x0 : V) (conf : Conf K) (st : NState K V M) : Prop :=
  match st.log.getLast? with
  | none => st.it = 0 ∧ st.xLast = x0 ∧ st.dx = 0 ∧ st.mtx = none ∧ st.itJac = 0
  | some e => st.it = e.it + 1 ∧ st.x = e.x ∧ st.xLast = e.x ∧ st.rLast = e.r ∧
      st.dx = conf.stepRed • e.dx ∧ st.errLast = e.err ∧ st.mtx = some e.mtx ∧
      st.itJac = e.itJac ∧ ∃ e0, st.log.head? = some e0 ∧ st.err0 = e0.err

structure NInv (conf : Conf K) (env : NEnv K V M) (x0 : V) (st : NState K V M) : Prop where
  run : IsRun conf env x0 st.log
  sto : StOk x0 conf st
  len : st.it = st.log.length
  le : (st.it : Int) ≤ max conf.iMax 0

/-- How the solver ends after the solves `log`. -/
def NEnds (conf : Conf K) (env : NEnv K V M) (x0 : V) (log : List (SolveRec K V M)) :
    NOut K V → Prop
  | .done x c n err err0 =>
    n = log.length ∧
    (match log.getLast? with
     | none => x = x0 ∧ err = err0
     | some _ => ∃ e0, log.head? = some e0 ∧ err0 = e0.err) ∧
    -- the last line search succeeded in `x`, or gave up there
    ((∃ r, env.f x = .ok r ∧ env.norm r = some err ∧ c = convTest conf n err err0 ∧ 0 ≤ c ∧
        ∀ e, log.getLast? = some e → SearchedTo conf env e x r err) ∨
     (conf.giveUpWarp = true ∧ env.f x = .valueError ∧ 0 < n ∧
        ((c = convTest conf n err err0 ∧ 0 ≤ c) ∨ (c = 2 ∧ convTest conf n err err0 = -1))))
  | .valueError => True
  | .unbound => conf.giveUpWarp = true

/-! ### Proofs -/

theorem convTest_neg (conf : Conf K) (it : Nat) (err err0 : K) :
    ¬ 0 ≤ convTest conf it err err0 →
    convTest conf it err err0 = -1 ∧ (it : Int) < conf.iMax := by
  intro h
  rcases convTest_cases conf it err err0 with ⟨_, e⟩ | ⟨_, _, e⟩ | ⟨_, i, e⟩
  · exact absurd (by simp [e]) h
  · exact absurd (by simp [e]) h
  · exact ⟨e, i⟩

theorem getLast?_append_one {α : Type} (l : List α) (a : α) : (l ++ [a]).getLast? = some a := by
  simp

theorem head?_append_one {α : Type} (l : List α) (a b : α) (h : l.head? = some b) :
    (l ++ [a]).head? = some b := by
  cases l with
  | nil => simp at h
  | cons c t => simpa using h

theorem nStep_spec (conf : Conf K) (env : NEnv K V M) (x0 : V) (lsFuel : Nat)
    (st : NState K V M) (h : NInv conf env x0 st) :
    match nStep conf env lsFuel st with
    | none => True
    | some (.inr o) => o.2 = st.log ∧ NEnds conf env x0 o.2 o.1
    | some (.inl st') => NInv conf env x0 st' ∧ st'.it = st.it + 1 := by
  obtain ⟨hrun, hst, hlen, hle⟩ := h
  unfold nStep
  simp only
  generalize hrel : (fun r => match st.mtx with
    | some m => env.linSolve m r st.x
    | none => 0) = relin
  cases hls : lineSearch conf ⟨env.f, env.norm, relin⟩ st.xLast st.dx st.it st.errLast lsFuel with
  | none => trivial
  | some p =>
    obtain ⟨o, calls⟩ := p
    obtain ⟨n, _, hbef, hend⟩ := C27_line_search conf _ _ _ _ _ _ _ _ hls
    cases o with
    | valueError => exact ⟨rfl, trivial⟩
    | unbound => exact ⟨rfl, hend.2.2.1⟩
    | ret x r err ok =>
      simp only
      cases hlast : st.log.getLast? with
      | none =>
        -- iteration 0
        have hnil : st.log = [] := by simpa using hlast
        unfold StOk at hst
        rw [hlast] at hst
        obtain ⟨i0, ix, idx, im, ij⟩ := hst
        have hok : ok = true := by
          cases ok with
          | true => rfl
          | false => exact absurd i0 hend.2.2.2.1
        subst hok
        have hx : x = x0 := by
          rw [hend.1, trial, ix, idx]; simp
        have hf : env.f x = .ok r := hend.2.1
        have hn : env.norm r = some err := hend.2.2.1
        simp only [i0, if_true]
        by_cases hc : convTest conf 0 err err ≥ 0
        · simp only [hc, if_true]
          refine ⟨trivial, by simp [hnil], ?_, ?_⟩
          · simp [hnil, hx]
          · refine .inl ⟨r, hf, hn, rfl, hc, ?_⟩
            intro e he; simp [hnil] at he
        · simp only [hc, if_false]
          obtain ⟨c1, c2⟩ := convTest_neg conf 0 err err hc
          simp only [im, Bool.not_true, Bool.false_and]
          have key : FirstIter conf env x0
              ⟨0, x, r, err, (if conf.isLinear then (env.gradLinear, st.itJac)
                else (env.grad x, 0)).1, (if conf.isLinear then (env.gradLinear, st.itJac)
                else (env.grad x, 0)).2, env.linSolve (if conf.isLinear then
                  (env.gradLinear, st.itJac) else (env.grad x, 0)).1 r x⟩ := by
            refine ⟨rfl, hx, hx ▸ hf, hn, ?_, ?_, rfl, c1⟩
            · cases conf.isLinear <;> simp [hx]
            · cases conf.isLinear <;> simp [ij]
          refine ⟨⟨⟨?_, ?_⟩, ?_, by simp [hnil], ?_⟩, rfl⟩
          · intro e he
            simp only [hnil, List.nil_append, List.head?_cons, Option.some.injEq] at he
            rw [← he]; exact key
          · intro e0 _
            simp [hnil]
          · unfold StOk
            simp [hnil]
          · have : (0 : Int) < conf.iMax := by simpa using c2
            have := le_max_left conf.iMax 0
            show ((0 + 1 : Nat) : Int) ≤ _
            omega
      | some e =>
        unfold StOk at hst
        rw [hlast] at hst
        obtain ⟨ie, ixx, ix, ir, idx, iel, im, ij, e0, he0, ierr0⟩ := hst
        have hit : st.it ≠ 0 := by omega
        have hrel' : relin = fun r => env.linSolve e.mtx r e.x := by
          rw [← hrel]; simp only [im, ixx]
        rw [hrel', ix, idx, iel, ie] at hbef hend
        simp only [hit, if_false]
        have hfirst : ∀ c : Int, (c = convTest conf st.it err st.err0 ∧ 0 ≤ c) ∨
            (c = 2 ∧ convTest conf st.it err st.err0 = -1 ∧ ok = false) →
            NEnds conf env x0 st.log (.done x c st.it err st.err0) := by
          intro c hc
          refine ⟨hlen, ?_, ?_⟩
          · rw [hlast]; exact ⟨e0, he0, ierr0⟩
          · cases ok with
            | true =>
              rcases hc with hc | hc
              · refine .inl ⟨r, hend.2.1, hend.2.2.1, hc.1, hc.2, ?_⟩
                intro e' he'
                rw [hlast] at he'
                cases he'
                exact ⟨n, hbef, hend⟩
              · exact absurd hc.2.2 (by simp)
            | false =>
              refine .inr ⟨hend.2.2.1, hend.2.1, by omega, ?_⟩
              rcases hc with hc | hc
              · exact .inl hc
              · exact .inr ⟨hc.1, hc.2.1⟩
        by_cases hc : convTest conf st.it err st.err0 ≥ 0
        · simp only [hc, if_true]
          exact ⟨trivial, hfirst _ (.inl ⟨rfl, hc⟩)⟩
        · simp only [hc, if_false]
          obtain ⟨c1, c2⟩ := convTest_neg conf st.it err st.err0 hc
          by_cases hw : (!ok && conf.giveUpWarp) = true
          · simp only [hw, if_true]
            refine ⟨trivial, hfirst _ (.inr ⟨rfl, c1, ?_⟩)⟩
            cases ok <;> simp_all
          · simp only [hw]
            have hok : ok = true := by
              cases ok with
              | true => rfl
              | false => exact absurd hend.2.2.1 (by simpa using hw)
            subst hok
            simp only [im]
            have key : NextIter conf env e0.err e
                ⟨st.it, x, r, err, (if conf.isLinear = true then (env.gradLinear, st.itJac)
                  else if env.isNew st.it st.itJac r st.rLast x st.xLast = true
                    then (env.grad x, st.it) else (e.mtx, st.itJac)).1,
                  (if conf.isLinear = true then (env.gradLinear, st.itJac)
                  else if env.isNew st.it st.itJac r st.rLast x st.xLast = true
                    then (env.grad x, st.it) else (e.mtx, st.itJac)).2,
                  env.linSolve (if conf.isLinear = true then (env.gradLinear, st.itJac)
                  else if env.isNew st.it st.itJac r st.rLast x st.xLast = true
                    then (env.grad x, st.it) else (e.mtx, st.itJac)).1 r x⟩ := by
              refine ⟨ie, ⟨n, hbef, hend⟩, by rw [← ierr0]; exact c1, ?_, rfl⟩
              simp only [ij, ir, ix, Prod.mk.eta]
            refine ⟨⟨⟨?_, ?_⟩, ?_, by simp [hlen], ?_⟩, rfl⟩
            · intro e1 he1
              rw [head?_append_one _ _ e0 he0] at he1
              cases he1
              exact hrun.1 e0 he0
            · intro e1 he1
              rw [head?_append_one _ _ e0 he0] at he1
              cases he1
              rw [List.isChain_append]
              refine ⟨hrun.2 e0 he0, by simp, ?_⟩
              intro a ha b hb
              rw [hlast] at ha
              simp only [Option.mem_def, Option.some.injEq, List.head?_cons] at ha hb
              rw [← ha, ← hb]
              exact key
            · unfold StOk
              rw [getLast?_append_one]
              refine ⟨rfl, rfl, rfl, rfl, rfl, rfl, rfl, rfl, e0, ?_, ierr0⟩
              exact head?_append_one _ _ e0 he0
            · have := le_max_left conf.iMax 0
              show ((st.it + 1 : Nat) : Int) ≤ _
              omega

theorem nLoop_spec (conf : Conf K) (env : NEnv K V M) (x0 : V) (lsFuel n : Nat) :
    ∀ (st : NState K V M) (o : NOut K V × List (SolveRec K V M)), NInv conf env x0 st →
    nLoop conf env lsFuel n st = some o →
    IsRun conf env x0 o.2 ∧ (o.2.length : Int) ≤ max conf.iMax 0 ∧ NEnds conf env x0 o.2 o.1 := by
  induction n with
  | zero => intro st o _ h; simp [nLoop] at h
  | succ n ih =>
    intro st o hi h
    have hs := nStep_spec conf env x0 lsFuel st hi
    unfold nLoop at h
    cases hst : nStep conf env lsFuel st with
    | none => simp [hst] at h
    | some p =>
      rw [hst] at h hs
      cases p with
      | inr o' =>
        simp only [Option.some.injEq] at h
        subst h
        obtain ⟨h1, h2⟩ := hs
        exact ⟨h1 ▸ hi.run, by rw [h1, ← hi.len]; exact hi.le, h2⟩
      | inl st' => exact ih st' o hs.1 h

theorem nInv_init (conf : Conf K) (env : NEnv K V M) (x0 : V) :
    NInv conf env x0
      { it := 0, itJac := 0, x := x0, xLast := x0, rLast := 0, dx := 0, mtx := none,
        err0 := -1, errLast := -1, log := [] } :=
  ⟨⟨fun e h => by simp at h, fun e h => by simp at h⟩,
   by simp [StOk], rfl, by simp⟩

/-- C40: the run of the Newton solver: the linear solves are those of the (modified, damped)
Newton iteration started in the initial guess, there are at most `i_max` of them, and the
returned vector and status are as described by `NEnds`. -/
theorem C40_run (conf : Conf K) (env : NEnv K V M) (x0 : V) (lsFuel fuel : Nat)
    (o : NOut K V) (log : List (SolveRec K V M))
    (h : newton conf env x0 lsFuel fuel = some (o, log)) :
    IsRun conf env x0 log ∧ log.length ≤ conf.iMax.toNat ∧ NEnds conf env x0 log o := by
  obtain ⟨h1, h2, h3⟩ := nLoop_spec conf env x0 lsFuel fuel _ _ (nInv_init conf env x0) h
  refine ⟨h1, ?_, h3⟩
  simp only at h2
  omega

/-- C40: without `give_up_warp`: the reported number of iterations is the number of linear
solves, at most `i_max`; the status is 0 or 1; the returned vector is the one whose residual was
computed last, its norm is the reported error, and the status is 0 exactly when this error
meets the tolerances; status 1 exactly when it does not and `i_max` iterations were made. -/
theorem C40_status (conf : Conf K) (env : NEnv K V M) (x0 : V) (lsFuel fuel : Nat)
    (x : V) (c : Int) (n : Nat) (err err0 : K) (log : List (SolveRec K V M))
    (hg : conf.giveUpWarp = false)
    (h : newton conf env x0 lsFuel fuel = some (.done x c n err err0, log)) :
    n = log.length ∧ n ≤ conf.iMax.toNat ∧
    (∃ r, env.f x = .ok r ∧ env.norm r = some err) ∧
    (∃ r0, env.f x0 = .ok r0 ∧ env.norm r0 = some err0) ∧
    (c = 0 ∨ c = 1) ∧
    (c = 0 ↔ TolMet conf n err err0) ∧
    (c = 1 ↔ ¬ TolMet conf n err err0 ∧ n = conf.iMax.toNat) := by
  obtain ⟨h1, h2, h3, h4, h5⟩ := C40_run conf env x0 lsFuel fuel _ log h
  rcases h5 with ⟨r, f1, f2, f3, f4, _⟩ | ⟨h5, _⟩
  · obtain ⟨t1, t2, t3⟩ := C26_conv_test conf n err err0
    refine ⟨h3, by omega, ⟨r, f1, f2⟩, ?_, ?_, by rw [f3]; exact t1, ?_⟩
    · cases hl : log.getLast? with
      | none =>
        rw [hl] at h4
        obtain ⟨e1, e2⟩ := h4
        exact ⟨r, e1 ▸ f1, e2 ▸ f2⟩
      | some e =>
        rw [hl] at h4
        obtain ⟨e0, he0, e2⟩ := h4
        have := h1.1 e0 he0
        exact ⟨e0.r, this.r, e2 ▸ this.err⟩
    · rcases convTest_cases conf n err err0 with ⟨_, e⟩ | ⟨_, _, e⟩ | ⟨_, _, e⟩
      · exact .inl (f3.trans e)
      · exact .inr (f3.trans e)
      · rw [f3, e] at f4; simp at f4
    · rw [f3, t2]
      constructor
      · rintro ⟨a, b⟩; exact ⟨a, by omega⟩
      · rintro ⟨a, b⟩; exact ⟨a, by omega⟩
  · rw [hg] at h5; simp at h5

/-- C40: with `give_up_warp`, status 0 or 1 still refers to the returned vector unless the
residual evaluation failed in it; status 2 is only reported when it failed. -/
theorem C40_status_give_up (conf : Conf K) (env : NEnv K V M) (x0 : V) (lsFuel fuel : Nat)
    (x : V) (c : Int) (n : Nat) (err err0 : K) (log : List (SolveRec K V M))
    (h : newton conf env x0 lsFuel fuel = some (.done x c n err err0, log)) :
    n = log.length ∧ n ≤ conf.iMax.toNat ∧
    ((∃ r, env.f x = .ok r ∧ env.norm r = some err ∧ (c = 0 ∨ c = 1) ∧
        (c = 0 ↔ TolMet conf n err err0)) ∨
     (conf.giveUpWarp = true ∧ env.f x = .valueError ∧ (c = 0 ∨ c = 1 ∨ c = 2))) := by
  obtain ⟨_, h2, h3, _, h5⟩ := C40_run conf env x0 lsFuel fuel _ log h
  refine ⟨h3, by omega, ?_⟩
  rcases h5 with ⟨r, f1, f2, f3, f4, _⟩ | ⟨h5, h6, _, h8⟩
  · refine .inl ⟨r, f1, f2, ?_, by rw [f3]; exact (C26_conv_test conf n err err0).1⟩
    rcases convTest_cases conf n err err0 with ⟨_, e⟩ | ⟨_, _, e⟩ | ⟨_, _, e⟩
    · exact .inl (f3.trans e)
    · exact .inr (f3.trans e)
    · rw [f3, e] at f4; simp at f4
  · refine .inr ⟨h5, h6, ?_⟩
    rcases h8 with ⟨e, e'⟩ | ⟨e, _⟩
    · rcases convTest_cases conf n err err0 with ⟨_, i⟩ | ⟨_, _, i⟩ | ⟨_, _, i⟩
      · exact .inl (e.trans i)
      · exact .inr (.inl (e.trans i))
      · rw [e, i] at e'; simp at e'
    · exact .inr (.inr e)

/-- C40: each iterate is reached from the previous one along the (reduced) solution of the linear
system with the current tangent matrix: `x' = x - ls * step_red * dx` with a step factor `ls` of
the line search. -/
theorem C40_iterates (conf : Conf K) (env : NEnv K V M) (x0 : V) (lsFuel fuel : Nat)
    (o : NOut K V) (log : List (SolveRec K V M))
    (h : newton conf env x0 lsFuel fuel = some (o, log)) (k : Nat) (e e' : SolveRec K V M)
    (he : log[k]? = some e) (he' : log[k + 1]? = some e') :
    e.it = k ∧ e'.it = k + 1 ∧
    e.dx = env.linSolve e.mtx e.r e.x ∧ env.f e.x = .ok e.r ∧
    (∃ n, e'.x = e.x - lsSeq conf env.f e.x (conf.stepRed • e.dx) n • conf.stepRed • e.dx ∧
      (conf.lsMode = .residual → e'.err < e.err * conf.lsOn ∨
        lsSeq conf env.f e.x (conf.stepRed • e.dx) n < conf.lsMin)) ∧
    (conf.isLinear = false → (∀ a b r1 r0 x1 x0, env.isNew a b r1 r0 x1 x0 = true) →
      e'.mtx = env.grad e'.x) := by
  obtain ⟨⟨r1, r2⟩, _, _⟩ := C40_run conf env x0 lsFuel fuel _ log h
  cases hl : log with
  | nil => simp [hl] at he
  | cons e0 t =>
    have hh : log.head? = some e0 := by simp [hl]
    have hfirst := r1 e0 hh
    have hchain := r2 e0 hh
    have hits : ∀ j (a : SolveRec K V M), log[j]? = some a →
        a.it = j ∧ a.dx = env.linSolve a.mtx a.r a.x ∧ env.f a.x = .ok a.r := by
      intro j
      induction j with
      | zero =>
        intro a ha
        have : a = e0 := by simpa [hl] using ha.symm
        subst this
        exact ⟨hfirst.it, hfirst.dx, hfirst.x.symm ▸ hfirst.r⟩
      | succ j ih =>
        intro a ha
        obtain ⟨hj, hja⟩ := List.getElem?_eq_some_iff.mp ha
        have hb : log[j]? = some (log[j]'(by omega)) := List.getElem?_eq_getElem (by omega)
        have hn := List.isChain_iff_getElem.mp hchain j hj
        rw [hja] at hn
        obtain ⟨n, _, hend⟩ := hn.search
        exact ⟨by rw [hn.it, (ih _ hb).1], hn.dx, hend.2.1⟩
    obtain ⟨hj, hja⟩ := List.getElem?_eq_some_iff.mp he'
    obtain ⟨_, hka⟩ := List.getElem?_eq_some_iff.mp he
    have hn := List.isChain_iff_getElem.mp hchain k hj
    rw [hja, hka] at hn
    refine ⟨(hits k e he).1, (hits _ e' he').1, (hits k e he).2.1, (hits k e he).2.2, ?_, ?_⟩
    · obtain ⟨n, _, hend⟩ := hn.search
      refine ⟨n, hend.1, ?_⟩
      intro hm
      rcases hend.2.2.2 with q | q | q
      · omega
      · left; simpa [Sufficient, hm] using q
      · exact .inr q.2
    · intro hlin hnew
      have := hn.mtx
      rw [hlin, hnew] at this
      simpa using congrArg Prod.fst this

/-- C40: termination. If the step reduction factors are in (0, 1) and `ls_min > 0`, the solver
ends (with a result or an exception) for every residual function, matrix function and linear
solver. -/
theorem C40_terminates [IsStrictOrderedRing K] [Archimedean K] (conf : Conf K)
    (env : NEnv K V M) (x0 : V) (h1 : 0 < conf.lsRed) (h1' : conf.lsRed < 1)
    (h2 : 0 < conf.lsRedWarp) (h2' : conf.lsRedWarp < 1) (h3 : 0 < conf.lsMin) :
    ∃ lsFuel, ∃ o log, newton conf env x0 lsFuel (conf.iMax.toNat + 1) = some (o, log) := by
  obtain ⟨N, hN⟩ := exists_pow_lt_of_lt_one h3 (max_lt h1' h2')
  refine ⟨N + 1, ?_⟩
  have hstep : ∀ st : NState K V M, ∃ p, nStep conf env (N + 1) st = some p := by
    intro st
    unfold nStep
    simp only
    generalize (fun r => match st.mtx with
      | some m => env.linSolve m r st.x
      | none => 0) = relin
    obtain ⟨o, calls, h, _⟩ := C27_bound conf ⟨env.f, env.norm, relin⟩ st.xLast st.dx st.it
      st.errLast (max conf.lsRed conf.lsRedWarp)
      N h1.le h2.le (le_max_left _ _) (le_max_right _ _) (max_lt h1' h2').le hN
    rw [h]
    cases o with
    | valueError => exact ⟨_, rfl⟩
    | unbound => exact ⟨_, rfl⟩
    | ret x r err ok =>
      simp only
      split_ifs <;> exact ⟨_, rfl⟩
  have hloop : ∀ (n : Nat) (st : NState K V M), NInv conf env x0 st →
      conf.iMax.toNat ≤ st.it + n →
      ∃ o, nLoop conf env (N + 1) (n + 1) st = some o := by
    intro n
    induction n with
    | zero =>
      intro st hi hle
      obtain ⟨p, hp⟩ := hstep st
      have hs := nStep_spec conf env x0 (N + 1) st hi
      unfold nLoop
      rw [hp] at hs ⊢
      cases p with
      | inr o => exact ⟨o, rfl⟩
      | inl st' =>
        have := hs.1.le
        rw [hs.2] at this
        have hpos : 0 ≤ conf.iMax ∨ conf.iMax < 0 := le_or_gt _ _
        have := hs.1.len
        exfalso
        omega
    | succ n ih =>
      intro st hi hle
      obtain ⟨p, hp⟩ := hstep st
      have hs := nStep_spec conf env x0 (N + 1) st hi
      unfold nLoop
      rw [hp] at hs ⊢
      cases p with
      | inr o => exact ⟨o, rfl⟩
      | inl st' => exact ih st' hs.1 (by rw [hs.2]; omega)
  obtain ⟨o, ho⟩ := hloop conf.iMax.toNat _ (nInv_init conf env x0) (by simp)
  exact ⟨o.1, o.2, ho⟩

/-- Newton iteration for `x² = 2` over the rationals. -/
def envSqrt : NEnv ℚ ℚ ℚ :=
  { f := fun x => .ok (x * x - 2), norm := fun r => some |r|, grad := fun x => 2 * x,
    gradLinear := 0, linSolve := fun m r _ => r / m, isNew := fun _ _ _ _ _ _ => true }

/-- Non-vacuity: two iterations of Newton's method for the square root of two. -/
example : ∃ log, newton confEx envSqrt 2 1 4
    = some (.done (17/12) 0 2 (1/144) 2, log) := by
  refine ⟨[⟨0, 2, 2, 2, 4, 0, 1/2⟩, ⟨1, 3/2, 1/4, 1/4, 3, 1, 1/12⟩], ?_⟩
  norm_num [newton, nLoop, nStep, lineSearch, lsLoop, lsStep, lsTail, convTest, confEx, envSqrt,
    abs]

/-- A residual that fails at the second trial point. -/
def envStale : NEnv ℚ ℚ ℚ :=
  { f := fun x => if x = 0 then .ok (101/100) else if x = -1 then .ok 1 else .valueError,
    norm := fun r => some |r|, grad := fun _ => 1,
    gradLinear := 0, linSolve := fun _ _ _ => 1, isNew := fun _ _ _ _ _ _ => true }

/-- Finding: with `give_up_warp` the solver can report convergence (status 0) with the error of
an earlier trial, although the residual cannot be evaluated in the returned vector. -/
theorem C40_give_up_stale : ∃ (conf : Conf ℚ) (env : NEnv ℚ ℚ ℚ) (x : ℚ) (n : Nat)
    (err err0 : ℚ) (log : List (SolveRec ℚ ℚ ℚ)),
    newton conf env 0 3 3 = some (.done x 0 n err err0, log) ∧ env.f x = .valueError := by
  refine ⟨{ confEx with epsA := 1, epsR := 1, giveUpWarp := true, lsOn := 98/100 }, envStale,
    -1/10, 1, 1, 101/100, ?_⟩
  refine ⟨[⟨0, 0, 101/100, 101/100, 1, 0, 1⟩], ?_⟩
  norm_num [newton, nLoop, nStep, lineSearch, lsLoop, lsStep, lsTail, convTest, confEx, envStale,
    abs]

end Verif.Solver
