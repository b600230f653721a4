import Verif.Cfg.Model
import Mathlib.Tactic.Common

/-!
# C138, C139: merging structures, configurations of solvers
-/

namespace Verif.Cfg

variable {L : Type}

/-! ## C138: `a + b` of structures -/

/-- A value is found under a path of attribute names. -/
def valAt : (n : ℕ) → Val L n → List String → Option L
  | 0, v, [] => some v
  | 0, _, _ :: _ => none
  | _ + 1, .inl v, [] => some v
  | _ + 1, .inl _, _ :: _ => none
  | _ + 1, .inr _, [] => none
  | n + 1, .inr f, k :: p => (f k).bind fun v => valAt n v p

/-- The empty structure. -/
def emptyVal (n : ℕ) : Val L (n + 1) := .inr fun _ => none

/-- The attributes of `a + b` are those of `a` and of `b`. -/
theorem C138_keys (n : ℕ) (f g : String → Option (Val L n)) :
    ∃ h, merge (n + 1) (.inr f) (.inr g) = .inr h ∧
      ∀ k, (h k).isSome = ((f k).isSome || (g k).isSome) := by
  refine ⟨_, rfl, fun k => ?_⟩
  cases g k with
  | none => simp
  | some v => cases f k <;> simp

/-- What `a` has is kept: every value found in `a` under a path is found under the same path in `a + b`. -/
theorem C138_left : ∀ (n : ℕ) (a b : Val L n) (p : List String) (v : L),
    valAt n a p = some v → valAt n (merge n a b) p = some v
  | 0, _, _, _, _, h => h
  | n + 1, .inl _, _, _, _, h => h
  | n + 1, .inr _, .inl _, _, _, h => h
  | n + 1, .inr f, .inr g, [], _, h => by simp [valAt] at h
  | n + 1, .inr f, .inr g, k :: p, v, h => by
    simp only [valAt, merge] at h ⊢
    cases hg : g k with
    | none => simpa [hg] using h
    | some bv =>
      cases hf : f k with
      | none => simp [hf] at h
      | some av =>
        simp only [hf, Option.bind_some] at h ⊢
        exact C138_left n av bv p v h

/-- Every value of `a + b` comes from `a` or `b` from under the same path. -/
theorem C138_origin : ∀ (n : ℕ) (a b : Val L n) (p : List String) (v : L),
    valAt n (merge n a b) p = some v → valAt n a p = some v ∨ valAt n b p = some v
  | 0, _, _, _, _, h => Or.inl h
  | n + 1, .inl _, _, _, _, h => Or.inl h
  | n + 1, .inr _, .inl _, _, _, h => Or.inl h
  | n + 1, .inr f, .inr g, [], _, h => by simp [valAt, merge] at h
  | n + 1, .inr f, .inr g, k :: p, v, h => by
    simp only [valAt, merge] at h ⊢
    cases hg : g k with
    | none => left; simpa [hg] using h
    | some bv =>
      cases hf : f k with
      | none => right; simpa [hg, hf] using h
      | some av =>
        simp only [hg, hf, Option.bind_some] at h ⊢
        exact C138_origin n av bv p v h

/-- What only `b` has is added: an attribute (at any depth inside structures both have) that `a` does not
have is that of `b`. -/
theorem C138_right (n : ℕ) (f g : String → Option (Val L n)) (k : String) (hk : f k = none) (p : List String) :
    valAt (n + 1) (merge (n + 1) (.inr f) (.inr g)) (k :: p) = valAt (n + 1) (.inr g) (k :: p) := by
  simp only [valAt, merge]
  cases hg : g k <;> simp [hk]

/-- Attributes that are structures in both are merged by the same rule; otherwise the one of `a` is kept. -/
theorem C138_both (n : ℕ) (f g : String → Option (Val L n)) (k : String) (a b : Val L n)
    (ha : f k = some a) (hb : g k = some b) (p : List String) :
    valAt (n + 1) (merge (n + 1) (.inr f) (.inr g)) (k :: p) = valAt n (merge n a b) p := by
  simp [valAt, merge, ha, hb]

/-- `a + a` is `a`, and the empty structure changes nothing on either side. -/
theorem C138_idem : ∀ (n : ℕ) (a : Val L n), merge n a a = a
  | 0, _ => rfl
  | n + 1, .inl _ => rfl
  | n + 1, .inr f => by
    simp only [merge]
    congr 1
    funext k
    cases hf : f k with
    | none => rfl
    | some v => simp [C138_idem n v]

theorem C138_empty (n : ℕ) (f : String → Option (Val L n)) :
    merge (n + 1) (.inr f) (emptyVal n) = .inr f ∧ merge (n + 1) (emptyVal n) (.inr f) = .inr f := by
  constructor
  · rfl
  · simp only [merge, emptyVal]
    congr 1
    funext k
    cases f k <;> rfl

/-- Adding the same structure again changes nothing. -/
theorem C138_again : ∀ (n : ℕ) (a b : Val L n), merge n (merge n a b) b = merge n a b
  | 0, _, _ => rfl
  | n + 1, .inl _, _ => rfl
  | n + 1, .inr _, .inl _ => rfl
  | n + 1, .inr f, .inr g => by
    simp only [merge]
    congr 1
    funext k
    cases hg : g k with
    | none => rfl
    | some bv =>
      cases hf : f k with
      | none => simp [C138_idem n bv]
      | some av => simp [C138_again n av bv]

/-- The sum is not associative: with a structure, a plain value and a structure under the same name, the
structure on the right gets in only in one of the groupings. -/
theorem C138_not_assoc : ∃ a b c : Val ℕ 2,
    valAt 2 (merge 2 (merge 2 a b) c) ["x", "y"] = some 1 ∧ valAt 2 (merge 2 a (merge 2 b c)) ["x", "y"] = none := by
  exact ⟨.inr fun k => if k = "x" then some (.inr fun _ => none) else none,
    .inr fun k => if k = "x" then some (.inl (0 : ℕ)) else none,
    .inr fun k => if k = "x" then some (.inr fun j => if j = "y" then some (1 : ℕ) else none) else none, rfl, rfl⟩

/-! ## C139: configurations -/

/-- The value of a declared option: from the keyword arguments, otherwise from the configuration, otherwise
the default. -/
def optionValue (conf kwargs : Attrs L) (p : Param L) : Opt L :=
  match kwargs p.name with
  | some v => v
  | none => match conf p.name with
    | some v => v
    | none => p.default

/-- A required option is not there: the configuration has `None` or nothing and there is no default. -/
def Missing (conf : Attrs L) (p : Param L) : Prop := p.required = true ∧ (conf p.name).getD p.default = none

theorem getConf_eq (conf kwargs : Attrs L) (p : Param L) :
    (getConf conf kwargs p.name p.default p.required = none ↔ Missing conf p) ∧
      ∀ v, getConf conf kwargs p.name p.default p.required = some v → v = optionValue conf kwargs p := by
  unfold getConf structGet Missing optionValue
  constructor
  · simp only [Option.map_eq_none_iff]
    by_cases hr : p.required = true <;> cases h : (conf p.name).getD p.default <;> simp [hr]
  · intro v
    by_cases hr : p.required = true <;> cases h : conf p.name <;> cases hk : kwargs p.name <;>
      simp [hr] <;> grind

theorem inj_of_nodup {β γ : Type} {f : β → γ} {l : List β} (h : (l.map f).Nodup) {x y : β} (hx : x ∈ l)
    (hy : y ∈ l) (e : f x = f y) : x = y := by
  induction l with
  | nil => simp at hx
  | cons a l ih =>
    simp only [List.map_cons, List.nodup_cons, List.mem_map, not_exists, not_and] at h
    rcases List.mem_cons.1 hx with rfl | hx' <;> rcases List.mem_cons.1 hy with rfl | hy'
    · rfl
    · exact absurd e.symm (h.1 y hy')
    · exact absurd e (h.1 x hx')
    · exact ih h.2 hx' hy'

/-- The last declaration of a name counts. -/
theorem loop_eq (conf kwargs : Attrs L) (ps : List (Param L)) : ∀ (opts : Attrs L) (extra : Bool),
    (processLoop conf kwargs ps opts extra = none ↔ ∃ p ∈ ps, p.name ≠ "*" ∧ Missing conf p) ∧
    ∀ o e, processLoop conf kwargs ps opts extra = some (o, e) →
      (e = true ↔ extra = true ∨ ∃ p ∈ ps, p.name = "*") ∧
      ∀ k, o k = match ps.reverse.find? (fun p => p.name = k ∧ p.name ≠ "*") with
        | some p => some (optionValue conf kwargs p)
        | none => opts k := by
  induction ps with
  | nil =>
    intro opts extra
    refine ⟨by simp [processLoop], fun o e h => ?_⟩
    simp only [processLoop, Option.some.injEq, Prod.mk.injEq] at h
    obtain ⟨rfl, rfl⟩ := h
    simp
  | cons p ps ih =>
    intro opts extra
    by_cases hs : p.name = "*"
    · simp only [processLoop, if_pos hs]
      obtain ⟨i1, i2⟩ := ih opts true
      refine ⟨by rw [i1]; simp [hs], fun o e h => ?_⟩
      obtain ⟨j1, j2⟩ := i2 o e h
      refine ⟨?_, fun k => ?_⟩
      · rw [j1]; simp [hs]
      · rw [j2 k, List.reverse_cons, List.find?_append]
        cases ps.reverse.find? (fun p => p.name = k ∧ p.name ≠ "*") <;> simp [hs]
    · simp only [processLoop, if_neg hs]
      obtain ⟨g1, g2⟩ := getConf_eq conf kwargs p
      cases hg : getConf conf kwargs p.name p.default p.required with
      | none =>
        refine ⟨?_, fun o e h => by simp at h⟩
        simp only [true_iff]
        exact ⟨p, by simp, hs, g1.1 hg⟩
      | some v =>
        have hv := g2 v hg
        have hm : ¬ Missing conf p := fun h => by rw [g1.2 h] at hg; simp at hg
        obtain ⟨i1, i2⟩ := ih (fun k => if k = p.name then some v else opts k) extra
        simp only
        refine ⟨by rw [i1]; simp [hm], fun o e h => ?_⟩
        obtain ⟨j1, j2⟩ := i2 o e h
        refine ⟨?_, fun k => ?_⟩
        · rw [j1]; simp [hs]
        · rw [j2 k, List.reverse_cons, List.find?_append]
          cases ps.reverse.find? (fun p => p.name = k ∧ p.name ≠ "*") with
          | some q => simp
          | none =>
            simp only [Option.none_or]
            by_cases hk : k = p.name
            · subst hk
              simp [hs, hv]
            · have : ¬ p.name = k := fun e => hk e.symm
              simp [hk, this]

/-- The options of a solver class are the common options and its own ones; a class that declares nothing of
its own (its list is that of the base class, starting with `name`, or empty) has the common options. -/
theorem C139_options (base cls : List (Param L)) (p : Param L) :
    (∀ q, cls.head? = some q → q.name ≠ "name" → (p ∈ allParams base cls ↔ p ∈ base ∨ p ∈ cls)) ∧
    ((cls = [] ∨ ∃ q, cls.head? = some q ∧ q.name = "name") → (p ∈ allParams base cls ↔ p ∈ base)) := by
  cases cls with
  | nil => simp [allParams]
  | cons q cls =>
    by_cases h : q.name = "name" <;> simp [allParams, h]

/-- A configuration is refused exactly if a required option is missing in it - also when the option is
given by a keyword argument. -/
theorem C139_error (base cls : List (Param L)) (conf kwargs : Attrs L) :
    processConf base cls conf kwargs = none ↔
      ∃ p ∈ allParams base cls, p.name ≠ "*" ∧ Missing conf p := by
  rw [← (loop_eq conf kwargs (allParams base cls) (fun _ => none) false).1]
  unfold processConf
  cases processLoop conf kwargs (allParams base cls) (fun _ => none) false with
  | none => simp
  | some r => cases hr : r.2 <;> simp [hr]

/-- Each option declared once, with its own name, gets the value of the keyword argument, or else of the
configuration, or else the default. -/
theorem C139_declared (base cls : List (Param L)) (conf kwargs out : Attrs L)
    (h : processConf base cls conf kwargs = some out)
    (hnd : ((allParams base cls).map Param.name).Nodup)
    (p : Param L) (hp : p ∈ allParams base cls) (hs : p.name ≠ "*") :
    out p.name = some (optionValue conf kwargs p) := by
  unfold processConf at h
  cases hl : processLoop conf kwargs (allParams base cls) (fun _ => none) false with
  | none => simp [hl] at h
  | some r =>
    obtain ⟨o, e⟩ := r
    have := ((loop_eq conf kwargs (allParams base cls) (fun _ => none) false).2 o e hl).2 p.name
    have hf : (allParams base cls).reverse.find? (fun q => q.name = p.name ∧ q.name ≠ "*") = some p := by
      have hsome : ((allParams base cls).reverse.find? (fun q => q.name = p.name ∧ q.name ≠ "*")).isSome := by
        rw [List.find?_isSome]
        exact ⟨p, by simpa using hp, by simp [hs]⟩
      obtain ⟨q, hq⟩ := Option.isSome_iff_exists.1 hsome
      have hqp := List.find?_some hq
      have hqm := List.mem_of_find?_eq_some hq
      simp only [decide_eq_true_eq] at hqp
      rw [hq, inj_of_nodup hnd (by simpa using hqm) hp hqp.1]
    rw [hf] at this
    simp only [hl, Option.bind_some] at h
    cases e with
    | true =>
      simp only [if_true, Option.some.injEq] at h
      rw [← h]
      simp only [this]
    | false =>
      simp only [Bool.false_eq_true, if_false, Option.some.injEq] at h
      rw [← h, this]

/-- An option that is not declared is dropped, unless the solver declares `'*'`: then the options of
the configuration are passed on, a keyword argument of the same name having precedence.  A keyword argument
alone is never passed on. -/
theorem C139_undeclared (base cls : List (Param L)) (conf kwargs out : Attrs L)
    (h : processConf base cls conf kwargs = some out)
    (k : String) (hk : ∀ p ∈ allParams base cls, p.name = "*" ∨ p.name ≠ k) :
    ((∀ p ∈ allParams base cls, p.name ≠ "*") → out k = none) ∧
    ((∃ p ∈ allParams base cls, p.name = "*") →
      out k = (conf k).map fun v => (kwargs k).getD v) := by
  unfold processConf at h
  cases hl : processLoop conf kwargs (allParams base cls) (fun _ => none) false with
  | none => simp [hl] at h
  | some r =>
    obtain ⟨o, e⟩ := r
    obtain ⟨j1, j2⟩ := (loop_eq conf kwargs (allParams base cls) (fun _ => none) false).2 o e hl
    have hf : (allParams base cls).reverse.find? (fun q => q.name = k ∧ q.name ≠ "*") = none := by
      rw [List.find?_eq_none]
      intro q hq
      simp only [decide_eq_true_eq, not_and, not_not]
      intro e
      rcases hk q (by simpa using hq) with h1 | h1
      · exact h1
      · exact absurd e h1
    have ho := j2 k
    rw [hf] at ho
    simp only at ho
    simp only [hl, Option.bind_some] at h
    constructor
    · intro hno
      have he : e = false := by
        cases e with
        | false => rfl
        | true =>
          rcases j1.1 rfl with h' | ⟨p, hp, h'⟩
          · simp at h'
          · exact absurd h' (hno p hp)
      subst he
      simp only [Bool.false_eq_true, if_false, Option.some.injEq] at h
      rw [← h, ho]
    · intro hex
      have he : e = true := j1.2 (Or.inr hex)
      subst he
      simp only [if_true, Option.some.injEq] at h
      rw [← h]
      simp only [ho]
      cases hc : conf k <;> simp [getConf, structGet, hc]

/-- A required option given only as a keyword argument is refused. -/
theorem C139_required_kwargs : ∃ (cls : List (Param ℕ)) (kwargs : Attrs ℕ),
    kwargs "eps" = some (some 1) ∧ (∃ p ∈ allParams [] cls, p.name = "eps" ∧ p.required = true) ∧
      processConf [] cls (fun _ => none) kwargs = none :=
  ⟨[⟨"eps", none, true⟩], fun k => if k = "eps" then some (some 1) else none, rfl,
    ⟨⟨"eps", none, true⟩, by simp [allParams], rfl, rfl⟩, by
      rw [C139_error]
      exact ⟨⟨"eps", none, true⟩, by simp [allParams], by decide, rfl, rfl⟩⟩

/-- The solver used is the first of the list that can be constructed: all before it failed. -/
theorem C139_first {S C : Type} (construct : C → Outcome S) (cs : List C) (s : S) :
    useFirst construct cs = .solver s ↔
      ∃ pre c post, cs = pre ++ c :: post ∧ construct c = .ok s ∧ ∀ d ∈ pre, construct d = .failed := by
  induction cs with
  | nil => simp [useFirst]
  | cons c cs ih =>
    cases hc : construct c with
    | ok t =>
      simp only [useFirst, hc, Selected.solver.injEq]
      constructor
      · rintro rfl
        exact ⟨[], c, cs, rfl, hc, by simp⟩
      · rintro ⟨pre, d, post, he, hd, hp⟩
        cases pre with
        | nil => simp only [List.nil_append, List.cons.injEq] at he; rw [← he.1, hc] at hd; simpa using hd
        | cons x pre =>
          simp only [List.cons_append, List.cons.injEq] at he
          have := hp x (by simp)
          rw [← he.1, hc] at this
          cases this
    | failed =>
      simp only [useFirst, hc, ih]
      constructor
      · rintro ⟨pre, d, post, rfl, hd, hp⟩
        exact ⟨c :: pre, d, post, rfl, hd, by simpa [hc] using hp⟩
      · rintro ⟨pre, d, post, he, hd, hp⟩
        cases pre with
        | nil => simp only [List.nil_append, List.cons.injEq] at he; rw [← he.1, hc] at hd; cases hd
        | cons x pre =>
          simp only [List.cons_append, List.cons.injEq] at he
          exact ⟨pre, d, post, he.2, hd, fun y hy => hp y (by simp [hy])⟩
    | interrupted =>
      simp only [useFirst, hc]
      constructor
      · intro h; cases h
      · rintro ⟨pre, d, post, he, hd, hp⟩
        cases pre with
        | nil => simp only [List.nil_append, List.cons.injEq] at he; rw [← he.1, hc] at hd; cases hd
        | cons x pre =>
          simp only [List.cons_append, List.cons.injEq] at he
          have := hp x (by simp)
          rw [← he.1, hc] at this
          cases this

/-- There is no solver exactly if all fail. -/
theorem C139_none {S C : Type} (construct : C → Outcome S) (cs : List C) :
    useFirst construct cs = .noSolver ↔ ∀ c ∈ cs, construct c = .failed := by
  induction cs with
  | nil => simp [useFirst]
  | cons c cs ih =>
    cases hc : construct c with
    | ok t => simp [useFirst, hc]
    | failed => simp [useFirst, hc, ih]
    | interrupted => simp [useFirst, hc]

/-- An interruption during a construction is passed on: no other solver is tried. -/
theorem C139_interrupted {S C : Type} (construct : C → Outcome S) (pre post : List C) (c : C)
    (hp : ∀ d ∈ pre, construct d = .failed) (hc : construct c = .interrupted) :
    useFirst construct (pre ++ c :: post) = .interrupted := by
  induction pre with
  | nil => simp [useFirst, hc]
  | cons d pre ih =>
    have := hp d (by simp)
    simp only [List.cons_append, useFirst, this]
    exact ih fun x hx => hp x (by simp [hx])

/-- The configuration tried for a solver: the preset options first, then the kind of the solver, then the
options of the user, whose `kind` is ignored. -/
theorem C139_auto (pre user : Attrs L) (ls : L) (k : String) :
    autoConf pre ls user k =
      match pre k with
      | some v => some v
      | none => if k = "kind" then some (some ls) else user k := by
  unfold autoConf addAttrs
  cases hp : pre k with
  | some v => rfl
  | none => by_cases hk : k = "kind" <;> simp [hk]

example : autoConf (fun k => if k = "method" then some (some "gmres") else none) "ls.scipy_iterative"
      (fun k => if k = "method" then some (some "cg") else if k = "eps_r" then some (some "1e-8") else none)
      "method" = some (some "gmres") ∧
    autoConf (fun _ => none) "ls.mumps" (fun k => if k = "kind" then some (some "ls.auto_direct") else none)
      "kind" = some (some "ls.mumps") := by
  simp [C139_auto]

example : processConf [⟨"name", none, false⟩] [⟨"i_max", some 100, false⟩, ⟨"*", none, false⟩]
    (fun k => if k = "extra" then some (some 5) else none) (fun k => if k = "i_max" then some (some 7) else none)
    ≠ none := by
  rw [Ne, C139_error]
  simp [allParams, Missing]

example : useFirst (fun n : ℕ => if n < 3 then .failed else .ok n) [1, 2, 5, 7] = Selected.solver 5 := by
  simp [useFirst]

end Verif.Cfg
