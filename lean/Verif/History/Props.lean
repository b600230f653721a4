/-
C24: the history of DOF vectors, and restart files.
-/
import Verif.History.Model
import Mathlib.Tactic.Common
import Mathlib.Tactic.Tauto

namespace Verif.History

set_option linter.unusedSectionVars false

variable {V : Type}

/-! ### Small specification -/

/-- Operations a user (or a solver) can do between reading the DOF vectors. -/
inductive HOp (V : Type) where
  /-- create an array -/
  | newArray (v : List V)
  /-- change an array in place -/
  | write (r : Nat) (v : List V)
  /-- `variable.set_data(array, indx)` -/
  | set (r : Nat)
  /-- `variable.advance(ts)` -/
  | advance (tsStep : Nat)

/-- Effect of the operations; failing calls change nothing. -/
def HOp.run (o : HOp V) (s : Heap V × Var) : Heap V × Var :=
  match o with
  | .newArray v => (s.1 ++ [v], s.2)
  | .write r v => (s.1.put r v, s.2)
  | .set r => match s.2.setData s.1 r (some (s.2.lo, s.2.hi)) 0 with
    | .ok x => (s.1, x)
    | .error _ => s
  | .advance t => match s.2.advance s.1 t with
    | .ok s' => s'
    | .error _ => s

/-- The arrays holding the previous steps belong to the variable: the user neither changes them
in place nor sets them as the current data.  Arrays keep their size when changed, and a new
current array is large enough. -/
def HOp.allowed (o : HOp V) (s : Heap V × Var) : Prop :=
  match o with
  | .newArray _ => True
  | .write r v => (∀ j, 1 ≤ j → s.2.data.getD j none ≠ some r) ∧ v.length = (s.1.get r).length
  | .set r => (∀ j, 1 ≤ j → s.2.data.getD j none ≠ some r) ∧ r < s.1.length ∧
      s.2.hi ≤ (s.1.get r).length
  | .advance _ => True

/-- The vector read by `variable()`. -/
def current (s : Heap V × Var) : List V :=
  match s.2.call s.1 0 with
  | .ok v => v
  | .error _ => []

/-- `advance` puts the current vector into the history. -/
def HOp.recorded (o : HOp V) (s : Heap V × Var) (past : List (List V)) : List (List V) :=
  match o with
  | .advance _ => current s :: past
  | _ => past

/-- The vectors that were current at the `advance` calls, the last one first. -/
def record : List (HOp V) → Heap V × Var → List (List V) → List (List V)
  | [], _, past => past
  | o :: os, s, past => record os (o.run s) (o.recorded s past)

/-- All operations are allowed when called. -/
def allAllowed : List (HOp V) → Heap V × Var → Prop
  | [], _ => True
  | o :: os, s => o.allowed s ∧ allAllowed os (o.run s)

/-- What is read back for `step = -j`, `j >= 1`: the vector that was current `j` advances ago, or
the first one if there were fewer advances. -/
def back (past : List (List V)) (j : Nat) : List V := past.getD (min (j - 1) (past.length - 1)) []

/-! ### Invariant -/

structure Tracks (s : Heap V × Var) (h a b : Nat) (past : List (List V)) : Prop where
  hist : s.2.history = some h
  lo : s.2.lo = a
  hi : s.2.hi = b
  le : a ≤ b
  ndof : s.2.nDof = b - a
  len : s.2.data.length = h + 1
  cur : ∃ r, s.2.data.getD 0 none = some r ∧ r < s.1.length ∧ b ≤ (s.1.get r).length
  start : past = [] → s.2.step = 0 ∧ ∀ j, 1 ≤ j → s.2.data.getD j none = none
  old : past ≠ [] → s.2.step ≠ 0 ∧ ∀ j, 1 ≤ j → j ≤ h → ∃ r, s.2.data.getD j none = some r ∧
    r < s.1.length ∧ b ≤ (s.1.get r).length ∧ slice (s.1.get r) a b = back past j
  inj : ∀ i j r, i < j → s.2.data.getD i none = some r → s.2.data.getD j none ≠ some r

/-! ### Lemmas -/

theorem slice_length {a : List V} {lo hi : Nat} (h : hi ≤ a.length) :
    (slice a lo hi).length = hi - lo := by
  simp [slice]; omega

theorem assign_length {a v : List V} {lo hi : Nat} (h : hi ≤ a.length) (hl : lo ≤ hi)
    (hv : v.length = hi - lo) : (assign a lo hi v).length = a.length := by
  simp [assign]; omega

theorem slice_assign {a v : List V} {lo hi : Nat} (h : hi ≤ a.length) (hl : lo ≤ hi)
    (hv : v.length = hi - lo) : slice (assign a lo hi v) lo hi = v := by
  unfold slice assign
  rw [List.append_assoc, List.drop_append, List.drop_of_length_le (by simp), List.nil_append]
  have : lo - (a.take lo).length = 0 := by simp; omega
  rw [this, List.drop_zero, ← hv, List.take_left']
  rfl

theorem get_put_self {hp : Heap V} {r : Nat} (v : List V) (h : r < hp.length) :
    (hp.put r v).get r = v := by
  simp [Heap.put, Heap.get, List.getD_eq_getElem?_getD, h]

theorem get_put_ne {hp : Heap V} {r q : Nat} (v : List V) (h : q ≠ r) :
    (hp.put r v).get q = hp.get q := by
  simp only [Heap.put, Heap.get, List.getD_eq_getElem?_getD]
  rw [List.getElem?_set_ne (Ne.symm h)]

theorem put_length (hp : Heap V) (r : Nat) (v : List V) : (hp.put r v).length = hp.length := by
  simp [Heap.put]

theorem get_append_left {hp l : Heap V} {r : Nat} (h : r < hp.length) :
    Heap.get (hp ++ l) r = hp.get r := by
  simp only [Heap.get, List.getD_eq_getElem?_getD]
  rw [List.getElem?_append_left h]

theorem get_append_self {hp : Heap V} (v : List V) : Heap.get (hp ++ [v]) hp.length = v := by
  simp [Heap.get, List.getD_eq_getElem?_getD]

/-- The second loop of `advance`. -/
theorem shiftLoop_spec (lo hi : Nat) (hl : lo ≤ hi) (data : List (Option Nat))
    (inj : ∀ i j r, i < j → data.getD i none = some r → data.getD j none ≠ some r) :
    ∀ (n : Nat) (hp : Heap V),
    (∀ j, j ≤ n → ∃ r, data.getD j none = some r ∧ r < hp.length ∧ hi ≤ (hp.get r).length) →
    (shiftLoop lo hi data n hp).length = hp.length ∧
    (∀ q, ((shiftLoop lo hi data n hp).get q).length = (hp.get q).length) ∧
    (∀ q, (∀ j, 1 ≤ j → j ≤ n → data.getD j none ≠ some q) →
      (shiftLoop lo hi data n hp).get q = hp.get q) ∧
    (∀ j r p, 1 ≤ j → j ≤ n → data.getD j none = some r → data.getD (j - 1) none = some p →
      slice ((shiftLoop lo hi data n hp).get r) lo hi = slice (hp.get p) lo hi) := by
  intro n
  induction n with
  | zero =>
    intro hp _
    exact ⟨rfl, fun _ => rfl, fun _ _ => rfl, fun j _ _ h1 h2 => by omega⟩
  | succ n ih =>
    intro hp hv
    obtain ⟨r, hr, hr1, hr2⟩ := hv (n + 1) (le_refl _)
    obtain ⟨p, hp0, hp1, hp2⟩ := hv n (by omega)
    unfold shiftLoop
    rw [hr, hp0]
    simp only
    have hsl : (slice (hp.get p) lo hi).length = hi - lo := slice_length hp2
    have hlen : ∀ q, ((hp.put r (assign (hp.get r) lo hi (slice (hp.get p) lo hi))).get q).length
        = (hp.get q).length := by
      intro q
      by_cases hq : q = r
      · subst hq; rw [get_put_self _ hr1, assign_length hr2 hl hsl]
      · rw [get_put_ne _ hq]
    obtain ⟨a, b, c, d⟩ := ih (hp.put r (assign (hp.get r) lo hi (slice (hp.get p) lo hi))) (by
      intro j hj
      obtain ⟨q, e1, e2, e3⟩ := hv j (by omega)
      exact ⟨q, e1, by rw [put_length]; exact e2, by rw [hlen]; exact e3⟩)
    refine ⟨by rw [a, put_length], fun q => by rw [b, hlen], ?_, ?_⟩
    · intro q hq
      rw [c q (fun j h1 h2 => hq j h1 (by omega)), get_put_ne]
      rintro rfl
      exact hq (n + 1) (by omega) (le_refl _) hr
    · intro j r' p' h1 h2 hr' hp'
      by_cases hj : j = n + 1
      · subst hj
        rw [hr] at hr'
        cases hr'
        rw [Nat.add_sub_cancel, hp0] at hp'
        cases hp'
        rw [c r (fun j _ h2 e => inj j (n + 1) r (by omega) e hr), get_put_self _ hr1,
          slice_assign hr2 hl hsl]
      · rw [d j r' p' h1 (by omega) hr' hp', get_put_ne]
        rintro rfl
        exact inj (j - 1) (n + 1) p' (by omega) hp' hr

/-- The first loop when everything is set. -/
theorem fillLoop_full (hp : Heap V) (data : List (Option Nat)) : ∀ (n i : Nat),
    i + n ≤ data.length → (∀ j, i ≤ j → j < i + n → ∃ r, data.getD j none = some r) →
    fillLoop n i hp data = .ok (hp, data) := by
  intro n
  induction n with
  | zero => intro i _ _; rfl
  | succ n ih =>
    intro i hl h
    obtain ⟨r, hr⟩ := h i (le_refl _) (by omega)
    unfold fillLoop
    rw [if_neg (by omega), hr]
    exact ih (i + 1) (by omega) fun j h1 h2 => h j (by omega) (by omega)

/-- The first loop in the first step: copies of the current data. -/
theorem fillLoop_first (c : List V) : ∀ (n i : Nat) (hp : Heap V) (data : List (Option Nat)) (p : Nat),
    1 ≤ i → i + n = data.length → data.getD (i - 1) none = some p → p < hp.length →
    hp.get p = c → (∀ j, i ≤ j → data.getD j none = none) →
    (∀ j r, data.getD j none = some r → r < hp.length) →
    (∀ i j r, i < j → data.getD i none = some r → data.getD j none ≠ some r) →
    ∃ (l : Heap V) (data' : List (Option Nat)),
      fillLoop n i hp data = .ok (hp ++ l, data') ∧ data'.length = data.length ∧
      (∀ j, j < i → data'.getD j none = data.getD j none) ∧
      (∀ j, i ≤ j → j < i + n → ∃ r, data'.getD j none = some r ∧ hp.length ≤ r ∧
        r < (hp ++ l).length ∧ Heap.get (hp ++ l) r = c) ∧
      (∀ i j r, i < j → data'.getD i none = some r → data'.getD j none ≠ some r) := by
  intro n
  induction n with
  | zero =>
    intro i hp data p h1 hl hp0 hp1 hp2 hnone hval inj
    exact ⟨[], data, by rw [List.append_nil]; rfl, rfl, fun _ _ => rfl, fun j h2 h3 => by omega, inj⟩
  | succ n ih =>
    intro i hp data p h1 hl hp0 hp1 hp2 hnone hval inj
    unfold fillLoop
    rw [if_neg (by omega), hnone i (le_refl _), hp0]
    simp only
    have hset : (data.set i (some hp.length)).getD i none = some hp.length := by
      rw [List.getD_eq_getElem?_getD, List.getElem?_set_self (by omega)]; rfl
    have hset' : ∀ j, j ≠ i → (data.set i (some hp.length)).getD j none = data.getD j none := by
      intro j hj
      rw [List.getD_eq_getElem?_getD, List.getElem?_set_ne (Ne.symm hj), ← List.getD_eq_getElem?_getD]
    obtain ⟨l, data', e1, e2, e3, e4, e5⟩ := ih (i + 1) (hp ++ [hp.get p])
      (data.set i (some hp.length)) hp.length (by omega) (by simp; omega)
      (by rw [Nat.add_sub_cancel]; exact hset) (by simp) (by rw [get_append_self]; exact hp2)
      (fun j hj => by rw [hset' j (by omega)]; exact hnone j (by omega))
      (by
        intro j r hr
        by_cases hj : j = i
        · subst hj; rw [hset] at hr; cases hr; simp
        · rw [hset' j hj] at hr
          have := hval j r hr
          simp; omega)
      (by
        intro a b r hab ha hb
        by_cases hai : a = i
        · subst hai
          rw [hset' b (by omega), hnone b (by omega)] at hb
          cases hb
        · rw [hset' a hai] at ha
          by_cases hbi : b = i
          · subst hbi
            rw [hset] at hb
            cases hb
            have := hval a _ ha
            omega
          · rw [hset' b hbi] at hb
            exact inj a b r hab ha hb)
    refine ⟨[hp.get p] ++ l, data', ?_, by rw [e2, List.length_set], ?_, ?_, e5⟩
    · rw [e1, List.append_assoc]
    · intro j hj
      rw [e3 j (by omega), hset' j (by omega)]
    · intro j h2 h3
      by_cases hj : j = i
      · subst hj
        refine ⟨hp.length, by rw [e3 j (by omega)]; exact hset, le_refl _, by simp, ?_⟩
        rw [← List.append_assoc, get_append_left (by simp), get_append_self]
        exact hp2
      · obtain ⟨r, f1, f2, f3, f4⟩ := e4 j (by omega) (by omega)
        refine ⟨r, f1, ?_, ?_, ?_⟩
        · simp at f2; omega
        · rw [← List.append_assoc]; exact f3
        · rw [← List.append_assoc]; exact f4

theorem call_zero {s : Heap V × Var} {h lo hi : Nat} {past : List (List V)}
    (t : Tracks s h lo hi past) {r : Nat} (hr : s.2.data.getD 0 none = some r) :
    s.2.call s.1 0 = .ok (slice (s.1.get r) lo hi) := by
  unfold Var.call
  rw [if_neg (by omega)]
  have : pyIndex s.2.data.length (-0) = some 0 := by
    unfold pyIndex; rw [t.len]; simp
  rw [this]
  simp only
  rw [hr, t.lo, t.hi]

theorem advance_zero (hp : Heap V) (x : Var) (h : x.history = some 0) (ts : Nat) :
    x.advance hp ts = .ok (hp, { x with step := ts + 1 }) := by
  cases x; simp only at h; subst h; rfl

theorem advance_succ (hp : Heap V) (x : Var) (n : Nat) (h : x.history = some (n + 1)) (ts : Nat)
    (hp' : Heap V) (data' : List (Option Nat)) (e : fillLoop (n + 1) 1 hp x.data = .ok (hp', data')) :
    x.advance hp ts = .ok (shiftLoop x.lo x.hi data' (n + 1) hp',
      { x with step := ts + 1, data := data' }) := by
  cases x; simp only at h; subst h
  simp only at e
  simp only [Var.advance, e]

theorem tracks_advance {s : Heap V × Var} {h lo hi : Nat} {past : List (List V)}
    (t : Tracks s h lo hi past) (ts : Nat) :
    ∃ s', s.2.advance s.1 ts = .ok s' ∧ Tracks s' h lo hi (current s :: past) ∧
      current s' = current s ∧ s'.2.locked = s.2.locked ∧
      s'.2.data.getD 0 none = s.2.data.getD 0 none := by
  obtain ⟨hp, x⟩ := s
  obtain ⟨r0, c1, c2, c3⟩ := t.cur
  have hcur : current (hp, x) = slice (hp.get r0) lo hi := by
    unfold current; rw [call_zero t c1]
  cases h with
  | zero =>
    refine ⟨_, advance_zero hp x t.hist ts, ⟨t.hist, t.lo, t.hi, t.le, t.ndof, t.len, t.cur, fun e => by simp at e,
      fun _ => ⟨by simp, fun j h1 h2 => by omega⟩, t.inj⟩, ?_, rfl, rfl⟩
    have t' : Tracks (hp, { x with step := ts + 1 }) 0 lo hi (current (hp, x) :: past) :=
      ⟨t.hist, t.lo, t.hi, t.le, t.ndof, t.len, t.cur, fun e => by simp at e,
      fun _ => ⟨by simp, fun j h1 h2 => by omega⟩, t.inj⟩
    unfold current
    rw [call_zero t' c1, call_zero t c1]
  | succ h =>
    -- after the first loop
    have key : ∃ (l : Heap V) (data' : List (Option Nat)),
        fillLoop (h + 1) 1 hp x.data = .ok (hp ++ l, data') ∧ data'.length = h + 2 ∧
        data'.getD 0 none = some r0 ∧
        (∀ i j r, i < j → data'.getD i none = some r → data'.getD j none ≠ some r) ∧
        (∀ j, 1 ≤ j → j ≤ h + 1 → ∃ r, data'.getD j none = some r ∧ r < (hp ++ l).length ∧
          hi ≤ (Heap.get (hp ++ l) r).length ∧
          slice (Heap.get (hp ++ l) r) lo hi = (if past = [] then current (hp, x) else back past j)) := by
      by_cases hpast : past = []
      · obtain ⟨s0, s1⟩ := t.start hpast
        obtain ⟨l, data', e1, e2, e3, e4, e5⟩ := fillLoop_first (hp.get r0) (h + 1) 1 hp x.data r0
          (le_refl _) (by rw [t.len]; omega) c1 c2 rfl s1
          (by
            intro j r hr
            by_cases hj : j = 0
            · subst hj
              have : x.data.getD 0 none = some r0 := c1
              rw [this] at hr; cases hr; exact c2
            · have := s1 j (by omega)
              simp only at this
              rw [this] at hr; cases hr)
          t.inj
        refine ⟨l, data', e1, by rw [e2, t.len], by rw [e3 0 (by omega)]; exact c1, e5, ?_⟩
        intro j h1 h2
        obtain ⟨r, f1, _, f3, f4⟩ := e4 j h1 (by omega)
        refine ⟨r, f1, f3, by rw [f4]; exact c3, ?_⟩
        rw [if_pos hpast, f4, hcur]
      · obtain ⟨s0, s1⟩ := t.old hpast
        refine ⟨[], x.data, ?_, t.len, c1, t.inj, ?_⟩
        · rw [List.append_nil]
          refine fillLoop_full hp x.data (h + 1) 1 (by rw [t.len]; omega) fun j h1 h2 => ?_
          obtain ⟨r, e, _⟩ := s1 j h1 (by omega)
          exact ⟨r, e⟩
        · intro j h1 h2
          rw [List.append_nil, if_neg hpast]
          exact s1 j h1 h2
    obtain ⟨l, data', e1, e2, e3, e4, e5⟩ := key
    have hadv := advance_succ hp x h t.hist ts _ _ e1
    have hall : ∀ j, j ≤ h + 1 → ∃ r, data'.getD j none = some r ∧ r < (hp ++ l).length ∧
        x.hi ≤ (Heap.get (hp ++ l) r).length := by
      intro j hj
      by_cases h0 : j = 0
      · subst h0
        refine ⟨r0, e3, by simp only [List.length_append]; simp only at c2; omega, ?_⟩
        rw [get_append_left c2]
        rw [show x.hi = hi from t.hi]; exact c3
      · obtain ⟨r, f1, f2, f3, _⟩ := e5 j (by omega) hj
        exact ⟨r, f1, f2, by rw [show x.hi = hi from t.hi]; exact f3⟩
    obtain ⟨a, b, c, d⟩ := shiftLoop_spec x.lo x.hi (by
      rw [show x.lo = lo from t.lo, show x.hi = hi from t.hi]; exact t.le) data' e4 (h + 1)
      (hp ++ l) hall
    have hlh : shiftLoop x.lo x.hi data' (h + 1) (hp ++ l) =
        shiftLoop lo hi data' (h + 1) (hp ++ l) := by
      rw [show x.lo = lo from t.lo, show x.hi = hi from t.hi]
    rw [show x.lo = lo from t.lo, show x.hi = hi from t.hi] at a b c d
    rw [hlh] at hadv
    have hr0 : (shiftLoop lo hi data' (h + 1) (hp ++ l)).get r0 = hp.get r0 := by
      rw [c r0 (fun j h1 _ => e4 0 j r0 (by omega) e3), get_append_left c2]
    have t' : Tracks (shiftLoop lo hi data' (h + 1) (hp ++ l),
        { x with step := ts + 1, data := data' }) (h + 1) lo hi (current (hp, x) :: past) := by
      refine ⟨t.hist, t.lo, t.hi, t.le, t.ndof, e2, ⟨r0, e3, ?_, ?_⟩, fun e => by simp at e,
        fun _ => ⟨by simp, ?_⟩, e4⟩
      · simp only; rw [a, List.length_append]; simp only at c2; omega
      · simp only; rw [hr0]; exact c3
      · intro j h1 h2
        obtain ⟨r, f1, f2, f3, f4⟩ := e5 j h1 h2
        refine ⟨r, f1, by simp only; rw [a]; exact f2, by simp only; rw [b]; exact f3, ?_⟩
        simp only
        by_cases hj : j = 1
        · subst hj
          rw [d 1 r r0 (le_refl _) h2 f1 e3, get_append_left c2, ← hcur]
          simp [back]
        · obtain ⟨p, g1, g2, g3, g4⟩ := e5 (j - 1) (by omega) (by omega)
          rw [d j r p h1 h2 f1 g1, g4]
          split
          · next hpast => subst hpast; simp [back]
          · next hpast =>
            have hl : 0 < past.length := List.length_pos_iff.2 hpast
            simp only [back, List.length_cons]
            have : min (j - 1) (past.length + 1 - 1) = min (j - 1 - 1) (past.length - 1) + 1 := by
              omega
            rw [this, List.getD_cons_succ]
    refine ⟨_, hadv, t', ?_, rfl, by simp only; rw [e3]; exact c1.symm⟩
    rw [hcur]
    unfold current
    rw [call_zero t' e3]
    simp only
    rw [hr0]

theorem tracks_step {s : Heap V × Var} {h lo hi : Nat} {past : List (List V)}
    (t : Tracks s h lo hi past) (o : HOp V) (ho : o.allowed s) :
    Tracks (o.run s) h lo hi (o.recorded s past) := by
  obtain ⟨hp, x⟩ := s
  cases o with
  | newArray v =>
    obtain ⟨r0, c1, c2, c3⟩ := t.cur
    refine ⟨t.hist, t.lo, t.hi, t.le, t.ndof, t.len, ⟨r0, c1, ?_, ?_⟩, t.start, fun hp' => ?_, t.inj⟩
    · simp only [HOp.run, List.length_append]; simp only at c2; omega
    · simp only [HOp.run]; rw [get_append_left c2]; exact c3
    · obtain ⟨a, b⟩ := t.old hp'
      refine ⟨a, fun j h1 h2 => ?_⟩
      obtain ⟨r, d1, d2, d3, d4⟩ := b j h1 h2
      refine ⟨r, d1, ?_, ?_, ?_⟩
      · simp only [HOp.run, List.length_append]; simp only at d2; omega
      · simp only [HOp.run]; rw [get_append_left d2]; exact d3
      · simp only [HOp.run]; rw [get_append_left d2]; exact d4
  | write q v =>
    obtain ⟨hq, hv⟩ := ho
    simp only at hq hv
    have hlen : ∀ r, ((hp.put q v).get r).length = (hp.get r).length := by
      intro r
      by_cases hr : r = q
      · subst hr
        by_cases hlt : r < hp.length
        · rw [get_put_self _ hlt, hv]
        · unfold Heap.put
          rw [List.set_eq_of_length_le (by omega)]
      · rw [get_put_ne _ hr]
    obtain ⟨r0, c1, c2, c3⟩ := t.cur
    refine ⟨t.hist, t.lo, t.hi, t.le, t.ndof, t.len, ⟨r0, c1, ?_, ?_⟩, t.start, fun hp' => ?_, t.inj⟩
    · simp only [HOp.run]; rw [put_length]; exact c2
    · simp only [HOp.run]; rw [hlen]; exact c3
    · obtain ⟨a, b⟩ := t.old hp'
      refine ⟨a, fun j h1 h2 => ?_⟩
      obtain ⟨r, d1, d2, d3, d4⟩ := b j h1 h2
      refine ⟨r, d1, ?_, ?_, ?_⟩
      · simp only [HOp.run]; rw [put_length]; exact d2
      · simp only [HOp.run]; rw [hlen]; exact d3
      · simp only [HOp.run]
        rw [get_put_ne]
        · exact d4
        · rintro rfl; exact hq j h1 d1
  | set q =>
    obtain ⟨h1, h2, h3⟩ := ho
    simp only at h1 h2 h3
    simp only [HOp.run]
    split
    · next x' e =>
      unfold Var.setData at e
      split at e
      · cases e
      · simp only [Option.getD_some] at e
        split at e
        · cases e
        · split at e
          · cases e
          · have hidx : pyIndex x.data.length 0 = some 0 := by
              have := t.len
              simp only at this
              unfold pyIndex
              rw [this]; simp
            rw [hidx] at e
            simp only at e
            cases e
            have g0 : (x.data.set 0 (some q)).getD 0 none = some q := by
              have := t.len
              simp only at this
              rw [List.getD_eq_getElem?_getD, List.getElem?_set_self (by omega)]; rfl
            have gj : ∀ j, 1 ≤ j → (x.data.set 0 (some q)).getD j none = x.data.getD j none := by
              intro j hj
              rw [List.getD_eq_getElem?_getD, List.getElem?_set_ne (by omega),
                ← List.getD_eq_getElem?_getD]
            refine ⟨t.hist, t.lo, t.hi, t.le, t.ndof, ?_, ⟨q, g0, h2, ?_⟩, fun hp' => ?_,
              fun hp' => ?_, ?_⟩
            · simp only [List.length_set]; exact t.len
            · have := t.hi
              simp only at this
              rw [← this]; exact h3
            · obtain ⟨a, b⟩ := t.start hp'
              exact ⟨a, fun j hj => by simp only; rw [gj j hj]; exact b j hj⟩
            · obtain ⟨a, b⟩ := t.old hp'
              refine ⟨a, fun j hj1 hj2 => ?_⟩
              simp only
              rw [gj j hj1]
              exact b j hj1 hj2
            · intro i j r hij hi hj
              simp only at hi hj
              rw [gj j (by omega)] at hj
              by_cases hi0 : i = 0
              · subst hi0
                rw [g0] at hi
                cases hi
                exact h1 j (by omega) hj
              · rw [gj i (by omega)] at hi
                exact t.inj i j r hij hi hj
    · exact t
  | advance ts =>
    obtain ⟨s', e, t', _⟩ := tracks_advance t ts
    simp only [HOp.run]
    rw [e]
    exact t'

theorem tracks_run {s : Heap V × Var} {h lo hi : Nat} {past : List (List V)}
    (t : Tracks s h lo hi past) (ops : List (HOp V)) (ho : allAllowed ops s) :
    Tracks (ops.foldl (fun s o => o.run s) s) h lo hi (record ops s past) := by
  induction ops generalizing s past with
  | nil => exact t
  | cons o os ih => exact ih (tracks_step t o ho.1) ho.2

theorem call_back {s : Heap V × Var} {h lo hi : Nat} {past : List (List V)}
    (t : Tracks s h lo hi past) (j : Nat) (h1 : 1 ≤ j) (h2 : j ≤ h) :
    s.2.call s.1 (-(j : Int)) = if past = [] then (if j = 1 then .ok (current s) else .error .value)
      else .ok (back past j) := by
  have hidx : pyIndex s.2.data.length (-(-(j : Int))) = some j := by
    unfold pyIndex
    rw [t.len, if_pos (by omega), if_pos (by omega)]
    simp
  obtain ⟨r0, c1, c2, c3⟩ := t.cur
  by_cases hp : past = []
  · obtain ⟨a, b⟩ := t.start hp
    rw [if_pos hp]
    unfold Var.call
    by_cases hj : j = 1
    · subst hj
      rw [if_pos ⟨a, by simp⟩, if_pos rfl, c1]
      simp only
      unfold current
      rw [call_zero t c1, t.lo, t.hi]
    · rw [if_neg (by rintro ⟨_, e⟩; omega), if_neg hj, hidx]
      simp only
      rw [b j h1]
  · obtain ⟨a, b⟩ := t.old hp
    obtain ⟨r, d1, d2, d3, d4⟩ := b j h1 h2
    rw [if_neg hp]
    unfold Var.call
    rw [if_neg (by rintro ⟨e, _⟩; exact a e), hidx]
    simp only
    rw [d1]
    simp only
    rw [t.lo, t.hi, d4]

/-! ### C24 -/

/-- C24: `init_history` followed by `set_data` gives a variable with an empty history, for any
array and any history depth. -/
theorem C24_start (hp : Heap V) (x x' : Var) (h r lo hi : Nat) (hh : x.history = some h)
    (hr : r < hp.length) (hl : hi ≤ (hp.get r).length)
    (e : x.initHistory.setData hp r (some (lo, hi)) 0 = .ok x') :
    Tracks (hp, x') h lo hi [] ∧ current (hp, x') = slice (hp.get r) lo hi := by
  have hi' : x.initHistory = { x with data := List.replicate (h + 1) none, step := 0 } := by
    unfold Var.initHistory; rw [hh]
  rw [hi'] at e
  unfold Var.setData at e
  simp only [Option.getD_some] at e
  split at e
  · cases e
  · split at e
    · cases e
    · next hn =>
      split at e
      · cases e
      · have hidx : pyIndex (List.replicate (h + 1) (none : Option Nat)).length 0 = some 0 := by
          unfold pyIndex; simp
        rw [hidx] at e
        simp only at e
        cases e
        have gj : ∀ j, 1 ≤ j → ((List.replicate (h + 1) (none : Option Nat)).set 0 (some r)).getD j none
            = none := by
          intro j hj
          rw [List.getD_eq_getElem?_getD, List.getElem?_set_ne (by omega), List.getElem?_replicate]
          split <;> rfl
        have t : Tracks (hp,
            ⟨x.history, x.nDof, (List.replicate (h + 1) none).set 0 (some r), lo, hi, 0, x.locked⟩)
            h lo hi [] := by
          refine ⟨hh, rfl, rfl, by omega, by simp only; omega, by simp, ⟨r, ?_, hr, hl⟩,
            fun _ => ⟨rfl, fun j hj => ?_⟩, fun e => absurd rfl e, ?_⟩
          · simp [List.getD_eq_getElem?_getD]
          · exact gj j hj
          · intro i j q hij h1 h2
            simp only at h2
            rw [gj j (by omega)] at h2
            cases h2
        refine ⟨t, ?_⟩
        unfold current
        rw [call_zero t (r := r) (by simp [List.getD_eq_getElem?_getD])]

/-- C24: after any sequence of creating and changing arrays, setting the current data and `advance`
calls, `variable(step=-j)` is the vector that was current `j` advances ago (the initial one if there
were fewer advances, in particular it is not affected by later changes of the current vector);
before the first advance the previous vector is the current one, and older vectors are not available. -/
theorem C24_history (s : Heap V × Var) (h lo hi : Nat) (t : Tracks s h lo hi [])
    (ops : List (HOp V)) (ho : allAllowed ops s) (j : Nat) (h1 : 1 ≤ j) (h2 : j ≤ h) :
    let s' := ops.foldl (fun s o => o.run s) s
    let past := record ops s []
    s'.2.call s'.1 (-(j : Int)) =
      if past = [] then (if j = 1 then .ok (current s') else .error .value)
      else .ok (back past j) := by
  intro s' past
  exact call_back (tracks_run t ops ho) j h1 h2

/-- C24: the current vector is the slice of the array set last, as it is now; `advance` does not
change it. -/
theorem C24_current (s : Heap V × Var) (h lo hi : Nat) (t : Tracks s h lo hi [])
    (ops : List (HOp V)) (ho : allAllowed ops s) :
    let s' := ops.foldl (fun s o => o.run s) s
    (∃ r, s'.2.data.getD 0 none = some r ∧ current s' = slice (s'.1.get r) lo hi) ∧
    (∀ ts, current ((HOp.advance ts).run s') = current s' ∧
      ((HOp.advance ts).run s').2.data.getD 0 none = s'.2.data.getD 0 none) ∧
    (∀ r, (HOp.set r : HOp V).allowed s' → s'.2.locked = false →
      ((HOp.set r).run s').2.data.getD 0 none = some r ∧
      current ((HOp.set r).run s') = slice (s'.1.get r) lo hi) := by
  intro s'
  have t' := tracks_run t ops ho
  obtain ⟨r, c1, c2, c3⟩ := t'.cur
  refine ⟨⟨r, c1, ?_⟩, fun ts => ?_, fun q hq hlk => ?_⟩
  · unfold current; rw [call_zero t' c1]
  · obtain ⟨s2, e, _, e2, _, e3⟩ := tracks_advance t' ts
    simp only [HOp.run]
    rw [e]
    exact ⟨e2, e3⟩
  · have t2 := tracks_step t' (.set q) hq
    have hrun : (HOp.set q).run s' = (s'.1, { s'.2 with data := s'.2.data.set 0 (some q) }) := by
      have hlen := t'.len
      have hidx : pyIndex s'.2.data.length 0 = some 0 := by
        unfold pyIndex; rw [hlen]; simp
      simp only [HOp.run]
      unfold Var.setData
      rw [hlk]
      simp only [Option.getD_some, Bool.false_eq_true, if_false]
      have hn : ¬ (s'.2.nDof ≠ s'.2.hi - s'.2.lo ∨ s'.2.hi < s'.2.lo) := by
        rw [t'.ndof, t'.lo, t'.hi]
        have := t'.le
        omega
      rw [if_neg hn, if_neg (by rw [hlen]; omega), hidx]
    rw [hrun] at t2 ⊢
    have g0 : (s'.2.data.set 0 (some q)).getD 0 none = some q := by
      rw [List.getD_eq_getElem?_getD, List.getElem?_set_self (by rw [t'.len]; omega)]; rfl
    refine ⟨g0, ?_⟩
    unfold current
    rw [call_zero t2 g0]

/-- C24: a variable without a history: `step=-1` gives the current vector, `advance` does
nothing. -/
theorem C24_no_history (hp : Heap V) (x : Var) (r : Nat) (hh : x.history = none)
    (hs : x.step = 0) (hd : x.data = [some r]) (ts : Nat) :
    x.call hp (-1) = x.call hp 0 ∧ x.advance hp ts = .ok (hp, x) := by
  constructor
  · unfold Var.call
    rw [if_pos ⟨hs, rfl⟩, if_neg (by omega), hd]
    rfl
  · unfold Var.advance
    rw [hh]

/-- Which of the stored vectors `set_data(..., step=-j)` replaces: the one read by
`step=-(h+1-j)`. For the history depth 1 it is the right one. -/
theorem C24_set_data_step (s : Heap V × Var) (h lo hi : Nat) (past : List (List V))
    (t : Tracks s h lo hi past) (hlk : s.2.locked = false) (r : Nat) (j : Nat) (h1 : 1 ≤ j)
    (h2 : j ≤ h) :
    ∃ x', s.2.setData s.1 r (some (lo, hi)) (-(j : Int)) = .ok x' ∧
      x'.data = s.2.data.set (h + 1 - j) (some r) ∧
      (past ≠ [] → x'.call s.1 (-((h + 1 - j : Nat) : Int)) = .ok (slice (s.1.get r) lo hi)) ∧
      (past ≠ [] → 2 * j ≠ h + 1 → x'.call s.1 (-(j : Int)) = s.2.call s.1 (-(j : Int))) := by
  have hidx : pyIndex s.2.data.length (-(j : Int)) = some (h + 1 - j) := by
    unfold pyIndex
    rw [t.len, if_neg (by omega), if_pos (by omega)]
    congr 1
    omega
  have hle := t.le
  have e : s.2.setData s.1 r (some (lo, hi)) (-(j : Int)) =
      .ok { s.2 with data := s.2.data.set (h + 1 - j) (some r), lo := lo, hi := hi } := by
    unfold Var.setData
    rw [hlk]
    simp only [Option.getD_some, Bool.false_eq_true, if_false]
    rw [if_neg (by rw [t.ndof]; omega), if_neg (by rw [t.len]; omega), hidx, ← hlk]
  refine ⟨_, e, rfl, fun hp => ?_, fun hp hne => ?_⟩
  · unfold Var.call
    have hi2 : pyIndex (s.2.data.set (h + 1 - j) (some r)).length
        (-(-((h + 1 - j : Nat) : Int))) = some (h + 1 - j) := by
      unfold pyIndex
      rw [List.length_set, t.len, if_pos (by omega), if_pos (by omega)]
      simp
    rw [if_neg (by rintro ⟨e, _⟩; exact (t.old hp).1 e)]
    simp only
    rw [hi2]
    simp only
    rw [List.getD_eq_getElem?_getD, List.getElem?_set_self (by rw [t.len]; omega)]
    rfl
  · unfold Var.call
    have hi2 : ∀ l : List (Option Nat), l.length = h + 1 → pyIndex l.length (-(-(j : Int))) = some j := by
      intro l hl
      unfold pyIndex
      rw [hl, if_pos (by omega), if_pos (by omega)]
      simp
    rw [if_neg (by rintro ⟨e, _⟩; exact (t.old hp).1 e), if_neg (by rintro ⟨e, _⟩; exact (t.old hp).1 e)]
    simp only
    rw [hi2 _ (by rw [List.length_set, t.len]), hi2 _ t.len]
    simp only
    rw [List.getD_eq_getElem?_getD, List.getElem?_set_ne (by omega), ← List.getD_eq_getElem?_getD,
      t.lo, t.hi]

/-- C24, a finding: with the history depth 2, `set_data(v, step=-1)` sets the vector read by `step=-2` and
leaves the one read by `step=-1`. -/
theorem C24_counterexample_set_data (s : Heap V × Var) (lo hi : Nat) (past : List (List V))
    (t : Tracks s 2 lo hi past) (hp : past ≠ []) (hlk : s.2.locked = false) (r : Nat)
    (hr : slice (s.1.get r) lo hi ≠ back past 1) :
    ∃ x', s.2.setData s.1 r (some (lo, hi)) (-1) = .ok x' ∧
      x'.call s.1 (-1) ≠ .ok (slice (s.1.get r) lo hi) ∧
      x'.call s.1 (-2) = .ok (slice (s.1.get r) lo hi) := by
  obtain ⟨x', e, _, a, b⟩ := C24_set_data_step s 2 lo hi past t hlk r 1 (le_refl _) (by omega)
  refine ⟨x', e, ?_, a hp⟩
  have := b hp (by omega)
  simp only [Int.ofNat_one] at this
  rw [this]
  have e2 := call_back t 1 (le_refl _) (by omega)
  simp only [Int.ofNat_one] at e2
  rw [e2, if_neg hp]
  exact fun e => hr (Except.ok.inj e).symm

/-- C24, a finding: the history is read through the slice set last: after `set_data` with another
slice (here with no slice instead of a part of the state vector) the previous steps are read
at wrong positions. -/
theorem C24_counterexample_slice :
    ∃ (hp : Heap Nat) (x x' : Var), Tracks (hp, x) 1 2 4 [[13, 14]] ∧
      x.call hp (-1) = .ok [13, 14] ∧
      x.setData hp 2 none 0 = .ok x' ∧ x'.call hp 0 = .ok [7, 8] ∧
      x'.call hp (-1) = .ok [11, 12] := by
  refine ⟨[[1, 2, 3, 4], [11, 12, 13, 14], [7, 8]],
    ⟨some 1, 2, [some 0, some 1], 2, 4, 1, false⟩, ⟨some 1, 2, [some 2, some 1], 0, 2, 1, false⟩, ?_, rfl, rfl,
    rfl, rfl⟩
  refine ⟨rfl, rfl, rfl, by omega, rfl, rfl, ⟨0, rfl, by decide, by decide⟩, fun e => by simp at e,
    fun _ => ⟨by decide, fun j h1 h2 => ?_⟩, ?_⟩
  · obtain rfl : j = 1 := by omega
    exact ⟨1, rfl, by decide, by decide, rfl⟩
  · intro i j r hij h1 h2
    rcases i with _ | _ | i
    · rcases j with _ | _ | j
      · omega
      · simp at h1 h2; omega
      · simp at h2
    · rcases j with _ | _ | j
      · omega
      · omega
      · simp at h2
    · simp at h1

/-! ### Restart files -/

theorem mapM_ok {α β : Type} (f : α → Except HErr β) (g : α → β) :
    ∀ l : List α, (∀ a ∈ l, f a = .ok (g a)) → l.mapM f = .ok (l.map g) := by
  intro l
  induction l with
  | nil => intro _; rfl
  | cons a l ih =>
    intro h
    rw [List.mapM_cons, h a (by simp), ih fun b hb => h b (by simp [hb])]
    rfl

theorem mapM_error {α β : Type} (f : α → Except HErr β) :
    ∀ l : List α, (∃ a ∈ l, ∃ e, f a = .error e) → ∃ e, l.mapM f = .error e := by
  intro l
  induction l with
  | nil => rintro ⟨a, ha, _⟩; simp at ha
  | cons b l ih =>
    rintro ⟨a, ha, e, he⟩
    rw [List.mapM_cons]
    cases hb : f b with
    | error e => exact ⟨e, rfl⟩
    | ok w =>
      have : a ∈ l := by
        rcases List.mem_cons.1 ha with rfl | h
        · rw [he] at hb; cases hb
        · exact h
      obtain ⟨e', h'⟩ := ih ⟨a, this, e, he⟩
      rw [h']
      exact ⟨e', rfl⟩

/-- The vectors in a restart file of a variable in the state described by `past`: the current one and
the history. -/
theorem C24_save (s : Heap V × Var) (h lo hi : Nat) (past : List (List V))
    (t : Tracks s h lo hi past) (hp : past ≠ [] ∨ h ≤ 1) :
    saveVar s.1 s.2 = .ok (current s ::
      (List.range h).map fun i => if past = [] then current s else back past (i + 1)) := by
  unfold saveVar
  rw [mapM_ok _ (fun i => if i = 0 then current s else if past = [] then current s else back past i),
    t.len, List.range_succ_eq_map]
  · simp only [List.map_cons, if_true, List.map_map]
    congr 2
  · intro i hi
    rw [t.len, List.mem_range] at hi
    obtain ⟨r, c1, _⟩ := t.cur
    by_cases h0 : i = 0
    · subst h0
      simp only [if_true]
      unfold current
      rw [show (-((0 : Nat) : Int)) = 0 from rfl, call_zero t c1]
    · rw [if_neg h0, call_back t i (by omega) (by omega)]
      by_cases hpe : past = []
      · have : i = 1 := by
          rcases hp with h | h
          · exact absurd hpe h
          · omega
        rw [if_pos hpe, if_pos this, if_pos hpe]
      · rw [if_neg hpe, if_neg hpe]

/-- C24, a finding: writing a restart file fails in the first time step (before the first
`advance`) if a variable has the history depth 2 or more. -/
theorem C24_counterexample_save (s : Heap V × Var) (h lo hi : Nat) (t : Tracks s h lo hi [])
    (h2 : 2 ≤ h) : ∃ e, saveVar s.1 s.2 = .error e := by
  unfold saveVar
  apply mapM_error
  refine ⟨2, by rw [t.len, List.mem_range]; omega, .value, ?_⟩
  rw [call_back t 2 (by omega) h2]
  rfl

theorem loadLoop_ok : ∀ (ds : List (List V)) (k : Nat) (hp : Heap V) (x : Var),
    (∀ d ∈ ds, d.length = x.nDof) → k + ds.length ≤ x.data.length →
    ∃ hp' x', loadLoop k ds hp x = .ok (hp', x') ∧ x'.history = x.history ∧ x'.nDof = x.nDof := by
  intro ds
  induction ds with
  | nil => intro k hp x _ _; exact ⟨hp, x, rfl, rfl, rfl⟩
  | cons d ds ih =>
    intro k hp x hd hk
    rw [List.length_cons] at hk
    have hdl : d.length = x.nDof := hd d (by simp)
    have hidx : ∃ i, pyIndex x.data.length (-(k : Int)) = some i := by
      unfold pyIndex
      split
      · rw [if_pos (by omega)]; exact ⟨_, rfl⟩
      · rw [if_pos (by omega)]; exact ⟨_, rfl⟩
    obtain ⟨i, hidx⟩ := hidx
    have e : ({ x with locked := false } : Var).setData (hp ++ [d]) hp.length none (-(k : Int)) =
        .ok ⟨x.history, x.nDof, x.data.set i (some hp.length), 0, d.length, x.step, false⟩ := by
      unfold Var.setData
      simp only [Bool.false_eq_true, if_false, Option.getD_none]
      rw [get_append_self, if_neg (by omega), if_neg (by omega), hidx]
    unfold loadLoop
    rw [e]
    simp only
    obtain ⟨hp', x', a, b, c⟩ := ih (k + 1) (hp ++ [d])
      ⟨x.history, x.nDof, x.data.set i (some hp.length), 0, d.length, x.step, true⟩
      (fun d' h => hd d' (by simp [h])) (by simp only [List.length_set]; omega)
    exact ⟨hp', x', a, b, c⟩

/-- What `load_restart` gives: the stored current vector, and an empty history. -/
theorem C24_load (s : Heap V × Var) (h lo hi : Nat) (past : List (List V))
    (t : Tracks s h lo hi past) (ds : List (List V)) (hs : saveVar s.1 s.2 = .ok ds)
    (hps : past ≠ [] ∨ h ≤ 1)
    (hp : Heap V) (x : Var) (hh : x.history = some h) (hn : x.nDof = s.2.nDof)
    (hd : x.data.length = h + 1) (z : V) (n : Nat) (hsz : hi ≤ n) :
    ∃ s2, loadVar z n lo hi ds hp x = .ok s2 ∧ Tracks s2 h lo hi [] ∧ current s2 = current s := by
  have hle := t.le
  have hcl : (current s).length = hi - lo := by
    obtain ⟨r, c1, c2, c3⟩ := t.cur
    unfold current
    rw [call_zero t c1]
    exact slice_length c3
  rw [C24_save s h lo hi past t hps] at hs
  have hs' := (Except.ok.inj hs).symm
  have hlen : ds.length = h + 1 := by rw [hs']; simp
  have hall : ∀ d ∈ ds, d.length = x.nDof := by
    rw [hs', hn, t.ndof]
    intro d hd
    rcases List.mem_cons.1 hd with rfl | hd
    · exact hcl
    · obtain ⟨i, hi', rfl⟩ := List.mem_map.1 hd
      rw [List.mem_range] at hi'
      by_cases hpe : past = []
      · rw [if_pos hpe]; exact hcl
      · rw [if_neg hpe]
        obtain ⟨r, _, _, d3, d4⟩ := (t.old hpe).2 (i + 1) (by omega) (by omega)
        rw [← d4]
        exact slice_length d3
  obtain ⟨hp1, x1, e1, e2, e3⟩ := loadLoop_ok ds 0 hp x hall (by omega)
  have hhead : ds.headD [] = current s := by rw [hs']; rfl
  unfold loadVar
  rw [e1]
  simp only
  rw [hhead]
  have hvl : (assign (List.replicate n z) lo hi (current s)).length = n := by
    rw [assign_length (by simpa using hsz) hle hcl]; simp
  have hvs : slice (assign (List.replicate n z) lo hi (current s)) lo hi = current s :=
    slice_assign (by simpa using hsz) hle hcl
  generalize assign (List.replicate n z) lo hi (current s) = vec at hvl hvs
  have hx1 : x1.history = some h := by rw [e2, hh]
  have hset : ∃ x2, ({ x1.initHistory with locked := false } : Var).setData (hp1 ++ [vec]) hp1.length
      (some (lo, hi)) 0 = .ok x2 := by
    have e : x1.initHistory = { x1 with data := List.replicate (h + 1) none, step := 0 } := by
      unfold Var.initHistory; rw [hx1]
    rw [e]
    unfold Var.setData
    simp only [Bool.false_eq_true, if_false, Option.getD_some]
    have hidx : pyIndex (List.replicate (h + 1) (none : Option Nat)).length 0 = some 0 := by
      unfold pyIndex; simp
    rw [if_neg (by rw [e3, hn, t.ndof]; omega), if_neg (by simp), hidx]
    exact ⟨_, rfl⟩
  obtain ⟨x2, hset⟩ := hset
  rw [hset]
  have hi' : ({ x1.initHistory with locked := false } : Var)
      = ({ x1 with locked := false } : Var).initHistory := by
    unfold Var.initHistory; simp only [hx1]
  rw [hi'] at hset
  obtain ⟨t2, c2⟩ := C24_start (hp1 ++ [vec]) ({ x1 with locked := false } : Var) x2 h hp1.length lo hi hx1 (by simp)
    (by rw [get_append_self, hvl]; exact hsz) hset
  rw [get_append_self, hvs] at c2
  have t3 : Tracks (hp1 ++ [vec], { x2 with locked := true }) h lo hi [] :=
    ⟨t2.hist, t2.lo, t2.hi, t2.le, t2.ndof, t2.len, t2.cur, t2.start, t2.old, t2.inj⟩
  refine ⟨_, rfl, t3, ?_⟩
  rw [← c2]
  rfl

/-- C24: for variables with the history depth at most 1, a run restarted from the file written in some
step, followed by `advance`, reads the same vectors as the uninterrupted run. -/
theorem C24_restart (s : Heap V × Var) (h lo hi : Nat) (past : List (List V)) (hh1 : h ≤ 1)
    (t : Tracks s h lo hi past) (hp : Heap V) (x : Var) (hh : x.history = some h)
    (hn : x.nDof = s.2.nDof) (hd : x.data.length = h + 1) (z : V) (n : Nat) (hsz : hi ≤ n) (ts : Nat) :
    ∃ ds s2 s2' s', saveVar s.1 s.2 = .ok ds ∧ loadVar z n lo hi ds hp x = .ok s2 ∧
      s2.2.advance s2.1 ts = .ok s2' ∧ s.2.advance s.1 ts = .ok s' ∧
      ∀ j : Nat, j ≤ h → s2'.2.call s2'.1 (-(j : Int)) = s'.2.call s'.1 (-(j : Int)) := by
  have hs := C24_save s h lo hi past t (.inr hh1)
  obtain ⟨s2, e2, t2, c2⟩ := C24_load s h lo hi past t _ hs (.inr hh1) hp x hh hn hd z n hsz
  obtain ⟨s2', a1, a2, a3, _⟩ := tracks_advance t2 ts
  obtain ⟨s', b1, b2, b3, _⟩ := tracks_advance t ts
  refine ⟨_, s2, s2', s', hs, e2, a1, b1, fun j hj => ?_⟩
  have hcur : current s2' = current s' := by rw [a3, b3, c2]
  by_cases h0 : j = 0
  · subst h0
    obtain ⟨r, d1, _⟩ := a2.cur
    obtain ⟨r', d1', _⟩ := b2.cur
    have f1 := call_zero a2 d1
    have f2 := call_zero b2 d1'
    unfold current at hcur
    rw [f1, f2] at hcur
    simp only at hcur
    rw [show (-((0 : Nat) : Int)) = 0 from rfl, f1, f2, hcur]
  · obtain rfl : j = 1 := by omega
    rw [call_back a2 1 (le_refl _) hj, call_back b2 1 (le_refl _) hj, if_neg (by simp),
      if_neg (by simp)]
    simp [back, c2]

/-- C24, a finding: with the history depth 2 or more the restarted run does not get the vectors
of the steps before the stored one (`load_restart` ends with `init_state`, that clears the
history): `step=-2` reads the vector of the stored step instead of the previous one. -/
theorem C24_counterexample_restart (s : Heap V × Var) (h lo hi : Nat) (past : List (List V))
    (hh2 : 2 ≤ h) (hpast : past ≠ [])
    (t : Tracks s h lo hi past) (hp : Heap V) (x : Var) (hh : x.history = some h)
    (hn : x.nDof = s.2.nDof) (hd : x.data.length = h + 1) (z : V) (n : Nat) (hsz : hi ≤ n) (ts : Nat) :
    ∃ ds s2 s2' s', saveVar s.1 s.2 = .ok ds ∧ loadVar z n lo hi ds hp x = .ok s2 ∧
      s2.2.advance s2.1 ts = .ok s2' ∧ s.2.advance s.1 ts = .ok s' ∧
      s2'.2.call s2'.1 (-2) = .ok (current s) ∧ s'.2.call s'.1 (-2) = .ok (back past 1) := by
  have hs := C24_save s h lo hi past t (.inl hpast)
  obtain ⟨s2, e2, t2, c2⟩ := C24_load s h lo hi past t _ hs (.inl hpast) hp x hh hn hd z n hsz
  obtain ⟨s2', a1, a2, a3, _⟩ := tracks_advance t2 ts
  obtain ⟨s', b1, b2, b3, _⟩ := tracks_advance t ts
  have g1 := call_back a2 2 (by omega) hh2
  have g2 := call_back b2 2 (by omega) hh2
  rw [if_neg (by simp)] at g1 g2
  refine ⟨_, s2, s2', s', hs, e2, a1, b1, g1.trans ?_, g2.trans ?_⟩
  · simp [back, c2]
  · obtain ⟨p, l, rfl⟩ := List.exists_cons_of_ne_nil hpast
    simp [back]

/-! ### Non-vacuity -/

/-- A variable with the history depth 2 in the second half of a state vector, after two steps with an
in-place change of the state vector between them. -/
example : ∃ x' : Var,
    ({ history := some 2, nDof := 2, data := [none], lo := 0, hi := 0, step := 0,
       locked := false } : Var).initHistory.setData [[1, 2, 3, 4]] 0 (some (2, 4)) 0 = .ok x' ∧
    let s : Heap Nat × Var := ([[1, 2, 3, 4]], x')
    let ops : List (HOp Nat) := [.advance 0, .write 0 [5, 6, 7, 8], .advance 1, .write 0 [0, 0, 9, 9]]
    allAllowed ops s ∧ record ops s [] = [[7, 8], [3, 4]] := by
  refine ⟨_, rfl, ?_, rfl⟩
  refine ⟨trivial, ⟨?_, rfl⟩, trivial, ⟨?_, rfl⟩, trivial⟩
  all_goals
    intro j hj e
    rcases j with _ | _ | _ | j
    · omega
    · cases e
    · cases e
    · cases e

end Verif.History
