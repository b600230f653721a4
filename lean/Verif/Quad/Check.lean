/-
A checker for the tables of quadrature points that the kernel can run, and its soundness: nothing here
models code of sfepy.
-/
import Verif.Quad.Tables
import Mathlib.Data.Rat.Cast.Order
import Mathlib.Algebra.Order.Field.Rat
import Mathlib.Tactic.Positivity

namespace Quad

/-- Numbers the checker computes with: rational numbers and their extensions by square roots. -/
class Chk (K : Type) where
  add : K → K → K
  mul : K → K → K
  ofRat : ℚ → K
  /-- The real number. -/
  val : K → ℝ
  /-- Is it surely within `eps` of a rational number? -/
  close : K → ℚ → ℚ → Bool
  /-- Is it surely nonnegative? -/
  nonneg : K → Bool
  pow : K → ℕ → K
  val_add : ∀ a b, val (add a b) = val a + val b
  val_mul : ∀ a b, val (mul a b) = val a * val b
  val_ofRat : ∀ q : ℚ, val (ofRat q) = (q : ℝ)
  val_pow : ∀ a k, val (pow a k) = val a ^ k
  close_sound : ∀ a m eps, close a m eps = true → |val a - (m : ℝ)| ≤ (eps : ℝ)
  nonneg_sound : ∀ a, nonneg a = true → 0 ≤ val a

instance : Chk ℚ where
  add := (· + ·)
  mul := (· * ·)
  ofRat := id
  val := fun q => (q : ℝ)
  close := fun a m eps => decide (a - m ≤ eps) && decide (m - a ≤ eps)
  nonneg := fun a => decide (0 ≤ a)
  pow := fun a k => a ^ k
  val_add := fun a b => by push_cast; rfl
  val_mul := fun a b => by push_cast; rfl
  val_ofRat := fun _ => rfl
  val_pow := fun a k => by push_cast; rfl
  close_sound := fun a m eps h => by
    rw [Bool.and_eq_true, decide_eq_true_eq, decide_eq_true_eq] at h
    have h1 : ((a - m : ℚ) : ℝ) ≤ eps := by exact_mod_cast h.1
    have h2 : ((m - a : ℚ) : ℝ) ≤ eps := by exact_mod_cast h.2
    push_cast at h1 h2
    rw [abs_le]
    constructor <;> linarith
  nonneg_sound := fun a h => by
    rw [decide_eq_true_eq] at h
    exact_mod_cast h

/-- The numbers `p + q √m + r √n + u √m √n`. -/
structure Q2 (m n : ℕ) where
  p : ℚ
  q : ℚ
  r : ℚ
  u : ℚ

/-- A natural number whose square is not less. -/
def rootUp (m : ℕ) : ℕ := ((List.range (m + 1)).find? fun k => decide (m ≤ k * k)).getD m

theorem rootUp_spec (m : ℕ) : Real.sqrt m ≤ rootUp m := by
  have h : m ≤ rootUp m * rootUp m := by
    unfold rootUp
    cases hf : (List.range (m + 1)).find? fun k => decide (m ≤ k * k) with
    | none =>
      simp only [Option.getD_none]
      exact Nat.le_mul_self m
    | some k =>
      have := List.find?_some hf
      simpa using this
  rw [Real.sqrt_le_left (by positivity)]
  rw [sq]
  exact_mod_cast h

namespace Q2

variable {m n : ℕ}

/-- The real number. -/
noncomputable def val (a : Q2 m n) : ℝ :=
  a.p + a.q * Real.sqrt m + a.r * Real.sqrt n + a.u * (Real.sqrt m * Real.sqrt n)

/-- The sum. -/
def add (a b : Q2 m n) : Q2 m n := ⟨a.p + b.p, a.q + b.q, a.r + b.r, a.u + b.u⟩

/-- The product. -/
def mul (a b : Q2 m n) : Q2 m n :=
  ⟨a.p * b.p + m * (a.q * b.q) + n * (a.r * b.r) + m * n * (a.u * b.u),
   a.p * b.q + a.q * b.p + n * (a.r * b.u + a.u * b.r),
   a.p * b.r + a.r * b.p + m * (a.q * b.u + a.u * b.q),
   a.p * b.u + a.u * b.p + a.q * b.r + a.r * b.q⟩

/-- Powers. -/
def pow (a : Q2 m n) : ℕ → Q2 m n
  | 0 => ⟨1, 0, 0, 0⟩
  | k + 1 => mul a (pow a k)

theorem val_add (a b : Q2 m n) : val (add a b) = val a + val b := by
  simp only [val, add]
  push_cast
  ring

theorem val_mul (a b : Q2 m n) : val (mul a b) = val a * val b := by
  have h1 : Real.sqrt m * Real.sqrt m = m := Real.mul_self_sqrt (by positivity)
  have h2 : Real.sqrt n * Real.sqrt n = n := Real.mul_self_sqrt (by positivity)
  simp only [val, mul]
  push_cast
  generalize Real.sqrt m = s at *
  generalize Real.sqrt n = t at *
  rw [← h1, ← h2]
  ring

theorem val_pow (a : Q2 m n) (k : ℕ) : val (pow a k) = val a ^ k := by
  induction k with
  | zero => simp [pow, val]
  | succ k ih => rw [pow, val_mul, ih, pow_succ]; ring

/-- A lower bound of a multiple of a number between zero and `R`. -/
def lowc (c : ℚ) (R : ℕ) : ℚ := if 0 ≤ c then 0 else c * R

theorem lowc_le (c : ℚ) (R : ℕ) (x : ℝ) (h0 : 0 ≤ x) (h1 : x ≤ R) : (lowc c R : ℝ) ≤ c * x := by
  unfold lowc
  split
  · rename_i h
    have : (0 : ℝ) ≤ c := by exact_mod_cast h
    push_cast
    exact mul_nonneg this h0
  · rename_i h
    have : (c : ℝ) ≤ 0 := by exact_mod_cast (not_le.1 h).le
    push_cast
    exact mul_le_mul_of_nonpos_left h1 this

/-- A lower bound. -/
def low (a : Q2 m n) : ℚ :=
  a.p + lowc a.q (rootUp m) + lowc a.r (rootUp n) + lowc a.u (rootUp m * rootUp n)

theorem low_le (a : Q2 m n) : (low a : ℝ) ≤ val a := by
  have h1 := rootUp_spec m
  have h2 := rootUp_spec n
  have p1 := Real.sqrt_nonneg (m : ℝ)
  have p2 := Real.sqrt_nonneg (n : ℝ)
  have k1 := lowc_le a.q _ _ p1 h1
  have k2 := lowc_le a.r _ _ p2 h2
  have k3 := lowc_le a.u (rootUp m * rootUp n) _ (mul_nonneg p1 p2) (by
    push_cast
    exact mul_le_mul h1 h2 p2 (by positivity))
  simp only [low, val]
  push_cast at k3 ⊢
  linarith

end Q2

noncomputable instance (m n : ℕ) : Chk (Q2 m n) where
  add := Q2.add
  mul := Q2.mul
  ofRat := fun q => ⟨q, 0, 0, 0⟩
  val := Q2.val
  close := fun a m' eps => decide (a.q = 0) && decide (a.r = 0) && decide (a.u = 0) &&
    decide (a.p - m' ≤ eps) && decide (m' - a.p ≤ eps)
  nonneg := fun a => decide (0 ≤ a.low)
  pow := Q2.pow
  val_add := Q2.val_add
  val_mul := Q2.val_mul
  val_ofRat := fun q => by simp [Q2.val]
  val_pow := Q2.val_pow
  close_sound := fun a m' eps h => by
    simp only [Bool.and_eq_true, decide_eq_true_eq] at h
    obtain ⟨⟨⟨⟨h1, h2⟩, h3⟩, h4⟩, h5⟩ := h
    have h4 : ((a.p - m' : ℚ) : ℝ) ≤ eps := by exact_mod_cast h4
    have h5 : ((m' - a.p : ℚ) : ℝ) ≤ eps := by exact_mod_cast h5
    push_cast at h4 h5
    simp only [Q2.val, h1, h2, h3]
    rw [abs_le]
    push_cast
    constructor <;> linarith
  nonneg_sound := fun a h => by
    rw [decide_eq_true_eq] at h
    exact le_trans (by exact_mod_cast h) (Q2.low_le a)

/-! ## Evaluation of the expressions of the tables -/

/-- The value of an expression without square roots. -/
def ratOf : Ex → Option ℚ
  | .dec m k => some ((m : ℚ) / 10 ^ k)
  | .sqrt _ _ => none
  | .neg a => (ratOf a).map fun x => -x
  | .add a b => match ratOf a, ratOf b with
    | some x, some y => some (x + y)
    | _, _ => none
  | .sub a b => match ratOf a, ratOf b with
    | some x, some y => some (x - y)
    | _, _ => none
  | .mul a b => match ratOf a, ratOf b with
    | some x, some y => some (x * y)
    | _, _ => none
  | .div a b => match ratOf a, ratOf b with
    | some x, some y => some (x / y)
    | _, _ => none

theorem ratOf_sound (e : Ex) : ∀ q, ratOf e = some q → e.real = (q : ℝ) := by
  induction e with
  | dec m k => intro q h; simp only [ratOf, Option.some.injEq] at h; rw [← h, Ex.real]; push_cast; rfl
  | sqrt a b => intro q h; simp [ratOf] at h
  | neg a ih =>
    intro q h
    simp only [ratOf, Option.map_eq_some_iff] at h
    obtain ⟨x, hx, rfl⟩ := h
    rw [Ex.real, ih x hx]
    push_cast
    rfl
  | add a b iha ihb =>
    intro q h
    simp only [ratOf] at h
    split at h
    · rename_i x y hx hy
      simp only [Option.some.injEq] at h
      rw [← h, Ex.real, iha _ hx, ihb _ hy]; push_cast; rfl
    · simp at h
  | sub a b iha ihb =>
    intro q h
    simp only [ratOf] at h
    split at h
    · rename_i x y hx hy
      simp only [Option.some.injEq] at h
      rw [← h, Ex.real, iha _ hx, ihb _ hy]; push_cast; rfl
    · simp at h
  | mul a b iha ihb =>
    intro q h
    simp only [ratOf] at h
    split at h
    · rename_i x y hx hy
      simp only [Option.some.injEq] at h
      rw [← h, Ex.real, iha _ hx, ihb _ hy]; push_cast; rfl
    · simp at h
  | div a b iha ihb =>
    intro q h
    simp only [ratOf] at h
    split at h
    · rename_i x y hx hy
      simp only [Option.some.injEq] at h
      rw [← h, Ex.real, iha _ hx, ihb _ hy]; push_cast; rfl
    · simp at h

variable {K : Type} [Chk K]

/-- A square root among candidates. -/
def findRoot (roots : List K) (a b : ℕ) : Option K :=
  roots.find? fun x => Chk.close (Chk.mul x x) ((a : ℚ) / b) 0 && Chk.nonneg x

theorem findRoot_sound (roots : List K) (a b : ℕ) (x : K) (h : findRoot roots a b = some x) :
    Real.sqrt ((a : ℝ) / b) = Chk.val x := by
  have h1 := List.find?_some h
  rw [Bool.and_eq_true] at h1
  have h2 := Chk.close_sound _ _ _ h1.1
  have h3 := Chk.nonneg_sound _ h1.2
  rw [Chk.val_mul] at h2
  push_cast at h2
  have h4 : Chk.val x * Chk.val x = (a : ℝ) / b := by
    have := abs_nonpos_iff.1 h2
    linarith
  rw [← h4, Real.sqrt_mul_self h3]

/-- The value of an expression. -/
def exOf (roots : List K) : Ex → Option K
  | .dec m k => some (Chk.ofRat ((m : ℚ) / 10 ^ k))
  | .sqrt a b => findRoot roots a b
  | .neg a => (exOf roots a).map fun x => Chk.mul (Chk.ofRat (-1)) x
  | .add a b => match exOf roots a, exOf roots b with
    | some x, some y => some (Chk.add x y)
    | _, _ => none
  | .sub a b => match exOf roots a, exOf roots b with
    | some x, some y => some (Chk.add x (Chk.mul (Chk.ofRat (-1)) y))
    | _, _ => none
  | .mul a b => match exOf roots a, exOf roots b with
    | some x, some y => some (Chk.mul x y)
    | _, _ => none
  | .div a (.sqrt c e) => match exOf roots a, findRoot roots c e with
    | some x, some y => if c = 0 ∨ e = 0 then none
        else some (Chk.mul x (Chk.mul y (Chk.ofRat ((e : ℚ) / c))))
    | _, _ => none
  | .div a b => match exOf roots a, ratOf b with
    | some x, some y => some (Chk.mul x (Chk.ofRat (1 / y)))
    | _, _ => none

theorem exOf_sound (roots : List K) (e : Ex) : ∀ x, exOf roots e = some x → e.real = Chk.val x := by
  induction e with
  | dec m k =>
    intro x h
    simp only [exOf, Option.some.injEq] at h
    rw [← h, Chk.val_ofRat, Ex.real]; push_cast; rfl
  | sqrt a b => intro x h; exact findRoot_sound roots a b x h
  | neg a ih =>
    intro q h
    simp only [exOf, Option.map_eq_some_iff] at h
    obtain ⟨x, hx, rfl⟩ := h
    rw [Ex.real, ih x hx, Chk.val_mul, Chk.val_ofRat]
    push_cast
    ring
  | add a b iha ihb =>
    intro q h
    simp only [exOf] at h
    split at h
    · rename_i x y hx hy
      simp only [Option.some.injEq] at h
      rw [← h, Ex.real, iha _ hx, ihb _ hy, Chk.val_add]
    · simp at h
  | sub a b iha ihb =>
    intro q h
    simp only [exOf] at h
    split at h
    · rename_i x y hx hy
      simp only [Option.some.injEq] at h
      rw [← h, Ex.real, iha _ hx, ihb _ hy, Chk.val_add, Chk.val_mul, Chk.val_ofRat]; push_cast; ring
    · simp at h
  | mul a b iha ihb =>
    intro q h
    simp only [exOf] at h
    split at h
    · rename_i x y hx hy
      simp only [Option.some.injEq] at h
      rw [← h, Ex.real, iha _ hx, ihb _ hy, Chk.val_mul]
    · simp at h
  | div a b iha _ =>
    intro q h
    have gen : ∀ q, (match exOf roots a, ratOf b with
        | some x, some y => some (Chk.mul x (Chk.ofRat (1 / y)))
        | _, _ => none) = some q → (Ex.div a b).real = Chk.val q := by
      intro q h
      split at h
      · rename_i x y hx hy
        simp only [Option.some.injEq] at h
        rw [← h, Ex.real, iha _ hx, ratOf_sound _ _ hy, Chk.val_mul, Chk.val_ofRat]; push_cast; ring
      · simp at h
    cases b with
    | sqrt c e =>
      simp only [exOf] at h
      split at h
      · rename_i x y hx hy
        split at h
        · simp at h
        · rename_i hc
          push Not at hc
          simp only [Option.some.injEq] at h
          have hr := findRoot_sound _ _ _ _ hy
          rw [← h, Ex.real, iha _ hx, Ex.real, Chk.val_mul, Chk.val_mul, Chk.val_ofRat, ← hr]
          have hc1 : (0 : ℝ) < c := by exact_mod_cast Nat.pos_of_ne_zero hc.1
          have he1 : (0 : ℝ) < e := by exact_mod_cast Nat.pos_of_ne_zero hc.2
          have hsq : Real.sqrt ((c : ℝ) / e) * Real.sqrt ((c : ℝ) / e) = c / e :=
            Real.mul_self_sqrt (by positivity)
          have hs0 : Real.sqrt ((c : ℝ) / e) ≠ 0 := by
            have := Real.sqrt_pos.2 (show (0 : ℝ) < c / e by positivity)
            exact this.ne'
          push_cast
          rw [div_eq_iff hs0]
          have : Chk.val x * (Real.sqrt ((c : ℝ) / e) * ((e : ℝ) / c)) * Real.sqrt ((c : ℝ) / e) =
              Chk.val x * ((Real.sqrt ((c : ℝ) / e) * Real.sqrt ((c : ℝ) / e)) * ((e : ℝ) / c)) := by ring
          rw [this, hsq]
          field_simp
      · simp at h
    | dec m k => exact gen q h
    | neg b => exact gen q h
    | add b c => exact gen q h
    | sub b c => exact gen q h
    | mul b c => exact gen q h
    | div b c => exact gen q h

/-! ## Evaluation of the entries -/

/-- A rule with its numbers replaced by their real values. -/
noncomputable def ruleVal (r : Rule K) : Rule ℝ := r.map fun p => (p.1.map Chk.val, Chk.val p.2)

/-- The rows of an entry. -/
def rowsOf (roots : List K) : List (List Ex × Ex) → Option (Rule K)
  | [] => some []
  | r :: rs => match r.1.mapM (exOf roots), exOf roots r.2, rowsOf roots rs with
    | some c, some w, some R => some ((c, w) :: R)
    | _, _, _ => none

theorem mapM_exOf (roots : List K) : ∀ (l : List Ex) (c : List K), l.mapM (exOf roots) = some c →
    l.map Ex.real = c.map Chk.val := by
  intro l
  induction l with
  | nil => intro c h; simp at h; subst h; rfl
  | cons a l ih =>
    intro c h
    rw [List.mapM_cons] at h
    simp only [Option.bind_eq_bind, Option.bind_eq_some_iff, Option.pure_def, Option.some.injEq] at h
    obtain ⟨x, hx, y, hy, rfl⟩ := h
    rw [List.map_cons, List.map_cons, ih y hy, exOf_sound _ _ _ hx]

theorem rowsOf_sound (roots : List K) : ∀ (l : List (List Ex × Ex)) (R : Rule K), rowsOf roots l = some R →
    (l.map fun r => (r.1.map Ex.real, r.2.real)) = ruleVal R := by
  intro l
  induction l with
  | nil => intro R h; simp [rowsOf] at h; subst h; rfl
  | cons a l ih =>
    intro R h
    rw [rowsOf] at h
    split at h
    · rename_i c w R' hc hw hR
      simp only [Option.some.injEq] at h
      subst h
      rw [List.map_cons, ih _ hR, mapM_exOf _ _ _ hc, exOf_sound _ _ _ hw]
      rfl
    · simp at h

/-- The part of the constructor before the symmetric completion. -/
def transformOf (bounds : Bool) (wf : ℚ) (R : Rule K) : Rule K :=
  let f : ℚ := if bounds then 1 / 2 ^ ruleDim R * wf else wf
  R.map fun p => (if bounds then p.1.map fun x => Chk.add (Chk.mul (Chk.ofRat (1 / 2)) x) (Chk.ofRat (1 / 2))
    else p.1, Chk.mul (Chk.ofRat f) p.2)

/-- The mirrored points. -/
def mirrorOf (R : Rule K) : Rule K :=
  R.map fun p => (p.1.map fun x => Chk.add (Chk.ofRat 1) (Chk.mul (Chk.ofRat (-1)) x), p.2)

/-- The rule of an entry. -/
def entryOf (roots : List K) (e : Entry) : Option (Rule K) :=
  match rowsOf roots e.rows, ratOf e.tpFix, ratOf e.weightFix with
  | some R, some tp, some wf =>
    if tp = 0 then none
    else
      let R2 := transformOf e.bounds wf R
      if e.symmetric then
        match e.rows with
        | ([x], _) :: _ => match ratOf x with
          | some q => some (mirrorOf (if q = 0 then R2.tail.reverse else R2.reverse) ++ R2)
          | none => none
        | _ => none
      else some R2
  | _, _, _ => none

theorem ruleDim_val (R : Rule K) : ruleDim (ruleVal R) = ruleDim R := by
  cases R with
  | nil => rfl
  | cons p R => simp [ruleVal, ruleDim]

theorem entryOf_sound (roots : List K) (e : Entry) (R : Rule K) (h : entryOf roots e = some R) :
    e.rule = some (ruleVal R) := by
  rw [entryOf] at h
  split at h
  swap
  · simp at h
  rename_i R0 tp wf hR htp hwf
  split at h
  · simp at h
  rename_i htp0
  have htpR : (tp : ℝ) ≠ 0 := by exact_mod_cast htp0
  have hrows := rowsOf_sound _ _ _ hR
  have htr : (match (if e.bounds then some ((-1 : ℝ), (1 : ℝ)) else none) with
      | none => (ruleVal R0).map fun p => (p.1, p.2 * (wf : ℝ))
      | some (a, b) => ((ruleVal R0).map fun p => (p.1, p.2 * (wf : ℝ))).map fun p =>
        (p.1.map fun x => (1 - 0) / (b - a) * x + (b * 0 - a * 1) / (b - a),
          p.2 * (1 ^ ruleDim R0 * (tp : ℝ) / ((b - a) ^ ruleDim R0 * (tp : ℝ))))) =
      ruleVal (transformOf e.bounds wf R0) := by
    cases hb : e.bounds with
    | false =>
      simp only [Bool.false_eq_true, if_false, ruleVal, transformOf, List.map_map]
      refine List.map_congr_left fun p _ => ?_
      simp only [Function.comp_apply, Chk.val_mul, Chk.val_ofRat]
      rw [mul_comm]
    | true =>
      simp only [if_true, ruleVal, transformOf, List.map_map]
      refine List.map_congr_left fun p _ => ?_
      simp only [Function.comp_apply, Chk.val_mul, Chk.val_ofRat, List.map_map]
      have e1 : (1 : ℝ) ^ ruleDim R0 * (tp : ℝ) / ((1 - -1) ^ ruleDim R0 * (tp : ℝ)) = 1 / 2 ^ ruleDim R0 := by
        rw [one_pow, show (1 : ℝ) - -1 = 2 by norm_num, one_mul]
        have : (2 : ℝ) ^ ruleDim R0 ≠ 0 := by positivity
        field_simp
      rw [e1]
      refine Prod.ext ?_ ?_
      · refine List.map_congr_left fun x _ => ?_
        simp only [Function.comp_apply, Chk.val_add, Chk.val_mul, Chk.val_ofRat]
        push_cast
        norm_num
      · push_cast
        ring
  have hmk : ∀ sym, e.symmetric = sym → e.rule = mkQP true (ruleVal R0)
      (if e.bounds then some (-1, 1) else none) tp wf sym := by
    intro sym hs
    rw [Entry.rule, hrows, ratOf_sound _ _ htp, ratOf_sound _ _ hwf, hs]
  cases hs : e.symmetric with
  | false =>
    rw [hs] at h
    simp only [Bool.false_eq_true, if_false, Option.some.injEq] at h
    rw [hmk _ hs, ← h, ← htr]
    simp only [mkQP, ruleDim_val, Bool.false_eq_true, if_false]
    cases e.bounds <;> simp
  | true =>
    rw [hs] at h
    simp only [if_true] at h
    split at h
    swap
    · simp at h
    rename_i x w rest hr
    split at h
    swap
    · simp at h
    rename_i q hq
    simp only [Option.some.injEq] at h
    have hdim : ruleDim R0 = 1 := by
      rw [← ruleDim_val, ← hrows, hr]
      simp [ruleDim]
    have hfirst : firstCoor (ruleVal R0) = (q : ℝ) := by
      rw [← hrows, hr]
      simp [firstCoor, ratOf_sound _ _ hq]
    have hq0 : ((q : ℝ) = 0) ↔ q = 0 := by norm_cast
    have hmir : ∀ S : Rule K, ((ruleVal S).map fun p =>
        (p.1.map fun x => 2 * (1 / 2 * (0 + 1)) - x, p.2)) = ruleVal (mirrorOf S) := by
      intro S
      simp only [ruleVal, mirrorOf, List.map_map]
      refine List.map_congr_left fun p _ => ?_
      simp only [Function.comp_apply, List.map_map]
      refine Prod.ext ?_ rfl
      refine List.map_congr_left fun x _ => ?_
      simp only [Function.comp_apply, Chk.val_add, Chk.val_mul, Chk.val_ofRat]
      push_cast
      ring
    rw [hmk _ hs, ← h]
    have hval : ∀ S T : Rule K, ruleVal (S ++ T) = ruleVal S ++ ruleVal T := by
      intro S T; simp [ruleVal]
    rw [hval, ← hmir]
    have htail : ruleVal (if q = 0 then (transformOf e.bounds wf R0).tail.reverse
        else (transformOf e.bounds wf R0).reverse) =
        if q = 0 then (ruleVal (transformOf e.bounds wf R0)).tail.reverse
        else (ruleVal (transformOf e.bounds wf R0)).reverse := by
      split <;> simp [ruleVal, List.map_reverse, List.map_tail]
    rw [htail, ← htr]
    simp only [mkQP, ruleDim_val, if_true, hfirst, hq0, hdim, ne_eq, not_true_eq_false, if_false, Bool.true_eq_false]
    cases e.bounds <;> rfl

/-! ## Moments -/

/-- A monomial. -/
def monOf : List ℕ → List K → K
  | e :: es, x :: xs => Chk.mul (Chk.pow x e) (monOf es xs)
  | [], _ => Chk.ofRat 1
  | e :: es, [] => Chk.mul (Chk.pow (Chk.ofRat 0) e) (monOf es [])

theorem monOf_sound : ∀ (e : List ℕ) (x : List K), Chk.val (monOf e x) = mon e (x.map Chk.val) := by
  intro e
  induction e with
  | nil => intro x; cases x <;> simp [monOf, mon, Chk.val_ofRat]
  | cons a e ih =>
    intro x
    cases x with
    | nil => simp [monOf, mon, Chk.val_mul, Chk.val_pow, Chk.val_ofRat, ih]
    | cons y x => simp [monOf, mon, Chk.val_mul, Chk.val_pow, ih]

/-- The value of a rule on a monomial. -/
def quadOf (e : List ℕ) : Rule K → K
  | [] => Chk.ofRat 0
  | p :: R => Chk.add (Chk.mul p.2 (monOf e p.1)) (quadOf e R)

theorem quadOf_sound (e : List ℕ) (R : Rule K) : Chk.val (quadOf e R) = quad (ruleVal R) (mon e) := by
  induction R with
  | nil => simp [quadOf, quad, ruleVal, Chk.val_ofRat]
  | cons p R ih =>
    rw [quadOf, Chk.val_add, Chk.val_mul, monOf_sound, ih]
    simp [quad, ruleVal]

/-- The check of an entry: the moments and the points. -/
def checkEntry (roots : List K) (en : Entry) (mom : List ℕ → ℚ) (eps : ℚ) (es : List (List ℕ))
    (inside : List K → Bool) : Bool :=
  match entryOf roots en with
  | some R => (es.all fun e => Chk.close (quadOf e R) (mom e) eps) && R.all fun p => inside p.1
  | none => false

theorem checkEntry_sound (roots : List K) (en : Entry) (mom : List ℕ → ℚ) (eps : ℚ) (es : List (List ℕ))
    (inside : List K → Bool) (h : checkEntry roots en mom eps es inside = true) :
    ∃ R : Rule K, en.rule = some (ruleVal R) ∧
      (∀ e ∈ es, |quad (ruleVal R) (mon e) - (mom e : ℝ)| ≤ eps) ∧ ∀ p ∈ R, inside p.1 = true := by
  rw [checkEntry] at h
  split at h
  · rename_i R hR
    rw [Bool.and_eq_true, List.all_eq_true, List.all_eq_true] at h
    refine ⟨R, entryOf_sound _ _ _ hR, fun e he => ?_, h.2⟩
    have := Chk.close_sound _ _ _ (h.1 e he)
    rwa [quadOf_sound] at this
  · simp at h

end Quad
