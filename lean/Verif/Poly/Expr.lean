/-
Polynomial expressions in four variables, their exact derivatives and a normal form that decides identities.
The expressions stand for the sympy expressions of sfepy/discrete/fem/_serendipity.py and for the C expressions of
sfepy/discrete/fem/extmods/lobatto1d.c; the fourth variable of the latter is the square root.
-/
import Mathlib.Algebra.Field.Rat
import Mathlib.Data.Rat.Cast.CharZero
import Mathlib.Algebra.BigOperators.Group.List.Basic
import Mathlib.Analysis.Calculus.Deriv.Add
import Mathlib.Analysis.Calculus.Deriv.Mul
import Mathlib.Analysis.Calculus.Deriv.Pow
import Mathlib.Tactic.Ring

namespace Verif.Poly

/-- Expressions: constants, the variables 0, 1, 2, 3, sums, differences, products, powers. -/
inductive PE where
  | c (q : ℚ)
  | v (i : Fin 4)
  | add (a b : PE)
  | sub (a b : PE)
  | mul (a b : PE)
  | pow (a : PE) (n : ℕ)

namespace PE

/-- The value. -/
def eval {K : Type} [Field K] (ρ : Fin 4 → K) : PE → K
  | c q => (q : K)
  | v i => ρ i
  | add a b => a.eval ρ + b.eval ρ
  | sub a b => a.eval ρ - b.eval ρ
  | mul a b => a.eval ρ * b.eval ρ
  | pow a n => a.eval ρ ^ n

/-- The formal derivative with respect to a variable. -/
def diff (i : Fin 4) : PE → PE
  | c _ => c 0
  | v j => if j = i then c 1 else c 0
  | add a b => add (a.diff i) (b.diff i)
  | sub a b => sub (a.diff i) (b.diff i)
  | mul a b => add (mul (a.diff i) b) (mul a (b.diff i))
  | pow _ 0 => c 0
  | pow a (n + 1) => mul (c (n + 1)) (mul (pow a n) (a.diff i))

/-- The formal derivative is the derivative. -/
theorem hasDerivAt (e : PE) (ρ : Fin 4 → ℝ) (i : Fin 4) (x : ℝ) :
    HasDerivAt (fun x => e.eval (Function.update ρ i x)) ((e.diff i).eval (Function.update ρ i x)) x := by
  induction e with
  | c q =>
    refine (hasDerivAt_const x (q : ℝ)).congr_deriv ?_
    simp [eval, diff]
  | v j =>
    by_cases h : j = i
    · subst h
      have hf : (fun x : ℝ => (v j).eval (Function.update ρ j x)) = fun x => x := by funext y; simp [eval]
      rw [hf]
      refine (hasDerivAt_id' x).congr_deriv ?_
      simp [eval, diff]
    · have hf : (fun x : ℝ => (v j).eval (Function.update ρ i x)) = fun _ => ρ j := by funext y; simp [eval, h]
      rw [hf]
      refine (hasDerivAt_const x (ρ j)).congr_deriv ?_
      simp [eval, diff, h]
  | add a b ha hb => exact ha.fun_add hb
  | sub a b ha hb => exact ha.fun_sub hb
  | mul a b ha hb => exact ha.fun_mul hb
  | pow a n ha =>
    cases n with
    | zero =>
      have hf : (fun x : ℝ => (pow a 0).eval (Function.update ρ i x)) = fun _ => 1 := by funext y; simp [eval]
      rw [hf]
      refine (hasDerivAt_const x (1 : ℝ)).congr_deriv ?_
      simp [eval, diff]
    | succ n =>
      have h1 := ha.fun_pow (n + 1)
      refine h1.congr_deriv ?_
      simp only [eval, diff, Nat.add_sub_cancel]
      push_cast
      ring

/-- Values in rational points. -/
theorem eval_cast {K : Type} [Field K] [CharZero K] (e : PE) (ρ : Fin 4 → ℚ) :
    e.eval (fun i => (ρ i : K)) = ((e.eval ρ : ℚ) : K) := by
  induction e with
  | c q => simp [eval]
  | v i => simp [eval]
  | add a b ha hb => simp [eval, ha, hb]
  | sub a b ha hb => simp [eval, ha, hb]
  | mul a b ha hb => simp [eval, ha, hb]
  | pow a n ha => simp [eval, ha]

/-! ### Normal forms -/

/-- Exponents. -/
abbrev Mono := ℕ × ℕ × ℕ × ℕ

def mulMono (a b : Mono) : Mono := (a.1 + b.1, a.2.1 + b.2.1, a.2.2.1 + b.2.2.1, a.2.2.2 + b.2.2.2)

def insertTerm (m : Mono) (q : ℚ) : List (Mono × ℚ) → List (Mono × ℚ)
  | [] => [(m, q)]
  | t :: ts => if t.1 = m then (m, t.2 + q) :: ts else t :: insertTerm m q ts

def addN (a b : List (Mono × ℚ)) : List (Mono × ℚ) := b.foldl (fun acc t => insertTerm t.1 t.2 acc) a

def scaleN (m : Mono) (q : ℚ) (b : List (Mono × ℚ)) : List (Mono × ℚ) := b.map fun t => (mulMono m t.1, q * t.2)

def mulN (a b : List (Mono × ℚ)) : List (Mono × ℚ) := a.foldl (fun acc t => addN acc (scaleN t.1 t.2 b)) []

def powN (a : List (Mono × ℚ)) : ℕ → List (Mono × ℚ)
  | 0 => [((0, 0, 0, 0), 1)]
  | n + 1 => mulN (powN a n) a

def varMono (i : Fin 4) : Mono :=
  (if i = 0 then 1 else 0, if i = 1 then 1 else 0, if i = 2 then 1 else 0, if i = 3 then 1 else 0)

def norm : PE → List (Mono × ℚ)
  | c q => [((0, 0, 0, 0), q)]
  | v i => [(varMono i, 1)]
  | add a b => addN a.norm b.norm
  | sub a b => addN a.norm (scaleN (0, 0, 0, 0) (-1) b.norm)
  | mul a b => mulN a.norm b.norm
  | pow a n => powN a.norm n

section
variable {K : Type} [Field K]

def evalMono (ρ : Fin 4 → K) (m : Mono) : K := ρ 0 ^ m.1 * ρ 1 ^ m.2.1 * ρ 2 ^ m.2.2.1 * ρ 3 ^ m.2.2.2

def evalN (ρ : Fin 4 → K) (l : List (Mono × ℚ)) : K := (l.map fun t => (t.2 : K) * evalMono ρ t.1).sum

theorem evalMono_mul (ρ : Fin 4 → K) (a b : Mono) : evalMono ρ (mulMono a b) = evalMono ρ a * evalMono ρ b := by
  simp only [evalMono, mulMono, pow_add]; ring

variable [CharZero K]

theorem evalN_insert (ρ : Fin 4 → K) (m : Mono) (q : ℚ) (l : List (Mono × ℚ)) :
    evalN ρ (insertTerm m q l) = evalN ρ l + (q : K) * evalMono ρ m := by
  induction l with
  | nil => simp [insertTerm, evalN]
  | cons t ts ih =>
    rw [insertTerm]
    split_ifs with h
    · subst h
      simp only [evalN, List.map_cons, List.sum_cons, Rat.cast_add]
      ring
    · simp only [evalN, List.map_cons, List.sum_cons] at ih ⊢
      rw [ih]; ring

theorem evalN_add (ρ : Fin 4 → K) (a b : List (Mono × ℚ)) : evalN ρ (addN a b) = evalN ρ a + evalN ρ b := by
  unfold addN
  induction b generalizing a with
  | nil => simp [evalN]
  | cons t ts ih =>
    rw [List.foldl_cons, ih, evalN_insert]
    simp only [evalN, List.map_cons, List.sum_cons]
    ring

theorem evalN_scale (ρ : Fin 4 → K) (m : Mono) (q : ℚ) (b : List (Mono × ℚ)) :
    evalN ρ (scaleN m q b) = (q : K) * evalMono ρ m * evalN ρ b := by
  induction b with
  | nil => simp [scaleN, evalN]
  | cons t ts ih =>
    simp only [scaleN, evalN, List.map_cons, List.sum_cons, List.map_map] at ih ⊢
    rw [ih, evalMono_mul]
    push_cast
    ring

theorem evalN_mul (ρ : Fin 4 → K) (a b : List (Mono × ℚ)) : evalN ρ (mulN a b) = evalN ρ a * evalN ρ b := by
  have : ∀ (a acc : List (Mono × ℚ)),
      evalN ρ (a.foldl (fun acc t => addN acc (scaleN t.1 t.2 b)) acc) = evalN ρ acc + evalN ρ a * evalN ρ b := by
    intro a
    induction a with
    | nil => intro acc; simp [evalN]
    | cons t ts ih =>
      intro acc
      rw [List.foldl_cons, ih, evalN_add, evalN_scale]
      simp only [evalN, List.map_cons, List.sum_cons]
      ring
  rw [mulN, this]
  simp [evalN]

theorem evalN_pow (ρ : Fin 4 → K) (a : List (Mono × ℚ)) (n : ℕ) : evalN ρ (powN a n) = evalN ρ a ^ n := by
  induction n with
  | zero => simp [powN, evalN, evalMono]
  | succ n ih => rw [powN, evalN_mul, ih, pow_succ]

theorem evalN_norm (ρ : Fin 4 → K) (e : PE) : evalN ρ e.norm = e.eval ρ := by
  induction e with
  | c q => simp [norm, evalN, evalMono, eval]
  | v i => fin_cases i <;> simp [norm, evalN, evalMono, eval, varMono]
  | add a b ha hb => rw [norm, evalN_add, ha, hb, eval]
  | sub a b ha hb => rw [norm, evalN_add, evalN_scale, ha, hb, eval]; simp [evalMono]; ring
  | mul a b ha hb => rw [norm, evalN_mul, ha, hb, eval]
  | pow a n ha => rw [norm, evalN_pow, ha, eval]

/-- All coefficients are zero. -/
def isZero (l : List (Mono × ℚ)) : Bool := l.all fun t => t.2 == 0

omit [CharZero K] in
theorem evalN_zero (ρ : Fin 4 → K) (l : List (Mono × ℚ)) (h : isZero l = true) : evalN ρ l = 0 := by
  induction l with
  | nil => simp [evalN]
  | cons t ts ih =>
    simp only [isZero, List.all_cons, Bool.and_eq_true, beq_iff_eq] at h ih
    simp only [evalN, List.map_cons, List.sum_cons] at ih ⊢
    rw [ih h.2, h.1]
    simp

/-- The test of an identity. -/
def same (a b : PE) : Bool := isZero (sub a b).norm

theorem eval_eq_of_same {a b : PE} (h : same a b = true) (ρ : Fin 4 → K) : a.eval ρ = b.eval ρ := by
  have := evalN_norm ρ (sub a b)
  rw [evalN_zero ρ _ h, eval] at this
  exact (sub_eq_zero.1 this.symm)

end

/-- Substitution of the variables. -/
def subst (σ : Fin 4 → PE) : PE → PE
  | c q => c q
  | v j => σ j
  | add a b => add (subst σ a) (subst σ b)
  | sub a b => sub (subst σ a) (subst σ b)
  | mul a b => mul (subst σ a) (subst σ b)
  | pow a n => pow (subst σ a) n

theorem eval_subst {K : Type} [Field K] (σ : Fin 4 → PE) (a : PE) (ρ : Fin 4 → K) :
    (subst σ a).eval ρ = a.eval fun i => (σ i).eval ρ := by
  induction a with
  | c q => rfl
  | v j => rfl
  | add a b ha hb => simp [subst, eval, ha, hb]
  | sub a b ha hb => simp [subst, eval, ha, hb]
  | mul a b ha hb => simp [subst, eval, ha, hb]
  | pow a n ha => simp [subst, eval, ha]

/-- The variables of the expression are the first `n`. -/
def usesOnly (n : ℕ) : PE → Bool
  | c _ => true
  | v j => j.val < n
  | add a b => a.usesOnly n && b.usesOnly n
  | sub a b => a.usesOnly n && b.usesOnly n
  | mul a b => a.usesOnly n && b.usesOnly n
  | pow a _ => a.usesOnly n

theorem eval_congr {K : Type} [Field K] {n : ℕ} {e : PE} (h : e.usesOnly n = true) {ρ ρ' : Fin 4 → K}
    (hρ : ∀ i : Fin 4, i.val < n → ρ i = ρ' i) : e.eval ρ = e.eval ρ' := by
  induction e with
  | c q => rfl
  | v j => exact hρ j (by simpa [usesOnly] using h)
  | add a b ha hb => simp only [usesOnly, Bool.and_eq_true] at h; simp [eval, ha h.1, hb h.2]
  | sub a b ha hb => simp only [usesOnly, Bool.and_eq_true] at h; simp [eval, ha h.1, hb h.2]
  | mul a b ha hb => simp only [usesOnly, Bool.and_eq_true] at h; simp [eval, ha h.1, hb h.2]
  | pow a n ha => simp only [usesOnly] at h; simp [eval, ha h]

end PE

end Verif.Poly
