/-
Model of the elastic constants: `sfepy/mechanics/elastic_constants.py` (the table of relations) and
`ElasticConstants.init()` of `sfepy/mechanics/matcoefs.py`.
-/
import Mathlib.Analysis.Real.Sqrt

namespace Verif.Mech

/-- The names of the elastic constants (sfepy/mechanics/elastic_constants.py:4). -/
inductive EC where
  | bulk | lam | mu | young | poisson | pWave
  deriving DecidableEq, Repr

/-- The list `names` (sfepy/mechanics/elastic_constants.py:4). -/
def EC.names : List EC := [.bulk, .lam, .mu, .young, .poisson, .pWave]

/-- The position of a name in the alphabetical order used by `sorted()`
(sfepy/mechanics/matcoefs.py:365): bulk < lam < mu < p_wave < poisson < young. -/
def EC.rank : EC → ℕ
  | .bulk => 0 | .lam => 1 | .mu => 2 | .pWave => 3 | .poisson => 4 | .young => 5

/-- The sympy expressions of the table (sfepy/mechanics/elastic_constants.py:7-68).  `sq x` is
`x**2`, `sqrt x` is `x**(1/2)`. -/
inductive Ex where
  | num (n : ℕ) | var (c : EC)
  | add (a b : Ex) | sub (a b : Ex) | mul (a b : Ex) | div (a b : Ex)
  | neg (a : Ex) | sq (a : Ex) | sqrt (a : Ex)

namespace Ex

instance (n : ℕ) : OfNat Ex n := ⟨.num n⟩
instance : Add Ex := ⟨.add⟩
instance : Sub Ex := ⟨.sub⟩
instance : Mul Ex := ⟨.mul⟩
instance : Div Ex := ⟨.div⟩
instance : Neg Ex := ⟨.neg⟩

/-- The value of an expression with the symbols replaced by numbers, for expressions with a finite
real value, see `Defined` (sfepy/mechanics/matcoefs.py:366).  float64 is replaced by the reals. -/
noncomputable def val (v : EC → ℝ) : Ex → ℝ
  | num n => n
  | var c => v c
  | add a b => val v a + val v b
  | sub a b => val v a - val v b
  | mul a b => val v a * val v b
  | div a b => val v a / val v b
  | neg a => -val v a
  | sq a => val v a ^ 2
  | sqrt a => √(val v a)

/-- The expression has a finite real value: no division by zero (sympy: `zoo` or `nan`) and no
square root of a negative number (sympy: a complex number, on which `float()` raises)
(sfepy/mechanics/matcoefs.py:366). -/
def Defined (v : EC → ℝ) : Ex → Prop
  | num _ => True
  | var _ => True
  | add a b => Defined v a ∧ Defined v b
  | sub a b => Defined v a ∧ Defined v b
  | mul a b => Defined v a ∧ Defined v b
  | div a b => Defined v a ∧ Defined v b ∧ val v b ≠ 0
  | neg a => Defined v a
  | sq a => Defined v a
  | sqrt a => Defined v a ∧ 0 ≤ val v a

open Classical in
/-- `float(relation.n(subs=values))` (sfepy/mechanics/matcoefs.py:366); `none`: not a finite real
number. -/
noncomputable def eval (v : EC → ℝ) (e : Ex) : Option ℝ :=
  if e.Defined v then some (e.val v) else none

end Ex

/-- The symbol `bulk` (sfepy/mechanics/elastic_constants.py:5). -/
abbrev xk : Ex := .var .bulk
/-- The symbol `lam` (sfepy/mechanics/elastic_constants.py:5). -/
abbrev xl : Ex := .var .lam
/-- The symbol `mu` (sfepy/mechanics/elastic_constants.py:5). -/
abbrev xm : Ex := .var .mu
/-- The symbol `young` (sfepy/mechanics/elastic_constants.py:5). -/
abbrev xE : Ex := .var .young
/-- The symbol `poisson` (sfepy/mechanics/elastic_constants.py:5). -/
abbrev xn : Ex := .var .poisson
/-- The symbol `p_wave` (sfepy/mechanics/elastic_constants.py:5). -/
abbrev xp : Ex := .var .pWave

/-- The dictionary `relations` (sfepy/mechanics/elastic_constants.py:7-68), row by row in the order
of the source; `none` is a missing key. -/
def relations : EC → EC → EC → Option Ex
  | .mu, .poisson, .young => some (2 * xm + 2 * xm * xn)
  | .pWave, .poisson, .mu => some ((xp - 2 * xp * xn) / (2 - 2 * xn))
  | .bulk, .lam, .poisson => some (xl / (-xl + 3 * xk))
  | .bulk, .poisson, .lam => some (3 * xk * xn / (1 + xn))
  | .lam, .poisson, .pWave => some ((xl - xl * xn) / xn)
  | .pWave, .poisson, .lam => some (xp * xn / (1 - xn))
  | .bulk, .young, .pWave => some ((3 * xk * xE + 9 * (Ex.sq xk)) / (-xE + 9 * xk))
  | .pWave, .poisson, .bulk => some ((xp + xp * xn) / (3 - 3 * xn))
  | .bulk, .mu, .pWave => some (xk + 4 * xm / 3)
  | .lam, .mu, .poisson => some (xl / (2 * xl + 2 * xm))
  | .bulk, .mu, .poisson => some ((-2 * xm + 3 * xk) / (2 * xm + 6 * xk))
  | .lam, .mu, .pWave => some (xl + 2 * xm)
  | .bulk, .pWave, .poisson => some ((-xp + 3 * xk) / (xp + 3 * xk))
  | .bulk, .pWave, .lam => some (-xp / 2 + 3 * xk / 2)
  | .lam, .pWave, .mu => some (xp / 2 - xl / 2)
  | .bulk, .pWave, .young => some ((-9 * xk * xp + 9 * (Ex.sq xk)) / (-xp - 3 * xk))
  | .bulk, .poisson, .pWave => some ((3 * xk - 3 * xk * xn) / (1 + xn))
  | .pWave, .young, .bulk => some (xp / 2 - xE / 6 + (Ex.sqrt (-90 * xp * xE + 9 * (Ex.sq xE) + 81 * (Ex.sq xp))) / 18)
  | .bulk, .poisson, .young => some (3 * xk - 6 * xk * xn)
  | .lam, .mu, .young => some ((3 * xl * xm + 2 * (Ex.sq xm)) / (xl + xm))
  | .lam, .pWave, .young => some ((xl * xp + (Ex.sq xp) - 2 * (Ex.sq xl)) / (xl + xp))
  | .lam, .young, .poisson => some ((-xl - xE + (Ex.sqrt (2 * xl * xE + (Ex.sq xE) + 9 * (Ex.sq xl)))) / (4 * xl))
  | .bulk, .mu, .young => some (9 * xk * xm / (xm + 3 * xk))
  | .mu, .young, .pWave => some ((-xm * xE + 4 * (Ex.sq xm)) / (-xE + 3 * xm))
  | .bulk, .poisson, .mu => some ((3 * xk - 6 * xk * xn) / (2 + 2 * xn))
  | .mu, .young, .poisson => some ((xE - 2 * xm) / (2 * xm))
  | .mu, .pWave, .bulk => some (xp - 4 * xm / 3)
  | .lam, .young, .mu => some (-3 * xl / 4 + xE / 4 + (Ex.sqrt (2 * xl * xE + (Ex.sq xE) + 9 * (Ex.sq xl))) / 4)
  | .lam, .poisson, .bulk => some ((xl + xl * xn) / (3 * xn))
  | .lam, .poisson, .young => some ((xl - xl * xn - 2 * xl * (Ex.sq xn)) / xn)
  | .mu, .pWave, .lam => some (xp - 2 * xm)
  | .mu, .pWave, .poisson => some ((-xp + 2 * xm) / (-2 * xp + 2 * xm))
  | .poisson, .young, .bulk => some (xE / (3 - 6 * xn))
  | .mu, .pWave, .young => some ((-3 * xm * xp + 4 * (Ex.sq xm)) / (xm - xp))
  | .bulk, .young, .lam => some ((-3 * xk * xE + 9 * (Ex.sq xk)) / (-xE + 9 * xk))
  | .lam, .pWave, .poisson => some (xl / (xl + xp))
  | .bulk, .young, .mu => some (3 * xk * xE / (-xE + 9 * xk))
  | .bulk, .lam, .pWave => some (-2 * xl + 3 * xk)
  | .lam, .young, .pWave => some (xE / 2 - xl / 2 + (Ex.sqrt (2 * xl * xE + (Ex.sq xE) + 9 * (Ex.sq xl))) / 2)
  | .bulk, .young, .poisson => some ((-2 * xE + 6 * xk) / (12 * xk))
  | .poisson, .young, .lam => some (xn * xE / (1 - xn - 2 * (Ex.sq xn)))
  | .mu, .young, .lam => some ((-xm * xE + 2 * (Ex.sq xm)) / (xE - 3 * xm))
  | .lam, .poisson, .mu => some ((xl - 2 * xl * xn) / (2 * xn))
  | .bulk, .lam, .mu => some (-3 * xl / 2 + 3 * xk / 2)
  | .poisson, .young, .mu => some (xE / (2 + 2 * xn))
  | .lam, .pWave, .bulk => some (xp / 3 + 2 * xl / 3)
  | .pWave, .young, .poisson => some ((xE - xp + (Ex.sqrt (-10 * xp * xE + (Ex.sq xE) + 9 * (Ex.sq xp)))) / (4 * xp))
  | .pWave, .young, .mu => some (xE / 8 + 3 * xp / 8 - (Ex.sqrt (-10 * xp * xE + (Ex.sq xE) + 9 * (Ex.sq xp))) / 8)
  | .mu, .poisson, .pWave => some ((2 * xm - 2 * xm * xn) / (1 - 2 * xn))
  | .lam, .mu, .bulk => some (xl + 2 * xm / 3)
  | .pWave, .young, .lam => some (-xE / 4 + xp / 4 + (Ex.sqrt (-10 * xp * xE + (Ex.sq xE) + 9 * (Ex.sq xp))) / 4)
  | .bulk, .mu, .lam => some (xk - 2 * xm / 3)
  | .mu, .poisson, .bulk => some ((2 * xm + 2 * xm * xn) / (3 - 6 * xn))
  | .poisson, .young, .pWave => some ((xE - xn * xE) / (1 - xn - 2 * (Ex.sq xn)))
  | .mu, .young, .bulk => some (xm * xE / (-3 * xE + 9 * xm))
  | .pWave, .poisson, .young => some ((xp - xp * xn - 2 * xp * (Ex.sq xn)) / (1 - xn))
  | .bulk, .lam, .young => some ((-9 * xk * xl + 9 * (Ex.sq xk)) / (-xl + 3 * xk))
  | .mu, .poisson, .lam => some (2 * xm * xn / (1 - 2 * xn))
  | .bulk, .pWave, .mu => some (-3 * xk / 4 + 3 * xp / 4)
  | .lam, .young, .bulk => some (xl / 2 + xE / 6 + (Ex.sqrt (18 * xl * xE + 9 * (Ex.sq xE) + 81 * (Ex.sq xl))) / 18)
  | _, _, _ => none

/-- The names with a given value (sfepy/mechanics/matcoefs.py:351-360); the order does not matter,
as the names are sorted before they are used (sfepy/mechanics/matcoefs.py:365). -/
def ecKnown (given : EC → Option ℝ) : List EC :=
  EC.names.filter fun c => (given c).isSome

/-- The value of the constant `c` (sfepy/mechanics/matcoefs.py:364-367): given, or computed by the
relation with the key `(a, b, c)`. -/
noncomputable def ecValue (given : EC → Option ℝ) (a b c : EC) : Option ℝ :=
  match given c with
  | some x => some x
  | none => (relations a b c).bind (Ex.eval fun c => (given c).getD 0)

/-- `ElasticConstants.init()` (sfepy/mechanics/matcoefs.py:342-367): the values of all the
constants.  `none`: an exception (other than two constants given, a missing key) or a result that is
not a finite number.  The given constants keep their values.  `a`, `b` is `sorted(known)`. -/
noncomputable def ecInit (given : EC → Option ℝ) : Option (EC → ℝ) :=
  match ecKnown given with
  | [x, y] => do
    let a := if x.rank ≤ y.rank then x else y
    let b := if x.rank ≤ y.rank then y else x
    let k ← ecValue given a b .bulk
    let l ← ecValue given a b .lam
    let m ← ecValue given a b .mu
    let e ← ecValue given a b .young
    let n ← ecValue given a b .poisson
    let p ← ecValue given a b .pWave
    return fun | .bulk => k | .lam => l | .mu => m | .young => e | .poisson => n | .pWave => p
  | _ => none

end Verif.Mech
