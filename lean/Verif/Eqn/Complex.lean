import Mathlib.Data.Complex.Basic
import Mathlib.Data.List.GetD
import Mathlib.Tactic.Ring
import Mathlib.Tactic.LinearCombination

/-!
# Evaluation of terms with complex arguments (terms/terms.py: split_complex_args, Term.eval_complex)

The real term function is given for one component of its output.
-/

namespace Eqn

/-- An argument of a term function: an array of the type `complex128`, or something else (a real array). -/
inductive FArg where
  | real (x : ℕ → ℝ)
  | complex (z : ℕ → ℂ)

/-- `isinstance(arg, ndarray) and arg.dtype == complex128` (sfepy/terms/terms.py:108-110). -/
def FArg.isComplex : FArg → Bool
  | .real _ => false
  | .complex _ => true

/-- (sfepy/terms/terms.py:117, 122). -/
def FArg.re : FArg → ℕ → ℝ
  | .real x => x
  | .complex z => fun k => (z k).re

/-- (sfepy/terms/terms.py:118, 123). -/
def FArg.im : FArg → ℕ → ℝ
  | .real x => x
  | .complex z => fun k => (z k).im

/-- `cai`: the positions of the complex arguments (sfepy/terms/terms.py:106-110). -/
def complexPositions (args : List FArg) : List ℕ :=
  (List.range args.length).filter fun k => match args[k]? with
    | some a => a.isComplex
    | none => false

/-- The split arguments: `'r'` only; `'r'`, `'i'`; `'r'`, `'i'`, `'ri'`, `'ir'`; `none` is the
NotImplementedError (sfepy/terms/terms.py:105-139). -/
inductive Split where
  | r (a : List (ℕ → ℝ))
  | ri (r i : List (ℕ → ℝ))
  | four (r i ri ir : List (ℕ → ℝ))

/-- `split_complex_args()` (sfepy/terms/terms.py:81-139). -/
def splitComplex (args : List FArg) : Option Split :=
  let base := args.map FArg.re
  match complexPositions args with
  | [] => some (.r base)
  | [p] => some (.ri base (base.set p ((args.getD p (.real fun _ => 0)).im)))
  | [p, q] =>
    let pi := (args.getD p (.real fun _ => 0)).im
    let qi := (args.getD q (.real fun _ => 0)).im
    some (.four base ((base.set p pi).set q qi) (base.set q qi) (base.set p pi))
  | _ => none

/-- `Term.eval_complex()` (sfepy/terms/terms.py:1389-1422). -/
def evalComplex (f : List (ℕ → ℝ) → ℝ) (args : List FArg) : Option ℂ :=
  match splitComplex args with
  | none => none
  | some (.r a) => some (f a : ℂ)
  | some (.ri r i) => some ((f r : ℂ) + Complex.I * (f i : ℂ))
  | some (.four r i ri ir) => some (((f r : ℂ) - (f i : ℂ)) + ((f ri : ℂ) + (f ir : ℂ)) * Complex.I)

/-! ### Specification -/

/-- The argument as a complex array. -/
def FArg.val : FArg → ℕ → ℂ
  | .real x => fun k => (x k : ℂ)
  | .complex z => z

/-- `g` is the extension of the real function `f` to complex arguments, complex-linear in the arguments
at the positions `ps`. -/
structure Extends (f : List (ℕ → ℝ) → ℝ) (ps : List ℕ) (g : List (ℕ → ℂ) → ℂ) : Prop where
  real : ∀ xs : List (ℕ → ℝ), g (xs.map fun x k => (x k : ℂ)) = (f xs : ℂ)
  linear : ∀ p ∈ ps, ∀ (l : List (ℕ → ℂ)) (x y : ℕ → ℂ) (c : ℂ), p < l.length →
    g (l.set p fun k => x k + c * y k) = g (l.set p x) + c * g (l.set p y)

/-! ### Proofs -/

theorem complexPositions_lt (args : List FArg) (p : ℕ) (h : p ∈ complexPositions args) :
    p < args.length ∧ ∃ z, args[p]? = some (.complex z) := by
  obtain ⟨h1, h2⟩ := List.mem_filter.1 h
  refine ⟨List.mem_range.1 h1, ?_⟩
  cases ha : args[p]? with
  | none => rw [ha] at h2; simp at h2
  | some a =>
    rw [ha] at h2
    cases a with
    | real x => simp [FArg.isComplex] at h2
    | complex z => exact ⟨z, rfl⟩

theorem real_of_not_mem (args : List FArg) (k : ℕ) (hk : k < args.length) (h : k ∉ complexPositions args) :
    ∃ x, args[k]? = some (.real x) := by
  have ha : args[k]? = some args[k] := List.getElem?_eq_getElem hk
  cases hx : args[k] with
  | real x => exact ⟨x, by rw [ha, hx]⟩
  | complex z =>
    exfalso; apply h
    refine List.mem_filter.2 ⟨List.mem_range.2 hk, ?_⟩
    rw [ha, hx]; rfl

def cast (x : ℕ → ℝ) : ℕ → ℂ := fun k => (x k : ℂ)

theorem val_split (z : ℕ → ℂ) : z = fun k => cast (FArg.re (.complex z)) k + Complex.I * cast (FArg.im (.complex z)) k := by
  funext k
  simp only [cast, FArg.re, FArg.im]
  rw [mul_comm]
  exact (Complex.re_add_im (z k)).symm

theorem val_real (args : List FArg) (k : ℕ) (hk : k < args.length) (h : k ∉ complexPositions args) :
    (args.map FArg.val)[k]? = ((args.map FArg.re).map cast)[k]? := by
  obtain ⟨x, hx⟩ := real_of_not_mem args k hk h
  simp only [List.getElem?_map, hx, Option.map_some]
  rfl

theorem set_getElem (l : List (ℕ → ℂ)) (p : ℕ) (x : ℕ → ℂ) (h : l[p]? = some x) : l.set p x = l := by
  apply List.ext_getElem?
  intro k
  rw [List.getElem?_set]
  split
  · rename_i he
    subst he
    split
    · exact h.symm
    · rename_i hlt
      exact (List.getElem?_eq_none (not_lt.1 hlt)).symm
  · rfl

/-- **C79.** A real term function, with at most two complex arguments in which it is linear, is evaluated as
its complex-linear extension. -/
theorem C79_complex_arguments (f : List (ℕ → ℝ) → ℝ) (g : List (ℕ → ℂ) → ℂ) (args : List FArg)
    (hext : Extends f (complexPositions args) g) (hlen : (complexPositions args).length ≤ 2) :
    evalComplex f args = some (g (args.map FArg.val)) := by
  have hval : ∀ k, k ∉ complexPositions args → (args.map FArg.val)[k]? = ((args.map FArg.re).map cast)[k]? := by
    intro k hk
    by_cases hlt : k < args.length
    · exact val_real args k hlt hk
    · rw [List.getElem?_eq_none (by simpa using hlt), List.getElem?_eq_none (by simpa using hlt)]
  have hr : ∀ xs : List (ℕ → ℝ), g (xs.map cast) = (f xs : ℂ) := hext.real
  have hmemz : ∀ p ∈ complexPositions args, ∃ z, p < args.length ∧ args[p]? = some (.complex z) :=
    fun p hp => ⟨_, (complexPositions_lt args p hp).1, (complexPositions_lt args p hp).2.choose_spec⟩
  have hget : ∀ p z, args[p]? = some (FArg.complex z) → (args.getD p (.real fun _ => 0)) = .complex z := by
    intro p z h; rw [List.getD_eq_getElem?_getD, h]; rfl
  have hnodup : (complexPositions args).Nodup := List.nodup_range.filter _
  have hlin := hext.linear
  unfold evalComplex splitComplex
  generalize hcp : complexPositions args = ps at *
  match ps, hlen with
  | [], _ =>
    simp only
    congr 1
    rw [← hr]
    congr 1
    apply List.ext_getElem?
    intro k
    exact (hval k (by simp)).symm
  | [p], _ =>
    obtain ⟨z, hlt, hz⟩ := hmemz p (by simp)
    simp only [hget p z hz]
    congr 1
    have e : args.map FArg.val = ((args.map FArg.re).map cast).set p z := by
      apply List.ext_getElem?
      intro k
      rw [List.getElem?_set]
      split
      · rename_i he
        subst he
        rw [List.getElem?_map, hz, if_pos (by simpa using hlt)]
        rfl
      · rename_i he
        exact hval k (by simpa using Ne.symm he)
    have e1 : ((args.map FArg.re).map cast).set p (cast (FArg.re (.complex z))) = (args.map FArg.re).map cast := by
      apply set_getElem
      rw [List.getElem?_map, List.getElem?_map, hz]; rfl
    have e2 : ((args.map FArg.re).map cast).set p (cast (FArg.im (.complex z)))
        = ((args.map FArg.re).set p (FArg.im (.complex z))).map cast := by rw [List.map_set]
    rw [e]
    conv_rhs => rw [val_split z]
    rw [hlin p (by simp) _ _ _ _ (by simpa using hlt), e1, e2, hr, hr]
  | [p, q], _ =>
    obtain ⟨z, hlt, hz⟩ := hmemz p (by simp)
    obtain ⟨y, hlt', hy⟩ := hmemz q (by simp)
    have hpq : p ≠ q := by simpa using hnodup
    simp only [hget p z hz, hget q y hy]
    congr 1
    have e : args.map FArg.val = (((args.map FArg.re).map cast).set p z).set q y := by
      apply List.ext_getElem?
      intro k
      rw [List.getElem?_set]
      split
      · rename_i he
        subst he
        rw [List.getElem?_map, hy, if_pos (by simpa using hlt')]
        rfl
      · rename_i he
        rw [List.getElem?_set]
        split
        · rename_i he'
          subst he'
          rw [List.getElem?_map, hz, if_pos (by simpa using hlt)]
          rfl
        · rename_i he'
          exact hval k (by simp [Ne.symm he, Ne.symm he'])
    have hq1 : ∀ l : List (ℕ → ℂ), l.set q y = l.set q fun k => cast (FArg.re (.complex y)) k
        + Complex.I * cast (FArg.im (.complex y)) k := fun l => by conv_lhs => rw [val_split y]
    have hlq : ∀ l : List (ℕ → ℂ), q < l.length → g (l.set q y) = g (l.set q (cast (FArg.re (.complex y))))
        + Complex.I * g (l.set q (cast (FArg.im (.complex y)))) := fun l hl => by
      rw [hq1, hlin q (by simp) _ _ _ _ hl]
    have hlp : ∀ (l : List (ℕ → ℂ)) (x : ℕ → ℂ), p < l.length → g ((l.set p z).set q x)
        = g ((l.set p (cast (FArg.re (.complex z)))).set q x)
        + Complex.I * g ((l.set p (cast (FArg.im (.complex z)))).set q x) := fun l x hl => by
      rw [List.set_comm _ _ hpq, List.set_comm _ _ hpq, List.set_comm _ _ hpq]
      conv_lhs => rw [val_split z]
      rw [hlin p (by simp) _ _ _ _ (by simpa using hl)]
    have ep : ∀ x : ℕ → ℂ, (((args.map FArg.re).map cast).set p (cast (FArg.re (.complex z)))).set q x
        = ((args.map FArg.re).map cast).set q x := fun x => by
      rw [set_getElem ((args.map FArg.re).map cast) p]
      rw [List.getElem?_map, List.getElem?_map, hz]; rfl
    have eq' : ((args.map FArg.re).map cast).set q (cast (FArg.re (.complex y))) = (args.map FArg.re).map cast := by
      apply set_getElem
      rw [List.getElem?_map, List.getElem?_map, hy]; rfl
    have eq2 : (((args.map FArg.re).map cast).set p (cast (FArg.im (.complex z)))).set q (cast (FArg.re (.complex y)))
        = ((args.map FArg.re).map cast).set p (cast (FArg.im (.complex z))) := by
      apply set_getElem
      rw [List.getElem?_set, if_neg hpq, List.getElem?_map, List.getElem?_map, hy]; rfl
    rw [e, hlq _ (by simpa using hlt'), hlp _ _ (by simpa using hlt), hlp _ _ (by simpa using hlt), ep, ep, eq', eq2, ← List.map_set, ← List.map_set, ← List.map_set, hr, hr, hr, hr]
    linear_combination (-(f (((args.map FArg.re).set p (FArg.im (.complex z))).set q (FArg.im (.complex y))) : ℂ)) * Complex.I_mul_I
  | a :: b :: c :: l, h => simp at h

/-- **C79.** More than two complex arguments are refused. -/
theorem C79_complex_refused (f : List (ℕ → ℝ) → ℝ) (args : List FArg) :
    evalComplex f args = none ↔ 2 < (complexPositions args).length := by
  unfold evalComplex splitComplex
  rcases complexPositions args with _ | ⟨p, _ | ⟨q, _ | ⟨r, l⟩⟩⟩ <;> simp

/-- **C79**, a finding: a function that is quadratic in one complex argument (`|u|^2`-like, or `u^2`) is
evaluated as `f(re) + i f(im)`: for `f(x) = x^2` and the argument `i` it gives `i`, where `i^2 = -1`. -/
theorem C79_complex_square :
    evalComplex (fun l => (l.getD 0 fun _ => 0) 0 ^ 2) [.complex fun _ => Complex.I] = some Complex.I := by
  simp [evalComplex, splitComplex, complexPositions, FArg.isComplex, FArg.re, FArg.im, List.range_succ]

end Eqn
