import Verif.Eqn.Parse
import Verif.Eqn.Evaluate
import Verif.Eqn.Complex

/-! # Examples for C78, C79: the hypotheses of the theorems are met, and what the findings mean -/

namespace Eqn

/-! ### Arithmetic: `(a + b) - 2 * t` with two `Terms` objects -/

def exHeap : Heap ℤ ℕ := [[⟨1, 10⟩, ⟨2, 11⟩], [⟨-1, 12⟩]]

def exExpr : Expr ℤ ℕ :=
  .sub (.add (.obj (.many 0)) (.obj (.many 1))) (.mul 2 (.obj (.one ⟨3, 13⟩)))

example : (∀ i ∈ exExpr.refs, i < exHeap.length) ∧ exExpr.refs.Nodup := by decide

example : (exExpr.eval exHeap).2.getD 2 [] = [⟨1, 10⟩, ⟨2, 11⟩, ⟨-1, 12⟩, ⟨-6, 13⟩] := by rfl

/-- The finding: `(a + t) - a` is not `t`: the list of `a` is changed by `a + t`. -/
example :
    let e : Expr ℤ ℕ := .sub (.add (.obj (.many 0)) (.obj (.one ⟨5, 13⟩))) (.obj (.many 0))
    (e.eval exHeap).1.meaning (fun _ => (1 : ℤ)) (e.eval exHeap).2 = 0 ∧ e.meaning (fun _ => (1 : ℤ)) exHeap = 5 := by
  decide

/-! ### Parsing: `t10 - 2 * t11 = 3 + (4) * t12` -/

abbrev T := Tok ℤ ℕ

/-- A value of the multipliers: the sum of the signed numbers. -/
def exEv : List T → Option ℤ
  | [.num n] => some n
  | .op s :: .num n :: r => (exEv r).map fun x => (if s then -n else n) + x
  | .num n :: r => (exEv r).map fun x => n + x
  | .lp :: r => exEv r
  | .rp :: r => exEv r
  | .op s :: .lp :: .num n :: r => (exEv r).map fun x => (if s then -n else n) + x
  | [] => some 0
  | _ => none

def exLhs : List (Written ℤ ℕ) := [.signed none 10, .times ⟨⟨some true, 0, none, .num 2, 0⟩, []⟩ 11]

def exRhs : Rhs ℤ ℕ :=
  .terms (.times ⟨⟨none, 0, none, .num 3, 0⟩, [(false, ⟨none, 1, none, .num 4, 1⟩)]⟩ 12) []

example : equationToks exLhs exRhs
    = [.term 10, .op true, .num 2, .star, .term 11, .eq, .num 3, .op false, .lp, .num 4, .rp, .star, .term 12] := rfl

example : exLhs ≠ [] ∧ (∀ w ∈ exLhs, w.Ok) ∧ (∀ w ∈ exRhs.written, w.Ok) ∧
    List.Forall₂ (fun w c => Written.HasCoef exEv w c) exLhs [1, -2] ∧
    List.Forall₂ (fun w c => Written.HasCoef exEv w c) exRhs.written [7] := by
  refine ⟨by simp [exLhs], ?_, ?_, .cons rfl (.cons rfl .nil), .cons rfl .nil⟩
  · intro w hw
    simp only [exLhs, List.mem_cons, List.not_mem_nil, or_false] at hw
    rcases hw with rfl | rfl
    · trivial
    · exact ⟨rfl, by simp, Or.inl rfl⟩
  · intro w hw
    simp only [exRhs, Rhs.written, List.mem_cons, List.not_mem_nil, or_false] at hw
    subst hw
    exact ⟨rfl, by simp [Tok.isNum], Or.inr rfl⟩

example : parseEquation exEv (equationToks exLhs exRhs) = some [⟨1, 10⟩, ⟨-2, 11⟩, ⟨-7, 12⟩] := by rfl

/-- `(1) + 2 * t` is not accepted: the expression ends at the parenthesis. -/
example : parseEquation exEv [.lp, .num 1, .rp, .op false, .num 2, .star, .term 10] = none := by rfl

/-- `t10 - 1 + 2 * t11` means `t10 + (-1 + 2) * t11`. -/
example : parseEquation exEv [.term 10, .op true, .num 1, .op false, .num 2, .star, .term 11]
    = some [⟨1, 10⟩, ⟨1, 11⟩] := by rfl

/-- No second `=`, no empty left-hand side. -/
example : parseEquation exEv [.term 10, .eq, .term 11, .eq, .term 12] = none ∧
    parseEquation exEv [.eq, .term 11] = none := ⟨by rfl, by rfl⟩

/-! ### Evaluation: a bilinear term in `du/dt` and `p`, with the known `u[-1]` -/

/-- `-3 * term(v, du0/dt, u1, p2[-1])` with the vector `x0_i x1_i + x2_i`, for `i < 2`. -/
noncomputable def exTerm : WTerm ℝ where
  name := 0
  sign := -3
  virt := 7
  args := [⟨0, 0, true, true⟩, ⟨1, 0, false, true⟩, ⟨2, 1, false, false⟩]
  kernel xs i := if i < 2 then xs.getD 0 (fun _ => 0) i * xs.getD 1 (fun _ => 0) i + xs.getD 2 (fun _ => 0) i else 0
  deriv v xs i c := if i < 2 ∧ c = i then
    (if v = 0 then xs.getD 1 (fun _ => 0) i else if v = 1 then xs.getD 0 (fun _ => 0) i else 0) else 0
  dynamic := false

example : exTerm.Distinct := by simp [WTerm.Distinct, exTerm]

example : exTerm.Differentiable (fun _ => 2) := by
  intro xs ds hxs hds hst i
  obtain ⟨x0, x1, x2, rfl⟩ : ∃ a b c, xs = [a, b, c] := by
    rcases xs with _ | ⟨a, _ | ⟨b, _ | ⟨c, _ | ⟨d, l⟩⟩⟩⟩ <;> simp [exTerm] at hxs ⊢
  obtain ⟨d0, d1, d2, rfl⟩ : ∃ a b c, ds = [a, b, c] := by
    rcases ds with _ | ⟨a, _ | ⟨b, _ | ⟨c, _ | ⟨d, l⟩⟩⟩⟩ <;> simp [exTerm] at hds ⊢
  have h2 : d2 = fun _ => 0 := by simpa using hst 2 ⟨2, 1, false, false⟩ rfl rfl
  subst h2
  by_cases hi : i < 2
  · have hi' : ¬ 1 < i := by omega
    have hsum : ∀ a : ℝ, ∑ c ∈ Finset.range 2, (if c = i then a else 0) = a := by
      intro a; rw [Finset.sum_ite_eq' (Finset.range 2) i]; simp [hi]
    have h0 : HasDerivAt (fun s : ℝ => (x0 i + s * d0 i) * (x1 i + s * d1 i) + x2 i)
        (d0 i * (x1 i + 0 * d1 i) + (x0 i + 0 * d0 i) * d1 i) 0 := by
      have a0 : HasDerivAt (fun s : ℝ => x0 i + s * d0 i) (d0 i) 0 := by
        simpa using ((hasDerivAt_id (0 : ℝ)).mul_const (d0 i)).const_add (x0 i)
      have a1 : HasDerivAt (fun s : ℝ => x1 i + s * d1 i) (d1 i) 0 := by
        simpa using ((hasDerivAt_id (0 : ℝ)).mul_const (d1 i)).const_add (x1 i)
      exact (a0.mul a1).add_const (x2 i)
    have e : (fun s : ℝ => exTerm.kernel (List.zipWith (fun x d => fun c => x c + s * d c) [x0, x1, x2]
        [d0, d1, fun _ => 0]) i) = fun s : ℝ => (x0 i + s * d0 i) * (x1 i + s * d1 i) + x2 i := by
      funext s
      simp [exTerm, hi']
    rw [e]
    refine h0.congr_deriv ?_
    simp only [exTerm, List.zipWith_cons_cons, List.zipWith_nil_left, List.sum_cons, List.sum_nil, hi, true_and]
    have s0 : ∀ (a : ℝ) (d : ℕ → ℝ), ∑ c ∈ Finset.range 2, (if c = i then a else 0) * d c = a * d i := by
      intro a d
      rw [← hsum (a * d i)]
      refine Finset.sum_congr rfl fun c _ => ?_
      split <;> simp_all
    simp only [s0]
    simp
    ring
  · have hi' : ¬ i ≤ 1 := by omega
    have e : (fun s : ℝ => exTerm.kernel (List.zipWith (fun x d => fun c => x c + s * d c) [x0, x1, x2]
        [d0, d1, fun _ => 0]) i) = fun _ => 0 := by
      funext s
      simp [exTerm, hi']
    rw [e]
    refine (hasDerivAt_const (0 : ℝ) (0 : ℝ)).congr_deriv ?_
    simp [exTerm, hi']

/-- The other hypotheses of `C79_tangent_is_derivative`: unknown `0`, `1`, `2` in the time step 4. -/
example : (∀ a ∈ exTerm.args, a.var < 3) ∧
    (∀ a ∈ exTerm.args, (fun _ => true) a.var = true → a.back = 0 → a.state = true) := by
  simp [exTerm]

/-- The tangent matrix of the unknown 0 is `-3 / dt * x1`. -/
example (data : Data ℝ) : tangent ⟨4, 1 / 2, false⟩ data (fun _ => true) (fun _ => true) [[exTerm]] 7 1 0 1
    = -6 * data 1 0 1 := by
  rw [tangent_eq]
  norm_num [WTerm.tms, WTerm.tm, WTerm.svars, WTerm.values, WTerm.factor, exTerm, lookup, callVar, callStep]
  ring

/-- Two terms of distinct names. -/
example : ([exTerm, { exTerm with name := 1 }].map (·.name)).Nodup := by simp [exTerm]

/-! ### Complex arguments: the product of two complex arguments and a real one -/

noncomputable def exF (l : List (ℕ → ℝ)) : ℝ :=
  l.getD 0 (fun _ => 0) 0 * l.getD 1 (fun _ => 0) 3 * l.getD 2 (fun _ => 0) 0

noncomputable def exG (l : List (ℕ → ℂ)) : ℂ :=
  l.getD 0 (fun _ => 0) 0 * l.getD 1 (fun _ => 0) 3 * l.getD 2 (fun _ => 0) 0

noncomputable def exArgs : List FArg :=
  [.complex fun _ => Complex.I, .real fun _ => 5, .complex fun _ => 2 + 3 * Complex.I]

theorem exPositions : complexPositions exArgs = [0, 2] := by
  simp [complexPositions, exArgs, FArg.isComplex, List.range_succ]

example : Extends exF (complexPositions exArgs) exG := by
  rw [exPositions]
  have hget : ∀ (xs : List (ℕ → ℝ)) (k j : ℕ), (xs.map fun x k => (x k : ℂ)).getD k (fun _ => 0) j
      = ((xs.getD k fun _ => 0) j : ℂ) := by
    intro xs k j
    rw [List.getD_eq_getElem?_getD, List.getD_eq_getElem?_getD, List.getElem?_map]
    cases xs[k]? <;> simp
  refine ⟨fun xs => ?_, ?_⟩
  · simp only [exG, exF, hget]; push_cast; ring
  · intro p hp l x y c hl
    simp only [List.mem_cons, List.not_mem_nil, or_false] at hp
    rcases hp with rfl | rfl
    · rcases l with _ | ⟨a, l⟩
      · simp at hl
      · simp only [exG, List.set_cons_zero, List.getD_cons_zero, List.getD_cons_succ]; ring
    · rcases l with _ | ⟨a, _ | ⟨b, _ | ⟨d, l⟩⟩⟩ <;> try simp at hl
      simp only [exG, List.set_cons_succ, List.set_cons_zero, List.getD_cons_zero, List.getD_cons_succ]; ring

end Eqn
