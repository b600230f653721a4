import Verif.Eqn.Arith
import Mathlib.Tactic.Ring

/-!
# Parsing of equations (discrete/parse_equations.py)

The text is given by its tokens.  Simplifications: a term description `name.integral.region.flag(args)`
is one token; the sign attached to a number (`Word("+-" + nums, nums)`) is a token of its own, wherever the
grammar reads a number; Python's `eval()` of the joined text of a multiplier is a parameter `ev`
(`none`: an exception).
-/

namespace Eqn

set_option linter.unusedSectionVars false

/-- Tokens; `zero` is the text `0` (sfepy/discrete/parse_equations.py:43-93). -/
inductive Tok (N D : Type*) where
  | num (n : N)
  | zero
  | op (neg : Bool)
  | lp
  | rp
  | star
  | eq
  | term (d : D)

variable {N D K : Type*} [CommRing K]

/-- (sfepy/discrete/parse_equations.py:48-52). -/
def Tok.isNum : Tok N D → Bool
  | .num _ => true
  | .zero => true
  | _ => false

/-- (sfepy/discrete/parse_equations.py:55). -/
def Tok.isLp : Tok N D → Bool
  | .lp => true
  | _ => false

/-- (sfepy/discrete/parse_equations.py:57). -/
def Tok.isRp : Tok N D → Bool
  | .rp => true
  | _ => false

/-- `Optional(add_op)` (sfepy/discrete/parse_equations.py:53-55). -/
def optOp : List (Tok N D) → List (Tok N D) × List (Tok N D)
  | .op s :: r => ([.op s], r)
  | l => ([], l)

/-- `number` (sfepy/discrete/parse_equations.py:49-52). -/
def takeNumber : List (Tok N D) → Option (List (Tok N D) × List (Tok N D))
  | .op s :: t :: r => if t.isNum then some ([.op s, t], r) else none
  | t :: r => if t.isNum then some ([t], r) else none
  | [] => none

mutual
/-- `number_expr`: `Optional(add_op) + ZeroOrMore('(') + number + ZeroOrMore(add_op + number_expr)
+ ZeroOrMore(')')`; the consumed tokens and the rest (sfepy/discrete/parse_equations.py:54-57). The first
argument bounds the depth of the recursion. -/
def numExpr : ℕ → List (Tok N D) → Option (List (Tok N D) × List (Tok N D))
  | 0, _ => none
  | f + 1, l =>
    match takeNumber ((optOp l).2.dropWhile Tok.isLp) with
    | none => none
    | some (n, l3) =>
      let m := moreExpr f l3
      some ((optOp l).1 ++ (optOp l).2.takeWhile Tok.isLp ++ n ++ m.1 ++ m.2.takeWhile Tok.isRp,
        m.2.dropWhile Tok.isRp)

/-- `ZeroOrMore(add_op + number_expr)` (sfepy/discrete/parse_equations.py:56). -/
def moreExpr : ℕ → List (Tok N D) → List (Tok N D) × List (Tok N D)
  | 0, l => ([], l)
  | f + 1, l =>
    match l with
    | .op s :: r =>
      match numExpr f r with
      | none => ([], l)
      | some (c, r') =>
        let m := moreExpr f r'
        (.op s :: c ++ m.1, m.2)
    | _ => ([], l)
end

/-- What precedes a term: `Optional('+' | '-', default='+')` or the multiplier with `*`; the operator `^`
takes the longer one, which is the multiplier, if it is there (sfepy/discrete/parse_equations.py:83-85).
-/
inductive Coef (N D : Type*) where
  | sign (o : Option Bool)
  | mul (toks : List (Tok N D))

/-- `Optional(Literal('+') | Literal('-'), default='+')("sign")` (sfepy/discrete/parse_equations.py:83). -/
def optSign : List (Tok N D) → Coef N D × List (Tok N D)
  | .op s :: r => (.sign (some s), r)
  | l => (.sign none, l)

/-- (sfepy/discrete/parse_equations.py:83-85). -/
def coef (l : List (Tok N D)) : Coef N D × List (Tok N D) :=
  match numExpr (2 * l.length + 2) l with
  | some (c, .star :: r) => (.mul c, r)
  | _ => optSign l

/-- `signs = {'+': 1.0, '-': -1.0}` (sfepy/discrete/parse_equations.py:13). -/
def signVal (neg : Bool) : K := if neg then -1 else 1

/-- `tp.sign` (sfepy/discrete/parse_equations.py:17-20); `ctx` is `lc[0]`. -/
def coefVal (ev : List (Tok N D) → Option K) (ctx : Bool) : Coef N D → Option K
  | .mul c => (ev c).map (· * signVal ctx)
  | .sign o => some (signVal (o.getD false) * signVal ctx)

/-- `OneOrMore(term)` with the parse action `collect_term()`: the collected descriptions and the rest
(sfepy/discrete/parse_equations.py:12-29, 83-94). -/
def manyTerms (ev : List (Tok N D) → Option K) (ctx : Bool) :
    ℕ → List (Tok N D) → List (Option K × D) × List (Tok N D)
  | 0, l => ([], l)
  | f + 1, l =>
    match coef l with
    | (c, .term d :: r) =>
      let m := manyTerms ev ctx f r
      ((coefVal ev ctx c, d) :: m.1, m.2)
    | _ => ([], l)

/-- The collected terms, if no parse action raised an exception (sfepy/discrete/parse_equations.py:18;
sfepy/discrete/equations.py:25-28). -/
def finish (l : List (Option K × D)) : Option (List (Term K D)) :=
  l.mapM fun t => t.1.map fun s => ⟨s, t.2⟩

/-- `equation`: `StringStart() + OneOrMore(term) + Optional(rhs1 | rhs2) + StringEnd()`, with
`rhs1 = equal + OneOrMore(term)`, `rhs2 = equal + zero`; the parse action of `equal` sets `lc[0] = '-'`
(sfepy/discrete/parse_equations.py:31-35, 42-44, 96-101; sfepy/discrete/equations.py:17-30; the signs go to
the terms in sfepy/terms/terms.py:363-373). -/
def parseEquation (ev : List (Tok N D) → Option K) (l : List (Tok N D)) : Option (List (Term K D)) :=
  let lhs := manyTerms ev false l.length l
  if lhs.1.isEmpty then none
  else match lhs.2 with
    | [] => finish lhs.1
    | .eq :: r =>
      let rhs := manyTerms ev true r.length r
      if rhs.1.isEmpty then
        match r with
        | [.zero] => finish lhs.1
        | _ => none
      else if rhs.2.isEmpty then finish (lhs.1 ++ rhs.1) else none
    | _ => none

/-! ### Specification: the text of equations -/

/-- A part of a multiplier: `[+-] ((( [+-] number )))`. -/
structure Seg (N D : Type*) where
  unary : Option Bool
  opens : ℕ
  inner : Option Bool
  number : Tok N D
  closes : ℕ

def opToks (o : Option Bool) : List (Tok N D) := o.toList.map .op

def Seg.toks (s : Seg N D) : List (Tok N D) :=
  opToks s.unary ++ List.replicate s.opens .lp ++ opToks s.inner ++ [s.number]
    ++ List.replicate s.closes .rp

/-- The other parts with the signs between them. -/
def restToks (l : List (Bool × Seg N D)) : List (Tok N D) := l.flatMap fun x => .op x.1 :: x.2.toks

/-- A multiplier: numbers with `+`, `-` and parentheses, such that no parenthesis closes right after the
first of several numbers. -/
structure Mult (N D : Type*) where
  first : Seg N D
  rest : List (Bool × Seg N D)

def Mult.toks (m : Mult N D) : List (Tok N D) := m.first.toks ++ restToks m.rest

structure Mult.Ok (m : Mult N D) : Prop where
  number : m.first.number.isNum = true
  numbers : ∀ x ∈ m.rest, x.2.number.isNum = true
  closes : m.rest = [] ∨ m.first.closes = 0

/-- A term in an equation: an optional sign, or a multiplier. -/
inductive Written (N D : Type*) where
  | signed (o : Option Bool) (d : D)
  | times (m : Mult N D) (d : D)

def Written.toks : Written N D → List (Tok N D)
  | .signed o d => opToks o ++ [.term d]
  | .times m d => m.toks ++ [.star, .term d]

def Written.Ok : Written N D → Prop
  | .signed _ _ => True
  | .times m _ => m.Ok

/-- The coefficient written in front of the term: `w.Coef ev c`. -/
def Written.HasCoef (ev : List (Tok N D) → Option K) : Written N D → K → Prop
  | .signed o _, c => c = if o = some true then -1 else 1
  | .times m _, c => ev m.toks = some c

def Written.desc : Written N D → D
  | .signed _ d => d
  | .times _ d => d

/-- The right-hand side. -/
inductive Rhs (N D : Type*) where
  | missing
  | zero
  | terms (w : Written N D) (ws : List (Written N D))

def Rhs.written : Rhs N D → List (Written N D)
  | .terms w ws => w :: ws
  | _ => []

def Rhs.toks : Rhs N D → List (Tok N D)
  | .missing => []
  | .zero => [.eq, .zero]
  | .terms w ws => .eq :: (w :: ws).flatMap Written.toks

/-- The text `t1 + c * t2 … = t3 …`. -/
def equationToks (lhs : List (Written N D)) (rhs : Rhs N D) : List (Tok N D) :=
  lhs.flatMap Written.toks ++ rhs.toks

/-! ### Proofs -/

theorem opToks_none : opToks (N := N) (D := D) none = [] := rfl
theorem opToks_some (b : Bool) : opToks (N := N) (D := D) (some b) = [.op b] := rfl

theorem takeWhile_replicate_lp (a : ℕ) (l : List (Tok N D)) (h : ∀ t r, l = t :: r → t.isLp = false) :
    (List.replicate a Tok.lp ++ l).takeWhile Tok.isLp = List.replicate a Tok.lp ∧
    (List.replicate a Tok.lp ++ l).dropWhile Tok.isLp = l := by
  induction a with
  | zero =>
    cases l with
    | nil => simp
    | cons t r => simp [h t r rfl]
  | succ a ih =>
    rw [List.replicate_succ, List.cons_append, List.takeWhile_cons_of_pos rfl, List.dropWhile_cons_of_pos rfl, ih.1]
    exact ⟨rfl, ih.2⟩

theorem takeWhile_replicate_rp (a : ℕ) (l : List (Tok N D)) (h : ∀ t r, l = t :: r → t.isRp = false) :
    (List.replicate a Tok.rp ++ l).takeWhile Tok.isRp = List.replicate a Tok.rp ∧
    (List.replicate a Tok.rp ++ l).dropWhile Tok.isRp = l := by
  induction a with
  | zero =>
    cases l with
    | nil => simp
    | cons t r => simp [h t r rfl]
  | succ a ih =>
    rw [List.replicate_succ, List.cons_append, List.takeWhile_cons_of_pos rfl, List.dropWhile_cons_of_pos rfl, ih.1]
    exact ⟨rfl, ih.2⟩

theorem isNum_not (t : Tok N D) (h : t.isNum = true) : t.isLp = false ∧ t.isRp = false ∧ ∀ s, t ≠ .op s := by
  cases t <;> simp_all [Tok.isNum, Tok.isLp, Tok.isRp]

theorem takeNumber_num (t : Tok N D) (h : t.isNum = true) (r : List (Tok N D)) :
    takeNumber (t :: r) = some ([t], r) := by
  cases t <;> simp_all [Tok.isNum, takeNumber]

theorem takeNumber_op (s : Bool) (t : Tok N D) (h : t.isNum = true) (r : List (Tok N D)) :
    takeNumber (.op s :: t :: r) = some ([.op s, t], r) := by
  simp [takeNumber, h]

/-- Reading of the head of a part. -/
theorem seg_head (s : Seg N D) (hs : s.number.isNum = true) (l : List (Tok N D)) :
    ∃ n, takeNumber ((optOp (opToks s.unary ++ List.replicate s.opens .lp ++ opToks s.inner ++ [s.number]
        ++ l)).2.dropWhile Tok.isLp) = some (n, l) ∧
      (optOp (opToks s.unary ++ List.replicate s.opens .lp ++ opToks s.inner ++ [s.number] ++ l)).1
        ++ (optOp (opToks s.unary ++ List.replicate s.opens .lp ++ opToks s.inner ++ [s.number]
          ++ l)).2.takeWhile Tok.isLp ++ n
      = opToks s.unary ++ List.replicate s.opens .lp ++ opToks s.inner ++ [s.number] := by
  obtain ⟨u, a, i, t, b⟩ := s
  simp only at hs
  obtain ⟨h1, h2, h3⟩ := isNum_not t hs
  have hno : ∀ r, optOp (t :: r) = ([], t :: r) := by
    intro r; cases t <;> simp_all [Tok.isNum, optOp]
  have inner : ∀ i : Option Bool, ∀ (x y : List (Tok N D)), x = List.replicate a Tok.lp ++ (opToks i ++ (t :: l)) →
      x.takeWhile Tok.isLp = List.replicate a Tok.lp ∧ x.dropWhile Tok.isLp = opToks i ++ (t :: l) := by
    intro i x y hx
    subst hx
    apply takeWhile_replicate_lp
    intro t' r he
    cases i with
    | none => rw [opToks_none, List.nil_append] at he; cases he; exact h1
    | some s => rw [opToks_some] at he; cases he; rfl
  have fin : ∀ i : Option Bool, takeNumber (opToks i ++ (t :: l)) = some (opToks i ++ [t], l) := by
    intro i
    cases i with
    | none => exact takeNumber_num t hs l
    | some s => exact takeNumber_op s t hs l
  cases u with
  | some u =>
    simp only [opToks_some, List.cons_append, List.append_assoc, optOp, List.nil_append]
    obtain ⟨e1, e2⟩ := inner i _ [] rfl
    rw [e1, e2]
    exact ⟨_, fin i, by simp⟩
  | none =>
    simp only [opToks_none, List.nil_append, List.append_assoc, List.singleton_append]
    cases a with
    | succ a =>
      have : optOp (List.replicate (a + 1) Tok.lp ++ (opToks i ++ (t :: l)))
          = ([], List.replicate (a + 1) Tok.lp ++ (opToks i ++ (t :: l))) := by
        simp [List.replicate_succ, optOp]
      rw [this]
      obtain ⟨e1, e2⟩ := inner i _ [] rfl
      simp only [e1, e2]
      exact ⟨_, fin i, by simp⟩
    | zero =>
      simp only [List.replicate_zero, List.nil_append]
      cases i with
      | none =>
        simp only [opToks_none, List.nil_append, hno]
        refine ⟨[t], ?_, ?_⟩
        · rw [List.dropWhile_cons_of_neg (by simp [h1])]; exact takeNumber_num t hs l
        · rw [List.takeWhile_cons_of_neg (by simp [h1])]; simp
      | some s =>
        simp only [opToks_some, List.singleton_append, optOp]
        refine ⟨[t], ?_, ?_⟩
        · rw [List.dropWhile_cons_of_neg (by simp [h1])]; exact takeNumber_num t hs l
        · rw [List.takeWhile_cons_of_neg (by simp [h1])]; simp

/-- A text that cannot continue a multiplier. -/
def Stops (l : List (Tok N D)) : Prop := ∀ t r, l = t :: r → t.isRp = false ∧ ∀ s, t ≠ .op s

theorem restToks_cons (s : Bool) (g : Seg N D) (l : List (Bool × Seg N D)) :
    restToks ((s, g) :: l) = .op s :: (g.toks ++ restToks l) := by simp [restToks]

theorem more_stop (f : ℕ) (l : List (Tok N D)) (h : ∀ t r, l = t :: r → ∀ s, t ≠ .op s) :
    moreExpr f l = ([], l) := by
  cases f with
  | zero => rfl
  | succ f =>
    cases l with
    | nil => rfl
    | cons t r =>
      cases t with
      | op s => exact absurd rfl (h _ _ rfl s)
      | _ => rfl

/-- One part with a closing parenthesis ends the expression; without it, all the rest is read. -/
theorem numExpr_segs (l : List (Bool × Seg N D)) (tail : List (Tok N D)) (ht : Stops tail)
    (hl : ∀ x ∈ l, x.2.number.isNum = true) :
    (∀ f, 2 * l.length ≤ f → moreExpr f (restToks l ++ tail) = (restToks l, tail)) ∧
    ∀ (g : Seg N D), g.number.isNum = true → ∀ f, 2 * l.length + 1 ≤ f →
      (g.closes = 0 → numExpr f (g.toks ++ (restToks l ++ tail)) = some (g.toks ++ restToks l, tail)) ∧
      (g.closes ≠ 0 → numExpr f (g.toks ++ (restToks l ++ tail)) = some (g.toks, restToks l ++ tail)) := by
  induction l with
  | nil =>
    have hmore : ∀ f, moreExpr f (restToks ([] : List (Bool × Seg N D)) ++ tail)
        = (restToks [], tail) := fun f => more_stop f tail fun t r e => (ht t r e).2
    refine ⟨fun f _ => hmore f, fun g hg f hf => ?_⟩
    have key : numExpr f (g.toks ++ (restToks [] ++ tail)) = some (g.toks, tail) := by
      obtain ⟨f, rfl⟩ : ∃ f', f = f' + 1 := ⟨f - 1, by omega⟩
      obtain ⟨n, e1, e2⟩ := seg_head g hg (List.replicate g.closes .rp ++ tail)
      have e0 : g.toks ++ (restToks [] ++ tail) = opToks g.unary ++ List.replicate g.opens .lp ++ opToks g.inner
          ++ [g.number] ++ (List.replicate g.closes .rp ++ tail) := by simp [Seg.toks, restToks]
      obtain ⟨t1, t2⟩ := takeWhile_replicate_rp g.closes tail fun t r e => (ht t r e).1
      have hm : moreExpr f (List.replicate g.closes Tok.rp ++ tail)
          = ([], List.replicate g.closes Tok.rp ++ tail) := by
        apply more_stop
        intro t r e s hs
        cases hc : g.closes with
        | zero => rw [hc] at e; exact (ht t r (by simpa using e)).2 s hs
        | succ c => rw [hc, List.replicate_succ, List.cons_append] at e; cases e; cases hs
      rw [e0, numExpr, e1]
      simp only [hm, t1, t2, List.append_nil]
      rw [e2]; rfl
    exact ⟨fun _ => by rw [key]; simp [restToks], fun _ => by rw [key]; simp [restToks]⟩
  | cons x l ih =>
    obtain ⟨s, g'⟩ := x
    obtain ⟨ihm, ihn⟩ := ih fun x hx => hl x (List.mem_cons_of_mem _ hx)
    have hg' : g'.number.isNum = true := hl (s, g') (List.mem_cons_self ..)
    have hmore : ∀ f, 2 * (l.length + 1) ≤ f →
        moreExpr f (restToks ((s, g') :: l) ++ tail) = (restToks ((s, g') :: l), tail) := by
      intro f hf
      obtain ⟨f, rfl⟩ : ∃ f', f = f' + 1 := ⟨f - 1, by omega⟩
      rw [restToks_cons, List.cons_append, List.append_assoc, moreExpr]
      obtain ⟨n0, n1⟩ := ihn g' hg' f (by omega)
      by_cases hc : g'.closes = 0
      · rw [n0 hc]
        simp only [more_stop f tail fun t r e => (ht t r e).2, List.append_nil]
      · rw [n1 hc]
        simp only [ihm f (by omega), List.cons_append]
    refine ⟨fun f hf => hmore f (by simpa using hf), fun g hg f hf => ?_⟩
    rw [List.length_cons] at hf
    obtain ⟨f, rfl⟩ : ∃ f', f = f' + 1 := ⟨f - 1, by omega⟩
    obtain ⟨n, e1, e2⟩ := seg_head g hg (List.replicate g.closes .rp ++ (restToks ((s, g') :: l) ++ tail))
    have e0 : g.toks ++ (restToks ((s, g') :: l) ++ tail) = opToks g.unary ++ List.replicate g.opens .lp
        ++ opToks g.inner ++ [g.number] ++ (List.replicate g.closes .rp ++ (restToks ((s, g') :: l) ++ tail)) := by
      simp [Seg.toks]
    constructor
    · intro hc
      have htk : Seg.toks g = opToks g.unary ++ List.replicate g.opens .lp ++ opToks g.inner ++ [g.number] := by
        simp [Seg.toks, hc]
      rw [e0, numExpr, e1]
      simp only [hc, List.replicate_zero, List.nil_append, hmore f (by omega)] at e2 ⊢
      have : tail.takeWhile Tok.isRp = [] ∧ tail.dropWhile Tok.isRp = tail := by
        simpa using takeWhile_replicate_rp 0 tail fun t r e => (ht t r e).1
      rw [this.1, this.2, List.append_nil, e2, htk]
    · intro hc
      have hnr : ∀ t r, restToks ((s, g') :: l) ++ tail = t :: r → t.isRp = false := by
        intro t r e; rw [restToks_cons, List.cons_append] at e; cases e; rfl
      obtain ⟨t1, t2⟩ := takeWhile_replicate_rp g.closes _ hnr
      have hm : moreExpr f (List.replicate g.closes Tok.rp ++ (restToks ((s, g') :: l) ++ tail))
          = ([], List.replicate g.closes Tok.rp ++ (restToks ((s, g') :: l) ++ tail)) := by
        apply more_stop
        intro t r e s' hs
        cases hc' : g.closes with
        | zero => exact hc hc'
        | succ c => rw [hc', List.replicate_succ, List.cons_append] at e; cases e; cases hs
      rw [e0, numExpr, e1]
      simp only [hm, t1, t2, List.append_nil]
      rw [e2]; rfl

theorem numExpr_mult (m : Mult N D) (hm : m.Ok) (tail : List (Tok N D)) (ht : Stops tail) (f : ℕ)
    (hf : 2 * m.rest.length + 1 ≤ f) : numExpr f (m.toks ++ tail) = some (m.toks, tail) := by
  obtain ⟨-, h⟩ := numExpr_segs m.rest tail ht hm.numbers
  obtain ⟨h0, h1⟩ := h m.first hm.number f hf
  unfold Mult.toks
  rw [List.append_assoc]
  rcases hm.closes with hr | hc
  · by_cases hc : m.first.closes = 0
    · exact h0 hc
    · rw [h1 hc, hr]; simp [restToks]
  · exact h0 hc

theorem rest_length (l : List (Bool × Seg N D)) : l.length ≤ (restToks l).length := by
  induction l with
  | nil => simp
  | cons x l ih => obtain ⟨s, g⟩ := x; rw [restToks_cons]; simp; omega

theorem coef_written (ev : List (Tok N D) → Option K) (w : Written N D) (hw : w.Ok) (c : K)
    (hc : w.HasCoef ev c) (ctx : Bool) (r : List (Tok N D)) :
    ∃ q, coef (w.toks ++ r) = (q, .term w.desc :: r) ∧ coefVal ev ctx q = some (c * signVal ctx) := by
  cases w with
  | signed o d =>
    refine ⟨.sign o, ?_, ?_⟩
    · have hnone : numExpr (2 * ((opToks o ++ [Tok.term d]) ++ r : List (Tok N D)).length + 2) ((opToks o ++ [Tok.term d]) ++ r)
          = (none : Option (List (Tok N D) × List (Tok N D))) := by
        have e : takeNumber (Tok.term d :: r : List (Tok N D)) = none := by simp [takeNumber, Tok.isNum]
        have e2 : (Tok.term d :: r : List (Tok N D)).dropWhile Tok.isLp = Tok.term d :: r := by
          simp [Tok.isLp]
        cases o with
        | none =>
          simp only [opToks_none, List.nil_append, List.singleton_append, numExpr, optOp, e2, e]
        | some s =>
          simp only [opToks_some, List.cons_append, List.nil_append, numExpr, optOp, e2, e]
      simp only [coef, Written.toks, hnone, Written.desc]
      cases o with
      | none => rfl
      | some s => rfl
    · simp only [Written.HasCoef] at hc
      subst hc
      rcases o with _ | _ | _ <;> simp [coefVal, signVal]
  | times m d =>
    refine ⟨.mul m.toks, ?_, ?_⟩
    · have ht : Stops (Tok.star :: Tok.term d :: r : List (Tok N D)) := by
        intro t r' e; cases e; simp [Tok.isRp]
      have e : (Written.times m d).toks ++ r = m.toks ++ (Tok.star :: Tok.term d :: r) := by
        simp [Written.toks]
      rw [e]
      unfold coef
      rw [numExpr_mult m hw _ ht _ (by
        have := rest_length m.rest
        simp [Mult.toks]; omega)]
      rfl
    · simp only [Written.HasCoef] at hc
      simp [coefVal, hc]

theorem written_pos (w : Written N D) : 0 < w.toks.length := by
  cases w <;> simp [Written.toks]

/-- A text that does not begin with a term. -/
def NoTerm (l : List (Tok N D)) : Prop := ∀ c d r, coef l ≠ (c, .term d :: r)

theorem many_written (ev : List (Tok N D) → Option K) (ctx : Bool) (ws : List (Written N D)) (cs : List K)
    (hok : ∀ w ∈ ws, w.Ok) (hcs : List.Forall₂ (fun w c => Written.HasCoef ev w c) ws cs)
    (tail : List (Tok N D)) (ht : NoTerm tail) (f : ℕ) (hf : ws.length ≤ f) :
    manyTerms ev ctx f (ws.flatMap Written.toks ++ tail)
      = (List.zipWith (fun w c => (some (c * signVal ctx), w.desc)) ws cs, tail) := by
  induction hcs generalizing f with
  | nil =>
    cases f with
    | zero => rfl
    | succ f =>
      simp only [List.flatMap_nil, List.nil_append, manyTerms]
      cases hq : coef tail with
      | mk c r =>
        cases r with
        | nil => rfl
        | cons t r =>
          cases t with
          | term d => exact absurd hq (ht c d r)
          | _ => rfl
  | cons h t ih =>
    rename_i w c ws cs
    obtain ⟨f, rfl⟩ : ∃ f', f = f' + 1 := ⟨f - 1, by simp at hf; omega⟩
    obtain ⟨q, e1, e2⟩ := coef_written ev w (hok w (List.mem_cons_self ..)) c h ctx
      (ws.flatMap Written.toks ++ tail)
    rw [List.flatMap_cons, List.append_assoc, manyTerms, e1]
    simp only [e2, ih (fun w hw => hok w (List.mem_cons_of_mem _ hw)) f (by simpa using hf)]
    rfl

theorem noTerm_nil : NoTerm ([] : List (Tok N D)) := by
  intro c d r h
  simp [coef, optSign, numExpr, optOp, takeNumber] at h

theorem noTerm_eq (r : List (Tok N D)) : NoTerm (.eq :: r) := by
  intro c d r' h
  simp [coef, optSign, numExpr, optOp, takeNumber, Tok.isNum, Tok.isLp] at h

theorem noTerm_zero : NoTerm ([.zero] : List (Tok N D)) := by
  intro c d r' h
  simp [coef, optSign, numExpr, optOp, takeNumber, Tok.isNum, Tok.isLp, moreExpr] at h

theorem finish_zip (ws : List (Written N D)) (cs : List K) (k : K) :
    finish (List.zipWith (fun w c => (some (c * k), w.desc)) ws cs)
      = some (List.zipWith (fun w c => (⟨c * k, w.desc⟩ : Term K D)) ws cs) := by
  induction ws generalizing cs with
  | nil => rfl
  | cons w ws ih =>
    cases cs with
    | nil => rfl
    | cons c cs =>
      have := ih cs
      simp only [finish] at this
      simp [finish, this]

theorem finish_append (a b : List (Option K × D)) (x y : List (Term K D)) (ha : finish a = some x)
    (hb : finish b = some y) : finish (a ++ b) = some (x ++ y) := by
  simp only [finish] at *
  simp [List.mapM_append, ha, hb]

theorem flatMap_length (ws : List (Written N D)) : ws.length ≤ (ws.flatMap Written.toks).length := by
  induction ws with
  | nil => simp
  | cons w ws ih =>
    rw [List.flatMap_cons, List.length_append, List.length_cons]
    have := written_pos w
    omega

/-- **C78.** The text of an equation is read as its left-hand side minus its right-hand side: the terms of
the left-hand side with the written coefficients, then those of the right-hand side with the opposite
ones. -/
theorem C78_equation_text (ev : List (Tok N D) → Option K) (lhs : List (Written N D)) (rhs : Rhs N D)
    (hne : lhs ≠ []) (hl : ∀ w ∈ lhs, w.Ok) (hr : ∀ w ∈ rhs.written, w.Ok) (cl cr : List K)
    (hcl : List.Forall₂ (fun w c => Written.HasCoef ev w c) lhs cl)
    (hcr : List.Forall₂ (fun w c => Written.HasCoef ev w c) rhs.written cr) :
    parseEquation ev (equationToks lhs rhs) = some
      (List.zipWith (fun w c => ⟨c, w.desc⟩) lhs cl ++ List.zipWith (fun w c => ⟨-c, w.desc⟩) rhs.written cr) := by
  have hlen := flatMap_length lhs
  have hzip : ∀ k : K, (List.zipWith (fun (w : Written N D) c => ((some (c * k) : Option K), w.desc)) lhs cl).isEmpty
      = false := by
    intro k
    cases hcl with
    | nil => exact absurd rfl hne
    | cons h t => rfl
  have hfl := finish_zip lhs cl 1
  have hsv : signVal (K := K) false = 1 := rfl
  have hsv' : signVal (K := K) true = -1 := rfl
  have e1 : (List.zipWith (fun (w : Written N D) (c : K) => (⟨c * 1, w.desc⟩ : Term K D)) lhs cl)
      = List.zipWith (fun w c => ⟨c, w.desc⟩) lhs cl := by simp
  rw [e1] at hfl
  unfold parseEquation equationToks
  cases rhs with
  | missing =>
    cases hcr
    have hm := many_written ev false lhs cl hl hcl [] noTerm_nil (lhs.flatMap Written.toks).length hlen
    simp only [Rhs.toks, List.append_nil] at hm ⊢
    simp only [hm, hsv, hzip, hfl]
    simp [Rhs.written]
  | zero =>
    cases hcr
    have hm := many_written ev false lhs cl hl hcl _ (noTerm_eq [.zero])
      (lhs.flatMap Written.toks ++ [Tok.eq, Tok.zero]).length (by rw [List.length_append]; omega)
    have hz : manyTerms ev true 1 ([.zero] : List (Tok N D)) = ([], [.zero]) := by
      simp [manyTerms, coef, optSign, numExpr, optOp, takeNumber, Tok.isNum, Tok.isLp, moreExpr]
    simp only [Rhs.toks, hm, hsv, hzip, hz, List.length_cons, List.length_nil, Nat.zero_add, List.isEmpty_nil]
    simpa [Rhs.written] using hfl
  | terms w ws =>
    have hm := many_written ev false lhs cl hl hcl _ (noTerm_eq ((w :: ws).flatMap Written.toks))
      (lhs.flatMap Written.toks ++ Tok.eq :: (w :: ws).flatMap Written.toks).length (by rw [List.length_append]; omega)
    have hm' := many_written ev true (w :: ws) cr hr hcr [] noTerm_nil
      ((w :: ws).flatMap Written.toks).length (flatMap_length (w :: ws))
    rw [List.append_nil] at hm'
    have hz' : (List.zipWith (fun (w : Written N D) c => ((some (c * (-1 : K)) : Option K), w.desc)) (w :: ws) cr).isEmpty
        = false := by
      cases hcr with
      | cons h t => rfl
    have hfr := finish_zip (w :: ws) cr (-1)
    simp only [Rhs.toks, hm, hsv, hsv', hzip, hm', hz', List.isEmpty_nil]
    simp only [Bool.false_eq_true, if_false, if_true, Rhs.written]
    rw [finish_append _ _ _ _ hfl hfr]
    simp

/-! ### Only such texts are accepted -/

theorem optOp_eq (l : List (Tok N D)) : ∃ u : Option Bool, (optOp l).1 = opToks u ∧ l = opToks u ++ (optOp l).2 := by
  cases l with
  | nil => exact ⟨none, rfl, rfl⟩
  | cons t r =>
    cases t with
    | op s => exact ⟨some s, rfl, rfl⟩
    | _ => exact ⟨none, rfl, rfl⟩

theorem takeWhile_isLp (l : List (Tok N D)) : l.takeWhile Tok.isLp
    = List.replicate (l.takeWhile Tok.isLp).length .lp := by
  induction l with
  | nil => rfl
  | cons t l ih =>
    cases t with
    | lp =>
      rw [List.takeWhile_cons_of_pos rfl, List.length_cons, List.replicate_succ, ← ih]
    | _ => rfl

theorem takeWhile_isRp (l : List (Tok N D)) : l.takeWhile Tok.isRp
    = List.replicate (l.takeWhile Tok.isRp).length .rp := by
  induction l with
  | nil => rfl
  | cons t l ih =>
    cases t with
    | rp =>
      rw [List.takeWhile_cons_of_pos rfl, List.length_cons, List.replicate_succ, ← ih]
    | _ => rfl

theorem takeNumber_some (l n r : List (Tok N D)) (h : takeNumber l = some (n, r)) :
    ∃ (i : Option Bool) (t : Tok N D), t.isNum = true ∧ n = opToks i ++ [t] ∧ l = n ++ r := by
  cases l with
  | nil => cases h
  | cons t l =>
    cases t with
    | op s =>
      cases l with
      | nil => simp [takeNumber, Tok.isNum] at h
      | cons t l =>
        simp only [takeNumber] at h
        split at h
        · rename_i ht
          obtain ⟨rfl, rfl⟩ : [Tok.op s, t] = n ∧ l = r := by simpa using h
          exact ⟨some s, t, ht, rfl, rfl⟩
        · cases h
    | num x =>
      obtain ⟨rfl, rfl⟩ : [Tok.num x] = n ∧ l = r := by simpa [takeNumber, Tok.isNum] using h
      exact ⟨none, .num x, rfl, rfl, rfl⟩
    | zero =>
      obtain ⟨rfl, rfl⟩ : [Tok.zero] = n ∧ l = r := by simpa [takeNumber, Tok.isNum] using h
      exact ⟨none, .zero, rfl, rfl, rfl⟩
    | _ => simp [takeNumber, Tok.isNum] at h

theorem restToks_append (a b : List (Bool × Seg N D)) : restToks (a ++ b) = restToks a ++ restToks b := by
  simp [restToks]

/-- Closing parentheses belong to the last part. -/
theorem close_last (l : List (Bool × Seg N D)) (h : l ≠ []) (hl : ∀ x ∈ l, x.2.number.isNum = true) (k : ℕ) :
    ∃ l' : List (Bool × Seg N D), (∀ x ∈ l', x.2.number.isNum = true) ∧
      restToks l' = restToks l ++ List.replicate k .rp := by
  obtain ⟨a, ⟨s, g⟩, rfl⟩ : ∃ a x, l = a ++ [x] := ⟨l.dropLast, l.getLast h, (List.dropLast_append_getLast h).symm⟩
  refine ⟨a ++ [(s, { g with closes := g.closes + k })], ?_, ?_⟩
  · intro x hx
    rcases List.mem_append.1 hx with hx | hx
    · exact hl x (List.mem_append_left _ hx)
    · rw [List.mem_singleton] at hx
      subst hx
      exact hl (s, g) (List.mem_append_right _ (List.mem_singleton.2 rfl))
  · rw [restToks_append, restToks_append, restToks_cons, restToks_cons]
    simp [restToks, Seg.toks]

theorem numExpr_sound (f : ℕ) :
    (∀ l c r : List (Tok N D), numExpr f l = some (c, r) → ∃ m : Mult N D, m.Ok ∧ c = m.toks ∧ l = c ++ r) ∧
    (∀ l c r : List (Tok N D), moreExpr f l = (c, r) → ∃ a : List (Bool × Seg N D),
      (∀ x ∈ a, x.2.number.isNum = true) ∧ c = restToks a ∧ l = c ++ r) := by
  induction f with
  | zero =>
    refine ⟨fun l c r h => by simp [numExpr] at h, fun l c r h => ?_⟩
    simp only [moreExpr, Prod.mk.injEq] at h
    obtain ⟨rfl, rfl⟩ := h
    exact ⟨[], by simp, rfl, rfl⟩
  | succ f ih =>
    obtain ⟨ihn, ihm⟩ := ih
    constructor
    · intro l c r h
      rw [numExpr] at h
      cases hn : takeNumber ((optOp l).2.dropWhile Tok.isLp) with
      | none => rw [hn] at h; cases h
      | some p =>
        obtain ⟨n, l3⟩ := p
        rw [hn] at h
        simp only [Option.some.injEq, Prod.mk.injEq] at h
        obtain ⟨hc, hr⟩ := h
        obtain ⟨i, t, ht, rfl, hl3⟩ := takeNumber_some _ _ _ hn
        obtain ⟨u, hu, hlu⟩ := optOp_eq l
        obtain ⟨a, ha, hca, hla⟩ := ihm l3 (moreExpr f l3).1 (moreExpr f l3).2 rfl
        have hlp := takeWhile_isLp (optOp l).2
        have hrp := takeWhile_isRp (moreExpr f l3).2
        have hleft : l = c ++ r := by
          rw [← hc, ← hr]
          conv_lhs => rw [hlu, ← List.takeWhile_append_dropWhile (p := Tok.isLp) (l := (optOp l).2), hl3, hla,
            ← List.takeWhile_append_dropWhile (p := Tok.isRp) (l := (moreExpr f l3).2)]
          rw [hu]
          simp
        by_cases hane : a = []
        · refine ⟨⟨⟨u, ((optOp l).2.takeWhile Tok.isLp).length, i, t,
            ((moreExpr f l3).2.takeWhile Tok.isRp).length⟩, []⟩, ⟨ht, by simp, Or.inl rfl⟩, ?_, hleft⟩
          rw [← hc, hca, hane, hu]
          simp only [Mult.toks, Seg.toks]
          rw [← hlp, ← hrp]
          simp [restToks]
        · obtain ⟨a', ha', he⟩ := close_last a hane ha ((moreExpr f l3).2.takeWhile Tok.isRp).length
          refine ⟨⟨⟨u, ((optOp l).2.takeWhile Tok.isLp).length, i, t, 0⟩, a'⟩, ⟨ht, ha', Or.inr rfl⟩, ?_, hleft⟩
          rw [← hc, hu]
          simp only [Mult.toks, Seg.toks, he]
          rw [← hlp, ← hrp, ← hca]
          simp
    · intro l c r h
      have nope : moreExpr (f + 1) l = ([], l) → ∃ a : List (Bool × Seg N D),
          (∀ x ∈ a, x.2.number.isNum = true) ∧ c = restToks a ∧ l = c ++ r := by
        intro h'
        rw [h'] at h
        cases h
        exact ⟨[], by simp, rfl, rfl⟩
      cases l with
      | nil => exact nope rfl
      | cons t l =>
        cases t with
        | op s =>
          cases hn : numExpr f l with
          | none => exact nope (by simp only [moreExpr, hn])
          | some p =>
            obtain ⟨c1, r1⟩ := p
            simp only [moreExpr, hn] at h
            obtain ⟨m, hm, hc1, hl⟩ := ihn l c1 r1 hn
            obtain ⟨a, ha, hca, hra⟩ := ihm r1 (moreExpr f r1).1 (moreExpr f r1).2 rfl
            simp only [Prod.mk.injEq] at h
            obtain ⟨hc, hr⟩ := h
            refine ⟨(s, m.first) :: (m.rest ++ a), ?_, ?_, ?_⟩
            · intro x hx
              rcases List.mem_cons.1 hx with rfl | hx
              · exact hm.number
              · rcases List.mem_append.1 hx with hx | hx
                · exact hm.numbers x hx
                · exact ha x hx
            · rw [← hc, hca, hc1, restToks_cons, restToks_append]
              simp [Mult.toks]
            · rw [hl, ← hc, ← hr]
              conv_lhs => rw [hra]
              simp
        | _ => exact nope rfl

/-- The value in front of a written term. -/
def Written.val (ev : List (Tok N D) → Option K) : Written N D → Option K
  | .signed o _ => some (if o = some true then -1 else 1)
  | .times m _ => ev m.toks

theorem val_hasCoef (ev : List (Tok N D) → Option K) (w : Written N D) (c : K) :
    w.val ev = some c ↔ w.HasCoef ev c := by
  cases w with
  | signed o d => simp only [Written.val, Written.HasCoef, Option.some.injEq]; exact eq_comm
  | times m d => rfl

theorem coef_sound (ev : List (Tok N D) → Option K) (ctx : Bool) (l : List (Tok N D)) (q : Coef N D) (d : D)
    (r : List (Tok N D)) (h : coef l = (q, .term d :: r)) :
    ∃ w : Written N D, w.Ok ∧ w.desc = d ∧ l = w.toks ++ r ∧
      coefVal ev ctx q = (w.val ev).map (· * signVal ctx) := by
  have hsign : ∀ (q : Coef N D), optSign l = (q, Tok.term d :: r) → ∃ w : Written N D, w.Ok ∧ w.desc = d ∧ l = w.toks ++ r ∧
      coefVal ev ctx q = (w.val ev).map (· * signVal ctx) := by
    intro q hq
    cases l with
    | nil => simp [optSign] at hq
    | cons t l =>
      cases t with
      | op s =>
        simp only [optSign, Prod.mk.injEq] at hq
        obtain ⟨rfl, rfl⟩ := hq
        refine ⟨.signed (some s) d, trivial, rfl, rfl, ?_⟩
        cases s <;> simp [coefVal, Written.val, signVal]
      | term d' =>
        simp only [optSign, Prod.mk.injEq, List.cons.injEq, Tok.term.injEq] at hq
        obtain ⟨rfl, rfl, rfl⟩ := hq
        refine ⟨.signed none d', trivial, rfl, rfl, ?_⟩
        simp [coefVal, Written.val, signVal]
      | _ => simp [optSign] at hq
  unfold coef at h
  split at h
  · rename_i c r' hn
    simp only [Prod.mk.injEq] at h
    obtain ⟨rfl, rfl⟩ := h
    obtain ⟨m, hm, hc, hl⟩ := (numExpr_sound _).1 _ _ _ hn
    refine ⟨.times m d, hm, rfl, ?_, ?_⟩
    · rw [hl, hc]; simp [Written.toks]
    · simp [coefVal, Written.val, hc]
  · exact hsign q h

theorem many_sound (ev : List (Tok N D) → Option K) (ctx : Bool) (f : ℕ) (l : List (Tok N D))
    (out : List (Option K × D)) (rest : List (Tok N D)) (h : manyTerms ev ctx f l = (out, rest)) :
    ∃ ws : List (Written N D), (∀ w ∈ ws, w.Ok) ∧ l = ws.flatMap Written.toks ++ rest ∧
      out = ws.map fun w => ((w.val ev).map (· * signVal ctx), w.desc) := by
  induction f generalizing l out rest with
  | zero => cases h; exact ⟨[], by simp, rfl, rfl⟩
  | succ f ih =>
    rw [manyTerms] at h
    split at h
    · rename_i c d r hc
      obtain ⟨w, hw, hd, hl, hv⟩ := coef_sound ev ctx l c d r hc
      obtain ⟨ws, hws, hr, ho⟩ := ih r (manyTerms ev ctx f r).1 (manyTerms ev ctx f r).2 rfl
      simp only [Prod.mk.injEq] at h
      refine ⟨w :: ws, ?_, ?_, ?_⟩
      · intro x hx
        rcases List.mem_cons.1 hx with rfl | hx
        · exact hw
        · exact hws x hx
      · rw [hl, ← h.2]; conv_lhs => rw [hr]
        simp
      · rw [← h.1, ho, hv, ← hd]; rfl
    · cases h; exact ⟨[], by simp, rfl, rfl⟩

theorem finish_sound (ev : List (Tok N D) → Option K) (k : K) (ws : List (Written N D)) (ts : List (Term K D))
    (h : finish (ws.map fun w => ((w.val ev).map (· * k), w.desc)) = some ts) :
    ∃ cs, List.Forall₂ (fun w c => Written.HasCoef ev w c) ws cs := by
  induction ws generalizing ts with
  | nil => exact ⟨[], .nil⟩
  | cons w ws ih =>
    simp only [finish, List.map_cons, List.mapM_cons] at h
    cases hv : w.val ev with
    | none => rw [hv] at h; simp at h
    | some c =>
      cases hrest : finish (ws.map fun w => ((w.val ev).map (· * k), w.desc)) with
      | none => simp only [finish] at hrest; rw [hrest] at h; simp [hv] at h
      | some ts' =>
        obtain ⟨cs, hcs⟩ := ih ts' hrest
        exact ⟨c :: cs, .cons ((val_hasCoef ev w c).1 hv) hcs⟩

theorem finish_append_some (a b : List (Option K × D)) (z : List (Term K D)) (h : finish (a ++ b) = some z) :
    ∃ x y, finish a = some x ∧ finish b = some y := by
  simp only [finish, List.mapM_append] at *
  cases ha : List.mapM (fun t : Option K × D => t.1.map fun s => (⟨s, t.2⟩ : Term K D)) a with
  | none => rw [ha] at h; simp at h
  | some x =>
    cases hb : List.mapM (fun t : Option K × D => t.1.map fun s => (⟨s, t.2⟩ : Term K D)) b with
    | none => rw [ha, hb] at h; simp at h
    | some y => exact ⟨x, y, rfl, rfl⟩

/-- **C78.** Exactly the texts of equations are accepted: `left-hand side [= right-hand side or 0]`. -/
theorem C78_only_equations (ev : List (Tok N D) → Option K) (l : List (Tok N D)) (ts : List (Term K D)) :
    parseEquation ev l = some ts ↔ ∃ lhs rhs cl cr, lhs ≠ [] ∧ (∀ w ∈ lhs, w.Ok) ∧
      (∀ w ∈ Rhs.written rhs, w.Ok) ∧ List.Forall₂ (fun w c => Written.HasCoef ev w c) lhs cl ∧
      List.Forall₂ (fun w c => Written.HasCoef ev w c) rhs.written cr ∧ l = equationToks lhs rhs ∧
      ts = List.zipWith (fun w c => ⟨c, w.desc⟩) lhs cl
        ++ List.zipWith (fun w c => ⟨-c, w.desc⟩) rhs.written cr := by
  constructor
  · intro h
    suffices hs : ∃ lhs rhs cl cr, lhs ≠ [] ∧ (∀ w ∈ lhs, w.Ok) ∧
      (∀ w ∈ Rhs.written rhs, w.Ok) ∧ List.Forall₂ (fun w c => Written.HasCoef ev w c) lhs cl ∧
      List.Forall₂ (fun w c => Written.HasCoef ev w c) rhs.written cr ∧ l = equationToks lhs rhs by
      obtain ⟨lhs, rhs, cl, cr, h1, h2, h3, h4, h5, h6⟩ := hs
      refine ⟨lhs, rhs, cl, cr, h1, h2, h3, h4, h5, h6, ?_⟩
      have := C78_equation_text ev lhs rhs h1 h2 h3 cl cr h4 h5
      rw [← h6, h] at this
      exact Option.some.inj this
    unfold parseEquation at h
    obtain ⟨ws, hws, hl, ho⟩ := many_sound ev false l.length l (manyTerms ev false l.length l).1
      (manyTerms ev false l.length l).2 rfl
    simp only at h
    split at h
    · cases h
    · rename_i hne
      have hwne : ws ≠ [] := by
        intro e; rw [ho, e] at hne; exact hne rfl
      split at h
      · rename_i he
        rw [ho] at h
        obtain ⟨cs, hcs⟩ := finish_sound ev _ ws ts h
        exact ⟨ws, .missing, cs, [], hwne, hws, by simp [Rhs.written], hcs, .nil, by
          rw [hl, he]; simp [equationToks, Rhs.toks]⟩
      · rename_i r he
        obtain ⟨vs, hvs, hr, hq⟩ := many_sound ev true r.length r (manyTerms ev true r.length r).1
          (manyTerms ev true r.length r).2 rfl
        split at h
        · split at h
          · rw [ho] at h
            obtain ⟨cs, hcs⟩ := finish_sound ev _ ws ts h
            exact ⟨ws, .zero, cs, [], hwne, hws, by simp [Rhs.written], hcs, .nil, by
              rw [hl, he]; simp [equationToks, Rhs.toks]⟩
          · cases h
        · rename_i hrne
          split at h
          · rename_i hrest
            have hrest' := List.isEmpty_iff.1 hrest
            obtain ⟨x, y, hx, hy⟩ := finish_append_some _ _ _ h
            rw [ho] at hx
            rw [hq] at hy
            obtain ⟨cs, hcs⟩ := finish_sound ev _ ws x hx
            obtain ⟨ds, hds⟩ := finish_sound ev _ vs y hy
            cases vs with
            | nil => rw [hq] at hrne; exact absurd rfl hrne
            | cons v vs =>
              exact ⟨ws, .terms v vs, cs, ds, hwne, hws, hvs, hcs, hds, by
                rw [hl, he]; simp only [equationToks, Rhs.toks]; rw [hr, hrest']; simp⟩
          · cases h
      · cases h
  · rintro ⟨lhs, rhs, cl, cr, h1, h2, h3, h4, h5, rfl, rfl⟩
    exact C78_equation_text ev lhs rhs h1 h2 h3 cl cr h4 h5

/-- **C78.** What the equation means: the sum over the left-hand side minus the sum over the right-hand
side, for any values of the terms. -/
theorem C78_lhs_minus_rhs {V : Type*} [AddCommGroup V] [Module K V] (ev : List (Tok N D) → Option K)
    (lhs : List (Written N D)) (rhs : Rhs N D)
    (hne : lhs ≠ []) (hl : ∀ w ∈ lhs, w.Ok) (hr : ∀ w ∈ rhs.written, w.Ok) (cl cr : List K)
    (hcl : List.Forall₂ (fun w c => Written.HasCoef ev w c) lhs cl)
    (hcr : List.Forall₂ (fun w c => Written.HasCoef ev w c) rhs.written cr) (value : D → V) :
    ∃ ts, parseEquation ev (equationToks lhs rhs) = some ts ∧
      (ts.map fun t => t.sign • value t.body).sum
        = (List.zipWith (fun w c => c • value w.desc) lhs cl).sum
          - (List.zipWith (fun w c => c • value w.desc) rhs.written cr).sum := by
  refine ⟨_, C78_equation_text ev lhs rhs hne hl hr cl cr hcl hcr, ?_⟩
  rw [List.map_append, List.sum_append, sub_eq_add_neg]
  congr 1
  · rw [List.map_zipWith]
  · rw [List.map_zipWith]
    clear hcr
    generalize rhs.written = ws
    induction ws generalizing cr with
    | nil => simp
    | cons w ws ih =>
      cases cr with
      | nil => simp
      | cons c cr => 
        have hw := ih cr
        simp only [List.zipWith_cons_cons, List.sum_cons, neg_smul, neg_add] at hw ⊢
        rw [hw]

end Eqn
