/-
Model of the region selector grammar (`sfepy/discrete/parse_regions.py`) on the level of
words: what pyparsing pushes on the stack and how `visit_stack` evaluates it.

The matching of words, numbers and white space is not modelled: the input is the list of
words.  One lexical effect is kept, because it matters: the greedy `ZeroOrMore(')')`
inside of `bool_term`/`relation` (lines 148-155).
-/
namespace Verif.Region

variable {L O Λ : Type}

/-- Words of a selector.  `leaf l false`: a complete leaf (`all`, `r.X`, `vertices of
surface`, ...).  `leaf l true`: a leaf `vertices in <relation>` up to its own last closing
parenthesis.  `op o`: one of the 15 operators `-v`, ..., `*s`. -/
inductive Word (L O : Type) where
  | leaf (l : L) (isRel : Bool)
  | op (o : O)
  | lpar
  | rpar
deriving DecidableEq

/-- What the grammar sees. -/
inductive Tok (Λ O : Type) where
  | leaf (l : Λ)
  | op (o : O)
  | lpar
  | rpar
deriving DecidableEq

/-- Number of leading closing parentheses. -/
def leadingRpars : List (Word L O) → Nat
  | .rpar :: r => leadingRpars r + 1
  | _ => 0

/-- A relation takes all closing parentheses following its last comparison
(`ZeroOrMore(')')`, parse_regions.py:146-150), i.e. also those of the enclosing groups.
A token carries the leaf and the number of the additional parentheses.  `skip` parentheses
are to be skipped. -/
def lex : Nat → List (Word L O) → List (Tok ((L × Bool) × Nat) O)
  | _, [] => []
  | skip + 1, .rpar :: r => lex skip r
  | 0, .rpar :: r => .rpar :: lex 0 r
  | _, .lpar :: r => .lpar :: lex 0 r
  | _, .op o :: r => .op o :: lex 0 r
  | _, .leaf l false :: r => .leaf ((l, false), 0) :: lex 0 r
  | _, .leaf l true :: r => .leaf ((l, true), leadingRpars r) :: lex (leadingRpars r) r

/-- Items pushed on the stack by `to_stack` (parse_regions.py:26-31). -/
inductive Item (Λ O : Type) where
  | leaf (l : Λ)
  | op (o : O)
deriving DecidableEq

/-! The recursive descent parser.  Results: the rest of the input (`none` = ParseException) and
the stack (head = top), which is a side effect and is not undone by a failure.  `fuel` limits
the depth; `parseRegion` gives enough of it. -/
mutual

/-- `region_expression << atom + ZeroOrMore(aux)` (parse_regions.py:174, 184-185). -/
def parseExpr : Nat → List (Tok Λ O) → List (Item Λ O) → Option (List (Tok Λ O)) × List (Item Λ O)
  | 0, _, st => (none, st)
  | f + 1, toks, st =>
    match parseAtom f toks st with
    | (none, st') => (none, st')
    | (some rest, st') => parseMany f rest st'

/-- `atom = (atom1 | atom2)` (parse_regions.py:176-180). -/
def parseAtom : Nat → List (Tok Λ O) → List (Item Λ O) → Option (List (Tok Λ O)) × List (Item Λ O)
  | 0, _, st => (none, st)
  | _ + 1, .leaf l :: r, st => (some r, .leaf l :: st)
  | f + 1, .lpar :: r, st =>
    match parseExpr f r st with
    | (some (.rpar :: r'), st') => (some r', st')
    | (_, st') => (none, st')
  | _ + 1, _, st => (none, st)

/-- `ZeroOrMore(aux)`, `aux = (regop + region_expression)` with the parse action pushing
the operator (parse_regions.py:182-183). -/
def parseMany : Nat → List (Tok Λ O) → List (Item Λ O) → Option (List (Tok Λ O)) × List (Item Λ O)
  | 0, toks, st => (some toks, st)
  | f + 1, .op o :: r, st =>
    match parseExpr f r st with
    | (some r', st') => parseMany f r' (.op o :: st')
    | (none, st') => (some (.op o :: r), st')
  | _ + 1, toks, st => (some toks, st)

end

/-- `StringStart() + region_expression + StringEnd()` (parse_regions.py:184-187) starting with
the stack `st0`: success flag (False = ParseException) and the stack afterwards. -/
def parseRegion (st0 : List (Item Λ O)) (toks : List (Tok Λ O)) : Bool × List (Item Λ O) :=
  match parseExpr (2 * toks.length + 2) toks st0 with
  | (some [], st) => (true, st)
  | (_, st) => (false, st)

/-- `visit_stack` (parse_regions.py:56-79): pops the top item; for an operator the second
operand is visited first.  `none`: an exception (raised by the leaf visitor, or pop from
an empty list); the second component is the stack afterwards. -/
def visit {R : Type} (opv : O → R → R → R) (leafv : Λ → Option R) :
    Nat → List (Item Λ O) → Option R × List (Item Λ O)
  | 0, st => (none, st)
  | _ + 1, [] => (none, [])
  | _ + 1, .leaf l :: st => (leafv l, st)
  | f + 1, .op o :: st =>
    match visit opv leafv f st with
    | (none, st') => (none, st')
    | (some res2, st') =>
      match visit opv leafv f st' with
      | (none, st'') => (none, st'')
      | (some res1, st'') => (some (opv o res1 res2), st'')

/-- The leaf visitor applied to a token: Python's `eval` of a relation with additional
closing parentheses raises (common/domain.py:59, SyntaxError). -/
def leafOf {R : Type} (leafv : L → Option R) (l : (L × Bool) × Nat) : Option R :=
  if l.2 = 0 then leafv l.1.1 else none

/-- Parsing and evaluation of a selector as in `Domain.create_region`
(common/domain.py:258-275).  The stack belongs to the domain and persists between the calls:
`st0` is its content before the call; the result is the value (`none` = an exception) and
the content of the stack after the call. -/
def evalSelector {R : Type} (opv : O → R → R → R) (leafv : L → Option R)
    (st0 : List (Item ((L × Bool) × Nat) O)) (ws : List (Word L O)) :
    Option R × List (Item ((L × Bool) × Nat) O) :=
  match parseRegion st0 (lex 0 ws) with
  | (false, st) => (none, st)
  | (true, st) => visit opv (leafOf leafv) (st.length + 1) st

end Verif.Region
