import Verif.Region.Parse
import Mathlib.Tactic.Common
/-
C17: region selector evaluation equals the written expression.
-/
namespace Verif.Region
variable {L O Λ : Type}

/-! ### Specification: written selectors and their meaning -/

mutual
/-- Selector expressions: an atom, or an atom followed by an operator and an expression.
There is no operator precedence and the operators associate to the right. -/
inductive Ex (Λ O : Type) where
  | atom (a : At Λ O)
  | bin (a : At Λ O) (o : O) (e : Ex Λ O)
/-- Atoms. -/
inductive At (Λ O : Type) where
  | leaf (l : Λ)
  | paren (e : Ex Λ O)
end

mutual
/-- How an expression is written (a leaf is a pair: text, "is it a relation"). -/
def Ex.words : Ex (L × Bool) O → List (Word L O)
  | .atom a => a.words
  | .bin a o e => a.words ++ .op o :: e.words
def At.words : At (L × Bool) O → List (Word L O)
  | .leaf l => [.leaf l.1 l.2]
  | .paren e => .lpar :: (e.words ++ [.rpar])
end

mutual
/-- What an expression means; `none` if a leaf raises. -/
def Ex.value {R : Type} (opv : O → R → R → R) (leafv : Λ → Option R) : Ex Λ O → Option R
  | .atom a => a.value opv leafv
  | .bin a o e =>
    match a.value opv leafv, e.value opv leafv with
    | some x, some y => some (opv o x y)
    | _, _ => none
def At.value {R : Type} (opv : O → R → R → R) (leafv : Λ → Option R) : At Λ O → Option R
  | .leaf l => leafv l
  | .paren e => e.value opv leafv
end

/-- No relation is directly followed by a closing parenthesis of a group. -/
def NoRelRpar (ws : List (Word L O)) : Prop :=
  ¬ ∃ pre l post, ws = pre ++ .leaf l true :: .rpar :: post

/-! ### The parser on tokens -/

mutual
def Ex.toks : Ex Λ O → List (Tok Λ O)
  | .atom a => a.toks
  | .bin a o e => a.toks ++ .op o :: e.toks
def At.toks : At Λ O → List (Tok Λ O)
  | .leaf l => [.leaf l]
  | .paren e => .lpar :: (e.toks ++ [.rpar])
end

mutual
/-- Postfix stack (top first). -/
def Ex.post : Ex Λ O → List (Item Λ O)
  | .atom a => a.post
  | .bin a o e => .op o :: (e.post ++ a.post)
def At.post : At Λ O → List (Item Λ O)
  | .leaf l => [.leaf l]
  | .paren e => e.post
end

def StartsOp : List (Tok Λ O) → Prop
  | .op _ :: _ => True
  | _ => False

theorem parseMany_noop (f : Nat) (t : List (Tok Λ O)) (st : List (Item Λ O)) (h : ¬ StartsOp t) :
    parseMany f t st = (some t, st) := by
  cases f with
  | zero => simp [parseMany]
  | succ f =>
    match t, h with
    | [], _ => simp [parseMany]
    | .leaf _ :: _, _ => simp [parseMany]
    | .op _ :: _, h => exact absurd trivial h
    | .lpar :: _, _ => simp [parseMany]
    | .rpar :: _, _ => simp [parseMany]

mutual
theorem complete_ex (e : Ex Λ O) (tail : List (Tok Λ O)) (st : List (Item Λ O))
    (f : Nat) (hf : 2 * e.toks.length + 2 ≤ f) (ht : ¬ StartsOp tail) :
    parseExpr f (e.toks ++ tail) st = (some tail, e.post ++ st) := by
  obtain ⟨f, rfl⟩ : ∃ g, f = g + 1 := ⟨f - 1, by omega⟩
  match e with
  | .atom a =>
    have h := complete_at a tail st f (by simp only [Ex.toks] at hf; omega)
    simp only [Ex.toks, Ex.post, parseExpr]
    rw [h]
    exact parseMany_noop _ _ _ ht
  | .bin a o e' =>
    simp only [Ex.toks, List.length_append, List.length_cons] at hf
    have h := complete_at a (.op o :: e'.toks ++ tail) st f (by omega)
    simp only [Ex.toks, Ex.post, parseExpr, List.append_assoc]
    simp only [List.cons_append] at h ⊢
    rw [h]
    obtain ⟨f, rfl⟩ : ∃ g, f = g + 1 := ⟨f - 1, by omega⟩
    have h2 := complete_ex e' tail (a.post ++ st) f (by
      have : 0 < a.toks.length := by cases a <;> simp [At.toks]
      omega) ht
    simp only [parseMany]
    rw [h2]
    simp only
    rw [parseMany_noop _ _ _ ht]
    simp
theorem complete_at (a : At Λ O) (tail : List (Tok Λ O)) (st : List (Item Λ O))
    (f : Nat) (hf : 2 * a.toks.length + 1 ≤ f) :
    parseAtom f (a.toks ++ tail) st = (some tail, a.post ++ st) := by
  obtain ⟨f, rfl⟩ : ∃ g, f = g + 1 := ⟨f - 1, by omega⟩
  match a with
  | .leaf l => simp [At.toks, At.post, parseAtom]
  | .paren e =>
    simp only [At.toks, List.length_cons, List.length_append, List.length_nil] at hf
    have h := complete_ex e (.rpar :: tail) st f (by omega) (by simp [StartsOp])
    simp only [At.toks, At.post, List.cons_append, List.append_assoc, List.nil_append, parseAtom]
    rw [h]
end

/-! Soundness: whatever is parsed was written as an expression. -/

/-- The rest of the input is shorter. -/
theorem rest_length (f : Nat) : (∀ (t : List (Tok Λ O)) st r st', parseExpr f t st = (some r, st') →
      r.length < t.length) ∧
    (∀ (t : List (Tok Λ O)) st r st', parseAtom f t st = (some r, st') → r.length < t.length) ∧
    (∀ (t : List (Tok Λ O)) st r st', parseMany f t st = (some r, st') → r.length ≤ t.length) := by
  induction f with
  | zero =>
    refine ⟨?_, ?_, ?_⟩
    · intro t st r st' h; simp [parseExpr] at h
    · intro t st r st' h; simp [parseAtom] at h
    · intro t st r st' h; simp [parseMany] at h; rw [h.1]; exact Nat.le_refl _
  | succ f ih =>
    obtain ⟨i1, i2, i3⟩ := ih
    refine ⟨?_, ?_, ?_⟩
    · intro t st r st' h
      simp only [parseExpr] at h
      cases ha : parseAtom f t st with
      | mk o s =>
        rw [ha] at h
        cases o with
        | none => simp at h
        | some r1 =>
          have := i2 _ _ _ _ ha
          have := i3 _ _ _ _ h
          omega
    · intro t st r st' h
      match t with
      | [] => simp [parseAtom] at h
      | .leaf l :: t => simp [parseAtom] at h; rw [← h.1]; simp
      | .op o :: t => simp [parseAtom] at h
      | .rpar :: t => simp [parseAtom] at h
      | .lpar :: t =>
        simp only [parseAtom] at h
        split at h
        · next r' s' he =>
          have := i1 _ _ _ _ he
          simp at h; rw [← h.1]; simp at this ⊢; omega
        · simp at h
    · intro t st r st' h
      match t with
      | [] => simp [parseMany] at h; simp [h.1]
      | .leaf l :: t => simp [parseMany] at h; rw [← h.1]; exact Nat.le_refl _
      | .lpar :: t => simp [parseMany] at h; rw [← h.1]; exact Nat.le_refl _
      | .rpar :: t => simp [parseMany] at h; rw [← h.1]; exact Nat.le_refl _
      | .op o :: t =>
        simp only [parseMany] at h
        split at h
        · next r' s' he =>
          have := i1 _ _ _ _ he
          have := i3 _ _ _ _ h
          simp; omega
        · simp at h; rw [← h.1]; exact Nat.le_refl _

/-- The outcome does not depend on the stack nor on the surplus of fuel. -/
theorem indep (f g : Nat) : (∀ (t : List (Tok Λ O)) st st2, 2 * t.length + 2 ≤ f →
      2 * t.length + 2 ≤ g → (parseExpr f t st).1 = (parseExpr g t st2).1) ∧
    (∀ (t : List (Tok Λ O)) st st2, 2 * t.length + 1 ≤ f → 2 * t.length + 1 ≤ g →
      (parseAtom f t st).1 = (parseAtom g t st2).1) ∧
    (∀ (t : List (Tok Λ O)) st st2, 2 * t.length + 1 ≤ f → 2 * t.length + 1 ≤ g →
      (parseMany f t st).1 = (parseMany g t st2).1) := by
  induction f generalizing g with
  | zero => refine ⟨?_, ?_, ?_⟩ <;> intros <;> omega
  | succ f ih =>
    refine ⟨?_, ?_, ?_⟩
    · intro t st st2 hf hg
      obtain ⟨g, rfl⟩ : ∃ k, g = k + 1 := ⟨g - 1, by omega⟩
      obtain ⟨i1, i2, i3⟩ := ih g
      simp only [parseExpr]
      have h := i2 t st st2 (by omega) (by omega)
      cases ha : parseAtom f t st with
      | mk o s =>
        cases hb : parseAtom g t st2 with
        | mk o2 s2 =>
          rw [ha, hb] at h
          simp only at h
          subst h
          cases o with
          | none => rfl
          | some r =>
            have := (rest_length f).2.1 _ _ _ _ ha
            exact i3 r _ _ (by omega) (by omega)
    · intro t st st2 hf hg
      obtain ⟨g, rfl⟩ : ∃ k, g = k + 1 := ⟨g - 1, by omega⟩
      obtain ⟨i1, i2, i3⟩ := ih g
      match t with
      | [] => simp [parseAtom]
      | .leaf l :: t => simp [parseAtom]
      | .op o :: t => simp [parseAtom]
      | .rpar :: t => simp [parseAtom]
      | .lpar :: t =>
        simp only [List.length_cons] at hf hg
        have h := i1 t st st2 (by omega) (by omega)
        simp only [parseAtom]
        cases ha : parseExpr f t st with
        | mk o s =>
          cases hb : parseExpr g t st2 with
          | mk o2 s2 =>
            rw [ha, hb] at h
            simp only at h
            subst h
            match o with
            | none => rfl
            | some [] => rfl
            | some (.rpar :: r) => rfl
            | some (.lpar :: r) => rfl
            | some (.op _ :: r) => rfl
            | some (.leaf _ :: r) => rfl
    · intro t st st2 hf hg
      obtain ⟨g, rfl⟩ : ∃ k, g = k + 1 := ⟨g - 1, by omega⟩
      obtain ⟨i1, i2, i3⟩ := ih g
      match t with
      | [] => simp [parseMany]
      | .leaf l :: t => simp [parseMany]
      | .lpar :: t => simp [parseMany]
      | .rpar :: t => simp [parseMany]
      | .op o :: t =>
        simp only [List.length_cons] at hf hg
        have h := i1 t st st2 (by omega) (by omega)
        simp only [parseMany]
        cases ha : parseExpr f t st with
        | mk o s =>
          cases hb : parseExpr g t st2 with
          | mk o2 s2 =>
            rw [ha, hb] at h
            simp only at h
            subst h
            cases o with
            | none => rfl
            | some r =>
              have := (rest_length f).1 _ _ _ _ ha
              exact i3 r _ _ (by omega) (by omega)

/-- A rest beginning with an operator that nothing parseable follows. -/
def Stuck (r : List (Tok Λ O)) : Prop :=
  ∃ o t, r = .op o :: t ∧ ∀ f st, 2 * t.length + 2 ≤ f → (parseExpr f t st).1 = none

theorem sound (f : Nat) : (∀ (t : List (Tok Λ O)) st r st', 2 * t.length + 2 ≤ f →
      parseExpr f t st = (some r, st') →
      Stuck r ∨ (¬ StartsOp r ∧ ∃ e : Ex Λ O, t = e.toks ++ r ∧ st' = e.post ++ st)) ∧
    (∀ (t : List (Tok Λ O)) st r st', 2 * t.length + 1 ≤ f → parseAtom f t st = (some r, st') →
      ∃ a : At Λ O, t = a.toks ++ r ∧ st' = a.post ++ st) ∧
    (∀ (t : List (Tok Λ O)) st r st', 2 * t.length + 1 ≤ f → parseMany f t st = (some r, st') →
      Stuck r ∨ (¬ StartsOp r ∧ ((t = r ∧ st' = st) ∨
        ∃ (o : O) (e : Ex Λ O), t = .op o :: e.toks ++ r ∧ st' = .op o :: e.post ++ st))) := by
  induction f with
  | zero => refine ⟨?_, ?_, ?_⟩ <;> intros <;> omega
  | succ f ih =>
    obtain ⟨i1, i2, i3⟩ := ih
    refine ⟨?_, ?_, ?_⟩
    · intro t st r st' hf h
      simp only [parseExpr] at h
      cases ha : parseAtom f t st with
      | mk o s =>
        rw [ha] at h
        cases o with
        | none => simp at h
        | some r1 =>
          obtain ⟨a, ha1, ha2⟩ := i2 _ _ _ _ (by omega) ha
          have hl := (rest_length f).2.1 _ _ _ _ ha
          rcases i3 _ _ _ _ (by omega) h with hs | ⟨hn, ⟨e1, e2⟩ | ⟨o, e, e1, e2⟩⟩
          · exact .inl hs
          · refine .inr ⟨hn, .atom a, ?_, ?_⟩
            · rw [ha1, e1]; simp [Ex.toks]
            · rw [e2, ha2]; simp [Ex.post]
          · refine .inr ⟨hn, .bin a o e, ?_, ?_⟩
            · rw [ha1, e1]; simp [Ex.toks]
            · rw [e2, ha2]; simp [Ex.post]
    · intro t st r st' hf h
      match t with
      | [] => simp [parseAtom] at h
      | .leaf l :: t =>
        simp [parseAtom] at h
        exact ⟨.leaf l, by simp [At.toks, h.1], by simp [At.post, h.2]⟩
      | .op o :: t => simp [parseAtom] at h
      | .rpar :: t => simp [parseAtom] at h
      | .lpar :: t =>
        simp only [List.length_cons] at hf
        simp only [parseAtom] at h
        split at h
        · next r' s' he =>
          simp only [Prod.mk.injEq, Option.some.injEq] at h
          obtain ⟨rfl, rfl⟩ := h
          rcases i1 _ _ _ _ (by omega) he with ⟨o, t', hs, _⟩ | ⟨_, e, e1, e2⟩
          · cases hs
          · exact ⟨.paren e, by simp [At.toks, e1], by simp [At.post, e2]⟩
        · simp at h
    · intro t st r st' hf h
      match t with
      | [] =>
        simp [parseMany] at h
        refine .inr ⟨by rw [h.1]; simp [StartsOp], .inl ⟨h.1.symm, h.2.symm⟩⟩
      | .leaf l :: t =>
        simp [parseMany] at h
        refine .inr ⟨by rw [← h.1]; simp [StartsOp], .inl ⟨h.1, h.2.symm⟩⟩
      | .lpar :: t =>
        simp [parseMany] at h
        refine .inr ⟨by rw [← h.1]; simp [StartsOp], .inl ⟨h.1, h.2.symm⟩⟩
      | .rpar :: t =>
        simp [parseMany] at h
        refine .inr ⟨by rw [← h.1]; simp [StartsOp], .inl ⟨h.1, h.2.symm⟩⟩
      | .op o :: t =>
        simp only [List.length_cons] at hf
        simp only [parseMany] at h
        split at h
        · next r' s' he =>
          have hl := (rest_length f).1 _ _ _ _ he
          rcases i1 _ _ _ _ (by omega) he with hs | ⟨hn, e, e1, e2⟩
          · -- the loop ends at once at the same place
            obtain ⟨o', t', rfl, hfail⟩ := hs
            left
            simp only [List.length_cons] at hl
            obtain ⟨f, rfl⟩ : ∃ g, f = g + 1 := ⟨f - 1, by omega⟩
            simp only [parseMany] at h
            have hnone := hfail f (.op o :: s') (by omega)
            cases hp : parseExpr f t' (.op o :: s') with
            | mk o2 s2 =>
              rw [hp] at h hnone
              simp only at hnone
              subst hnone
              simp only [Prod.mk.injEq, Option.some.injEq] at h
              exact ⟨o', t', h.1.symm, hfail⟩
          · rw [parseMany_noop _ _ _ hn] at h
            simp only [Prod.mk.injEq, Option.some.injEq] at h
            obtain ⟨rfl, rfl⟩ := h
            exact .inr ⟨hn, .inr ⟨o, e, by simp [e1], by simp [e2]⟩⟩
        · next s' he =>
          simp only [Prod.mk.injEq, Option.some.injEq] at h
          left
          refine ⟨o, t, h.1.symm, ?_⟩
          intro g st2 hg
          rw [← (indep f g).1 t st st2 (by omega) hg, he]

theorem parseRegion_iff (st0 st : List (Item Λ O)) (t : List (Tok Λ O)) :
    parseRegion st0 t = (true, st) ↔ ∃ e : Ex Λ O, t = e.toks ∧ st = e.post ++ st0 := by
  unfold parseRegion
  constructor
  · intro h
    split at h
    · next s he =>
      simp only [Prod.mk.injEq, true_and] at h
      subst h
      rcases (sound _).1 _ _ _ _ (Nat.le_refl _) he with ⟨o, t', hs, _⟩ | ⟨_, e, e1, e2⟩
      · cases hs
      · exact ⟨e, by simpa using e1, e2⟩
    · simp at h
  · rintro ⟨e, rfl, rfl⟩
    have h := complete_ex e [] st0 (2 * e.toks.length + 2) (Nat.le_refl _) (by simp [StartsOp])
    rw [List.append_nil] at h
    rw [h]

/-! ### Evaluation of the stack -/

mutual
theorem visit_ex {R : Type} (opv : O → R → R → R) (leafv : Λ → Option R) (e : Ex Λ O)
    (st : List (Item Λ O)) (f : Nat) (hf : e.post.length ≤ f) :
    (visit opv leafv f (e.post ++ st)).1 = e.value opv leafv ∧
    (e.value opv leafv ≠ none → (visit opv leafv f (e.post ++ st)).2 = st) := by
  match e with
  | .atom a => exact visit_at opv leafv a st f (by simpa [Ex.post] using hf)
  | .bin a o e' =>
    simp only [Ex.post, List.length_cons, List.length_append] at hf
    obtain ⟨f, rfl⟩ : ∃ g, f = g + 1 := ⟨f - 1, by omega⟩
    simp only [Ex.post, List.cons_append, List.append_assoc, visit, Ex.value]
    obtain ⟨h1, h2⟩ := visit_ex opv leafv e' (a.post ++ st) f (by omega)
    obtain ⟨h3, h4⟩ := visit_at opv leafv a st f (by omega)
    cases he : visit opv leafv f (e'.post ++ (a.post ++ st)) with
    | mk v s =>
      rw [he] at h1 h2
      simp only at h1 h2
      subst h1
      cases hv : e'.value opv leafv with
      | none => simp
      | some y =>
        rw [hv] at h2
        have := h2 (by simp)
        subst this
        simp only
        cases hb : visit opv leafv f (a.post ++ st) with
        | mk v2 s2 =>
          rw [hb] at h3 h4
          simp only at h3 h4
          subst h3
          cases hv2 : a.value opv leafv with
          | none => simp
          | some x =>
            rw [hv2] at h4
            have := h4 (by simp)
            subst this
            simp
theorem visit_at {R : Type} (opv : O → R → R → R) (leafv : Λ → Option R) (a : At Λ O)
    (st : List (Item Λ O)) (f : Nat) (hf : a.post.length ≤ f) :
    (visit opv leafv f (a.post ++ st)).1 = a.value opv leafv ∧
    (a.value opv leafv ≠ none → (visit opv leafv f (a.post ++ st)).2 = st) := by
  match a with
  | .leaf l =>
    simp only [At.post, List.length_cons, List.length_nil] at hf
    obtain ⟨f, rfl⟩ : ∃ g, f = g + 1 := ⟨f - 1, by omega⟩
    simp [At.post, visit, At.value]
  | .paren e =>
    simp only [At.post, At.value] at hf ⊢
    exact visit_ex opv leafv e st f hf
end

/-! ### Words and tokens -/

/-- Undo the attachment of closing parentheses. -/
def unlex : List (Tok ((L × Bool) × Nat) O) → List (Word L O)
  | [] => []
  | .leaf l :: r => .leaf l.1.1 l.1.2 :: (List.replicate l.2 .rpar ++ unlex r)
  | .op o :: r => .op o :: unlex r
  | .lpar :: r => .lpar :: unlex r
  | .rpar :: r => .rpar :: unlex r

theorem lex_skip (ws : List (Word L O)) (k : Nat) (hk : k ≤ leadingRpars ws) :
    ws = List.replicate k .rpar ++ ws.drop k ∧ lex k ws = lex 0 (ws.drop k) := by
  induction k generalizing ws with
  | zero => simp
  | succ k ih =>
    match ws with
    | [] => simp [leadingRpars] at hk
    | .rpar :: r =>
      simp only [leadingRpars] at hk
      obtain ⟨h1, h2⟩ := ih r (by omega)
      constructor
      · rw [List.replicate_succ, List.cons_append, List.drop_succ_cons, ← h1]
      · simp only [lex, List.drop_succ_cons]; exact h2
    | .lpar :: r => simp [leadingRpars] at hk
    | .op o :: r => simp [leadingRpars] at hk
    | .leaf l b :: r => simp [leadingRpars] at hk

theorem unlex_lex (n : Nat) (ws : List (Word L O)) (hn : ws.length ≤ n) :
    unlex (lex 0 ws) = ws := by
  induction n generalizing ws with
  | zero => have := List.length_eq_zero_iff.1 (Nat.le_zero.1 hn); subst this; simp [lex, unlex]
  | succ n ih =>
    match ws with
    | [] => simp [lex, unlex]
    | .rpar :: r => simp only [lex, unlex]; rw [ih r (by simpa using hn)]
    | .lpar :: r => simp only [lex, unlex]; rw [ih r (by simpa using hn)]
    | .op o :: r => simp only [lex, unlex]; rw [ih r (by simpa using hn)]
    | .leaf l false :: r =>
      simp only [lex, unlex]; rw [ih r (by simpa using hn)]; simp
    | .leaf l true :: r =>
      simp only [lex, unlex]
      obtain ⟨h1, h2⟩ := lex_skip r (leadingRpars r) (Nat.le_refl _)
      rw [h2, ih _ (by simp at hn ⊢; omega), ← h1]

/-- All attached counts are zero. -/
def AllZero (t : List (Tok ((L × Bool) × Nat) O)) : Prop := ∀ l, Tok.leaf l ∈ t → l.2 = 0

theorem noRelRpar_tail {w : Word L O} {ws : List (Word L O)} (h : NoRelRpar (w :: ws)) :
    NoRelRpar ws := by
  rintro ⟨pre, l, post, rfl⟩
  exact h ⟨w :: pre, l, post, rfl⟩

theorem allZero_iff (n : Nat) (ws : List (Word L O)) (hn : ws.length ≤ n) :
    AllZero (lex 0 ws) ↔ NoRelRpar ws := by
  induction n generalizing ws with
  | zero =>
    have := List.length_eq_zero_iff.1 (Nat.le_zero.1 hn); subst this
    simp [lex, AllZero, NoRelRpar]
  | succ n ih =>
    have hcons : ∀ (w : Word L O) (r : List (Word L O)), (∀ l, w ≠ .leaf l true) →
        (NoRelRpar (w :: r) ↔ NoRelRpar r) := by
      intro w r hw
      refine ⟨noRelRpar_tail, ?_⟩
      rintro h ⟨pre, l, post, e⟩
      cases pre with
      | nil => simp at e; exact hw l e.1
      | cons a pre => simp at e; exact h ⟨pre, l, post, e.2⟩
    match ws with
    | [] => simp [lex, AllZero, NoRelRpar]
    | .rpar :: r =>
      rw [hcons _ _ (by simp), ← ih r (by simpa using hn)]
      simp [lex, AllZero]
    | .lpar :: r =>
      rw [hcons _ _ (by simp), ← ih r (by simpa using hn)]
      simp [lex, AllZero]
    | .op o :: r =>
      rw [hcons _ _ (by simp), ← ih r (by simpa using hn)]
      simp [lex, AllZero]
    | .leaf l false :: r =>
      rw [hcons _ _ (by simp), ← ih r (by simpa using hn)]
      simp [lex, AllZero]
    | .leaf l true :: r =>
      simp only [lex]
      constructor
      · intro h
        have h0 : leadingRpars r = 0 := by
          have := h ((l, true), leadingRpars r) (by simp)
          exact this
        have hr : NoRelRpar r := by
          rw [← ih r (by simpa using hn)]
          intro l' hl'
          apply h l'
          rw [h0]
          exact List.mem_cons_of_mem _ hl'
        rintro ⟨pre, l', post, e⟩
        cases pre with
        | nil =>
          simp at e
          rw [e.2] at h0
          simp [leadingRpars] at h0
        | cons a pre => simp at e; exact hr ⟨pre, l', post, e.2⟩
      · intro h
        have h0 : leadingRpars r = 0 := by
          match r with
          | [] => rfl
          | .rpar :: r' => exact absurd ⟨[], l, r', rfl⟩ h
          | .lpar :: r' => rfl
          | .op _ :: r' => rfl
          | .leaf _ _ :: r' => rfl
        rw [h0]
        have := (ih r (by simpa using hn)).2 (noRelRpar_tail h)
        intro l' hl'
        rcases List.mem_cons.1 hl' with e | e
        · cases e; rfl
        · exact this l' e

mutual
/-- Forget the counts. -/
def Ex.fst : Ex ((L × Bool) × Nat) O → Ex (L × Bool) O
  | .atom a => .atom a.fst
  | .bin a o e => .bin a.fst o e.fst
def At.fst : At ((L × Bool) × Nat) O → At (L × Bool) O
  | .leaf l => .leaf l.1
  | .paren e => .paren e.fst
end

mutual
/-- Add zero counts. -/
def Ex.zero : Ex (L × Bool) O → Ex ((L × Bool) × Nat) O
  | .atom a => .atom a.zero
  | .bin a o e => .bin a.zero o e.zero
def At.zero : At (L × Bool) O → At ((L × Bool) × Nat) O
  | .leaf l => .leaf (l, 0)
  | .paren e => .paren e.zero
end

theorem unlex_append (s t : List (Tok ((L × Bool) × Nat) O)) :
    unlex (s ++ t) = unlex s ++ unlex t := by
  induction s with
  | nil => rfl
  | cons a s ih => cases a <;> simp [unlex, ih]

mutual
theorem unlex_ex (e : Ex ((L × Bool) × Nat) O) (h : AllZero e.toks) :
    unlex e.toks = e.fst.words := by
  match e with
  | .atom a => simp only [Ex.toks, Ex.fst, Ex.words] at h ⊢; exact unlex_at a h
  | .bin a o e' =>
    simp only [Ex.toks] at h
    simp only [Ex.toks, Ex.fst, Ex.words, unlex_append, unlex]
    rw [unlex_at a (fun l hl => h l (by simp [hl])), unlex_ex e' (fun l hl => h l (by simp [hl]))]
theorem unlex_at (a : At ((L × Bool) × Nat) O) (h : AllZero a.toks) :
    unlex a.toks = a.fst.words := by
  match a with
  | .leaf l =>
    simp only [At.toks] at h
    have := h l (by simp)
    simp [At.toks, At.fst, At.words, unlex, this]
  | .paren e =>
    simp only [At.toks] at h
    simp only [At.toks, At.fst, At.words, unlex, unlex_append]
    rw [unlex_ex e (fun l hl => h l (by simp [hl]))]
end

mutual
theorem zero_words (e : Ex (L × Bool) O) : unlex e.zero.toks = e.words ∧ AllZero e.zero.toks := by
  match e with
  | .atom a => simp only [Ex.zero, Ex.toks, Ex.words]; exact zero_words_at a
  | .bin a o e' =>
    simp only [Ex.zero, Ex.toks, Ex.words, unlex_append, unlex]
    obtain ⟨h1, h2⟩ := zero_words_at a
    obtain ⟨h3, h4⟩ := zero_words e'
    refine ⟨by rw [h1, h3], ?_⟩
    intro l hl
    rcases List.mem_append.1 hl with hl | hl
    · exact h2 l hl
    · rcases List.mem_cons.1 hl with hl | hl
      · cases hl
      · exact h4 l hl
theorem zero_words_at (a : At (L × Bool) O) : unlex a.zero.toks = a.words ∧ AllZero a.zero.toks := by
  match a with
  | .leaf l =>
    simp only [At.zero, At.toks, At.words, unlex]
    refine ⟨by simp, ?_⟩
    intro l' hl
    simp at hl; rw [hl]
  | .paren e =>
    simp only [At.zero, At.toks, At.words, unlex, unlex_append]
    obtain ⟨h3, h4⟩ := zero_words e
    refine ⟨by rw [h3], ?_⟩
    intro l hl
    simp at hl
    exact h4 l hl
end

/-- Tokens with zero counts are determined by the words. -/
theorem lex_unlex (t : List (Tok ((L × Bool) × Nat) O)) (h : AllZero t)
    (hn : NoRelRpar (unlex t)) (hb : ∀ l, Tok.leaf l ∈ t → True) : lex 0 (unlex t) = t := by
  induction t with
  | nil => simp [unlex, lex]
  | cons a t ih =>
    have ht : AllZero t := fun l hl => h l (List.mem_cons_of_mem _ hl)
    cases a with
    | op o => simp only [unlex, lex] at hn ⊢; rw [ih ht (noRelRpar_tail hn) (by simp)]
    | lpar => simp only [unlex, lex] at hn ⊢; rw [ih ht (noRelRpar_tail hn) (by simp)]
    | rpar => simp only [unlex, lex] at hn ⊢; rw [ih ht (noRelRpar_tail hn) (by simp)]
    | leaf l =>
      obtain ⟨⟨l, b⟩, k⟩ := l
      have hk : k = 0 := h ((l, b), k) (by simp)
      subst hk
      simp only [unlex, List.replicate_zero, List.nil_append] at hn ⊢
      cases b with
      | false => simp only [lex]; rw [ih ht (noRelRpar_tail hn) (by simp)]
      | true =>
        have h0 : leadingRpars (unlex t) = 0 := by
          cases hu : unlex t with
          | nil => rfl
          | cons w r =>
            rw [hu] at hn
            cases w with
            | rpar => exact absurd ⟨[], l, r, rfl⟩ hn
            | lpar => rfl
            | op _ => rfl
            | leaf _ _ => rfl
        simp only [lex, h0]
        rw [ih ht (noRelRpar_tail hn) (by simp)]

mutual
theorem value_fst {R : Type} (opv : O → R → R → R) (leafv : L → Option R)
    (e : Ex ((L × Bool) × Nat) O) : (AllZero e.toks →
      e.value opv (leafOf leafv) = e.fst.value opv (fun l => leafv l.1)) ∧
    (¬ AllZero e.toks → e.value opv (leafOf leafv) = none) := by
  match e with
  | .atom a =>
    simp only [Ex.toks, Ex.value, Ex.fst]; exact value_fst_at opv leafv a
  | .bin a o e' =>
    obtain ⟨h1, h2⟩ := value_fst_at opv leafv a
    obtain ⟨h3, h4⟩ := value_fst opv leafv e'
    have hz : AllZero (Ex.bin a o e').toks ↔ AllZero a.toks ∧ AllZero e'.toks := by
      simp only [Ex.toks, AllZero, List.mem_append, List.mem_cons, reduceCtorEq, false_or]
      exact ⟨fun h => ⟨fun l hl => h l (.inl hl), fun l hl => h l (.inr hl)⟩,
        fun h l hl => hl.elim (h.1 l) (h.2 l)⟩
    simp only [Ex.value, Ex.fst]
    rw [hz]
    constructor
    · rintro ⟨z1, z2⟩; rw [h1 z1, h3 z2]
    · intro hno
      by_cases z1 : AllZero a.toks
      · rw [h4 (fun z2 => hno ⟨z1, z2⟩)]; simp
      · rw [h2 z1]
theorem value_fst_at {R : Type} (opv : O → R → R → R) (leafv : L → Option R)
    (a : At ((L × Bool) × Nat) O) : (AllZero a.toks →
      a.value opv (leafOf leafv) = a.fst.value opv (fun l => leafv l.1)) ∧
    (¬ AllZero a.toks → a.value opv (leafOf leafv) = none) := by
  match a with
  | .leaf l =>
    have hz : AllZero (At.leaf l : At ((L × Bool) × Nat) O).toks ↔ l.2 = 0 := by
      simp [At.toks, AllZero]
    rw [hz]
    simp only [At.value, At.fst, leafOf]
    exact ⟨fun h => by rw [if_pos h], fun h => by rw [if_neg h]⟩
  | .paren e =>
    have hz : AllZero (At.paren e : At ((L × Bool) × Nat) O).toks ↔ AllZero e.toks := by
      simp [At.toks, AllZero]
    rw [hz]
    simp only [At.value, At.fst]
    exact value_fst opv leafv e
end

mutual
theorem zero_fst (e : Ex (L × Bool) O) : e.zero.fst = e := by
  match e with
  | .atom a => simp only [Ex.zero, Ex.fst]; rw [zero_fst_at a]
  | .bin a o e' => simp only [Ex.zero, Ex.fst]; rw [zero_fst_at a, zero_fst e']
theorem zero_fst_at (a : At (L × Bool) O) : a.zero.fst = a := by
  match a with
  | .leaf l => simp [At.zero, At.fst]
  | .paren e => simp only [At.zero, At.fst]; rw [zero_fst e]
end

/-! ### C17 -/

/-- C17: a selector evaluates to `v` iff it is a written expression with the meaning `v`
(right-associative, no precedence, parentheses respected) in which no relation is directly
followed by a closing parenthesis of a group.  This does not depend on what the previous
calls left on the stack. -/
theorem C17_eval_iff {R : Type} (opv : O → R → R → R) (leafv : L → Option R)
    (st0 : List (Item ((L × Bool) × Nat) O)) (ws : List (Word L O)) (v : R) :
    (evalSelector opv leafv st0 ws).1 = some v ↔
      NoRelRpar ws ∧ ∃ e : Ex (L × Bool) O, ws = e.words ∧
        e.value opv (fun l => leafv l.1) = some v := by
  unfold evalSelector
  constructor
  · intro h
    split at h
    · simp at h
    · next st hp =>
      obtain ⟨e, e1, e2⟩ := (parseRegion_iff st0 st _).1 hp
      rw [e2, (visit_ex opv (leafOf leafv) e st0 _ (by simp; omega)).1] at h
      obtain ⟨h1, h2⟩ := value_fst opv leafv e
      have hz : AllZero e.toks := by
        by_contra hno; rw [h2 hno] at h; cases h
      refine ⟨?_, e.fst, ?_, by rw [← h1 hz]; exact h⟩
      · rw [← allZero_iff _ ws (Nat.le_refl _), e1]; exact hz
      · rw [← unlex_ex e hz, ← e1, unlex_lex _ ws (Nat.le_refl _)]
  · rintro ⟨hn, e, rfl, hv⟩
    obtain ⟨h1, h2⟩ := zero_words e
    have hl : lex 0 e.words = e.zero.toks := by
      rw [← h1]
      apply lex_unlex _ h2 _ (by simp)
      rw [h1]; exact hn
    rw [hl, (parseRegion_iff st0 _ _).2 ⟨e.zero, rfl, rfl⟩]
    simp only
    rw [(visit_ex opv (leafOf leafv) e.zero st0 _ (by simp; omega)).1,
      (value_fst opv leafv e.zero).1 h2, zero_fst]
    exact hv

/-- C17: a successful evaluation restores the stack. -/
theorem C17_stack_restored {R : Type} (opv : O → R → R → R) (leafv : L → Option R)
    (st0 : List (Item ((L × Bool) × Nat) O)) (ws : List (Word L O)) (v : R)
    (h : (evalSelector opv leafv st0 ws).1 = some v) :
    (evalSelector opv leafv st0 ws).2 = st0 := by
  unfold evalSelector at h ⊢
  split at h
  · simp at h
  · next st hp =>
    obtain ⟨e, e1, e2⟩ := (parseRegion_iff st0 st _).1 hp
    obtain ⟨h1, h2⟩ := visit_ex opv (leafOf leafv) e st0 (st.length + 1) (by rw [e2]; simp; omega)
    rw [e2] at h ⊢ h1 h2
    apply h2
    rw [← h1, h]; simp

/-- C17: in any history of selector evaluations (failing ones included) each result is
that of a fresh stack. -/
theorem C17_history {R : Type} (opv : O → R → R → R) (leafv : L → Option R)
    (history : List (List (Word L O))) (ws : List (Word L O)) :
    (evalSelector opv leafv
      (history.foldl (fun st w => (evalSelector opv leafv st w).2) []) ws).1 =
    (evalSelector opv leafv [] ws).1 := by
  apply Option.ext
  intro v
  rw [C17_eval_iff, C17_eval_iff]

/-- C17, a finding: a group closed right after a relation, `(vertices in x < 1)`, is always
rejected, although it is a written expression: the relation takes the parenthesis. -/
theorem C17_counterexample_relation_group {R : Type} (opv : O → R → R → R)
    (leafv : L → Option R) (st0 : List (Item ((L × Bool) × Nat) O)) (l : L) :
    let e : Ex (L × Bool) O := .atom (.paren (.atom (.leaf (l, true))))
    e.value opv (fun l => leafv l.1) = leafv l ∧ (evalSelector opv leafv st0 e.words).1 = none := by
  refine ⟨rfl, ?_⟩
  cases h : (evalSelector opv leafv st0 _).1 with
  | none => rfl
  | some v =>
    exfalso
    obtain ⟨hn, _⟩ := (C17_eval_iff opv leafv st0 _ v).1 h
    exact hn ⟨[.lpar], l, [], rfl⟩

/-- Non-vacuity: `a - b - c` means `a - (b - c)` and `(a - b) - c` means what it says. -/
example :
    (evalSelector (fun (_ : Unit) (x y : Int) => x - y) (fun l => some l) []
      [.leaf 10 false, .op (), .leaf 3 true, .op (), .leaf 2 false]).1 = some 9 ∧
    (evalSelector (fun (_ : Unit) (x y : Int) => x - y) (fun l => some l) [.op (), .leaf ((7, false), 0)]
      [.lpar, .leaf 10 false, .op (), .leaf 3 false, .rpar, .op (), .leaf 2 true]).1 = some 5 := by
  refine ⟨rfl, rfl⟩

end Verif.Region
