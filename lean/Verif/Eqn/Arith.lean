import Mathlib.Algebra.Module.Basic
import Mathlib.Algebra.BigOperators.Group.List.Basic
import Mathlib.Data.List.Nodup
import Mathlib.Data.List.GetD

/-!
# Arithmetic with terms (terms/terms.py)

A `Terms` object holds a reference to a Python list of terms; `Struct.copy()` is shallow, so that a copy
shares the list with the original.  The heap of the lists is therefore a part of the model.
-/

namespace Eqn

set_option linter.unusedSectionVars false

variable {K A V : Type*} [CommRing K] [AddCommGroup V] [Module K V]

/-- A `Term` object: what it integrates (`body`: name, arguments, integral, region) and its `sign`
(sfepy/terms/terms.py:383-391). -/
structure Term (K A : Type*) where
  sign : K
  body : A

/-- The heap of the Python lists `_objs` (sfepy/base/base.py:533-541). -/
abbrev Heap (K A : Type*) := List (List (Term K A))

/-- The results of the arithmetic: a `Term` or a `Terms` object.  A `Terms` object is given by the reference
to its list `_objs` (sfepy/base/base.py:531-547).  Simplification: `names` and `expression` follow
`_objs`, they are not modelled. -/
inductive Obj (K A : Type*) where
  | one (t : Term K A)
  | many (id : ℕ)

/-- `Terms([...])`, `Terms()` with a new list (sfepy/terms/terms.py:220-223). -/
def alloc (h : Heap K A) (l : List (Term K A)) : Obj K A × Heap K A := (.many h.length, h ++ [l])

/-- `Container.append()`, in place (sfepy/base/base.py:614-615, 560-562; sfepy/terms/terms.py:229-231). -/
def appendTo (h : Heap K A) (id : ℕ) (t : Term K A) : Heap K A := h.set id (h.getD id [] ++ [t])

/-- `Term.__mul__()`: a copy with another sign (sfepy/terms/terms.py:393-404). -/
def Term.mul (c : K) (t : Term K A) : Term K A := { t with sign := c * t.sign }

/-- `Terms.__mul__()` and `Term.__mul__()` (sfepy/terms/terms.py:240-245, 393-404). -/
def mulObj (c : K) (h : Heap K A) : Obj K A → Obj K A × Heap K A
  | .one t => (.one (t.mul c), h)
  | .many id => alloc h ((h.getD id []).map (Term.mul c))

/-- `a + b` (sfepy/terms/terms.py:250-264, 409-416): `Terms.__add__()` with a `Term` is
`out = self.copy(); out.append(other)`; the copy has the same list `_objs` (sfepy/base/base.py:474-492),
and `Term + Terms` is `Terms.__radd__()`. -/
def addObj (h : Heap K A) : Obj K A → Obj K A → Obj K A × Heap K A
  | .one t, .one s => alloc h [t, s]
  | .many a, .one t => (.many a, appendTo h a t)
  | .one t, .many a => (.many a, appendTo h a t)
  | .many a, .many b => alloc h (h.getD a [] ++ h.getD b [])

/-- `a - b` (sfepy/terms/terms.py:266-279, 418-425): `Term - Terms` is `-self + other`. -/
def subObj (h : Heap K A) : Obj K A → Obj K A → Obj K A × Heap K A
  | .one t, .one s => alloc h [t, s.mul (-1)]
  | .one t, .many a =>
    let r := mulObj (-1) h (.many a)
    addObj r.2 r.1 (.one t)
  | .many a, b =>
    let r := mulObj (-1) h b
    addObj r.2 (.many a) r.1

/-- A Python expression with terms. -/
inductive Expr (K A : Type*) where
  | obj (o : Obj K A)
  | add (a b : Expr K A)
  | sub (a b : Expr K A)
  | mul (c : K) (a : Expr K A)
  | neg (a : Expr K A)
  | pos (a : Expr K A)

/-- The evaluation of an expression, from left to right (sfepy/terms/terms.py:240-285, 393-432). -/
def Expr.eval : Expr K A → Heap K A → Obj K A × Heap K A
  | .obj o, h => (o, h)
  | .add a b, h =>
    let ra := a.eval h
    let rb := b.eval ra.2
    addObj rb.2 ra.1 rb.1
  | .sub a b, h =>
    let ra := a.eval h
    let rb := b.eval ra.2
    subObj rb.2 ra.1 rb.1
  | .mul c a, h =>
    let ra := a.eval h
    mulObj c ra.2 ra.1
  | .neg a, h =>
    let ra := a.eval h
    mulObj (-1) ra.2 ra.1
  | .pos a, h => a.eval h

/-! ### Specification -/

/-- The meaning of a list of terms: the linear combination of the integrals. -/
def combo (val : A → V) (l : List (Term K A)) : V := (l.map fun t => t.sign • val t.body).sum

/-- The meaning of an object in a heap. -/
def Obj.meaning (val : A → V) (h : Heap K A) : Obj K A → V
  | .one t => t.sign • val t.body
  | .many id => combo val (h.getD id [])

/-- The mathematical meaning of an expression, with the objects in it as they are in the heap `h`. -/
def Expr.meaning (val : A → V) (h : Heap K A) : Expr K A → V
  | .obj o => o.meaning val h
  | .add a b => a.meaning val h + b.meaning val h
  | .sub a b => a.meaning val h - b.meaning val h
  | .mul c a => c • a.meaning val h
  | .neg a => - a.meaning val h
  | .pos a => a.meaning val h

/-- The list referenced by an object. -/
def Obj.refs : Obj K A → List ℕ
  | .one _ => []
  | .many id => [id]

/-- The lists referenced in an expression. -/
def Expr.refs : Expr K A → List ℕ
  | .obj o => o.refs
  | .add a b => a.refs ++ b.refs
  | .sub a b => a.refs ++ b.refs
  | .mul _ a => a.refs
  | .neg a => a.refs
  | .pos a => a.refs

/-! ### Proofs -/

@[simp] theorem combo_nil (val : A → V) : combo val ([] : List (Term K A)) = 0 := rfl

@[simp] theorem combo_append (val : A → V) (l m : List (Term K A)) :
    combo val (l ++ m) = combo val l + combo val m := by simp [combo]

@[simp] theorem combo_cons (val : A → V) (t : Term K A) (m : List (Term K A)) :
    combo val (t :: m) = t.sign • val t.body + combo val m := by simp [combo]

theorem combo_mul (val : A → V) (c : K) (l : List (Term K A)) :
    combo val (l.map (Term.mul c)) = c • combo val l := by
  induction l with
  | nil => simp
  | cons t l ih => rw [List.map_cons, combo_cons, combo_cons, ih, smul_add, smul_smul]; rfl

theorem getD_append_lt (h : Heap K A) (l : List (Term K A)) (i : ℕ) (hi : i < h.length) :
    (h ++ [l]).getD i [] = h.getD i [] := by
  simp [List.getD, List.getElem?_append_left hi]

theorem getD_append_self (h : Heap K A) (l : List (Term K A)) :
    (h ++ [l]).getD h.length [] = l := by simp [List.getD]

theorem appendTo_length (h : Heap K A) (id : ℕ) (t : Term K A) : (appendTo h id t).length = h.length := by
  simp [appendTo]

theorem appendTo_self (h : Heap K A) (id : ℕ) (t : Term K A) (hid : id < h.length) :
    (appendTo h id t).getD id [] = h.getD id [] ++ [t] := by
  simp [appendTo, List.getD, hid]

theorem appendTo_ne (h : Heap K A) (id i : ℕ) (t : Term K A) (hne : i ≠ id) :
    (appendTo h id t).getD i [] = h.getD i [] := by
  simp [appendTo, List.getD, hne.symm]

/-- What one operation does: the heap grows, only the list of an operand may change, the result is
an operand or new. -/
structure Step (h h' : Heap K A) (refs : List ℕ) (o : Obj K A) : Prop where
  grow : h.length ≤ h'.length
  frame : ∀ i < h.length, i ∉ refs → h'.getD i [] = h.getD i []
  result : ∀ i ∈ o.refs, i < h'.length ∧ (i ∈ refs ∨ h.length ≤ i)

theorem alloc_step (h : Heap K A) (l : List (Term K A)) (refs : List ℕ) :
    Step h (alloc h l).2 refs (alloc h l).1 where
  grow := by simp [alloc]
  frame i hi _ := getD_append_lt h l i hi
  result i hi := by simp [alloc, Obj.refs] at hi; subst hi; simp [alloc]

theorem append_step (h : Heap K A) (a : ℕ) (t : Term K A) (ha : a < h.length) (refs : List ℕ)
    (hr : a ∈ refs) : Step h (appendTo h a t) refs (.many a) where
  grow := by rw [appendTo_length]
  frame i hi hn := appendTo_ne h a i t (fun e => hn (e ▸ hr))
  result i hi := by simp [Obj.refs] at hi; subst hi; rw [appendTo_length]; exact ⟨ha, Or.inl hr⟩

theorem mulObj_step (c : K) (h : Heap K A) (o : Obj K A) (refs : List ℕ) :
    Step h (mulObj c h o).2 refs (mulObj c h o).1 := by
  cases o with
  | one t => exact ⟨le_rfl, fun _ _ _ => rfl, by simp [mulObj, Obj.refs]⟩
  | many id => exact alloc_step h _ refs

theorem mulObj_meaning (val : A → V) (c : K) (h : Heap K A) (o : Obj K A) :
    (mulObj c h o).1.meaning val (mulObj c h o).2 = c • o.meaning val h := by
  cases o with
  | one t => simp [mulObj, Obj.meaning, Term.mul, smul_smul]
  | many id => simp only [mulObj, alloc, Obj.meaning, getD_append_self, combo_mul]

theorem addObj_step (h : Heap K A) (a b : Obj K A) (ha : ∀ i ∈ a.refs, i < h.length)
    (hb : ∀ i ∈ b.refs, i < h.length) : Step h (addObj h a b).2 (a.refs ++ b.refs) (addObj h a b).1 := by
  cases a with
  | one t => cases b with
    | one s => exact alloc_step _ _ _
    | many b => exact append_step h b t (hb b (by simp [Obj.refs])) _ (by simp [Obj.refs])
  | many a => cases b with
    | one s => exact append_step h a s (ha a (by simp [Obj.refs])) _ (by simp [Obj.refs])
    | many b => exact alloc_step _ _ _

theorem addObj_meaning (val : A → V) (h : Heap K A) (a b : Obj K A) (ha : ∀ i ∈ a.refs, i < h.length)
    (hb : ∀ i ∈ b.refs, i < h.length) :
    (addObj h a b).1.meaning val (addObj h a b).2 = a.meaning val h + b.meaning val h := by
  cases a with
  | one t => cases b with
    | one s => simp [addObj, alloc, Obj.meaning]
    | many b =>
      simp only [addObj, Obj.meaning, appendTo_self h b t (hb b (by simp [Obj.refs])), combo_append,
        combo_cons, combo_nil, add_zero]
      exact add_comm _ _
  | many a => cases b with
    | one s =>
      simp only [addObj, Obj.meaning, appendTo_self h a s (ha a (by simp [Obj.refs])), combo_append,
        combo_cons, combo_nil, add_zero]
    | many b => simp only [addObj, alloc, Obj.meaning, getD_append_self, combo_append]

theorem Step.trans {h h1 h2 : Heap K A} {r1 r2 refs : List ℕ} {o1 o2 : Obj K A} (s1 : Step h h1 r1 o1)
    (s2 : Step h1 h2 r2 o2) (hr1 : ∀ i ∈ r1, i < h.length → i ∈ refs)
    (hr2 : ∀ i ∈ r2, i < h.length → i ∈ refs) : Step h h2 refs o2 where
  grow := s1.grow.trans s2.grow
  frame i hi hn := by
    rw [s2.frame i (hi.trans_le s1.grow) (fun h => hn (hr2 i h hi)), s1.frame i hi (fun h => hn (hr1 i h hi))]
  result i hi := by
    obtain ⟨p, q⟩ := s2.result i hi
    refine ⟨p, ?_⟩
    rcases q with q | q
    · rcases Nat.lt_or_ge i h.length with hlt | hge
      · exact Or.inl (hr2 i q hlt)
      · exact Or.inr hge
    · exact Or.inr (s1.grow.trans q)

theorem meaning_frame (val : A → V) {h h' : Heap K A} (o : Obj K A)
    (hf : ∀ i ∈ o.refs, h'.getD i [] = h.getD i []) : o.meaning val h' = o.meaning val h := by
  cases o with
  | one t => rfl
  | many id => simp only [Obj.meaning, hf id (by simp [Obj.refs])]

theorem subObj_eq (h : Heap K A) (a b : Obj K A) (val : A → V) (ha : ∀ i ∈ a.refs, i < h.length)
    (hb : ∀ i ∈ b.refs, i < h.length) :
    Step h (subObj h a b).2 (a.refs ++ b.refs) (subObj h a b).1 ∧
    (subObj h a b).1.meaning val (subObj h a b).2 = a.meaning val h - b.meaning val h := by
  cases a with
  | one t => cases b with
    | one s =>
      refine ⟨alloc_step _ _ _, ?_⟩
      simp [subObj, alloc, Obj.meaning, Term.mul, sub_eq_add_neg]
    | many b =>
      have s1 := mulObj_step (-1) h (.many b) [b]
      have hres : ∀ i ∈ (mulObj (-1) h (Obj.many b)).1.refs, i < (mulObj (-1) h (Obj.many b)).2.length :=
        fun i hi => (s1.result i hi).1
      have s2 := addObj_step (mulObj (-1) h (.many b)).2 (mulObj (-1) h (.many b)).1 (.one t) hres (by simp [Obj.refs])
      refine ⟨?_, ?_⟩
      · refine s1.trans s2 (fun i hi _ => by simpa [Obj.refs] using hi) fun i hi hlt => ?_
        simp only [mulObj, alloc, Obj.refs, List.append_nil, List.mem_singleton] at hi
        omega
      · change (addObj _ _ _).1.meaning val (addObj _ _ _).2 = _
        rw [addObj_meaning val _ _ _ hres (by simp [Obj.refs]), mulObj_meaning]
        simp [Obj.meaning, sub_eq_add_neg, add_comm]
  | many a =>
    have s1 := mulObj_step (-1) h b ([] : List ℕ)
    have hres : ∀ i ∈ (mulObj (-1) h b).1.refs, i < (mulObj (-1) h b).2.length :=
      fun i hi => (s1.result i hi).1
    have hal : a < h.length := ha a (by simp [Obj.refs])
    have ha' : ∀ i ∈ (Obj.many a : Obj K A).refs, i < (mulObj (-1) h b).2.length := by
      intro i hi; simp only [Obj.refs, List.mem_singleton] at hi; subst hi; exact hal.trans_le s1.grow
    have s2 := addObj_step (mulObj (-1) h b).2 (.many a) (mulObj (-1) h b).1 ha' hres
    refine ⟨?_, ?_⟩
    · refine s1.trans s2 (fun i hi _ => by simp at hi) fun i hi hlt => ?_
      rcases List.mem_append.1 hi with hi | hi
      · exact List.mem_append.2 (Or.inl hi)
      · rcases (s1.result i hi).2 with q | q
        · simp at q
        · omega
    · change (addObj _ _ _).1.meaning val (addObj _ _ _).2 = _
      rw [addObj_meaning val _ _ _ ha' hres, mulObj_meaning,
        meaning_frame val (.many a) (h := h) (fun i hi => by
          simp only [Obj.refs, List.mem_singleton] at hi; subst hi
          exact s1.frame i hal (by simp))]
      simp [sub_eq_add_neg]

theorem eval_all (val : A → V) (e : Expr K A) (h : Heap K A) (hlt : ∀ i ∈ e.refs, i < h.length)
    (hnd : e.refs.Nodup) :
    Step h (e.eval h).2 e.refs (e.eval h).1 ∧ (e.eval h).1.meaning val (e.eval h).2 = e.meaning val h := by
  have key : ∀ (a b : Expr K A) (op : Heap K A → Obj K A → Obj K A → Obj K A × Heap K A) (f : V → V → V)
      (_ : ∀ (h : Heap K A) (a b : Obj K A), (∀ i ∈ a.refs, i < h.length) → (∀ i ∈ b.refs, i < h.length) →
        Step h (op h a b).2 (a.refs ++ b.refs) (op h a b).1 ∧
        (op h a b).1.meaning val (op h a b).2 = f (a.meaning val h) (b.meaning val h))
      (_ : ∀ h : Heap K A, (∀ i ∈ a.refs, i < h.length) → a.refs.Nodup → Step h (a.eval h).2 a.refs (a.eval h).1 ∧
        (a.eval h).1.meaning val (a.eval h).2 = a.meaning val h)
      (_ : ∀ h : Heap K A, (∀ i ∈ b.refs, i < h.length) → b.refs.Nodup → Step h (b.eval h).2 b.refs (b.eval h).1 ∧
        (b.eval h).1.meaning val (b.eval h).2 = b.meaning val h)
      (_ : ∀ (e : Expr K A) (h h' : Heap K A), (∀ i ∈ e.refs, h'.getD i [] = h.getD i []) →
        e.meaning val h' = e.meaning val h)
      (h : Heap K A) (_ : ∀ i ∈ a.refs ++ b.refs, i < h.length) (_ : (a.refs ++ b.refs).Nodup),
      Step h (op (b.eval (a.eval h).2).2 (a.eval h).1 (b.eval (a.eval h).2).1).2 (a.refs ++ b.refs)
        (op (b.eval (a.eval h).2).2 (a.eval h).1 (b.eval (a.eval h).2).1).1 ∧
      (op (b.eval (a.eval h).2).2 (a.eval h).1 (b.eval (a.eval h).2).1).1.meaning val
        (op (b.eval (a.eval h).2).2 (a.eval h).1 (b.eval (a.eval h).2).1).2
        = f (a.meaning val h) (b.meaning val h) := by
    intro a b op f hop iha ihb hfr h hl hn
    obtain ⟨na, nb, hdis⟩ := List.nodup_append.1 hn
    have hla : ∀ i ∈ a.refs, i < h.length := fun i hi => hl i (List.mem_append.2 (Or.inl hi))
    have hlb : ∀ i ∈ b.refs, i < h.length := fun i hi => hl i (List.mem_append.2 (Or.inr hi))
    obtain ⟨sa, ma⟩ := iha h hla na
    obtain ⟨sb, mb⟩ := ihb (a.eval h).2 (fun i hi => (hlb i hi).trans_le sa.grow) nb
    have hra : ∀ i ∈ (a.eval h).1.refs, i < (b.eval (a.eval h).2).2.length :=
      fun i hi => ((sa.result i hi).1).trans_le sb.grow
    have hrb : ∀ i ∈ (b.eval (a.eval h).2).1.refs, i < (b.eval (a.eval h).2).2.length :=
      fun i hi => (sb.result i hi).1
    obtain ⟨so, mo⟩ := hop _ _ _ hra hrb
    have hka : ∀ i ∈ (a.eval h).1.refs, i ∉ b.refs := by
      intro i hi hib
      rcases (sa.result i hi).2 with q | q
      · exact hdis i q i hib rfl
      · exact absurd (hlb i hib) (by omega)
    constructor
    · have sab : Step h (b.eval (a.eval h).2).2 (a.refs ++ b.refs) (b.eval (a.eval h).2).1 :=
        sa.trans sb (fun i hi _ => List.mem_append.2 (Or.inl hi)) (fun i hi _ => List.mem_append.2 (Or.inr hi))
      refine sab.trans so (fun i hi _ => hi) fun i hi hih => ?_
      rcases List.mem_append.1 hi with hi | hi
      · rcases (sa.result i hi).2 with q | q
        · exact List.mem_append.2 (Or.inl q)
        · omega
      · rcases (sab.result i hi).2 with q | q
        · exact q
        · omega
    · rw [mo, mb, meaning_frame val (a.eval h).1 (h := (a.eval h).2)
        (fun i hi => sb.frame i (sa.result i hi).1 (hka i hi)), ma]
      congr 1
      exact hfr b h _ (fun i hi => sa.frame i (hlb i hi) (fun hia => hdis i hia i hi rfl))
  have hfr : ∀ (e : Expr K A) (h h' : Heap K A), (∀ i ∈ e.refs, h'.getD i [] = h.getD i []) →
      e.meaning val h' = e.meaning val h := by
    intro e
    induction e with
    | obj o => intro h h' hf; exact meaning_frame val o hf
    | add a b iha ihb =>
      intro h h' hf
      simp only [Expr.meaning]
      rw [iha h h' fun i hi => hf i (List.mem_append.2 (Or.inl hi)),
        ihb h h' fun i hi => hf i (List.mem_append.2 (Or.inr hi))]
    | sub a b iha ihb =>
      intro h h' hf
      simp only [Expr.meaning]
      rw [iha h h' fun i hi => hf i (List.mem_append.2 (Or.inl hi)),
        ihb h h' fun i hi => hf i (List.mem_append.2 (Or.inr hi))]
    | mul c a ih => intro h h' hf; simp only [Expr.meaning]; rw [ih h h' hf]
    | neg a ih => intro h h' hf; simp only [Expr.meaning]; rw [ih h h' hf]
    | pos a ih => intro h h' hf; exact ih h h' hf
  induction e generalizing h with
  | obj o =>
    refine ⟨⟨le_rfl, fun _ _ _ => rfl, fun i hi => ⟨hlt i hi, Or.inl hi⟩⟩, rfl⟩
  | add a b iha ihb =>
    exact key a b addObj (· + ·) (fun h a b ha hb => ⟨addObj_step h a b ha hb, addObj_meaning val h a b ha hb⟩)
      (fun h h1 h2 => iha h h1 h2) (fun h h1 h2 => ihb h h1 h2) hfr h hlt hnd
  | sub a b iha ihb =>
    exact key a b subObj (· - ·) (fun h a b ha hb => subObj_eq h a b val ha hb)
      (fun h h1 h2 => iha h h1 h2) (fun h h1 h2 => ihb h h1 h2) hfr h hlt hnd
  | mul c a ih =>
    obtain ⟨s, m⟩ := ih h hlt hnd
    refine ⟨s.trans (mulObj_step c _ _ []) (fun i hi _ => hi) (by simp), ?_⟩
    change (mulObj _ _ _).1.meaning val (mulObj _ _ _).2 = _
    rw [mulObj_meaning, m]; rfl
  | neg a ih =>
    obtain ⟨s, m⟩ := ih h hlt hnd
    refine ⟨s.trans (mulObj_step (-1) _ _ []) (fun i hi _ => hi) (by simp), ?_⟩
    change (mulObj _ _ _).1.meaning val (mulObj _ _ _).2 = _
    rw [mulObj_meaning, m]; simp [Expr.meaning]
  | pos a ih => exact ih h hlt hnd

/-- **C78.** A Python expression in which no `Terms` object occurs twice gives the linear combination it
says, and it leaves all `Terms` objects that do not occur in it as they were. -/
theorem C78_arithmetic (val : A → V) (e : Expr K A) (h : Heap K A) (hlt : ∀ i ∈ e.refs, i < h.length)
    (hnd : e.refs.Nodup) :
    (e.eval h).1.meaning val (e.eval h).2 = e.meaning val h ∧
    ∀ i < h.length, i ∉ e.refs → (e.eval h).2.getD i [] = h.getD i [] :=
  ⟨(eval_all val e h hlt hnd).2, (eval_all val e h hlt hnd).1.frame⟩

/-- **C78.** In particular an expression of `Term` objects only is always right and changes nothing. -/
theorem C78_arithmetic_of_terms (val : A → V) (e : Expr K A) (h : Heap K A) (hr : e.refs = []) :
    (e.eval h).1.meaning val (e.eval h).2 = e.meaning val h ∧
    ∀ i < h.length, (e.eval h).2.getD i [] = h.getD i [] := by
  obtain ⟨h1, h2⟩ := C78_arithmetic val e h (by simp [hr]) (by simp [hr])
  exact ⟨h1, fun i hi => h2 i hi (by simp [hr])⟩

/-- **C78.** What the single operations do with their operands: only adding (subtracting) one `Term` to
(from) a `Terms` object changes an operand, and it changes it to the result. -/
theorem C78_operand_changed (h : Heap K A) (a : ℕ) (t : Term K A) (ha : a < h.length) :
    let add := addObj h (.many a) (.one t)
    let radd := addObj h (.one t) (.many a)
    let sub := subObj h (.many a) (.one t)
    add.2.getD a [] = h.getD a [] ++ [t] ∧ radd.2.getD a [] = h.getD a [] ++ [t] ∧
    sub.2.getD a [] = h.getD a [] ++ [t.mul (-1)] :=
  ⟨appendTo_self h a t ha, appendTo_self h a t ha, appendTo_self h a _ ha⟩

/-- **C78.** All other operations leave all operands as they were. -/
theorem C78_operands_kept (h : Heap K A) (a b : ℕ) (s t : Term K A) (c : K) (o : Obj K A)
    (i : ℕ) (hi : i < h.length) :
    (addObj h (.one s) (.one t)).2.getD i [] = h.getD i [] ∧
    (addObj h (.many a) (.many b)).2.getD i [] = h.getD i [] ∧
    (subObj h (.one s) (.one t)).2.getD i [] = h.getD i [] ∧
    (subObj h (.one t) (.many a)).2.getD i [] = h.getD i [] ∧
    (subObj h (.many a) (.many b)).2.getD i [] = h.getD i [] ∧
    (mulObj c h o).2.getD i [] = h.getD i [] := by
  refine ⟨getD_append_lt h _ i hi, getD_append_lt h _ i hi, getD_append_lt h _ i hi, ?_, ?_, ?_⟩
  · simp only [subObj, mulObj, alloc, addObj]
    rw [appendTo_ne _ _ _ _ (by omega), getD_append_lt h _ i hi]
  · simp only [subObj, mulObj, alloc, addObj]
    rw [getD_append_lt _ _ i (by simp; omega), getD_append_lt h _ i hi]
  · exact (mulObj_step c h o []).frame i hi (by simp)

end Eqn
