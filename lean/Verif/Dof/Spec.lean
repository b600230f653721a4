import Verif.Dof.Model
import Mathlib.Logic.Relation
/-
Specification vocabulary for the equation mapping: what a user declares.
Nothing here refers to the implementation (only to the inputs, the list of conditions).
-/
namespace Verif.Dof

variable {α : Type}

/-- Two DOFs are linked by the pairs in `l`: reflexive-symmetric-transitive closure. -/
def Linked (l : List (Nat × Nat)) : Nat → Nat → Prop :=
  Relation.EqvGen fun a b => (a, b) ∈ l

/-- All (DOF, value) items declared by the essential conditions, in order. -/
def ebcItems : List (BC α) → List (Nat × α)
  | [] => []
  | .ebc items :: rest => items ++ ebcItems rest
  | _ :: rest => ebcItems rest

/-- The lists of periodic pairs, one list per periodic condition. -/
def epbcLists : List (BC α) → List (List (Nat × Nat))
  | [] => []
  | .epbc prs :: rest => prs :: epbcLists rest
  | _ :: rest => epbcLists rest

/-- All declared periodic pairs. -/
def declared (bcs : List (BC α)) : List (Nat × Nat) := (epbcLists bcs).flatten

/-- The value prescribed for DOF `i`: the last declared one. -/
def Prescribed (bcs : List (BC α)) (i : Nat) (x : α) : Prop :=
  ((ebcItems bcs).reverse.find? fun p => p.1 == i).map (·.2) = some x

/-- The DOFs in a list of pairs. -/
def ends (l : List (Nat × Nat)) : List Nat := l.map (·.1) ++ l.map (·.2)

/-- All DOF numbers mentioned by the conditions are below `n`. -/
def InRange (n : Nat) (bcs : List (BC α)) : Prop :=
  (∀ p ∈ ebcItems bcs, p.1 < n) ∧ ∀ p ∈ declared bcs, p.1 < n ∧ p.2 < n

/-- Order restriction on periodic conditions (general form).  `seen` are the DOFs of
the earlier conditions, `tied` those of them that were first met in a pair with no
`tied` DOF.  Each condition has to list each DOF at most once and each of its pairs
either contains a `tied` DOF or has two DOFs not seen before. -/
def GoodFrom (seen tied : List Nat) : List (List (Nat × Nat)) → Prop
  | [] => True
  | prs :: rest =>
    (ends prs).Nodup ∧
    (∀ p ∈ prs, (p.1 ∈ tied ∨ p.2 ∈ tied) ∨ (p.1 ∉ seen ∧ p.2 ∉ seen)) ∧
    GoodFrom (seen ++ ends prs)
      (tied ++ ends (prs.filter fun p => decide (p.1 ∉ tied ∧ p.2 ∉ tied))) rest

/-- The periodic conditions are declared in a supported order. -/
def GoodOrder (bcs : List (BC α)) : Prop := GoodFrom [] [] (epbcLists bcs)

/-- Simple user-level restriction: each condition lists each DOF at most once, and each of
its pairs has two DOFs that no earlier condition mentions, or two DOFs that earlier
conditions mention (this is what happens for the faces of a box mesh taken one direction
after another). -/
def BothOldOrNew (seen : List Nat) : List (List (Nat × Nat)) → Prop
  | [] => True
  | prs :: rest =>
    (ends prs).Nodup ∧ (∀ p ∈ prs, (p.1 ∈ seen ↔ p.2 ∈ seen)) ∧
    BothOldOrNew (seen ++ ends prs) rest

/-- Essential values agree on linked DOFs. -/
def Consistent (bcs : List (BC α)) : Prop :=
  ∀ i j x y, Linked (declared bcs) i j → Prescribed bcs i x → Prescribed bcs j y → x = y

theorem mem_ends {l : List (Nat × Nat)} {x : Nat} :
    x ∈ ends l ↔ ∃ p ∈ l, x = p.1 ∨ x = p.2 := by
  unfold ends
  rw [List.mem_append, List.mem_map, List.mem_map]
  constructor
  · rintro (⟨p, hp, rfl⟩ | ⟨p, hp, rfl⟩)
    · exact ⟨p, hp, .inl rfl⟩
    · exact ⟨p, hp, .inr rfl⟩
  · rintro ⟨p, hp, rfl | rfl⟩
    · exact .inl ⟨p, hp, rfl⟩
    · exact .inr ⟨p, hp, rfl⟩

theorem bothOldOrNew_good (seen tied : List Nat) (h : ∀ x, x ∈ seen ↔ x ∈ tied)
    (l : List (List (Nat × Nat))) (hl : BothOldOrNew seen l) : GoodFrom seen tied l := by
  induction l generalizing seen tied with
  | nil => trivial
  | cons prs rest ih =>
    obtain ⟨h1, h2, h3⟩ := hl
    refine ⟨h1, ?_, ih _ _ ?_ h3⟩
    · intro p hp
      by_cases hs : p.1 ∈ seen
      · exact .inl (.inl ((h _).1 hs))
      · exact .inr ⟨hs, fun h' => hs ((h2 p hp).2 h')⟩
    · intro x
      simp only [List.mem_append, mem_ends, List.mem_filter, decide_eq_true_eq]
      constructor
      · rintro (hx | ⟨p, hp, hx⟩)
        · exact .inl ((h x).1 hx)
        · by_cases hs : p.1 ∈ seen
          · left
            rcases hx with rfl | rfl
            · exact (h _).1 hs
            · exact (h _).1 ((h2 p hp).1 hs)
          · right
            exact ⟨p, ⟨hp, fun h' => hs ((h _).2 h'),
              fun h' => hs ((h2 p hp).2 ((h _).2 h'))⟩, hx⟩
      · rintro (hx | ⟨p, ⟨hp, _⟩, hx⟩)
        · exact .inl ((h x).2 hx)
        · exact .inr ⟨p, hp, hx⟩

end Verif.Dof
