/-
The exponents and the reference elements of the checks of the tables.
-/
import Verif.Quad.Check

namespace Quad

/-- All exponents of total degree at most `o`. -/
def expsTot : ℕ → ℕ → List (List ℕ)
  | 0, _ => [[]]
  | n + 1, o => (List.range (o + 1)).flatMap fun i => (expsTot n (o - i)).map fun r => i :: r

/-- All exponents of the wedge: degree at most `a` in the triangle and at most `b` in the interval. -/
def expsWedge (a b : ℕ) : List (List ℕ) :=
  (expsTot 2 a).flatMap fun e => (List.range (b + 1)).map fun k => e ++ [k]

theorem mem_expsTot (n : ℕ) : ∀ (o : ℕ) (e : List ℕ), e.length = n → e.sum ≤ o → e ∈ expsTot n o := by
  induction n with
  | zero => intro o e h _; rw [List.length_eq_zero_iff.1 h]; simp [expsTot]
  | succ n ih =>
    intro o e h hs
    rcases e with _ | ⟨a, e⟩
    · simp at h
    · rw [List.sum_cons] at hs
      rw [expsTot, List.mem_flatMap]
      exact ⟨a, List.mem_range.2 (by omega), List.mem_map.2 ⟨e, ih _ _ (by simpa using h) (by omega), rfl⟩⟩

theorem mem_expsWedge (a b : ℕ) (e : List ℕ) (h : e.length = 3) (h1 : (e.take 2).sum ≤ a)
    (h2 : (e.drop 2).sum ≤ b) : e ∈ expsWedge a b := by
  rw [expsWedge, List.mem_flatMap]
  refine ⟨e.take 2, mem_expsTot 2 a _ (by simp [h]) h1, List.mem_map.2 ⟨(e.drop 2).sum, ?_, ?_⟩⟩
  · exact List.mem_range.2 (by omega)
  · obtain ⟨k, hk⟩ : ∃ k, e.drop 2 = [k] := by
      rw [← List.length_eq_one_iff, List.length_drop, h]
    conv_rhs => rw [← List.take_append_drop 2 e]
    rw [hk]
    simp

variable {K : Type} [Chk K]

/-- The sum of numbers. -/
def sumOf : List K → K
  | [] => Chk.ofRat 0
  | x :: xs => Chk.add x (sumOf xs)

/-- Is a point surely in the unit simplex? -/
def inSimplex (n : ℕ) (x : List K) : Bool :=
  x.length == n && x.all Chk.nonneg &&
    Chk.nonneg (Chk.add (Chk.ofRat 1) (Chk.mul (Chk.ofRat (-1)) (sumOf x)))

/-- Is a point surely in the unit cube? -/
def inCube (n : ℕ) (x : List K) : Bool :=
  x.length == n && x.all fun y => Chk.nonneg y &&
    Chk.nonneg (Chk.add (Chk.ofRat 1) (Chk.mul (Chk.ofRat (-1)) y))

/-- Is a point surely in the wedge? -/
def inWedge (x : List K) : Bool := inSimplex 2 (x.take 2) && inCube 1 (x.drop 2)

theorem sumOf_val (x : List K) : Chk.val (sumOf x) = (x.map Chk.val).sum := by
  induction x with
  | nil => simp [sumOf, Chk.val_ofRat]
  | cons y x ih => simp [sumOf, Chk.val_add, ih]

/-- The points of the unit simplex. -/
def SimplexPt (n : ℕ) (x : List ℝ) : Prop := x.length = n ∧ (∀ y ∈ x, 0 ≤ y) ∧ x.sum ≤ 1

/-- The points of the unit cube. -/
def CubePt (n : ℕ) (x : List ℝ) : Prop := x.length = n ∧ ∀ y ∈ x, 0 ≤ y ∧ y ≤ 1

/-- The points of the wedge. -/
def WedgePt (x : List ℝ) : Prop := SimplexPt 2 (x.take 2) ∧ CubePt 1 (x.drop 2)

theorem inSimplex_sound (n : ℕ) (x : List K) (h : inSimplex n x = true) : SimplexPt n (x.map Chk.val) := by
  simp only [inSimplex, Bool.and_eq_true, beq_iff_eq, List.all_eq_true] at h
  obtain ⟨⟨h1, h2⟩, h3⟩ := h
  refine ⟨by simp [h1], fun y hy => ?_, ?_⟩
  · obtain ⟨z, hz, rfl⟩ := List.mem_map.1 hy
    exact Chk.nonneg_sound _ (h2 z hz)
  · have := Chk.nonneg_sound _ h3
    rw [Chk.val_add, Chk.val_mul, Chk.val_ofRat, Chk.val_ofRat, sumOf_val] at this
    push_cast at this
    linarith

theorem inCube_sound (n : ℕ) (x : List K) (h : inCube n x = true) : CubePt n (x.map Chk.val) := by
  simp only [inCube, Bool.and_eq_true, beq_iff_eq, List.all_eq_true] at h
  obtain ⟨h1, h2⟩ := h
  refine ⟨by simp [h1], fun y hy => ?_⟩
  obtain ⟨z, hz, rfl⟩ := List.mem_map.1 hy
  refine ⟨Chk.nonneg_sound _ (h2 z hz).1, ?_⟩
  have := Chk.nonneg_sound _ (h2 z hz).2
  rw [Chk.val_add, Chk.val_mul, Chk.val_ofRat, Chk.val_ofRat] at this
  push_cast at this
  linarith

theorem inWedge_sound (x : List K) (h : inWedge x = true) : WedgePt (x.map Chk.val) := by
  rw [inWedge, Bool.and_eq_true] at h
  refine ⟨?_, ?_⟩
  · have := inSimplex_sound _ _ h.1
    rwa [List.map_take] at this
  · have := inCube_sound _ _ h.2
    rwa [List.map_drop] at this

/-- The accuracy of the decimal numbers of the tables. -/
def eps0 : ℚ := 1 / 200000000000000

end Quad
