/-
C95: points in polygons.
-/
import Verif.Geo.Model
import Mathlib.Analysis.Convex.Combination
import Mathlib.Tactic.Ring
import Mathlib.Tactic.Linarith
import Mathlib.Tactic.FieldSimp

namespace Geo

/-- The sides of a closed polygon: the last vertex with the first one, then each vertex with the next. -/
def sides (l : List (ℝ × ℝ)) : List ((ℝ × ℝ) × (ℝ × ℝ)) := List.zip (l.getLast?.toList ++ l) l

/-- The ray from a point in the direction of the first axis crosses a side that reaches from not above the
point to above it. -/
def RayCrosses (p : ℝ × ℝ) (a b : ℝ × ℝ) : Prop :=
  ((a.2 ≤ p.2 ∧ p.2 < b.2) ∨ (b.2 ≤ p.2 ∧ p.2 < a.2)) ∧
  ∃ t : ℝ, 0 ≤ t ∧ t ≤ 1 ∧ a.2 + t * (b.2 - a.2) = p.2 ∧ p.1 < a.1 + t * (b.1 - a.1)

theorem flips_iff (p a b : ℝ × ℝ) : flips p a b = true ↔ RayCrosses p a b := by
  unfold flips RayCrosses
  by_cases h1 : a.2 > p.2 <;> by_cases h2 : b.2 > p.2
  · simp [h1, h2, not_le.2 h1, not_le.2 h2]
  · have hne : b.2 - a.2 ≠ 0 := by linarith
    have hb : b.2 ≤ p.2 := not_lt.1 h2
    have hd : (decide (a.2 > p.2) != decide (b.2 > p.2)) = true := by simp [h1, h2]
    rw [if_pos hd, decide_eq_true_eq]
    constructor
    · intro h
      refine ⟨Or.inr ⟨hb, h1⟩, (p.2 - a.2) / (b.2 - a.2), ?_, ?_, ?_, ?_⟩
      · exact div_nonneg_of_nonpos (by linarith) (by linarith)
      · rw [div_le_one_of_neg (by linarith)]; linarith
      · rw [div_mul_cancel₀ _ hne]; ring
      · rw [div_mul_eq_mul_div, mul_comm]; linarith
    · rintro ⟨_, t, _, _, h3, h4⟩
      have : t = (p.2 - a.2) / (b.2 - a.2) := by rw [eq_div_iff hne]; linarith
      rw [this, div_mul_eq_mul_div, mul_comm] at h4
      linarith
  · have hne : b.2 - a.2 ≠ 0 := by linarith
    have hb : a.2 ≤ p.2 := not_lt.1 h1
    have hd : (decide (a.2 > p.2) != decide (b.2 > p.2)) = true := by simp [h1, h2]
    rw [if_pos hd, decide_eq_true_eq]
    constructor
    · intro h
      refine ⟨Or.inl ⟨hb, h2⟩, (p.2 - a.2) / (b.2 - a.2), ?_, ?_, ?_, ?_⟩
      · exact div_nonneg (by linarith) (by linarith)
      · rw [div_le_one (by linarith)]; linarith
      · rw [div_mul_cancel₀ _ hne]; ring
      · rw [div_mul_eq_mul_div, mul_comm]; linarith
    · rintro ⟨_, t, _, _, h3, h4⟩
      have : t = (p.2 - a.2) / (b.2 - a.2) := by rw [eq_div_iff hne]; linarith
      rw [this, div_mul_eq_mul_div, mul_comm] at h4
      linarith
  · simp [h1, h2]

theorem rayCrosses_comm (p a b : ℝ × ℝ) : RayCrosses p a b ↔ RayCrosses p b a := by
  have : ∀ a b, RayCrosses p a b → RayCrosses p b a := by
    rintro a b ⟨h, t, h1, h2, h3, h4⟩
    exact ⟨h.symm, 1 - t, by linarith, by linarith, by linarith, by linarith⟩
  exact ⟨this a b, this b a⟩

theorem flips_comm (p a b : ℝ × ℝ) : flips p a b = flips p b a := by
  rw [Bool.eq_iff_iff, flips_iff, flips_iff, rayCrosses_comm]

/-- The parity of a list of conditions. -/
def parity {α : Type} (c : α → Bool) (l : List α) : Bool := l.foldr (fun a acc => c a ^^ acc) false

theorem parity_count {α : Type} (c : α → Bool) (l : List α) : parity c l = true ↔ Odd (l.countP c) := by
  induction l with
  | nil => simp [parity]
  | cons a l ih =>
    have e : parity c (a :: l) = (c a ^^ parity c l) := rfl
    rw [e, List.countP_cons]
    cases h : c a
    · simpa using ih
    · simp only [Bool.true_xor, Bool.not_eq_true', if_true]
      rw [← Bool.not_eq_true, ih, Nat.odd_add_one]

theorem foldl_flip {α : Type} (c : α → Bool) (l : List α) : ∀ acc : Bool,
    l.foldl (fun flag e => if c e then !flag else flag) acc = (acc ^^ parity c l) := by
  induction l with
  | nil => intro acc; simp [parity]
  | cons a l ih =>
    intro acc
    rw [List.foldl_cons, ih]
    have e : parity c (a :: l) = (c a ^^ parity c l) := rfl
    rw [e]
    cases c a <;> cases acc <;> simp

theorem zip_comm_map {α β : Type} (l : List α) : ∀ m : List β,
    List.zip l m = (List.zip m l).map Prod.swap := by
  induction l with
  | nil => intro m; simp
  | cons a l ih =>
    intro m
    cases m with
    | nil => simp
    | cons b m => rw [List.zip_cons_cons, List.zip_cons_cons, List.map_cons, ih m]; rfl

theorem parity_map {α β : Type} (c : β → Bool) (f : α → β) (l : List α) :
    parity c (l.map f) = parity (fun a => c (f a)) l := by
  induction l with
  | nil => rfl
  | cons a l ih =>
    have e1 : parity c ((a :: l).map f) = (c (f a) ^^ parity c (l.map f)) := rfl
    have e2 : parity (fun a => c (f a)) (a :: l) = (c (f a) ^^ parity (fun a => c (f a)) l) := rfl
    rw [e1, e2, ih]

/-- The flag is the parity over the sides. -/
theorem inPolygon_parity (l : List (ℝ × ℝ)) (p : ℝ × ℝ) :
    inPolygon l p = parity (fun e => flips p e.1 e.2) (sides l) := by
  unfold inPolygon sides
  rw [foldl_flip (fun e : (ℝ × ℝ) × (ℝ × ℝ) => flips p e.1 e.2), Bool.false_xor, zip_comm_map, parity_map]
  congr 1
  funext e
  exact flips_comm p _ _

open Classical in
/-- **C95.**  A point is flagged if and only if the number of sides of the closed polygon that the ray from
the point crosses is odd. -/
theorem C95_ray_crossing (l : List (ℝ × ℝ)) (p : ℝ × ℝ) :
    inPolygon l p = true ↔ Odd ((sides l).countP fun e => decide (RayCrosses p e.1 e.2)) := by
  rw [inPolygon_parity, parity_count]
  have : (fun e : (ℝ × ℝ) × (ℝ × ℝ) => flips p e.1 e.2) = fun e => decide (RayCrosses p e.1 e.2) := by
    funext e
    rw [Bool.eq_iff_iff, flips_iff, decide_eq_true_eq]
  rw [this]

/-! ## Paths -/

/-- The parity along a path. -/
noncomputable def path (p : ℝ × ℝ) : List (ℝ × ℝ) → Bool
  | [] => false
  | [_] => false
  | a :: b :: l => flips p a b ^^ path p (b :: l)

theorem path_append (p : ℝ × ℝ) (a : ℝ × ℝ) (m : List (ℝ × ℝ)) : ∀ l : List (ℝ × ℝ),
    path p (l ++ a :: m) = (path p (l ++ [a]) ^^ path p (a :: m)) := by
  intro l
  induction l with
  | nil => simp [path]
  | cons x l ih =>
    cases l with
    | nil => simp [path]
    | cons y l =>
      have e1 : path p (x :: y :: l ++ a :: m) = (flips p x y ^^ path p (y :: l ++ a :: m)) := rfl
      have e2 : path p (x :: y :: l ++ [a]) = (flips p x y ^^ path p (y :: l ++ [a])) := rfl
      rw [e1, e2, ih, Bool.xor_assoc]

theorem path_reverse (p : ℝ × ℝ) (l : List (ℝ × ℝ)) : path p l.reverse = path p l := by
  induction l with
  | nil => rfl
  | cons a l ih =>
    cases l with
    | nil => rfl
    | cons b l =>
      rw [List.reverse_cons, List.reverse_cons, List.append_assoc, List.singleton_append, path_append,
        ← List.reverse_cons, ih]
      have e1 : path p [b, a] = flips p b a := by simp [path]
      have e2 : path p (a :: b :: l) = (flips p a b ^^ path p (b :: l)) := rfl
      rw [e1, e2, flips_comm, Bool.xor_comm]

theorem parity_zip_path (p : ℝ × ℝ) (l : List (ℝ × ℝ)) : ∀ a : ℝ × ℝ,
    parity (fun e : (ℝ × ℝ) × (ℝ × ℝ) => flips p e.1 e.2) (List.zip (a :: l) l) = path p (a :: l) := by
  induction l with
  | nil => intro a; rfl
  | cons b l ih =>
    intro a
    have e1 : path p (a :: b :: l) = (flips p a b ^^ path p (b :: l)) := rfl
    rw [e1, ← ih b]
    rfl

/-- The flag of a closed polygon as a closed path. -/
theorem inPolygon_path (p a : ℝ × ℝ) (l : List (ℝ × ℝ)) :
    inPolygon (a :: l) p = path p (a :: l ++ [a]) := by
  rw [inPolygon_parity]
  obtain ⟨z, hz⟩ : ∃ z, (a :: l).getLast? = some z := by
    cases h : (a :: l).getLast? with
    | none => simp at h
    | some z => exact ⟨z, rfl⟩
  unfold sides
  rw [hz]
  simp only [Option.toList_some, List.singleton_append]
  rw [parity_zip_path]
  have h1 : path p (z :: a :: l) = (flips p z a ^^ path p (a :: l)) := rfl
  obtain ⟨l', hl'⟩ : ∃ l', a :: l = l' ++ [z] := by
    obtain ⟨l', h⟩ := List.getLast?_eq_some_iff.1 hz
    exact ⟨l', h⟩
  have e1 : path p [z, a] = flips p z a := by simp [path]
  rw [h1, hl', List.append_assoc, List.singleton_append, path_append p z [a] l', e1, Bool.xor_comm]

/-- **C95.**  The flag depends neither on the starting vertex nor on the orientation of the polygon. -/
theorem C95_cyclic_and_reverse (l m : List (ℝ × ℝ)) (p : ℝ × ℝ) :
    inPolygon (m ++ l) p = inPolygon (l ++ m) p ∧ inPolygon l.reverse p = inPolygon l p := by
  constructor
  · cases l with
    | nil => simp
    | cons a l =>
      cases m with
      | nil => simp
      | cons b m =>
        rw [List.cons_append, List.cons_append, inPolygon_path, inPolygon_path]
        rw [show b :: (m ++ a :: l) ++ [b] = (b :: m) ++ a :: (l ++ [b]) by simp,
          path_append p a (l ++ [b]) (b :: m),
          show a :: (l ++ b :: m) ++ [a] = (a :: l) ++ b :: (m ++ [a]) by simp,
          path_append p b (m ++ [a]) (a :: l), Bool.xor_comm]
        rfl
  · rcases List.eq_nil_or_concat l with rfl | ⟨l', z, rfl⟩
    · rfl
    · rw [List.concat_eq_append, List.reverse_append, List.reverse_singleton, List.singleton_append,
        inPolygon_path]
      cases l' with
      | nil => rw [List.reverse_nil, List.nil_append]; exact (inPolygon_path p z []).symm
      | cons a l' =>
        rw [show a :: l' ++ [z] = a :: (l' ++ [z]) from rfl, inPolygon_path, ← path_reverse]
        rw [show (z :: (a :: l').reverse ++ [z]).reverse = [z] ++ a :: (l' ++ [z]) by simp,
          path_append p a (l' ++ [z]) [z]]
        rw [show a :: (l' ++ [z]) ++ [a] = (a :: l') ++ z :: [a] by simp, path_append p z [a] (a :: l')]
        have e1 : path p ([z] ++ [a]) = flips p z a := by simp [path]
        have e2 : path p [z, a] = flips p z a := by simp [path]
        rw [e1, e2, Bool.xor_comm]
        rfl

/-- **C95.**  Cutting a polygon along the segment between two vertices: a point is in the polygon if and only
if it is in exactly one of the two parts. -/
theorem C95_cut (a b : ℝ × ℝ) (l m : List (ℝ × ℝ)) (p : ℝ × ℝ) :
    inPolygon (a :: l ++ b :: m) p = (inPolygon (a :: l ++ [b]) p ^^ inPolygon (a :: b :: m) p) := by
  rw [show a :: l ++ b :: m = a :: (l ++ b :: m) from rfl, show a :: l ++ [b] = a :: (l ++ [b]) from rfl,
    inPolygon_path, inPolygon_path, inPolygon_path]
  rw [show a :: (l ++ b :: m) ++ [a] = (a :: l) ++ b :: (m ++ [a]) by simp,
    path_append p b (m ++ [a]) (a :: l)]
  rw [show a :: (l ++ [b]) ++ [a] = (a :: l) ++ b :: [a] by simp, path_append p b [a] (a :: l)]
  have e1 : path p [b, a] = flips p a b := by simp [path, flips_comm p b a]
  have e2 : path p (a :: b :: m ++ [a]) = (flips p a b ^^ path p (b :: m ++ [a])) := rfl
  rw [e1, e2]
  have e3 : path p (b :: (m ++ [a])) = path p (b :: m ++ [a]) := rfl
  rw [e3]
  generalize path p (b :: m ++ [a]) = X
  generalize path p (a :: l ++ [b]) = Y
  generalize flips p a b = Z
  cases X <;> cases Y <;> cases Z <;> rfl

/-! ## The convex hull -/

theorem parity_xor {α : Type} (c d : α → Bool) (l : List α) :
    parity (fun a => c a ^^ d a) l = (parity c l ^^ parity d l) := by
  induction l with
  | nil => rfl
  | cons a l ih =>
    have e1 : parity (fun a => c a ^^ d a) (a :: l) = ((c a ^^ d a) ^^ parity (fun a => c a ^^ d a) l) := rfl
    have e2 : parity c (a :: l) = (c a ^^ parity c l) := rfl
    have e3 : parity d (a :: l) = (d a ^^ parity d l) := rfl
    rw [e1, e2, e3, ih]
    cases c a <;> cases d a <;> cases parity c l <;> cases parity d l <;> rfl

theorem parity_telescope (s : ℝ × ℝ → Bool) (l : List (ℝ × ℝ)) : ∀ a : ℝ × ℝ,
    parity (fun e : (ℝ × ℝ) × (ℝ × ℝ) => s e.1 ^^ s e.2) (List.zip (a :: l) l) =
      (s a ^^ s ((a :: l).getLast (by simp))) := by
  induction l with
  | nil => intro a; simp [parity]
  | cons b l ih =>
    intro a
    have e : parity (fun e : (ℝ × ℝ) × (ℝ × ℝ) => s e.1 ^^ s e.2) (List.zip (a :: b :: l) (b :: l)) =
      ((s a ^^ s b) ^^ parity (fun e : (ℝ × ℝ) × (ℝ × ℝ) => s e.1 ^^ s e.2) (List.zip (b :: l) l)) := rfl
    rw [e, ih b]
    simp only [List.getLast_cons_cons]
    cases s a <;> cases s b <;> simp

/-- On a closed polygon a condition changes an even number of times. -/
theorem parity_sides (s : ℝ × ℝ → Bool) (l : List (ℝ × ℝ)) :
    parity (fun e : (ℝ × ℝ) × (ℝ × ℝ) => s e.1 ^^ s e.2) (sides l) = false := by
  cases l with
  | nil => rfl
  | cons a l =>
    obtain ⟨z, hz⟩ : ∃ z, (a :: l).getLast? = some z := by
      cases h : (a :: l).getLast? with
      | none => simp at h
      | some z => exact ⟨z, rfl⟩
    unfold sides
    rw [hz]
    simp only [Option.toList_some, List.singleton_append]
    rw [parity_telescope]
    have : (z :: a :: l).getLast (by simp) = z := by
      rw [List.getLast_cons_cons]
      rw [List.getLast?_eq_some_getLast (by simp)] at hz
      exact Option.some.inj hz
    rw [this, Bool.xor_self]

theorem exists_of_parity {α : Type} (c : α → Bool) (l : List α) (h : parity c l = true) :
    ∃ a ∈ l, c a = true := by
  by_contra hn
  push Not at hn
  have : l.countP c = 0 := List.countP_eq_zero.2 fun a ha => hn a ha
  rw [parity_count, this] at h
  simp at h

theorem sides_mem (l : List (ℝ × ℝ)) (e : (ℝ × ℝ) × (ℝ × ℝ)) (h : e ∈ sides l) : e.1 ∈ l ∧ e.2 ∈ l := by
  unfold sides at h
  obtain ⟨h1, h2⟩ := List.of_mem_zip (show (e.1, e.2) ∈ _ from h)
  refine ⟨?_, h2⟩
  rcases List.mem_append.1 h1 with h3 | h3
  · exact List.mem_of_getLast? (by simpa using h3)
  · exact h3

/-- **C95.**  Whatever the polygon is (convex or not, even self-intersecting), only points in the convex
hull of its vertices are flagged. -/
theorem C95_convex_hull (l : List (ℝ × ℝ)) (p : ℝ × ℝ) (h : inPolygon l p = true) :
    p ∈ convexHull ℝ {v | v ∈ l} := by
  rw [inPolygon_parity] at h
  -- the sides that cross the horizontal line, on the right and not on the right
  set line : (ℝ × ℝ) × (ℝ × ℝ) → Bool := fun e => decide (e.1.2 > p.2) ^^ decide (e.2.2 > p.2) with hline
  set right : (ℝ × ℝ) × (ℝ × ℝ) → Bool := fun e => flips p e.1 e.2 with hright
  have h0 : parity line (sides l) = false := parity_sides (fun v => decide (v.2 > p.2)) l
  have h1 : parity (fun e => line e ^^ right e) (sides l) = true := by rw [parity_xor, h0, h]; rfl
  obtain ⟨e, he, hr⟩ := exists_of_parity _ _ h
  obtain ⟨f, hf, hl⟩ := exists_of_parity _ _ h1
  have hch : ∀ e : (ℝ × ℝ) × (ℝ × ℝ), e ∈ sides l → ∀ t : ℝ, 0 ≤ t → t ≤ 1 →
      (e.1.1 + t * (e.2.1 - e.1.1), e.1.2 + t * (e.2.2 - e.1.2)) ∈ convexHull ℝ {v | v ∈ l} := by
    intro e he t t0 t1
    obtain ⟨m1, m2⟩ := sides_mem l e he
    have := (convex_convexHull ℝ {v | v ∈ l}) (subset_convexHull ℝ _ m1) (subset_convexHull ℝ _ m2)
      (show 0 ≤ 1 - t by linarith) t0 (by ring)
    convert this using 1
    ext <;> simp <;> ring
  -- the point to the right
  rw [hright, flips_iff] at hr
  obtain ⟨_, t, t0, t1, t2, t3⟩ := hr
  have hR := hch e he t t0 t1
  rw [t2] at hR
  -- the point to the left
  have hL : ∃ x, x ≤ p.1 ∧ (x, p.2) ∈ convexHull ℝ {v | v ∈ l} := by
    have hfl : line f = true ∧ right f = false := by
      cases hx : line f <;> cases hy : right f <;> simp [hx, hy] at hl ⊢
      -- a side that does not cross the line is not crossed by the ray
      have := (flips_iff p f.1 f.2).1 hy
      rw [hline] at hx
      rcases this.1 with ⟨g1, g2⟩ | ⟨g1, g2⟩
      · simp [not_lt.2 g1, g2] at hx
      · simp [not_lt.2 g1, g2] at hx
    obtain ⟨hfl, hfr⟩ := hfl
    have hne : f.2.2 - f.1.2 ≠ 0 := by
      intro h
      have : f.2.2 = f.1.2 := by linarith
      rw [hline] at hfl
      simp [this] at hfl
    have hyy : (f.1.2 ≤ p.2 ∧ p.2 < f.2.2) ∨ (f.2.2 ≤ p.2 ∧ p.2 < f.1.2) := by
      rw [hline] at hfl
      by_cases g1 : p.2 < f.1.2 <;> by_cases g2 : p.2 < f.2.2 <;> simp [g1, g2] at hfl ⊢
      · exact not_lt.1 g2
      · exact not_lt.1 g1
    have ht0 : 0 ≤ (p.2 - f.1.2) / (f.2.2 - f.1.2) := by
      rcases hyy with ⟨g1, g2⟩ | ⟨g1, g2⟩
      · exact div_nonneg (by linarith) (by linarith)
      · exact div_nonneg_of_nonpos (by linarith) (by linarith)
    have ht1 : (p.2 - f.1.2) / (f.2.2 - f.1.2) ≤ 1 := by
      rcases hyy with ⟨g1, g2⟩ | ⟨g1, g2⟩
      · rw [div_le_one (by linarith)]; linarith
      · rw [div_le_one_of_neg (by linarith)]; linarith
    have hy : f.1.2 + (p.2 - f.1.2) / (f.2.2 - f.1.2) * (f.2.2 - f.1.2) = p.2 := by
      rw [div_mul_cancel₀ _ hne]; ring
    have hm := hch f hf _ ht0 ht1
    rw [hy] at hm
    refine ⟨_, ?_, hm⟩
    by_contra hx
    have : flips p f.1 f.2 = true := (flips_iff p f.1 f.2).2 ⟨hyy, _, ht0, ht1, hy, not_le.1 hx⟩
    have hfr' : flips p f.1 f.2 = false := hfr
    rw [this] at hfr'
    exact Bool.noConfusion hfr'
  obtain ⟨x, hx, hxm⟩ := hL
  set X := e.1.1 + t * (e.2.1 - e.1.1) with hX
  have hd : 0 < X - x := by linarith
  have := (convex_convexHull ℝ {v | v ∈ l}) hxm hR (a := (X - p.1) / (X - x)) (b := (p.1 - x) / (X - x))
    (div_nonneg (by linarith) (by linarith)) (div_nonneg (by linarith) (by linarith))
    (by rw [← add_div]; rw [div_eq_one_iff_eq (by linarith)]; ring)
  convert this using 1
  ext
  · simp; field_simp; ring
  · simp; field_simp; ring

/-! ## Convex polygons -/

/-- Twice the signed area of a triangle: positive when `c` is to the left of the way from `a` to `b`. -/
def orient (a b c : ℝ × ℝ) : ℝ := (b.1 - a.1) * (c.2 - a.2) - (b.2 - a.2) * (c.1 - a.1)

/-- A strictly convex polygon in the counterclockwise order: the vertices are different and every vertex is
to the left of every side it does not belong to. -/
def StrictlyConvex (l : List (ℝ × ℝ)) : Prop :=
  l.Nodup ∧ ∀ e ∈ sides l, ∀ v ∈ l, v ≠ e.1 → v ≠ e.2 → 0 < orient e.1 e.2 v

/-- A side going up at the level of a point. -/
def Up (p : ℝ × ℝ) (e : (ℝ × ℝ) × (ℝ × ℝ)) : Prop := e.1.2 ≤ p.2 ∧ p.2 < e.2.2

/-- A side going down at the level of a point. -/
def Down (p : ℝ × ℝ) (e : (ℝ × ℝ) × (ℝ × ℝ)) : Prop := e.2.2 ≤ p.2 ∧ p.2 < e.1.2

/-- To the left of a side, a side going up is crossed, a side going down is not. -/
theorem flips_left (p : ℝ × ℝ) (e : (ℝ × ℝ) × (ℝ × ℝ)) (h : 0 < orient e.1 e.2 p) :
    flips p e.1 e.2 = true ↔ Up p e := by
  rw [flips_iff]
  unfold orient at h
  constructor
  · rintro ⟨h1 | h1, t, t0, t1, t2, t3⟩
    · exact h1
    · exfalso
      have h2 : 0 < e.1.2 - e.2.2 := by linarith [h1.1, h1.2]
      rw [show p.2 - e.1.2 = t * (e.2.2 - e.1.2) by linarith] at h
      have : 0 < (e.1.2 - e.2.2) * (p.1 - (e.1.1 + t * (e.2.1 - e.1.1))) := by linarith
      have := (mul_pos_iff_of_pos_left h2).1 this
      linarith
  · intro h1
    refine ⟨Or.inl h1, (p.2 - e.1.2) / (e.2.2 - e.1.2), ?_, ?_, ?_, ?_⟩
    · exact div_nonneg (by linarith [h1.1]) (by linarith [h1.1, h1.2])
    · rw [div_le_one (by linarith [h1.1, h1.2])]; linarith [h1.2]
    · rw [div_mul_cancel₀ _ (by linarith [h1.1, h1.2] : e.2.2 - e.1.2 ≠ 0)]; ring
    · have h2 : 0 < e.2.2 - e.1.2 := by linarith [h1.1, h1.2]
      rw [div_mul_eq_mul_div, ← sub_pos]
      have : 0 < (e.2.1 - e.1.1) * (p.2 - e.1.2) / (e.2.2 - e.1.2) - (p.1 - e.1.1) := by
        rw [sub_pos, lt_div_iff₀ h2]
        linarith
      rw [mul_comm (p.2 - e.1.2)]
      linarith

/-- Two sides cannot both go up at the same level, if each has the other one to its left. -/
theorem up_unique (p : ℝ × ℝ) (e f : (ℝ × ℝ) × (ℝ × ℝ)) (he : Up p e) (hf : Up p f)
    (h1 : 0 < orient e.1 e.2 f.1) (h2 : 0 < orient e.1 e.2 f.2) (h3 : 0 < orient f.1 f.2 e.1)
    (h4 : 0 < orient f.1 f.2 e.2) : False := by
  -- the crossing points at the level of p
  have key : ∀ e f : (ℝ × ℝ) × (ℝ × ℝ), Up p e → Up p f → 0 < orient e.1 e.2 f.1 → 0 < orient e.1 e.2 f.2 →
      f.1.1 + (p.2 - f.1.2) / (f.2.2 - f.1.2) * (f.2.1 - f.1.1) <
      e.1.1 + (p.2 - e.1.2) / (e.2.2 - e.1.2) * (e.2.1 - e.1.1) := by
    intro e f he hf h1 h2
    have de : 0 < e.2.2 - e.1.2 := by linarith [he.1, he.2]
    have df : 0 < f.2.2 - f.1.2 := by linarith [hf.1, hf.2]
    set t := (p.2 - f.1.2) / (f.2.2 - f.1.2) with ht
    have t0 : 0 ≤ t := div_nonneg (by linarith [hf.1]) (le_of_lt df)
    have t1 : t < 1 := by rw [ht, div_lt_one df]; linarith [hf.2]
    have hy : f.1.2 + t * (f.2.2 - f.1.2) = p.2 := by
      rw [ht, div_mul_cancel₀ _ (ne_of_gt df)]; ring
    have hq : 0 < (1 - t) * orient e.1 e.2 f.1 + t * orient e.1 e.2 f.2 := by
      have := mul_pos (show 0 < 1 - t by linarith) h1
      have := mul_nonneg t0 (le_of_lt h2)
      linarith
    have hq' : (1 - t) * orient e.1 e.2 f.1 + t * orient e.1 e.2 f.2 =
        (e.2.1 - e.1.1) * (p.2 - e.1.2) - (e.2.2 - e.1.2) * (f.1.1 + t * (f.2.1 - f.1.1) - e.1.1) := by
      rw [← hy]
      unfold orient
      ring
    rw [hq'] at hq
    have : f.1.1 + t * (f.2.1 - f.1.1) - e.1.1 < (e.2.1 - e.1.1) * (p.2 - e.1.2) / (e.2.2 - e.1.2) := by
      rw [lt_div_iff₀ de]
      linarith
    have e4 : (p.2 - e.1.2) / (e.2.2 - e.1.2) * (e.2.1 - e.1.1) =
        (e.2.1 - e.1.1) * (p.2 - e.1.2) / (e.2.2 - e.1.2) := by ring
    rw [e4]
    linarith
  exact lt_irrefl _ (lt_trans (key e f he hf h1 h2) (key f e hf he h3 h4))

theorem parity_one {α : Type} (c : α → Bool) (l : List α) (hp : l.Pairwise fun a b => ¬ (c a = true ∧ c b = true))
    (he : ∃ a ∈ l, c a = true) : parity c l = true := by
  induction l with
  | nil => simp at he
  | cons a l ih =>
    have e : parity c (a :: l) = (c a ^^ parity c l) := rfl
    rw [List.pairwise_cons] at hp
    rw [e]
    cases h : c a
    · obtain ⟨b, hb, hc⟩ := he
      rcases List.mem_cons.1 hb with rfl | hb
      · rw [h] at hc; exact Bool.noConfusion hc
      · simpa using ih hp.2 ⟨b, hb, hc⟩
    · have : parity c l = false := by
        by_contra hn
        rw [Bool.not_eq_false] at hn
        obtain ⟨b, hb, hc⟩ := exists_of_parity c l hn
        exact hp.1 b hb ⟨h, hc⟩
      rw [this]; rfl

/-- A quantity cannot decrease along all the sides. -/
theorem no_cyclic_decrease (g : ℝ × ℝ → ℝ) (l : List (ℝ × ℝ)) (hl : l ≠ []) :
    ¬ ∀ e ∈ sides l, g e.2 < g e.1 := by
  intro h
  cases l with
  | nil => exact hl rfl
  | cons a l =>
    obtain ⟨z, hz⟩ : ∃ z, (a :: l).getLast? = some z := by
      cases h : (a :: l).getLast? with
      | none => simp at h
      | some z => exact ⟨z, rfl⟩
    unfold sides at h
    rw [hz] at h
    simp only [Option.toList_some, List.singleton_append] at h
    have aux : ∀ (l : List (ℝ × ℝ)) (a : ℝ × ℝ), (∀ e ∈ List.zip (a :: l) l, g e.2 < g e.1) →
        ∀ b ∈ l, g b < g a := by
      intro l
      induction l with
      | nil => intro a _ b hb; simp at hb
      | cons c l ih =>
        intro a h b hb
        rw [List.zip_cons_cons] at h
        have h1 : g c < g a := h (a, c) (by simp)
        rcases List.mem_cons.1 hb with rfl | hb
        · exact h1
        · exact lt_trans (ih c (fun e he => h e (List.mem_cons_of_mem _ he)) b hb) h1
    exact lt_irrefl _ (aux (a :: l) z h z (List.mem_of_getLast? hz))

/-- Some side goes up at the level of a point that is to the left of all the sides. -/
theorem exists_up (l : List (ℝ × ℝ)) (hl : l ≠ []) (p : ℝ × ℝ) (h : ∀ e ∈ sides l, 0 < orient e.1 e.2 p) :
    ∃ e ∈ sides l, Up p e := by
  by_contra hn
  push Not at hn
  -- every vertex is an end and a beginning of a side
  have hstart : ∀ v ∈ l, ∃ e ∈ sides l, e.2 = v := by
    intro v hv
    unfold sides
    cases l with
    | nil => exact absurd rfl hl
    | cons a l =>
      obtain ⟨z, hz⟩ : ∃ z, (a :: l).getLast? = some z := by
        cases h : (a :: l).getLast? with
        | none => simp at h
        | some z => exact ⟨z, rfl⟩
      rw [hz]
      simp only [Option.toList_some, List.singleton_append]
      obtain ⟨i, hi, rfl⟩ := List.getElem_of_mem hv
      refine ⟨((z :: a :: l)[i]'(by simp at hi ⊢; omega), (a :: l)[i]), ?_, rfl⟩
      rw [List.mem_iff_getElem]
      exact ⟨i, by simp at hi ⊢; omega, List.getElem_zip⟩
  have hend : ∀ v ∈ l, ∃ e ∈ sides l, e.1 = v := by
    intro v hv
    unfold sides
    cases l with
    | nil => exact absurd rfl hl
    | cons a l =>
      obtain ⟨z, hz⟩ : ∃ z, (a :: l).getLast? = some z := by
        cases h : (a :: l).getLast? with
        | none => simp at h
        | some z => exact ⟨z, rfl⟩
      rw [hz]
      simp only [Option.toList_some, List.singleton_append]
      obtain ⟨i, hi, rfl⟩ := List.getElem_of_mem hv
      by_cases hlast : i + 1 < (a :: l).length
      · refine ⟨((z :: a :: l)[i + 1]'(by simp at hi ⊢; omega), (a :: l)[i + 1]), ?_, by simp⟩
        rw [List.mem_iff_getElem]
        exact ⟨i + 1, by simp at hlast ⊢; omega, List.getElem_zip⟩
      · refine ⟨(z, a), by simp, ?_⟩
        have : i = (a :: l).length - 1 := by omega
        subst this
        rw [List.getLast?_eq_getElem?] at hz
        rw [List.getElem?_eq_getElem hi] at hz
        exact (Option.some.inj hz).symm
  -- no side goes up, so no side changes the level
  have hnodown : ∀ e ∈ sides l, ¬ Down p e := by
    have h0 : parity (fun e : (ℝ × ℝ) × (ℝ × ℝ) => decide (e.1.2 > p.2) ^^ decide (e.2.2 > p.2)) (sides l) =
        false := parity_sides (fun v => decide (v.2 > p.2)) l
    -- once below, always below
    intro e he hd
    have hmono : ∀ (m : List (ℝ × ℝ)) (a : ℝ × ℝ), (∀ e ∈ List.zip (a :: m) m, ¬ Up p e) → a.2 ≤ p.2 →
        ∀ b ∈ m, b.2 ≤ p.2 := by
      intro m
      induction m with
      | nil => intro a _ _ b hb; simp at hb
      | cons c m ih =>
        intro a h1 h2 b hb
        rw [List.zip_cons_cons] at h1
        have hc : c.2 ≤ p.2 := by
          by_contra hc
          exact h1 (a, c) (by simp) ⟨h2, not_le.1 hc⟩
        rcases List.mem_cons.1 hb with rfl | hb
        · exact hc
        · exact ih c (fun e he => h1 e (List.mem_cons_of_mem _ he)) hc b hb
    -- the last vertex
    cases l with
    | nil => exact absurd rfl hl
    | cons a l =>
      obtain ⟨z, hz⟩ : ∃ z, (a :: l).getLast? = some z := by
        cases h : (a :: l).getLast? with
        | none => simp at h
        | some z => exact ⟨z, rfl⟩
      have hs : sides (a :: l) = List.zip (z :: a :: l) (a :: l) := by
        unfold sides; rw [hz]; rfl
      rw [hs] at hn he
      have hzle : z.2 ≤ p.2 := by
        obtain ⟨i, hi, hie⟩ := List.getElem_of_mem he
        have hi' : i < (a :: l).length := by simp at hi ⊢; omega
        have he2 : e.2 = (a :: l)[i] := by rw [← hie, List.getElem_zip]
        -- continue from the end of the side
        by_cases hlast : i = (a :: l).length - 1
        · have : (a :: l)[i] = z := by
            rw [List.getLast?_eq_getElem?, ← hlast, List.getElem?_eq_getElem hi'] at hz
            exact Option.some.inj hz
          rw [← this, ← he2]
          exact hd.1
        · have hdrop : (a :: l).drop i = (a :: l)[i] :: (a :: l).drop (i + 1) := List.drop_eq_getElem_cons hi'
          refine hmono ((a :: l).drop (i + 1)) (a :: l)[i] ?_ (by rw [← he2]; exact hd.1) z ?_
          · intro e' he'
            apply hn
            rw [← hdrop] at he'
            have : List.zip ((a :: l).drop i) ((a :: l).drop (i + 1)) =
                (List.zip (z :: a :: l) (a :: l)).drop (i + 1) := by
              unfold List.zip; rw [List.drop_zipWith]; rfl
            rw [this] at he'
            exact List.mem_of_mem_drop he'
          · have hz' := List.getLast?_eq_getElem? (l := a :: l)
            rw [hz] at hz'
            obtain ⟨hk, hk'⟩ := List.getElem?_eq_some_iff.1 hz'.symm
            rw [List.mem_drop_iff_getElem]
            refine ⟨(a :: l).length - 1 - (i + 1), by omega, ?_⟩
            rw [← hk']
            congr 1
            omega
      have hall := hmono (a :: l) z hn hzle
      have he1 : e.1 ∈ z :: a :: l := (List.of_mem_zip (show (e.1, e.2) ∈ _ from he)).1
      rcases List.mem_cons.1 he1 with h1 | h1
      · have := hd.2; rw [h1] at this; exact absurd this (not_lt.2 hzle)
      · exact absurd hd.2 (not_lt.2 (hall e.1 h1))
  have hlevel : (∀ v ∈ l, v.2 ≤ p.2) ∨ ∀ v ∈ l, p.2 < v.2 := by
    have hconst : ∀ (m : List (ℝ × ℝ)) (a : ℝ × ℝ), (∀ e ∈ List.zip (a :: m) m, ¬ Up p e ∧ ¬ Down p e) →
        ∀ b ∈ m, (b.2 ≤ p.2 ↔ a.2 ≤ p.2) := by
      intro m
      induction m with
      | nil => intro a _ b hb; simp at hb
      | cons c m ih =>
        intro a h1 b hb
        rw [List.zip_cons_cons] at h1
        have hac : c.2 ≤ p.2 ↔ a.2 ≤ p.2 := by
          obtain ⟨g1, g2⟩ := h1 (a, c) (by simp)
          constructor
          · intro h; by_contra hx; exact g2 ⟨h, not_le.1 hx⟩
          · intro h; by_contra hx; exact g1 ⟨h, not_le.1 hx⟩
        rcases List.mem_cons.1 hb with rfl | hb
        · exact hac
        · exact (ih c (fun e he => h1 e (List.mem_cons_of_mem _ he)) b hb).trans hac
    cases l with
    | nil => exact absurd rfl hl
    | cons a l =>
      obtain ⟨z, hz⟩ : ∃ z, (a :: l).getLast? = some z := by
        cases h : (a :: l).getLast? with
        | none => simp at h
        | some z => exact ⟨z, rfl⟩
      have hs : sides (a :: l) = List.zip (z :: a :: l) (a :: l) := by
        unfold sides; rw [hz]; rfl
      have := hconst (a :: l) z (fun e he => ⟨hn e (hs ▸ he), hnodown e (hs ▸ he)⟩)
      by_cases hzz : z.2 ≤ p.2
      · left; intro v hv; exact (this v hv).2 hzz
      · right; intro v hv; exact not_le.1 fun h => hzz ((this v hv).1 h)
  -- the quotients of the coordinates decrease along the sides
  rcases hlevel with hlow | hhigh
  · have hstrict : ∀ v ∈ l, v.2 < p.2 := by
      intro v hv
      rcases lt_or_eq_of_le (hlow v hv) with h1 | h1
      · exact h1
      · exfalso
        obtain ⟨e, he, h2⟩ := hstart v hv
        obtain ⟨f, hf, h3⟩ := hend v hv
        have he' := h e he
        have hf' := h f hf
        have m1 := hlow _ (sides_mem l e he).1
        have m2 := hlow _ (sides_mem l f hf).2
        unfold orient at he' hf'
        rw [h2, h1] at he'
        rw [h3, h1] at hf'
        -- the side into v needs v.1 > p.1, the side out of v needs v.1 < p.1
        have g1 : 0 < (p.2 - e.1.2) * (v.1 - p.1) := by linarith
        have g2 : 0 < (p.2 - f.2.2) * (p.1 - v.1) := by linarith
        have k1 : 0 < v.1 - p.1 := by
          by_contra hx
          have := mul_nonneg (show 0 ≤ p.2 - e.1.2 by linarith) (show 0 ≤ -(v.1 - p.1) by linarith)
          linarith
        have k2 : 0 < p.1 - v.1 := by
          by_contra hx
          have := mul_nonneg (show 0 ≤ p.2 - f.2.2 by linarith) (show 0 ≤ -(p.1 - v.1) by linarith)
          linarith
        linarith
    refine no_cyclic_decrease (fun v => (v.1 - p.1) / (v.2 - p.2)) l hl fun e he => ?_
    have m1 := hstrict _ (sides_mem l e he).1
    have m2 := hstrict _ (sides_mem l e he).2
    have := h e he
    unfold orient at this
    rw [show (e.2.1 - p.1) / (e.2.2 - p.2) = (p.1 - e.2.1) / (p.2 - e.2.2) by
      rw [← neg_div_neg_eq]; congr 1 <;> ring,
      show (e.1.1 - p.1) / (e.1.2 - p.2) = (p.1 - e.1.1) / (p.2 - e.1.2) by
      rw [← neg_div_neg_eq]; congr 1 <;> ring, div_lt_div_iff₀ (by linarith) (by linarith)]
    linarith
  · refine no_cyclic_decrease (fun v => (v.1 - p.1) / (v.2 - p.2)) l hl fun e he => ?_
    have m1 := hhigh _ (sides_mem l e he).1
    have m2 := hhigh _ (sides_mem l e he).2
    have := h e he
    unfold orient at this
    rw [div_lt_div_iff₀ (by linarith) (by linarith)]
    linarith

theorem nodup_append_last (l : List (ℝ × ℝ)) (hl : l.Nodup) :
    (sides l).Pairwise fun e f => e.1 ≠ f.1 ∧ e.2 ≠ f.2 := by
  have h2 : (sides l).Pairwise fun e f => e.2 ≠ f.2 := by
    have : (sides l).map Prod.snd = l := by
      unfold sides
      rw [List.map_snd_zip]
      cases h : l.getLast? <;> simp
    rw [← this, List.Nodup, List.pairwise_map] at hl
    exact hl
  have h1 : (sides l).Pairwise fun e f => e.1 ≠ f.1 := by
    rcases List.eq_nil_or_concat l with rfl | ⟨m, z, rfl⟩
    · simp [sides]
    · have : (sides (m.concat z)).map Prod.fst = z :: m := by
        unfold sides
        rw [List.concat_eq_append, List.getLast?_concat]
        simp only [Option.toList_some, List.singleton_append]
        have hx : ∀ (u w : List (ℝ × ℝ)) (x : ℝ × ℝ), u.length = w.length →
            List.map Prod.fst (List.zip (u ++ [x]) w) = u := by
          intro u
          induction u with
          | nil => intro w x hw; rw [List.length_eq_zero_iff.1 hw.symm]; rfl
          | cons c u ih =>
            intro w x hw
            cases w with
            | nil => simp at hw
            | cons d w => simp only [List.cons_append, List.zip_cons_cons, List.map_cons]; rw [ih w x (by simpa using hw)]
        exact hx (z :: m) (m ++ [z]) z (by simp)
      have hn : (z :: m).Nodup := by
        rw [List.concat_eq_append] at hl
        exact (List.nodup_append_comm.1 hl)
      rw [← this, List.Nodup, List.pairwise_map] at hn
      exact hn
  exact h1.and h2

/-- **C95.**  Points strictly inside of a strictly convex polygon are flagged (in the counterclockwise order;
by C95_cyclic_and_reverse also in the other one). -/
theorem C95_convex_inside (l : List (ℝ × ℝ)) (hl : l ≠ []) (hc : StrictlyConvex l) (p : ℝ × ℝ)
    (hp : ∀ e ∈ sides l, 0 < orient e.1 e.2 p) : inPolygon l p = true := by
  rw [inPolygon_parity]
  refine parity_one _ _ ?_ ?_
  · have hpw := nodup_append_last l hc.1
    refine List.Pairwise.imp_of_mem ?_ hpw
    rintro e f he hf ⟨h1, h2⟩ ⟨g1, g2⟩
    have ue := (flips_left p e (hp e he)).1 g1
    have uf := (flips_left p f (hp f hf)).1 g2
    obtain ⟨e1, e2⟩ := sides_mem l e he
    obtain ⟨f1, f2⟩ := sides_mem l f hf
    have d1 : f.1 ≠ e.2 := fun h => by have := ue.2; rw [← h] at this; exact absurd uf.1 (not_le.2 this)
    have d2 : e.1 ≠ f.2 := fun h => by have := uf.2; rw [← h] at this; exact absurd ue.1 (not_le.2 this)
    exact up_unique p e f ue uf (hc.2 e he f.1 f1 h1.symm d1) (hc.2 e he f.2 f2 d2.symm h2.symm)
      (hc.2 f hf e.1 e1 h1 d2) (hc.2 f hf e.2 e2 d1.symm h2)
  · obtain ⟨e, he, hu⟩ := exists_up l hl p hp
    exact ⟨e, he, (flips_left p e (hp e he)).2 hu⟩

end Geo
