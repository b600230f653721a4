/-
The functions of the Lagrange fields are continuous: tensor product elements.
-/
import Verif.Fem.PropsContinuous
import Verif.Fem.PropsLagTensor
import Mathlib.Tactic.LinearCombination
import Mathlib.Tactic.FinCases

namespace Verif.Fem

open Finset

section
variable {K : Type} [Field K]

/-- The 1D function with the number `a` of the order `o`. -/
def lag1 (o : ℕ) (s : K) (a : ℕ) : K := ch (o * (1 - s)) (o - a) * ch (o * s) a

/-- Weights of one, two, four vertices. -/
def w1 {R : Type} [Zero R] (p : ℕ) (A : R) (v : ℕ) : R := if p = v then A else 0
def w2 {R : Type} [AddMonoid R] (p q : ℕ) (A B : R) (v : ℕ) : R := w1 p A v + w1 q B v
def w4 {R : Type} [AddMonoid R] (x y z w : ℕ) (A B C D : R) (v : ℕ) : R :=
  w1 x A v + w1 y B v + w1 z C v + w1 w D v
def w8 {R : Type} [AddMonoid R] (c : ℕ → ℕ) (W : ℕ → R) (v : ℕ) : R :=
  w1 (c 0) (W 0) v + w1 (c 1) (W 1) v + w1 (c 2) (W 2) v + w1 (c 3) (W 3) v + w1 (c 4) (W 4) v + w1 (c 5) (W 5) v
    + w1 (c 6) (W 6) v + w1 (c 7) (W 7) v

/-- The function on an edge with the vertices `p`, `q` in the point `s`; the items of the places are multiplied
by `f`. -/
def fE (φ : K → ℕ → K) (o f : ℕ) (U : (ℕ → ℕ) → K) (p q : ℕ) (s : K) : K :=
  ∑ a ∈ range (o + 1), φ s a * U (w2 p q (f * (o - a)) (f * a))

/-- The function on a quadrilateral with the vertices `x`, `y`, `z`, `w` in the point `(s, t)`. -/
def fQ (φ : K → ℕ → K) (o f : ℕ) (U : (ℕ → ℕ) → K) (x y z w : ℕ) (s t : K) : K :=
  ∑ a ∈ range (o + 1), φ s a * ∑ b ∈ range (o + 1), φ t b *
    U (w4 x y z w (f * ((o - a) * (o - b))) (f * (a * (o - b))) (f * (a * b)) (f * ((o - a) * b)))

/-- The weights in a quadrilateral and in a hexahedron. -/
def wQ (x y z w : ℕ) (s t : K) : ℕ → K := w4 x y z w ((1 - s) * (1 - t)) (s * (1 - t)) (s * t) ((1 - s) * t)

/-- The items of the place of a node in a hexahedron. -/
def hexItem {R : Type} [Mul R] (a0 a1 b0 b1 c0 c1 : R) (i : ℕ) : R :=
  if i = 0 then a0 * b0 * c0 else if i = 1 then a1 * b0 * c0 else if i = 2 then a1 * b1 * c0
  else if i = 3 then a0 * b1 * c0 else if i = 4 then a0 * b0 * c1 else if i = 5 then a1 * b0 * c1
  else if i = 6 then a1 * b1 * c1 else a0 * b1 * c1

/-- The function in a hexahedron. -/
def fH (φ : K → ℕ → K) (o : ℕ) (U : (ℕ → ℕ) → K) (c : ℕ → ℕ) (s t r : K) : K :=
  ∑ i ∈ range (o + 1), φ s i * ∑ j ∈ range (o + 1), φ t j * ∑ k ∈ range (o + 1), φ r k *
    U (w8 c (hexItem (o - i) i (o - j) j (o - k) k))

def wH (c : ℕ → ℕ) (s t r : K) : ℕ → K := w8 c (hexItem (1 - s) s (1 - t) t (1 - r) r)

@[simp] theorem w1_zero {R : Type} [Zero R] (p v : ℕ) : w1 p (0 : R) v = 0 := by simp [w1]

theorem w1_mul (p f A v : ℕ) : w1 p (f * A) v = f * w1 p A v := by
  simp only [w1]; split_ifs <;> simp

/-- What the continuity needs from the 1D functions of an element: in the left end only the first function is not
zero, where it is one, and the functions are symmetric. -/
class Sym1 (o : ℕ) (φ : K → ℕ → K) : Prop where
  zero : ∀ a ≤ o, φ 0 a = if a = 0 then 1 else 0
  symm : ∀ a ≤ o, ∀ s, φ (1 - s) (o - a) = φ s a

variable [CharZero K]

theorem lag1_zero {o a : ℕ} (ha : a ≤ o) : lag1 o (0 : K) a = if a = 0 then 1 else 0 := by
  have h1 : lag1 o (0 : K) a = (o.choose (o - a) : K) * ((0 : ℕ).choose a : K) := by
    rw [← ch_nat, ← ch_nat]; simp [lag1]
  rw [h1]
  rcases Nat.eq_zero_or_pos a with rfl | h
  · simp
  · rw [Nat.choose_eq_zero_of_lt h, if_neg (by omega)]; simp

theorem lag1_symm {o a : ℕ} (ha : a ≤ o) (s : K) : lag1 o (1 - s) (o - a) = lag1 o s a := by
  rw [lag1, lag1, Nat.sub_sub_self ha, sub_sub_cancel, mul_comm]

instance (o : ℕ) : Sym1 o (lag1 (K := K) o) := ⟨fun _ ha => lag1_zero ha, fun _ ha s => lag1_symm ha s⟩

variable {φ : K → ℕ → K}

theorem sum_sym_zero (o : ℕ) [Sym1 o φ] (G : ℕ → K) : ∑ a ∈ range (o + 1), φ 0 a * G a = G 0 := by
  rw [sum_eq_single 0]
  · rw [Sym1.zero (o := o) (φ := φ) _ (by omega), if_pos rfl, one_mul]
  · intro a ha h
    rw [Sym1.zero (o := o) (φ := φ) _ (by have := mem_range.1 ha; omega), if_neg h, zero_mul]
  · simp

theorem sum_sym_flip (o : ℕ) [Sym1 o φ] (s : K) (G : ℕ → K) :
    ∑ a ∈ range (o + 1), φ (1 - s) a * G a = ∑ a ∈ range (o + 1), φ s a * G (o - a) := by
  rw [← sum_range_reflect]
  refine sum_congr rfl fun a ha => ?_
  have ha : a ≤ o := by have := mem_range.1 ha; omega
  rw [show o + 1 - 1 - a = o - a by omega, Sym1.symm (o := o) (φ := φ) _ ha]

theorem sum_sym_one (o : ℕ) [Sym1 o φ] (G : ℕ → K) : ∑ a ∈ range (o + 1), φ 1 a * G a = G o := by
  have := sum_sym_flip (φ := φ) o (0 : K) G
  rw [sub_zero] at this
  rw [this, sum_sym_zero o fun a => G (o - a), Nat.sub_zero]

/-! ### Reductions to the sides -/

theorem fE_zero (o f : ℕ) [Sym1 o φ] (U : (ℕ → ℕ) → K) (p q : ℕ) : fE φ o f U p q 0 = U (w1 p (f * o)) := by
  rw [fE, sum_sym_zero o fun a => U (w2 p q (f * (o - a)) (f * a))]
  congr 1; funext v; simp [w2]

theorem fE_one (o f : ℕ) [Sym1 o φ] (U : (ℕ → ℕ) → K) (p q : ℕ) : fE φ o f U p q 1 = U (w1 q (f * o)) := by
  rw [fE, sum_sym_one o fun a => U (w2 p q (f * (o - a)) (f * a))]
  congr 1; funext v; simp [w2]

theorem fE_swap (o f : ℕ) [Sym1 o φ] (U : (ℕ → ℕ) → K) (p q : ℕ) (s : K) : fE φ o f U q p (1 - s) = fE φ o f U p q s := by
  rw [fE, sum_sym_flip o s fun a => U (w2 q p (f * (o - a)) (f * a)), fE]
  refine sum_congr rfl fun a ha => ?_
  have ha : a ≤ o := by have := mem_range.1 ha; omega
  rw [Nat.sub_sub_self ha]
  congr 2; funext v; simp only [w2]; rw [add_comm]

theorem fQ_flip1 (o f : ℕ) [Sym1 o φ] (U : (ℕ → ℕ) → K) (x y z w : ℕ) (s t : K) :
    fQ φ o f U y x w z (1 - s) t = fQ φ o f U x y z w s t := by
  rw [fQ, sum_sym_flip o s fun a => ∑ b ∈ range (o + 1), φ t b *
    U (w4 y x w z (f * ((o - a) * (o - b))) (f * (a * (o - b))) (f * (a * b)) (f * ((o - a) * b))), fQ]
  refine sum_congr rfl fun a ha => ?_
  have ha : a ≤ o := by have := mem_range.1 ha; omega
  rw [Nat.sub_sub_self ha]
  refine congrArg _ (sum_congr rfl fun b _ => ?_)
  congr 2; funext v; simp only [w4]; ring

omit [CharZero K] in
theorem fQ_transpose (o f : ℕ) (U : (ℕ → ℕ) → K) (x y z w : ℕ) (s t : K) :
    fQ φ o f U x w z y t s = fQ φ o f U x y z w s t := by
  simp only [fQ, mul_sum]
  rw [sum_comm]
  refine sum_congr rfl fun a _ => sum_congr rfl fun b _ => ?_
  rw [mul_left_comm]
  congr 3
  funext v; simp only [w4]
  rw [mul_comm (o - a) (o - b), mul_comm (o - a) b, mul_comm a (o - b), mul_comm a b]
  ring

theorem fQ_flip2 (o f : ℕ) [Sym1 o φ] (U : (ℕ → ℕ) → K) (x y z w : ℕ) (s t : K) :
    fQ φ o f U w z y x s (1 - t) = fQ φ o f U x y z w s t := by
  rw [← fQ_transpose, fQ_flip1, fQ_transpose]

theorem fQ_zero1 (o f : ℕ) [Sym1 o φ] (U : (ℕ → ℕ) → K) (x y z w : ℕ) (t : K) :
    fQ φ o f U x y z w 0 t = fE φ o (f * o) U x w t := by
  rw [fQ, sum_sym_zero o fun a => ∑ b ∈ range (o + 1), φ t b *
    U (w4 x y z w (f * ((o - a) * (o - b))) (f * (a * (o - b))) (f * (a * b)) (f * ((o - a) * b))), fE]
  refine sum_congr rfl fun b _ => ?_
  congr 2; funext v; simp [w4, w2, mul_assoc]

theorem fQ_one1 (o f : ℕ) [Sym1 o φ] (U : (ℕ → ℕ) → K) (x y z w : ℕ) (t : K) :
    fQ φ o f U x y z w 1 t = fE φ o (f * o) U y z t := by
  have := fQ_flip1 (φ := φ) o f U y x w z 0 t
  rw [sub_zero] at this
  rw [this, fQ_zero1]

theorem fQ_zero2 (o f : ℕ) [Sym1 o φ] (U : (ℕ → ℕ) → K) (x y z w : ℕ) (s : K) :
    fQ φ o f U x y z w s 0 = fE φ o (f * o) U x y s := by
  rw [← fQ_transpose, fQ_zero1]

theorem fQ_one2 (o f : ℕ) [Sym1 o φ] (U : (ℕ → ℕ) → K) (x y z w : ℕ) (s : K) :
    fQ φ o f U x y z w s 1 = fE φ o (f * o) U w z s := by
  rw [← fQ_transpose, fQ_one1]

/-- The functions of the two cells on a common quadrilateral. -/
theorem fQ_around (o f : ℕ) [Sym1 o φ] (U : (ℕ → ℕ) → K) {x y z w x' y' z' w' : ℕ} (hd : [x, y, z, w].Nodup) {s t s' t' : K}
    (h : [x', y', z', w'] ∈ around x y z w) (hw : ∀ v, wQ x y z w s t v = wQ x' y' z' w' s' t' v) :
    fQ φ o f U x y z w s t = fQ φ o f U x' y' z' w' s' t' := by
  simp only [List.nodup_cons, List.mem_cons, List.not_mem_nil, or_false, not_or] at hd
  obtain ⟨⟨h1, h2, h3⟩, ⟨h4, h5⟩, h6, -⟩ := hd
  have ex := hw x
  have ey := hw y
  have ez := hw z
  have ew := hw w
  simp only [around, List.mem_cons, List.cons.injEq, and_true, List.not_mem_nil, or_false] at h
  rcases h with ⟨rfl, rfl, rfl, rfl⟩ | ⟨rfl, rfl, rfl, rfl⟩ | ⟨rfl, rfl, rfl, rfl⟩ | ⟨rfl, rfl, rfl, rfl⟩ |
    ⟨rfl, rfl, rfl, rfl⟩ | ⟨rfl, rfl, rfl, rfl⟩ | ⟨rfl, rfl, rfl, rfl⟩ | ⟨rfl, rfl, rfl, rfl⟩ <;>
    simp only [wQ, w4, w1, h1, h2, h3, h4, h5, h6, Ne.symm h1, Ne.symm h2, Ne.symm h3, Ne.symm h4, Ne.symm h5,
      Ne.symm h6, if_true, if_false, add_zero, zero_add] at ex ey ez ew
  · obtain rfl : s' = s := by linear_combination -ey - ez
    obtain rfl : t' = t := by linear_combination -ez - ew
    rfl
  · -- y z w x
    obtain rfl : s' = t := by linear_combination -ez - ew
    obtain rfl : t' = 1 - s := by linear_combination -ew - ex
    rw [← fQ_flip1, ← fQ_transpose]
  · obtain rfl : s' = 1 - s := by linear_combination -ew - ex
    obtain rfl : t' = 1 - t := by linear_combination -ex - ey
    rw [fQ_flip1, fQ_flip2]
  · obtain rfl : s' = 1 - t := by linear_combination -ex - ey
    obtain rfl : t' = s := by linear_combination -ey - ez
    rw [← fQ_transpose, ← fQ_flip1]
  · obtain rfl : s' = s := by linear_combination -ey - ez
    obtain rfl : t' = 1 - t := by linear_combination -ex - ey
    rw [fQ_flip2]
  · obtain rfl : s' = 1 - t := by linear_combination -ex - ey
    obtain rfl : t' = 1 - s := by linear_combination -ew - ex
    rw [fQ_flip1, fQ_flip2, fQ_transpose]
  · obtain rfl : s' = 1 - s := by linear_combination -ew - ex
    obtain rfl : t' = t := by linear_combination -ez - ew
    rw [fQ_flip1]
  · obtain rfl : s' = t := by linear_combination -ez - ew
    obtain rfl : t' = s := by linear_combination -ey - ez
    rw [fQ_transpose]

theorem fE_pair (o f : ℕ) [Sym1 o φ] (U : (ℕ → ℕ) → K) {p q p' q' : ℕ} (hd : p ≠ q) {s s' : K}
    (h : [p', q'].Perm [p, q]) (hw : ∀ v, w2 p q (1 - s) s v = w2 p' q' (1 - s') s' v) :
    fE φ o f U p q s = fE φ o f U p' q' s' := by
  have ep := hw p
  have eq := hw q
  have : (p' = p ∧ q' = q) ∨ (p' = q ∧ q' = p) := by
    have h1 : p' ∈ [p, q] := h.subset (by simp)
    have h2 : q' ∈ [p, q] := h.subset (by simp)
    have hn : [p', q'].Nodup := h.nodup_iff.2 (by simp [hd])
    simp at h1 h2 hn
    rcases h1 with rfl | rfl <;> rcases h2 with rfl | rfl <;> simp_all
  rcases this with ⟨rfl, rfl⟩ | ⟨rfl, rfl⟩ <;>
    simp only [w2, w1, hd, Ne.symm hd, if_true, if_false, add_zero, zero_add] at ep eq
  · rw [eq]
  · obtain rfl : s' = 1 - s := ep.symm
    rw [fE_swap]

theorem fH_zero3 (o : ℕ) [Sym1 o φ] (U : (ℕ → ℕ) → K) (c : ℕ → ℕ) (s t : K) :
    fH φ o U c s t 0 = fQ φ o o U (c 0) (c 1) (c 2) (c 3) s t := by
  simp only [fH, fQ, sum_sym_zero]
  refine sum_congr rfl fun i _ => congrArg _ (sum_congr rfl fun j _ => ?_)
  congr 2; funext v
  simp [w8, w4, hexItem, mul_comm o]

theorem fH_one3 (o : ℕ) [Sym1 o φ] (U : (ℕ → ℕ) → K) (c : ℕ → ℕ) (s t : K) :
    fH φ o U c s t 1 = fQ φ o o U (c 4) (c 5) (c 6) (c 7) s t := by
  simp only [fH, fQ, sum_sym_one]
  refine sum_congr rfl fun i _ => congrArg _ (sum_congr rfl fun j _ => ?_)
  congr 2; funext v
  simp [w8, w4, hexItem, mul_comm o]

theorem fH_zero2 (o : ℕ) [Sym1 o φ] (U : (ℕ → ℕ) → K) (c : ℕ → ℕ) (s r : K) :
    fH φ o U c s 0 r = fQ φ o o U (c 0) (c 1) (c 5) (c 4) s r := by
  simp only [fH, fQ, sum_sym_zero]
  refine sum_congr rfl fun i _ => congrArg _ (sum_congr rfl fun j _ => ?_)
  congr 2; funext v
  simp [w8, w4, hexItem, mul_comm o, mul_assoc, mul_left_comm o]
  ring

theorem fH_one2 (o : ℕ) [Sym1 o φ] (U : (ℕ → ℕ) → K) (c : ℕ → ℕ) (s r : K) :
    fH φ o U c s 1 r = fQ φ o o U (c 3) (c 2) (c 6) (c 7) s r := by
  simp only [fH, fQ, sum_sym_one]
  refine sum_congr rfl fun i _ => congrArg _ (sum_congr rfl fun j _ => ?_)
  congr 2; funext v
  simp [w8, w4, hexItem, mul_comm o, mul_assoc, mul_left_comm o]
  ring

theorem fH_zero1 (o : ℕ) [Sym1 o φ] (U : (ℕ → ℕ) → K) (c : ℕ → ℕ) (t r : K) :
    fH φ o U c 0 t r = fQ φ o o U (c 0) (c 3) (c 7) (c 4) t r := by
  simp only [fH, fQ, sum_sym_zero]
  refine sum_congr rfl fun i _ => congrArg _ (sum_congr rfl fun j _ => ?_)
  congr 2; funext v
  simp [w8, w4, hexItem, mul_comm o, mul_assoc, mul_left_comm o]
  ring

theorem fH_one1 (o : ℕ) [Sym1 o φ] (U : (ℕ → ℕ) → K) (c : ℕ → ℕ) (t r : K) :
    fH φ o U c 1 t r = fQ φ o o U (c 1) (c 2) (c 6) (c 5) t r := by
  simp only [fH, fQ, sum_sym_one]
  refine sum_congr rfl fun i _ => congrArg _ (sum_congr rfl fun j _ => ?_)
  congr 2; funext v
  simp [w8, w4, hexItem, mul_comm o, mul_assoc, mul_left_comm o]
  ring

/-! ### The place of a point -/

theorem w1_ne {p v : ℕ} {A : K} (hA : A ≠ 0) : w1 p A v ≠ 0 ↔ v = p := by
  simp only [w1]
  split_ifs with h
  · simp [hA, h]
  · simp only [ne_eq, not_true_eq_false, false_iff]
    exact fun e => h e.symm

theorem w2_ne {p q v : ℕ} {A B : K} (hpq : p ≠ q) (hA : A ≠ 0) (hB : B ≠ 0) : w2 p q A B v ≠ 0 ↔ v ∈ [p, q] := by
  simp only [w2, List.mem_cons, List.not_mem_nil, or_false]
  by_cases h1 : v = p
  · subst h1; simp [w1, hA, hpq.symm]
  · by_cases h2 : v = q
    · subst h2; simp [w1, hB, hpq]
    · simp [w1, Ne.symm h1, Ne.symm h2, h1, h2]

theorem w4_ne {x y z w v : ℕ} {A B C D : K} (hd : [x, y, z, w].Nodup) (hA : A ≠ 0) (hB : B ≠ 0) (hC : C ≠ 0)
    (hD : D ≠ 0) : w4 x y z w A B C D v ≠ 0 ↔ v ∈ [x, y, z, w] := by
  simp only [List.nodup_cons, List.mem_cons, List.not_mem_nil, or_false, not_or] at hd
  obtain ⟨⟨h1, h2, h3⟩, ⟨h4, h5⟩, h6, -⟩ := hd
  simp only [w4, List.mem_cons, List.not_mem_nil, or_false]
  by_cases e1 : v = x
  · subst e1; simp [w1, hA, Ne.symm h1, Ne.symm h2, Ne.symm h3]
  · by_cases e2 : v = y
    · subst e2; simp [w1, hB, h1, Ne.symm h4, Ne.symm h5]
    · by_cases e3 : v = z
      · subst e3; simp [w1, hC, h2, h4, Ne.symm h6]
      · by_cases e4 : v = w
        · subst e4; simp [w1, hD, h3, h5, h6]
        · simp [w1, Ne.symm e1, Ne.symm e2, Ne.symm e3, Ne.symm e4, e1, e2, e3, e4]

/-- The weights and the value in a point of a quadrilateral: in a vertex, on an edge or inside. -/
def Form (φ : K → ℕ → K) (o fe f : ℕ) (U : (ℕ → ℕ) → K) (face : ℕ → ℕ → ℕ → ℕ → Prop) (wt : ℕ → K) (val : K) : Prop :=
  (∃ p, wt = w1 p 1 ∧ val = U (w1 p (fe * o))) ∨
  (∃ p q s, p ≠ q ∧ s ≠ 0 ∧ s ≠ 1 ∧ wt = w2 p q (1 - s) s ∧ val = fE φ o fe U p q s) ∨
  ∃ x y z w s t, [x, y, z, w].Nodup ∧ s ≠ 0 ∧ s ≠ 1 ∧ t ≠ 0 ∧ t ≠ 1 ∧ face x y z w ∧ wt = wQ x y z w s t ∧
    val = fQ φ o f U x y z w s t

theorem form_edge {o fe f : ℕ} [Sym1 o φ] {U : (ℕ → ℕ) → K} {face : ℕ → ℕ → ℕ → ℕ → Prop} {p q : ℕ} (h : p ≠ q) (s : K) :
    Form φ o fe f U face (w2 p q (1 - s) s) (fE φ o fe U p q s) := by
  by_cases h0 : s = 0
  · subst h0
    refine .inl ⟨p, ?_, fE_zero _ _ _ _ _⟩
    funext v; simp [w2]
  · by_cases h1 : s = 1
    · subst h1
      refine .inl ⟨q, ?_, fE_one _ _ _ _ _⟩
      funext v; simp [w2]
    · exact .inr (.inl ⟨p, q, s, h, h0, h1, rfl, rfl⟩)

theorem form_quad {o fe f : ℕ} [Sym1 o φ] {U : (ℕ → ℕ) → K} {face : ℕ → ℕ → ℕ → ℕ → Prop} {x y z w : ℕ} (hd : [x, y, z, w].Nodup)
    (hf : face x y z w) (hfe : fe = f * o) (s t : K) : Form φ o fe f U face (wQ x y z w s t) (fQ φ o f U x y z w s t) := by
  subst hfe
  have hd' := hd
  simp only [List.nodup_cons, List.mem_cons, List.not_mem_nil, or_false, not_or] at hd'
  obtain ⟨⟨h1, h2, h3⟩, ⟨h4, h5⟩, h6, -⟩ := hd'
  by_cases s0 : s = 0
  · subst s0
    rw [fQ_zero1, show wQ x y z w 0 t = w2 x w (1 - t) t by funext v; simp [wQ, w4, w2]]
    exact form_edge h3 t
  by_cases s1 : s = 1
  · subst s1
    rw [fQ_one1, show wQ x y z w 1 t = w2 y z (1 - t) t by funext v; simp [wQ, w4, w2]]
    exact form_edge h4 t
  by_cases t0 : t = 0
  · subst t0
    rw [fQ_zero2, show wQ x y z w s 0 = w2 x y (1 - s) s by funext v; simp [wQ, w4, w2]]
    exact form_edge h1 s
  by_cases t1 : t = 1
  · subst t1
    rw [fQ_one2, show wQ x y z w s 1 = w2 w z (1 - s) s by funext v; simp [wQ, w4, w2, add_comm]]
    exact form_edge (Ne.symm h6) s
  exact .inr (.inr ⟨x, y, z, w, s, t, hd, s0, s1, t0, t1, hf, rfl, rfl⟩)

theorem wQ_ne {x y z w v : ℕ} {s t : K} (hd : [x, y, z, w].Nodup) (s0 : s ≠ 0) (s1 : s ≠ 1) (t0 : t ≠ 0) (t1 : t ≠ 1) :
    wQ x y z w s t v ≠ 0 ↔ v ∈ [x, y, z, w] := by
  have a : 1 - s ≠ 0 := sub_ne_zero.2 (Ne.symm s1)
  have b : 1 - t ≠ 0 := sub_ne_zero.2 (Ne.symm t1)
  exact w4_ne hd (mul_ne_zero a b) (mul_ne_zero s0 b) (mul_ne_zero s0 t0) (mul_ne_zero a t0)

theorem form_supp {o fe f : ℕ} {U : (ℕ → ℕ) → K} {face : ℕ → ℕ → ℕ → ℕ → Prop} {wt : ℕ → K} {val : K}
    (h : Form φ o fe f U face wt val) : ∃ L : List ℕ, L.Nodup ∧ L.length ≤ 4 ∧ ∀ v, wt v ≠ 0 ↔ v ∈ L := by
  rcases h with ⟨p, rfl, -⟩ | ⟨p, q, s, hpq, s0, s1, rfl, -⟩ | ⟨x, y, z, w, s, t, hd, s0, s1, t0, t1, -, rfl, -⟩
  · exact ⟨[p], by simp, by simp, fun v => by simp [w1_ne]⟩
  · exact ⟨[p, q], by simp [hpq], by simp, fun v => w2_ne hpq (sub_ne_zero.2 (Ne.symm s1)) s0⟩
  · exact ⟨_, hd, by simp, fun v => wQ_ne hd s0 s1 t0 t1⟩

theorem perm_of_mem {L L' : List ℕ} (h : L.Nodup) (h' : L'.Nodup) (e : ∀ v, v ∈ L ↔ v ∈ L') : L.Perm L' :=
  (List.perm_ext_iff_of_nodup h h').2 e

/-- The values in the same point of two quadrilaterals are the same. -/
theorem form_eq {o fe f : ℕ} [Sym1 o φ] {U : (ℕ → ℕ) → K} {face face' : ℕ → ℕ → ℕ → ℕ → Prop} {wt : ℕ → K} {val val' : K}
    (hf : ∀ x y z w x' y' z' w', face x y z w → face' x' y' z' w' → [x, y, z, w].Perm [x', y', z', w'] →
      [x', y', z', w'] ∈ around x y z w)
    (h : Form φ o fe f U face wt val) (h' : Form φ o fe f U face' wt val') : val = val' := by
  rcases h with ⟨p, e, rfl⟩ | ⟨p, q, s, hpq, s0, s1, e, rfl⟩ | ⟨x, y, z, w, s, t, hd, s0, s1, t0, t1, hF, e, rfl⟩ <;>
    rcases h' with ⟨p', e', rfl⟩ | ⟨p', q', s', hpq', s0', s1', e', rfl⟩ |
      ⟨x', y', z', w', s', t', hd', s0', s1', t0', t1', hF', e', rfl⟩
  · have := (w1_ne (K := K) (p := p') (v := p) one_ne_zero).1 (by rw [← e', e, w1_ne one_ne_zero])
    rw [this]
  · have := perm_of_mem (L := [p]) (L' := [p', q']) (by simp) (by simp [hpq']) fun v => by
      rw [← w2_ne hpq' (sub_ne_zero.2 (Ne.symm s1')) s0', ← e', e, w1_ne one_ne_zero, List.mem_singleton]
    simpa using this.length_eq
  · have := perm_of_mem (L := [p]) (by simp) hd' fun v => by
      rw [← wQ_ne hd' s0' s1' t0' t1', ← e', e, w1_ne one_ne_zero, List.mem_singleton]
    simpa using this.length_eq
  · have := perm_of_mem (L := [p']) (L' := [p, q]) (by simp) (by simp [hpq]) fun v => by
      rw [← w2_ne hpq (sub_ne_zero.2 (Ne.symm s1)) s0, ← e, e', w1_ne one_ne_zero, List.mem_singleton]
    simpa using this.length_eq
  · have := perm_of_mem (L := [p', q']) (L' := [p, q]) (by simp [hpq']) (by simp [hpq]) fun v => by
      rw [← w2_ne hpq (sub_ne_zero.2 (Ne.symm s1)) s0, ← e, e', w2_ne hpq' (sub_ne_zero.2 (Ne.symm s1')) s0']
    exact fE_pair o _ U hpq this fun v => by rw [← e, ← e']
  · have := perm_of_mem (L := [p, q]) (by simp [hpq]) hd' fun v => by
      rw [← wQ_ne hd' s0' s1' t0' t1', ← e', e, w2_ne hpq (sub_ne_zero.2 (Ne.symm s1)) s0]
    simpa using this.length_eq
  · have := perm_of_mem (L := [p']) (by simp) hd fun v => by
      rw [← wQ_ne hd s0 s1 t0 t1, ← e, e', w1_ne one_ne_zero, List.mem_singleton]
    simpa using this.length_eq
  · have := perm_of_mem (L := [p', q']) (by simp [hpq']) hd fun v => by
      rw [← wQ_ne hd s0 s1 t0 t1, ← e, e', w2_ne hpq' (sub_ne_zero.2 (Ne.symm s1')) s0']
    simpa using this.length_eq
  · have := perm_of_mem hd hd' fun v => by
      rw [← wQ_ne hd' s0' s1' t0' t1', ← e', e, wQ_ne hd s0 s1 t0 t1]
    exact fQ_around o f U hd (hf _ _ _ _ _ _ _ _ hF hF' this) fun v => by rw [← e, ← e']

theorem w8_at {c : ℕ → ℕ} (hc : ∀ i < 8, ∀ j < 8, c i = c j → i = j) (W : ℕ → K) {i : ℕ} (hi : i < 8) :
    w8 c W (c i) = W i := by
  have h : ∀ j < 8, w1 (c j) (W j) (c i) = if j = i then W j else 0 := fun j hj => by
    simp only [w1]
    by_cases e : j = i
    · simp [e]
    · rw [if_neg e, if_neg fun h => e (hc j hj i hi h)]
  simp only [w8]
  rw [h 0, h 1, h 2, h 3, h 4, h 5, h 6, h 7] <;> [skip; omega; omega; omega; omega; omega; omega; omega; omega]
  interval_cases i <;> simp

theorem w8_out {c : ℕ → ℕ} (W : ℕ → K) {v : ℕ} (hv : ∀ i < 8, c i ≠ v) : w8 c W v = 0 := by
  simp [w8, w1, hv 0, hv 1, hv 2, hv 3, hv 4, hv 5, hv 6, hv 7]

/-- A hexahedron: either a side or all inside. -/
theorem hex_form {o : ℕ} [Sym1 o φ] {U : (ℕ → ℕ) → K} {face : ℕ → ℕ → ℕ → ℕ → Prop} {c : ℕ → ℕ}
    (hc : ∀ i < 8, ∀ j < 8, c i = c j → i = j)
    (f0 : face (c 0) (c 1) (c 2) (c 3)) (f1 : face (c 4) (c 5) (c 6) (c 7)) (f2 : face (c 0) (c 1) (c 5) (c 4))
    (f3 : face (c 3) (c 2) (c 6) (c 7)) (f4 : face (c 0) (c 3) (c 7) (c 4)) (f5 : face (c 1) (c 2) (c 6) (c 5))
    (s t r : K) :
    Form φ o (o * o) o U face (wH c s t r) (fH φ o U c s t r) ∨ (∀ v, wH c s t r v ≠ 0 ↔ ∃ i < 8, v = c i) := by
  have nd : ∀ i < 8, ∀ j < 8, ∀ k < 8, ∀ l < 8, [i, j, k, l].Nodup → [c i, c j, c k, c l].Nodup := by
    intro i hi j hj k hk l hl h
    have : ([i, j, k, l].map c).Nodup := h.map_on fun x hx y hy e => by
      simp at hx hy
      exact hc x (by omega) y (by omega) e
    simpa using this
  by_cases s0 : s = 0
  · subst s0
    left
    rw [fH_zero1, show wH c 0 t r = wQ (c 0) (c 3) (c 7) (c 4) t r by funext v; simp [wH, w8, hexItem, wQ, w4]; ring]
    exact form_quad (nd 0 (by omega) 3 (by omega) 7 (by omega) 4 (by omega) (by decide)) f4 rfl t r
  by_cases s1 : s = 1
  · subst s1
    left
    rw [fH_one1, show wH c 1 t r = wQ (c 1) (c 2) (c 6) (c 5) t r by funext v; simp [wH, w8, hexItem, wQ, w4]; ring]
    exact form_quad (nd 1 (by omega) 2 (by omega) 6 (by omega) 5 (by omega) (by decide)) f5 rfl t r
  by_cases t0 : t = 0
  · subst t0
    left
    rw [fH_zero2, show wH c s 0 r = wQ (c 0) (c 1) (c 5) (c 4) s r by funext v; simp [wH, w8, hexItem, wQ, w4]; ring]
    exact form_quad (nd 0 (by omega) 1 (by omega) 5 (by omega) 4 (by omega) (by decide)) f2 rfl s r
  by_cases t1 : t = 1
  · subst t1
    left
    rw [fH_one2, show wH c s 1 r = wQ (c 3) (c 2) (c 6) (c 7) s r by funext v; simp [wH, w8, hexItem, wQ, w4]; ring]
    exact form_quad (nd 3 (by omega) 2 (by omega) 6 (by omega) 7 (by omega) (by decide)) f3 rfl s r
  by_cases r0 : r = 0
  · subst r0
    left
    rw [fH_zero3, show wH c s t 0 = wQ (c 0) (c 1) (c 2) (c 3) s t by funext v; simp [wH, w8, hexItem, wQ, w4]]
    exact form_quad (nd 0 (by omega) 1 (by omega) 2 (by omega) 3 (by omega) (by decide)) f0 rfl s t
  by_cases r1 : r = 1
  · subst r1
    left
    rw [fH_one3, show wH c s t 1 = wQ (c 4) (c 5) (c 6) (c 7) s t by funext v; simp [wH, w8, hexItem, wQ, w4]]
    exact form_quad (nd 4 (by omega) 5 (by omega) 6 (by omega) 7 (by omega) (by decide)) f1 rfl s t
  right
  have a : 1 - s ≠ 0 := sub_ne_zero.2 (Ne.symm s1)
  have b : 1 - t ≠ 0 := sub_ne_zero.2 (Ne.symm t1)
  have d : 1 - r ≠ 0 := sub_ne_zero.2 (Ne.symm r1)
  intro v
  constructor
  · intro h
    by_contra hcon
    push Not at hcon
    exact h (w8_out _ fun i hi => Ne.symm (hcon i hi))
  · rintro ⟨i, hi, rfl⟩
    rw [wH, w8_at hc _ hi]
    interval_cases i <;> simp [hexItem, s0, t0, r0, a, b, d]

/-- The weights in a hexahedron give the point. -/
theorem wH_inj {c : ℕ → ℕ} (hc : ∀ i < 8, ∀ j < 8, c i = c j → i = j) {s t r s' t' r' : K}
    (h : ∀ v, wH c s t r v = wH c s' t' r' v) : s = s' ∧ t = t' ∧ r = r' := by
  have e : ∀ i < 8, hexItem (1 - s) s (1 - t) t (1 - r) r i = hexItem (1 - s') s' (1 - t') t' (1 - r') r' i :=
    fun i hi => by
      rw [← w8_at hc (hexItem (1 - s) s (1 - t) t (1 - r) r) hi,
        ← w8_at hc (hexItem (1 - s') s' (1 - t') t' (1 - r') r') hi]
      exact h (c i)
  have e1 := e 1 (by omega)
  have e2 := e 2 (by omega)
  have e3 := e 3 (by omega)
  have e4 := e 4 (by omega)
  have e5 := e 5 (by omega)
  have e6 := e 6 (by omega)
  have e7 := e 7 (by omega)
  simp only [hexItem, OfNat.ofNat_ne_zero, OfNat.ofNat_eq_ofNat, Nat.reduceEqDiff, if_false, if_true, one_ne_zero,
    OfNat.ofNat_ne_one] at e1 e2 e3 e4 e5 e6 e7
  refine ⟨?_, ?_, ?_⟩
  · linear_combination e1 + e2 + e5 + e6
  · linear_combination e2 + e3 + e6 + e7
  · linear_combination e4 + e5 + e6 + e7

/-! ### The sums over the nodes -/

omit [CharZero K] in
theorem sum_pi1 (n : ℕ) (F : (Fin 1 → ℕ) → K) :
    ∑ m ∈ Fintype.piFinset fun _ : Fin 1 => range n, F m = ∑ i ∈ range n, F ![i] := by
  refine sum_nbij' (fun m => m 0) (fun i => ![i]) ?_ ?_ ?_ ?_ ?_
  · intro m hm; exact Fintype.mem_piFinset.1 hm 0
  · intro i hi; exact Fintype.mem_piFinset.2 fun d => by fin_cases d; exact hi
  · intro m _; funext d; fin_cases d; rfl
  · intro i _; rfl
  · intro m _; congr 1; funext d; fin_cases d; rfl

omit [CharZero K] in
theorem sum_pi2 (n : ℕ) (F : (Fin 2 → ℕ) → K) :
    ∑ m ∈ Fintype.piFinset fun _ : Fin 2 => range n, F m = ∑ i ∈ range n, ∑ j ∈ range n, F ![i, j] := by
  rw [← sum_product']
  refine sum_nbij' (fun m => (m 0, m 1)) (fun i => ![i.1, i.2]) ?_ ?_ ?_ ?_ ?_
  · intro m hm; exact mem_product.2 ⟨Fintype.mem_piFinset.1 hm 0, Fintype.mem_piFinset.1 hm 1⟩
  · intro i hi
    obtain ⟨h1, h2⟩ := mem_product.1 hi
    exact Fintype.mem_piFinset.2 fun d => by fin_cases d; exacts [h1, h2]
  · intro m _; funext d; fin_cases d <;> rfl
  · intro i _; rfl
  · intro m _; congr 1; funext d; fin_cases d <;> rfl

omit [CharZero K] in
theorem sum_pi3 (n : ℕ) (F : (Fin 3 → ℕ) → K) :
    ∑ m ∈ Fintype.piFinset fun _ : Fin 3 => range n, F m =
      ∑ i ∈ range n, ∑ j ∈ range n, ∑ k ∈ range n, F ![i, j, k] := by
  have : ∀ i, ∑ j ∈ range n, ∑ k ∈ range n, F ![i, j, k] = ∑ p ∈ range n ×ˢ range n, F ![i, p.1, p.2] := fun i => by
    rw [sum_product]
  simp only [this]
  rw [← sum_product']
  refine sum_nbij' (fun m => (m 0, m 1, m 2)) (fun i => ![i.1, i.2.1, i.2.2]) ?_ ?_ ?_ ?_ ?_
  · intro m hm
    exact mem_product.2 ⟨Fintype.mem_piFinset.1 hm 0,
      mem_product.2 ⟨Fintype.mem_piFinset.1 hm 1, Fintype.mem_piFinset.1 hm 2⟩⟩
  · intro i hi
    obtain ⟨h1, h2⟩ := mem_product.1 hi
    obtain ⟨h2, h3⟩ := mem_product.1 h2
    exact Fintype.mem_piFinset.2 fun d => by fin_cases d; exacts [h1, h2, h3]
  · intro m _; funext d; fin_cases d <;> rfl
  · intro i _; rfl
  · intro m _; congr 1; funext d; fin_cases d <;> rfl

/-- The row of a node with the given items in the directions. -/
def pairRow (o dim : ℕ) (m : Fin dim → ℕ) (k : ℕ) : ℕ :=
  if h : k / 2 < dim then (if k % 2 = 0 then o - m ⟨k / 2, h⟩ else m ⟨k / 2, h⟩) else 0

omit [CharZero K] in
theorem tensorLoc_congr {dim nV : ℕ} (hd : 1 ≤ dim ∧ dim ≤ 3) (hn : nV = 2 ^ dim) (conn : ℕ → ℕ) {row row' : ℕ → ℕ}
    (h : ∀ d < dim, row (2 * d) = row' (2 * d) ∧ row (2 * d + 1) = row' (2 * d + 1)) :
    tensorLoc dim nV conn row = tensorLoc dim nV conn row' := by
  funext v
  simp only [tensorLoc]
  refine sum_congr rfl fun i hi => ?_
  split_ifs
  · refine prod_congr rfl fun d hdd => ?_
    rw [mem_range] at hi hdd
    have := vertexMap_le dim i d hd (hn ▸ hi) hdd
    have : vertexMap dim i d = 0 ∨ vertexMap dim i d = 1 := by omega
    rcases this with e | e <;> rw [e]
    · exact (h d hdd).1
    · exact (h d hdd).2
  · rfl

/-- The value of a function of a tensor product element as a sum over the tuples. -/
theorem tensor_value {g : Gel} (hg : IsTensor g) {o : ℕ} (ho : 1 ≤ o) {d : FieldData} (M : MeshOk g d) (u : ℤ → K) :
    ∃ U : (ℕ → ℕ) → K, ∀ el < d.cells.length, ∀ ψ : ℕ → ℕ → K,
      fieldValue (setupGlobalBasis g (tensorNodes g o) o d).1 u
        (fun k => ∏ i ∈ range g.dim, ψ i (rowAt (tensorNodes g o) k (2 * i + 1))) (tensorNodes g o).length el =
      ∑ m ∈ Fintype.piFinset fun _ : Fin g.dim => range (o + 1), (∏ i : Fin g.dim, ψ i (m i)) *
        U (tensorLoc g.dim g.nV (d.conn (d.cells.getD el 0)) (pairRow o g.dim m)) := by
  set N := tensorNodes g o with hN
  set econn := (setupGlobalBasis g N o d).1 with he
  set loc : ℕ → ℕ → ℕ → ℕ := fun el k => tensorLoc g.dim g.nV (d.conn (d.cells.getD el 0)) (rowAt N k) with hloc
  have hconf : ∀ el < d.cells.length, ∀ el' < d.cells.length, ∀ k < N.length, ∀ k' < N.length,
      loc el k = loc el' k' → econn (el, k) = econn (el', k') := fun el hel el' hel' k hk k' hk' h =>
    (C55_conforming_tensor g hg o ho d M el el' k k' hel hel' hk hk').2 fun v => congrFun h v
  refine ⟨dofAt econn u N.length d.cells.length loc, fun el hel ψ => ?_⟩
  rw [← tensor_sum hg ho fun m => (∏ i : Fin g.dim, ψ i (m i)) *
        dofAt econn u N.length d.cells.length loc
          (tensorLoc g.dim g.nV (d.conn (d.cells.getD el 0)) (pairRow o g.dim m))]
  refine sum_congr rfl fun k hk => ?_
  rw [mem_range] at hk
  have hr := tensor_trow hg ho hk
  have h0 : ∀ d < g.dim, rowAt N k (2 * d) = o - rowAt N k (2 * d + 1) := fun d hd => by
    have := hr d hd; rw [← hN] at this; omega
  rw [← dofAt_eq u hconf hel hk]
  have hd : 1 ≤ g.dim ∧ g.dim ≤ 3 ∧ g.nV = 2 ^ g.dim := by rcases hg with rfl | rfl | rfl <;> decide
  congr 1
  · exact prod_range fun i => ψ i (rowAt N k (2 * i + 1))
  · congr 1
    refine tensorLoc_congr ⟨hd.1, hd.2.1⟩ hd.2.2 _ fun i hi => ?_
    have e1 : 2 * i / 2 = i := by omega
    have e2 : (2 * i + 1) / 2 = i := by omega
    constructor
    · rw [h0 i hi]
      rw [pairRow, dif_pos (by omega), if_pos (by omega)]
      simp only [e1]
      rfl
    · rw [pairRow, dif_pos (by omega), if_neg (by omega)]
      simp only [e2]
      rfl

end

end Verif.Fem

namespace Verif.Fem

open Finset

section
variable {K : Type} [Field K] [CharZero K] {φ : K → ℕ → K}

theorem around_symm {a b c d x y z w : ℕ} (h : [x, y, z, w] ∈ around a b c d) : [a, b, c, d] ∈ around x y z w := by
  simp only [around, List.mem_cons, List.cons.injEq, and_true, List.not_mem_nil, or_false] at h
  rcases h with ⟨rfl, rfl, rfl, rfl⟩ | ⟨rfl, rfl, rfl, rfl⟩ | ⟨rfl, rfl, rfl, rfl⟩ | ⟨rfl, rfl, rfl, rfl⟩ |
    ⟨rfl, rfl, rfl, rfl⟩ | ⟨rfl, rfl, rfl, rfl⟩ | ⟨rfl, rfl, rfl, rfl⟩ | ⟨rfl, rfl, rfl, rfl⟩ <;> simp [around]

theorem around_mem {a b c d x y z w : ℕ} (h : [x, y, z, w] ∈ around a b c d) (v : ℕ) :
    v ∈ [a, b, c, d] ↔ v ∈ [x, y, z, w] := by
  simp only [around, List.mem_cons, List.cons.injEq, and_true, List.not_mem_nil, or_false] at h ⊢
  rcases h with ⟨rfl, rfl, rfl, rfl⟩ | ⟨rfl, rfl, rfl, rfl⟩ | ⟨rfl, rfl, rfl, rfl⟩ | ⟨rfl, rfl, rfl, rfl⟩ |
    ⟨rfl, rfl, rfl, rfl⟩ | ⟨rfl, rfl, rfl, rfl⟩ | ⟨rfl, rfl, rfl, rfl⟩ | ⟨rfl, rfl, rfl, rfl⟩ <;> tauto

theorem hexFace_nodup (c : ℕ → ℕ) (hinj : ∀ i < 8, ∀ i' < 8, c i = c i' → i = i') (f : ℕ) (hf : f < 6)
    (i j k l : ℕ) (ef : gel38.faces.getD f [] = [i, j, k, l]) : [c i, c j, c k, c l].Nodup := by
  obtain ⟨-, h2, h3⟩ := gel38_faces f hf
  rw [ef] at h2 h3
  have : ([i, j, k, l].map c).Nodup := h2.map_on fun x hx y hy e => hinj x (h3 x hx) y (h3 y hy) e
  simpa using this

theorem hex_not_small (c : ℕ → ℕ) (wt : ℕ → K) (hinj : ∀ i < 8, ∀ i' < 8, c i = c i' → i = i')
    (h : ∀ v, wt v ≠ 0 ↔ ∃ i < 8, v = c i) (L : List ℕ) (hL : L.Nodup) (hlen : L.length ≤ 4) :
    ¬ ∀ v, wt v ≠ 0 ↔ v ∈ L := by
  intro hc
  have hn : ((List.range 8).map c).Nodup := List.nodup_range.map_on fun x hx y hy e =>
    hinj x (List.mem_range.1 hx) y (List.mem_range.1 hy) e
  have := (perm_of_mem hn hL fun v => by
    rw [← hc v, h v, List.mem_map]
    constructor
    · rintro ⟨i, hi, rfl⟩; exact ⟨i, List.mem_range.1 hi, rfl⟩
    · rintro ⟨i, hi, rfl⟩; exact ⟨i, List.mem_range.2 hi, rfl⟩).length_eq
  simp at this
  omega

theorem hex_value (o : ℕ) (U : (ℕ → ℕ) → K) (c : ℕ → ℕ) (bc : ℕ → ℕ → K) :
    (∑ m ∈ Fintype.piFinset fun _ : Fin 3 => range (o + 1), (∏ i : Fin 3, φ (bc i 1) (m i)) *
      U (tensorLoc 3 8 c (pairRow o 3 m))) = fH φ o U c (bc 0 1) (bc 1 1) (bc 2 1) := by
  rw [sum_pi3, fH]
  refine sum_congr rfl fun a _ => ?_
  rw [mul_sum]
  refine sum_congr rfl fun b _ => ?_
  rw [mul_sum, mul_sum]
  refine sum_congr rfl fun e _ => ?_
  rw [← mul_assoc, ← mul_assoc]
  congr 1
  · simp [Fin.prod_univ_succ, mul_assoc]
  · congr 1; funext v
    simp [tensorLoc, sum_range_succ, prod_range_succ, vertexMap, pairRow, w8, w1, hexItem]

theorem hex_weight (c : ℕ → ℕ) (bc : ℕ → ℕ → K) (h : ∀ i < 3, bc i 0 = 1 - bc i 1) :
    meshWeight 8 c (tensorWeight 3 bc) = wH c (bc 0 1) (bc 1 1) (bc 2 1) := by
  funext v
  simp [meshWeight, tensorWeight, sum_range_succ, prod_range_succ, vertexMap, wH, w8, w1, hexItem, h 0, h 1, h 2]

set_option maxHeartbeats 1000000 in
/-- The functions of a field on tensor product elements are continuous, when the basis functions are products of
symmetric 1D functions. -/
theorem continuous_tensor (g : Gel) (hg : IsTensor g) (o : ℕ) [Sym1 o φ] (ho : 1 ≤ o) (d : FieldData) (M : MeshOk g d)
    (u : ℤ → K) (el el' : ℕ) (hel : el < d.cells.length) (hel' : el' < d.cells.length) (bc bc' : ℕ → ℕ → K)
    (hb : ∀ i < g.dim, bc i 0 + bc i 1 = 1) (hb' : ∀ i < g.dim, bc' i 0 + bc' i 1 = 1)
    (hw : ∀ v, meshWeight g.nV (d.conn (d.cells.getD el 0)) (tensorWeight g.dim bc) v =
      meshWeight g.nV (d.conn (d.cells.getD el' 0)) (tensorWeight g.dim bc') v) :
    fieldValue (setupGlobalBasis g (tensorNodes g o) o d).1 u
        (fun k => ∏ i ∈ range g.dim, φ (bc i 1) (rowAt (tensorNodes g o) k (2 * i + 1))) (tensorNodes g o).length el =
      fieldValue (setupGlobalBasis g (tensorNodes g o) o d).1 u
        (fun k => ∏ i ∈ range g.dim, φ (bc' i 1) (rowAt (tensorNodes g o) k (2 * i + 1))) (tensorNodes g o).length
        el' := by
  obtain ⟨U, hU⟩ := tensor_value hg ho M u
  have hs : ∀ i < g.dim, bc i 0 = 1 - bc i 1 := fun i hi => by rw [← hb i hi]; ring
  have hs' : ∀ i < g.dim, bc' i 0 = 1 - bc' i 1 := fun i hi => by rw [← hb' i hi]; ring
  rw [hU el hel fun i => φ (bc i 1), hU el' hel' fun i => φ (bc' i 1)]
  have hmem : ∀ el < d.cells.length, d.cells.getD el 0 ∈ d.cells := fun el hel => by
    rw [List.getD_eq_getElem _ _ hel]; exact List.getElem_mem hel
  have hI := M.inj _ (hmem el hel)
  have hI' := M.inj _ (hmem el' hel')
  set c := d.conn (d.cells.getD el 0) with hc
  set c' := d.conn (d.cells.getD el' 0) with hc'
  rcases hg with rfl | rfl | rfl
  · -- segments
    have val : ∀ (c : ℕ → ℕ) (bc : ℕ → ℕ → K),
        (∑ m ∈ Fintype.piFinset fun _ : Fin 1 => range (o + 1), (∏ i : Fin 1, φ (bc i 1) (m i)) *
          U (tensorLoc 1 2 c (pairRow o 1 m))) = fE φ o 1 U (c 0) (c 1) (bc 0 1) := by
      intro c bc
      rw [sum_pi1, fE]
      refine sum_congr rfl fun a _ => ?_
      congr 1
      · simp
      · congr 1; funext v; simp [tensorLoc, sum_range_succ, vertexMap, pairRow, w2, w1]
    have wt : ∀ (c : ℕ → ℕ) (bc : ℕ → ℕ → K), (∀ i < 1, bc i 0 = 1 - bc i 1) →
        meshWeight 2 c (tensorWeight 1 bc) = w2 (c 0) (c 1) (1 - bc 0 1) (bc 0 1) := by
      intro c bc h
      funext v; simp [meshWeight, tensorWeight, sum_range_succ, vertexMap, w2, w1, h 0]
    refine (val c bc).trans (Eq.trans ?_ (val c' bc').symm)
    have e : w2 (c 0) (c 1) (1 - bc 0 1) (bc 0 1) = w2 (c' 0) (c' 1) (1 - bc' 0 1) (bc' 0 1) := by
      rw [← wt c bc hs, ← wt c' bc' hs']; exact funext hw
    have F : Form φ o 1 1 U (fun _ _ _ _ => False) (w2 (c 0) (c 1) (1 - bc 0 1) (bc 0 1)) (fE φ o 1 U (c 0) (c 1) (bc 0 1)) :=
      form_edge (fun h => absurd (hI 0 (by decide) 1 (by decide) h) (by decide)) _
    have F' : Form φ o 1 1 U (fun _ _ _ _ => False) (w2 (c' 0) (c' 1) (1 - bc' 0 1) (bc' 0 1))
        (fE φ o 1 U (c' 0) (c' 1) (bc' 0 1)) :=
      form_edge (fun h => absurd (hI' 0 (by decide) 1 (by decide) h) (by decide)) _
    rw [e] at F
    exact form_eq (fun _ _ _ _ _ _ _ _ h => h.elim) F F'
  · -- quadrilaterals
    have val : ∀ (c : ℕ → ℕ) (bc : ℕ → ℕ → K),
        (∑ m ∈ Fintype.piFinset fun _ : Fin 2 => range (o + 1), (∏ i : Fin 2, φ (bc i 1) (m i)) *
          U (tensorLoc 2 4 c (pairRow o 2 m))) = fQ φ o 1 U (c 0) (c 1) (c 2) (c 3) (bc 0 1) (bc 1 1) := by
      intro c bc
      rw [sum_pi2, fQ]
      refine sum_congr rfl fun a _ => ?_
      rw [mul_sum]
      refine sum_congr rfl fun b _ => ?_
      rw [← mul_assoc]
      congr 1
      · simp [Fin.prod_univ_succ]
      · congr 1; funext v
        simp [tensorLoc, sum_range_succ, prod_range_succ, vertexMap, pairRow, w4, w1]
    have wt : ∀ (c : ℕ → ℕ) (bc : ℕ → ℕ → K), (∀ i < 2, bc i 0 = 1 - bc i 1) →
        meshWeight 4 c (tensorWeight 2 bc) = wQ (c 0) (c 1) (c 2) (c 3) (bc 0 1) (bc 1 1) := by
      intro c bc h
      funext v
      simp [meshWeight, tensorWeight, sum_range_succ, prod_range_succ, vertexMap, wQ, w4, w1, h 0, h 1]
    refine (val c bc).trans (Eq.trans ?_ (val c' bc').symm)
    have e : wQ (c 0) (c 1) (c 2) (c 3) (bc 0 1) (bc 1 1) = wQ (c' 0) (c' 1) (c' 2) (c' 3) (bc' 0 1) (bc' 1 1) := by
      rw [← wt c bc hs, ← wt c' bc' hs']; exact funext hw
    have nd : ∀ c : ℕ → ℕ, (∀ i < 4, ∀ i' < 4, c i = c i' → i = i') → [c 0, c 1, c 2, c 3].Nodup := by
      intro c h
      have : ([0, 1, 2, 3].map c).Nodup := (by decide : [0, 1, 2, 3].Nodup).map_on fun x hx y hy e => by
        simp at hx hy
        exact h x (by omega) y (by omega) e
      simpa using this
    have F : Form φ o o 1 U (fun x y z w => [x, y, z, w] = [c 0, c 1, c 2, c 3])
        (wQ (c 0) (c 1) (c 2) (c 3) (bc 0 1) (bc 1 1)) (fQ φ o 1 U (c 0) (c 1) (c 2) (c 3) (bc 0 1) (bc 1 1)) :=
      form_quad (nd c hI) rfl (one_mul o).symm _ _
    have F' : Form φ o o 1 U (fun x y z w => [x, y, z, w] = [c' 0, c' 1, c' 2, c' 3])
        (wQ (c' 0) (c' 1) (c' 2) (c' 3) (bc' 0 1) (bc' 1 1))
        (fQ φ o 1 U (c' 0) (c' 1) (c' 2) (c' 3) (bc' 0 1) (bc' 1 1)) :=
      form_quad (nd c' hI') rfl (one_mul o).symm _ _
    rw [e] at F
    refine form_eq (fun x y z w x' y' z' w' h h' hp => ?_) F F'
    rw [h, h'] at hp
    have hmemc : ∀ (c : ℕ → ℕ) v, v ∈ [c 0, c 1, c 2, c 3] ↔ ∃ i < 4, v = c i := by
      intro c v
      constructor
      · intro hv
        simp at hv
        rcases hv with rfl | rfl | rfl | rfl
        exacts [⟨0, by omega, rfl⟩, ⟨1, by omega, rfl⟩, ⟨2, by omega, rfl⟩, ⟨3, by omega, rfl⟩]
      · rintro ⟨i, hi, rfl⟩
        interval_cases i <;> simp
    have : el = el' := M.cell el hel el' hel' fun v => by
      rw [← hc, ← hc']
      show (∃ i < 4, v = c i) ↔ ∃ i < 4, v = c' i
      rw [← hmemc, ← hmemc]
      exact hp.mem_iff
    have hcc : c = c' := by rw [hc, hc', this]
    rw [h', ← hcc, ← h]
    exact around_self _ _ _ _
  · -- hexahedra
    refine (hex_value o U c bc).trans (Eq.trans ?_ (hex_value o U c' bc').symm)
    have e : wH c (bc 0 1) (bc 1 1) (bc 2 1) = wH c' (bc' 0 1) (bc' 1 1) (bc' 2 1) := by
      rw [← hex_weight c bc hs, ← hex_weight c' bc' hs']; exact funext hw
    let face : (ℕ → ℕ) → ℕ → ℕ → ℕ → ℕ → Prop := fun c x y z w =>
      ∃ f < 6, ∃ i j k l, gel38.faces.getD f [] = [i, j, k, l] ∧ [x, y, z, w] ∈ around (c i) (c j) (c k) (c l)
    have hface : ∀ c : ℕ → ℕ, face c (c 0) (c 1) (c 2) (c 3) ∧ face c (c 4) (c 5) (c 6) (c 7) ∧
        face c (c 0) (c 1) (c 5) (c 4) ∧ face c (c 3) (c 2) (c 6) (c 7) ∧ face c (c 0) (c 3) (c 7) (c 4) ∧
        face c (c 1) (c 2) (c 6) (c 5) := fun c =>
      ⟨⟨0, by omega, _, _, _, _, rfl, by simp [around]⟩, ⟨3, by omega, _, _, _, _, rfl, by simp [around]⟩,
        ⟨2, by omega, _, _, _, _, rfl, by simp [around]⟩, ⟨5, by omega, _, _, _, _, rfl, by simp [around]⟩,
        ⟨1, by omega, _, _, _, _, rfl, by simp [around]⟩, ⟨4, by omega, _, _, _, _, rfl, by simp [around]⟩⟩
    obtain ⟨a0, a1, a2, a3, a4, a5⟩ := hface c
    obtain ⟨b0, b1, b2, b3, b4, b5⟩ := hface c'
    have F := hex_form (φ := φ) (o := o) (U := U) (face := face c) hI a0 a1 a2 a3 a4 a5 (bc 0 1) (bc 1 1) (bc 2 1)
    have F' := hex_form (φ := φ) (o := o) (U := U) (face := face c') hI' b0 b1 b2 b3 b4 b5 (bc' 0 1) (bc' 1 1) (bc' 2 1)
    have same : el = el' → fH φ o U c (bc 0 1) (bc 1 1) (bc 2 1) = fH φ o U c' (bc' 0 1) (bc' 1 1) (bc' 2 1) := by
      intro h
      have hcc : c = c' := by rw [hc, hc', h]
      rw [← hcc] at e ⊢
      obtain ⟨h1, h2, h3⟩ := wH_inj hI fun v => congrFun e v
      rw [h1, h2, h3]
    rcases F with F | F <;> rcases F' with F' | F'
    · rw [e] at F
      refine form_eq (fun x y z w x' y' z' w' h h' hp => ?_) F F'
      obtain ⟨f, hf, i, j, k, l, ef, hr⟩ := h
      obtain ⟨f', hf', i', j', k', l', ef', hr'⟩ := h'
      have hperm : ((gel38.faces.getD f []).map c).Perm ((gel38.faces.getD f' []).map c') := by
        rw [ef, ef']
        refine perm_of_mem (hexFace_nodup c hI f hf i j k l ef) (hexFace_nodup c' hI' f' hf' i' j' k' l' ef') fun v => ?_
        refine (around_mem hr v).trans (Iff.trans ?_ (around_mem hr' v).symm)
        exact hp.mem_iff
      have hid := (M.face_eq _ (hmem el hel) _ (hmem el' hel') f hf f' hf').2 hperm
      have hq := M.quad _ (hmem el hel) _ (hmem el' hel') f hf f' hf' hid (c i) (c j) (c k) (c l) (by rw [ef]; rfl)
      rw [ef'] at hq
      have hq : [c' i', c' j', c' k', c' l'] ∈ around (c i) (c j) (c k) (c l) := hq
      exact around_trans (around_symm hr) (around_trans hq hr')
    · obtain ⟨L, h1, h2, h3⟩ := form_supp F
      rw [e] at h3
      exact absurd h3 (hex_not_small c' _ hI' F' L h1 h2)
    · obtain ⟨L, h1, h2, h3⟩ := form_supp F'
      rw [← e] at h3
      exact absurd h3 (hex_not_small c _ hI F L h1 h2)
    · refine same (M.cell el hel el' hel' fun v => ?_)
      rw [← hc, ← hc']
      show (∃ i < 8, v = c i) ↔ ∃ i < 8, v = c' i
      rw [← F v, ← F' v, e]

/-- The value of a basis function of a node as a product of the 1D functions. -/
theorem tenVal_row {g : Gel} (hg : IsTensor g) {o : ℕ} (ho : 1 ≤ o) (bc : ℕ → ℕ → K)
    (hs : ∀ i < g.dim, bc i 0 + bc i 1 = 1) {k : ℕ} (hk : k < (tensorNodes g o).length) :
    tenVal g.dim o bc (rowAt (tensorNodes g o) k) =
      ∏ i ∈ range g.dim, lag1 o (bc i 1) (rowAt (tensorNodes g o) k (2 * i + 1)) := by
  have hr := tensor_trow hg ho hk
  rw [tenVal_eq]
  refine prod_congr rfl fun i hi => ?_
  rw [mem_range] at hi
  rw [lag2, lag1]
  simp only [add_zero]
  rw [show rowAt (tensorNodes g o) k (2 * i) = o - rowAt (tensorNodes g o) k (2 * i + 1) by
    have := hr i hi; omega, show bc i 0 = 1 - bc i 1 by rw [← hs i hi]; ring]

/-- **C57**: a function of a Lagrange field of any order on segments, quadrilaterals or hexahedra is continuous. -/
theorem C57_continuous_tensor (g : Gel) (hg : IsTensor g) (o : ℕ) (ho : 1 ≤ o) (d : FieldData) (M : MeshOk g d)
    (u : ℤ → K) (el el' : ℕ) (hel : el < d.cells.length) (hel' : el' < d.cells.length) (bc bc' : ℕ → ℕ → K)
    (hb : ∀ i < g.dim, bc i 0 + bc i 1 = 1) (hb' : ∀ i < g.dim, bc' i 0 + bc' i 1 = 1)
    (hw : ∀ v, meshWeight g.nV (d.conn (d.cells.getD el 0)) (tensorWeight g.dim bc) v =
      meshWeight g.nV (d.conn (d.cells.getD el' 0)) (tensorWeight g.dim bc') v) :
    fieldValue (setupGlobalBasis g (tensorNodes g o) o d).1 u
        (fun k => tenVal g.dim o bc (rowAt (tensorNodes g o) k)) (tensorNodes g o).length el =
      fieldValue (setupGlobalBasis g (tensorNodes g o) o d).1 u
        (fun k => tenVal g.dim o bc' (rowAt (tensorNodes g o) k)) (tensorNodes g o).length el' := by
  refine Eq.trans (sum_congr rfl fun k hk => ?_) ((continuous_tensor (φ := lag1 o) g hg o ho d M u el el' hel hel' bc bc'
    hb hb' hw).trans (sum_congr rfl fun k hk => ?_))
  · simp only [tenVal_row hg ho bc hb (mem_range.1 hk)]
  · simp only [tenVal_row hg ho bc' hb' (mem_range.1 hk)]

end

end Verif.Fem
