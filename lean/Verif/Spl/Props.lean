import Verif.Spl.Model
import Verif.Iga.ExtractMain
import Mathlib.Data.List.GetD
import Mathlib.Algebra.BigOperators.Intervals
import Mathlib.Algebra.Field.Rat
import Mathlib.Algebra.Order.Ring.Rat
import Mathlib.Tactic.Linarith
import Mathlib.Tactic.FieldSimp
import Mathlib.Tactic.Ring
import Mathlib.Tactic.Positivity

/-!
# B-spline basis and knot vectors (C128)
-/

namespace Verif.Spl

open Iga Finset

variable {K : Type} [Field K] [LinearOrder K]

/-- The knots are sorted, and two knots are equal or farther than `eps` from each other. -/
def Sep (eps : K) (kn : List K) : Prop := kn.Pairwise fun a b => a ≤ b ∧ (a = b ∨ eps < b - a)

variable [IsStrictOrderedRing K]

theorem Sep.sorted {eps : K} {kn : List K} (h : Sep eps kn) : kn.Pairwise (· ≤ ·) := h.imp fun h => h.1

theorem Sep.get {eps : K} {kn : List K} (h : Sep eps kn) {i j : ℕ} (hij : i ≤ j) :
    knotFn kn i = knotFn kn j ∨ eps < knotFn kn j - knotFn kn i := by
  unfold knotFn
  by_cases h0 : kn.length = 0
  · have : kn = [] := List.length_eq_zero_iff.1 h0
    subst this; left; simp
  · have hi : min i (kn.length - 1) < kn.length := by omega
    have hj : min j (kn.length - 1) < kn.length := by omega
    rw [List.getD_eq_getElem _ _ hi, List.getD_eq_getElem _ _ hj]
    rcases Nat.lt_or_ge (min i (kn.length - 1)) (min j (kn.length - 1)) with hlt | hge
    · exact (List.pairwise_iff_getElem.1 h _ _ hi hj hlt).2
    · left
      congr 1; omega

/-- C128: `basis_function_dg` evaluates the B-splines (the Cox - de Boor recursion). -/
theorem C128_cox_de_boor {eps : K} (he : 0 ≤ eps) {kn : List K} (h : Sep eps kn) (t : K) (d i : ℕ) :
    basisDg eps t (knotFn kn) d i = bspline (knotFn kn) i d t := by
  have hm := knotFn_mono h.sorted
  have key : ∀ a b, a ≤ b → ∀ c : K, (if |knotFn kn b - knotFn kn a| > eps then c / (knotFn kn b - knotFn kn a) else 0)
      = c / (knotFn kn b - knotFn kn a) := by
    intro a b hab c
    have hle := hm hab
    rw [abs_of_nonneg (by linarith)]
    rcases h.get hab with h1 | h1
    · rw [h1]; simp
    · rw [if_pos h1]
  induction d generalizing i with
  | zero => rfl
  | succ d ih =>
    rw [basisDg, bspline, ih, ih, ← key i (i + d + 1) (by omega), ← key (i + 1) (i + d + 2) (by omega)]
    simp only [show i + (d + 1) = i + d + 1 by omega, show i + d + 1 + 1 = i + d + 2 by omega]
    split_ifs <;> simp

theorem bspline_nonneg {t : ℕ → K} (hm : Monotone t) (i p : ℕ) (x : K) : 0 ≤ bspline t i p x := by
  induction p generalizing i with
  | zero => unfold bspline; split_ifs <;> simp
  | succ p ih =>
    rw [bspline]
    refine add_nonneg ?_ ?_
    · by_cases h : x < t i
      · rw [bspline_support hm i p x (Or.inl h), mul_zero]
      · exact mul_nonneg (div_nonneg (by linarith [not_lt.1 h]) (sub_nonneg.2 (hm (by omega)))) (ih i)
    · by_cases h : t (i + 1 + p + 1) ≤ x
      · rw [bspline_support hm (i + 1) p x (Or.inr h), mul_zero]
      · rw [show i + 1 + p + 1 = i + p + 2 by omega] at h
        exact mul_nonneg (div_nonneg (by linarith [not_le.1 h]) (sub_nonneg.2 (hm (by omega)))) (ih (i + 1))

/-- C128: the functions are non-negative, and vanish outside `[knots[i], knots[i + degree + 1])`. -/
theorem C128_local {eps : K} (he : 0 ≤ eps) {kn : List K} (h : Sep eps kn) (t : K) (d i : ℕ) :
    0 ≤ basisDg eps t (knotFn kn) d i ∧
    (t < knotFn kn i ∨ knotFn kn (i + d + 1) ≤ t → basisDg eps t (knotFn kn) d i = 0) := by
  rw [C128_cox_de_boor he h]
  exact ⟨bspline_nonneg (knotFn_mono h.sorted) i d t, bspline_support (knotFn_mono h.sorted) i d t⟩

/-- The span of a parameter. -/
theorem exists_span {t : ℕ → K} (hm : Monotone t) {p n : ℕ} {x : K} (h0 : t p ≤ x) (h1 : x < t n) :
    ∃ a, p ≤ a ∧ a < n ∧ t a ≤ x ∧ x < t (a + 1) := by
  have hpn : p < n ∨ n ≤ p := by omega
  have : ∀ m, p ≤ m → t m ≤ x ∨ ∃ a, p ≤ a ∧ a < m ∧ t a ≤ x ∧ x < t (a + 1) := by
    intro m hpm
    induction m, hpm using Nat.le_induction with
    | base => exact Or.inl h0
    | succ m hpm ih =>
      rcases ih with h | ⟨a, h2, h3, h4⟩
      · by_cases hx : t (m + 1) ≤ x
        · exact Or.inl hx
        · exact Or.inr ⟨m, hpm, by omega, h, not_le.1 hx⟩
      · exact Or.inr ⟨a, h2, by omega, h4⟩
  rcases hpn with hpn | hpn
  · rcases this n hpn.le with h | h
    · exact absurd h1 (not_lt.2 h)
    · exact h
  · exact absurd h1 (not_lt.2 ((hm hpn).trans h0))

theorem polar_one {t : ℕ → K} {a : ℕ} (h : Span t a) (ys : List K) (hl : ys.length ≤ a) :
    polar t a ys (fun _ => 1) = 1 := by
  induction ys with
  | nil => rfl
  | cons y ys ih =>
    rw [polar_cons]
    refine Eq.trans (polar_congr _ fun l hl' => ?_) (ih (by simp at hl; omega))
    have := h.ne (q := ys.length) (by simp at hl; omega) hl'
    unfold dbStep
    rw [div_eq_one_iff_eq this]
    ring

/-- On a span only `p + 1` functions count. -/
theorem sum_polar {t : ℕ → K} {a p n : ℕ} (h : Span t a) (hp : p ≤ a) (han : a < n) {x : K} (hx : t a ≤ x)
    (hx' : x < t (a + 1)) (d : ℕ → K) :
    ∑ i ∈ range n, bspline t i p x * d i = polar t a (List.replicate p x) fun l => d (a - p + l) := by
  rw [← bspline_polar h p hp x hx hx']
  have hinj : Set.InjOn (fun l => a - p + l) (range (p + 1) : Set ℕ) := by
    intro l _ m _ hlm
    simp only at hlm
    omega
  have him : ∑ l ∈ range (p + 1), d (a - p + l) * bspline t (a - p + l) p x =
      ∑ i ∈ (range (p + 1)).image (fun l => a - p + l), d i * bspline t i p x :=
    (sum_image (f := fun i => d i * bspline t i p x) hinj).symm
  rw [him]
  symm
  rw [sum_subset (s₂ := range n)]
  · exact sum_congr rfl fun i _ => mul_comm _ _
  · intro i hi
    obtain ⟨l, hl, rfl⟩ := mem_image.1 hi
    rw [mem_range] at hl ⊢
    omega
  · intro i hi hni
    rw [bspline_support h.mono i p x, mul_zero]
    by_cases hlt : i < a - p
    · exact Or.inr ((h.mono (by omega)).trans hx)
    · by_cases hgt : a < i
      · exact Or.inl (hx'.trans_le (h.mono (by omega)))
      · exact absurd (mem_image.2 ⟨i - (a - p), by rw [mem_range]; omega, by omega⟩) hni

/-- C128: the functions sum to one over the parameter range. -/
theorem C128_partition {eps : K} (he : 0 ≤ eps) {kn : List K} (h : Sep eps kn) {t : K} {d n : ℕ}
    (h0 : knotFn kn d ≤ t) (h1 : t < knotFn kn n) : ∑ i ∈ range n, basisDg eps t (knotFn kn) d i = 1 := by
  have hm := knotFn_mono h.sorted
  obtain ⟨a, ha, han, hx, hx'⟩ := exists_span hm h0 h1
  have hs : Span (knotFn kn) a := ⟨hm, hx.trans_lt hx'⟩
  have := sum_polar hs ha han hx hx' fun _ => 1
  rw [polar_one hs _ (by simpa using ha)] at this
  rw [← this]
  exact sum_congr rfl fun i _ => by rw [C128_cox_de_boor he h, mul_one]

/-! ### Clamped knot vectors -/

theorem linspace_get (r0 r1 : K) {n k : ℕ} (hk : k < n) :
    (linspace r0 r1 n).getD k 0 = r0 + (r1 - r0) * k / ((n - 1 : ℕ) : K) := by
  rw [List.getD_eq_getElem _ _ (by simpa [linspace] using hk)]
  simp [linspace]

theorem clamped_eq {dg ncp : ℕ} (h : dg < ncp) (r0 r1 : K) :
    clampedKnots dg ncp r0 r1 = (List.range (dg + ncp + 1)).map fun i : ℕ =>
      r0 + (r1 - r0) * ((min (i - dg) (ncp - dg) : ℕ) : K) / ((ncp - dg : ℕ) : K) := by
  have hn : dg + ncp + 1 - 2 * dg = ncp - dg + 1 := by omega
  have hne : ((ncp - dg : ℕ) : K) ≠ 0 := Nat.cast_ne_zero.2 (by omega)
  have hlast : (linspace r0 r1 (ncp - dg + 1)).getLastD 0 = r1 := by
    rw [linspace, List.range_succ, List.map_append, List.map_singleton, ← List.concat_eq_append]
    rw [List.concat_eq_append, Nat.add_sub_cancel, List.getLastD_eq_getLast?, List.getLast?_append]
    simp only [List.getLast?_singleton, Option.some_or, Option.getD_some]
    field_simp
    ring
  have hfirst : (linspace r0 r1 (ncp - dg + 1)).getD 0 0 = r0 := by
    rw [linspace_get r0 r1 (by omega)]; simp
  rw [clampedKnots, hn]
  simp only [hlast, hfirst]
  apply List.ext_getElem
  · simp [linspace]; omega
  · intro i h1 h2
    simp only [List.getElem_append, List.length_replicate, List.getElem_replicate, List.length_append, linspace,
      List.length_map, List.length_range, List.getElem_map, List.getElem_range, Nat.add_sub_cancel]
    simp [linspace] at h1
    split_ifs with h3 h4
    · rw [show min (i - dg) (ncp - dg) = 0 by omega]; simp
    · rw [show min (i - dg) (ncp - dg) = i - dg by omega]
    · rw [show min (i - dg) (ncp - dg) = ncp - dg by omega]
      field_simp
      ring

/-- C128: the clamped knot vector: its length, the `degree + 1` equal knots at both ends; the knots are
sorted and separated. -/
theorem C128_clamped {dg ncp : ℕ} (h : dg < ncp) {r0 r1 eps : K} (he : 0 ≤ eps)
    (hr : eps * ((ncp - dg : ℕ) : K) < r1 - r0) :
    (clampedKnots dg ncp r0 r1).length = dg + ncp + 1 ∧ Sep eps (clampedKnots dg ncp r0 r1) ∧
    (∀ i ≤ dg, knotFn (clampedKnots dg ncp r0 r1) i = r0) ∧
    (∀ i, ncp ≤ i → knotFn (clampedKnots dg ncp r0 r1) i = r1) ∧
    ∀ i, dg ≤ i → i < ncp → knotFn (clampedKnots dg ncp r0 r1) i < knotFn (clampedKnots dg ncp r0 r1) (i + 1) := by
  have hpos : (0 : K) < ((ncp - dg : ℕ) : K) := Nat.cast_pos.2 (by omega)
  have hr' : 0 < r1 - r0 := lt_of_le_of_lt (mul_nonneg he hpos.le) hr
  have hne := hpos.ne'
  have hkf : ∀ i, knotFn (clampedKnots dg ncp r0 r1) i =
      r0 + (r1 - r0) * ((min (i - dg) (ncp - dg) : ℕ) : K) / ((ncp - dg : ℕ) : K) := by
    intro i
    have hlen : (clampedKnots dg ncp r0 r1).length = dg + ncp + 1 := by rw [clamped_eq h]; simp
    rw [knotFn, hlen, List.getD_eq_getElem _ _ (by omega)]
    simp only [clamped_eq h, List.getElem_map, List.getElem_range]
    rw [show min (min i (dg + ncp + 1 - 1) - dg) (ncp - dg) = min (i - dg) (ncp - dg) by omega]
  refine ⟨by rw [clamped_eq h]; simp, ?_, ?_, ?_, ?_⟩
  · rw [clamped_eq h, Sep, List.pairwise_map]
    refine List.pairwise_lt_range.imp fun {a b} hab => ?_
    rcases Nat.lt_or_ge (min (a - dg) (ncp - dg)) (min (b - dg) (ncp - dg)) with hlt | hge
    · have h1 : ((min (a - dg) (ncp - dg) : ℕ) : K) + 1 ≤ ((min (b - dg) (ncp - dg) : ℕ) : K) := by
        exact_mod_cast hlt
      have h2 : eps < (r1 - r0) * ((min (b - dg) (ncp - dg) : ℕ) : K) / ((ncp - dg : ℕ) : K) -
          (r1 - r0) * ((min (a - dg) (ncp - dg) : ℕ) : K) / ((ncp - dg : ℕ) : K) := by
        rw [← sub_div, ← mul_sub, lt_div_iff₀ hpos]
        nlinarith
      exact ⟨by linarith, Or.inr (by linarith)⟩
    · have : min (a - dg) (ncp - dg) = min (b - dg) (ncp - dg) := by omega
      rw [this]
      exact ⟨le_rfl, Or.inl rfl⟩
  · intro i hi
    rw [hkf, show min (i - dg) (ncp - dg) = 0 by omega]; simp
  · intro i hi
    rw [hkf, show min (i - dg) (ncp - dg) = ncp - dg by omega]
    field_simp
    ring
  · intro i h1 h2
    rw [hkf, hkf, show min (i - dg) (ncp - dg) = i - dg by omega,
      show min (i + 1 - dg) (ncp - dg) = i - dg + 1 by omega]
    push_cast
    rw [add_lt_add_iff_left, div_lt_div_iff_of_pos_right hpos]
    nlinarith

/-- C128: a clamped curve starts in its first control point; in the end parameter itself all functions are
zero (the reason for the shift of the end parameter by `nm_f64_eps`). -/
theorem C128_ends {dg : ℕ} {cp : List K} (h : dg < cp.length) {r0 r1 eps : K} (he : 0 ≤ eps)
    (hr : eps * ((cp.length - dg : ℕ) : K) < r1 - r0) :
    evalCurve eps r0 dg (clampedKnots dg cp.length r0 r1) cp = cp.getD 0 0 ∧
    ∀ i < cp.length, basisDg eps r1 (knotFn (clampedKnots dg cp.length r0 r1)) dg i = 0 := by
  obtain ⟨hlen, hsep, hl, hrr, hlt⟩ := C128_clamped h he hr
  have hm := knotFn_mono hsep.sorted
  constructor
  · have hs : Span (knotFn (clampedKnots dg cp.length r0 r1)) dg := ⟨hm, hlt dg le_rfl h⟩
    have h1 := hlt dg le_rfl h
    rw [hl dg le_rfl] at h1
    have := sum_polar hs le_rfl h (hl dg le_rfl).le h1 fun i => cp.getD i 0
    rw [evalCurve, sum_congr rfl fun i _ => by rw [C128_cox_de_boor he hsep], this]
    have hd := polar_dual hs 0 dg (by omega) fun l => cp.getD (dg - dg + l) 0
    have hk : List.replicate dg r0 = rightKnots (knotFn (clampedKnots dg cp.length r0 r1)) dg 0 ++
        leftKnots (knotFn (clampedKnots dg cp.length r0 r1)) dg dg := by
      simp only [rightKnots, List.range_zero, List.map_nil, List.nil_append, leftKnots]
      symm
      rw [List.eq_replicate_iff]
      refine ⟨by simp, fun b hb => ?_⟩
      obtain ⟨j, hj, rfl⟩ := List.mem_map.1 hb
      rw [List.mem_range] at hj
      exact hl _ (by omega)
    rw [hk, hd]
    simp
  · intro i hi
    apply (C128_local he hsep r1 dg i).2
    by_cases hi' : i + dg + 1 ≤ cp.length
    · right
      exact (hm hi').trans (hrr cp.length le_rfl).le
    · right
      exact (hrr _ (by omega)).le

/-! ### Cyclic curves -/

theorem cyclic_eq {dg ncp : ℕ} (h : dg < ncp) :
    cyclicKnots dg ncp (0 : K) 1 = (List.range (dg + ncp + 1)).map fun i : ℕ =>
      ((i : K) - dg) * (1 / ((ncp - dg : ℕ) : K)) := by
  have hn : dg + ncp + 1 - 2 * dg = ncp - dg + 1 := by omega
  have hne : ((ncp - dg : ℕ) : K) ≠ 0 := Nat.cast_ne_zero.2 (by omega)
  have hdd : (linspace (0 : K) 1 (ncp - dg + 1)).getD 1 0 = 1 / ((ncp - dg : ℕ) : K) := by
    rw [linspace_get _ _ (by omega)]; simp
  rw [cyclicKnots, hn]
  simp only [hdd]
  apply List.ext_getElem
  · simp [linspace]; omega
  · intro i h1 h2
    simp [linspace] at h1
    simp only [List.getElem_append, List.length_append, linspace, List.length_map, List.length_range,
      List.getElem_map, List.getElem_range, Nat.add_sub_cancel]
    split_ifs with h3 h4
    · rfl
    · rw [Nat.cast_sub (by omega)]; simp [div_eq_mul_inv]
    · rw [Nat.cast_sub (by omega)]
      have hc : ((ncp - dg : ℕ) : K) = (ncp : K) - dg := Nat.cast_sub h.le
      have hne' : (ncp : K) - dg ≠ 0 := hc ▸ hne
      rw [hc]
      push_cast [show dg ≤ ncp by omega]
      field_simp
      ring

theorem bspline_shift {t t' : ℕ → K} (s : K) (m i p : ℕ) (h : ∀ j, i ≤ j → j ≤ i + p + 1 → t' (j + m) = t j + s)
    (x : K) : bspline t' (i + m) p (x + s) = bspline t i p x := by
  induction p generalizing i with
  | zero =>
    unfold bspline
    rw [h i le_rfl (by omega), show i + m + 1 = i + 1 + m by omega, h (i + 1) (by omega) (by omega)]
    simp
  | succ p ih =>
    rw [bspline, bspline, ih i fun j h1 h2 => h j h1 (by omega)]
    rw [show i + m + 1 = i + 1 + m by omega, ih (i + 1) fun j h1 h2 => h j (by omega) (by omega)]
    rw [show i + m + p + 1 = i + p + 1 + m by omega, show i + m + p + 2 = i + p + 2 + m by omega,
      h i le_rfl (by omega), h (i + p + 1) (by omega) (by omega), h (i + p + 2) (by omega) (by omega),
      h (i + 1) (by omega) (by omega)]
    congr 2 <;> congr 1 <;> ring

theorem bspline_left {t : ℕ → K} (hm : Monotone t) {i p : ℕ} (hp : 1 ≤ p) (h : t i < t (i + 1)) :
    bspline t i p (t i) = 0 := by
  obtain ⟨p, rfl⟩ := Nat.exists_eq_succ_of_ne_zero (show p ≠ 0 by omega)
  rw [bspline, bspline_support hm (i + 1) p (t i) (Or.inl h)]
  simp

/-- C128: a cyclic curve (control points repeated, default range) is closed: it has the same value in both
end parameters; the unique control points are given back. -/
theorem C128_cyclic_closed {dg : ℕ} (hd : 1 ≤ dg) {cp : List K} (h : dg ≤ cp.length) {eps : K} (he : 0 ≤ eps)
    (hr : eps * (cp.length : K) < 1) :
    evalCurve eps 0 dg (cyclicKnots dg (cp.length + dg) 0 1) (cyclicForm dg cp) =
      evalCurve eps 1 dg (cyclicKnots dg (cp.length + dg) 0 1) (cyclicForm dg cp) ∧
    uniquePoints dg (cyclicForm dg cp) = cp := by
  have hn0 : 0 < cp.length := by omega
  have hpos : (0 : K) < (cp.length : K) := Nat.cast_pos.2 hn0
  have hne := hpos.ne'
  have hlen : (cyclicForm dg cp).length = cp.length + dg := by simp [cyclicForm, h]
  have heq := cyclic_eq (K := K) (show dg < cp.length + dg by omega)
  rw [Nat.add_sub_cancel] at heq
  have hkf : ∀ i, i ≤ dg + (cp.length + dg) → knotFn (cyclicKnots dg (cp.length + dg) (0 : K) 1) i =
      ((i : K) - dg) * (1 / (cp.length : K)) := by
    intro i hi
    rw [knotFn, heq, List.length_map, List.length_range, List.getD_eq_getElem _ _ (by simp)]
    simp only [List.getElem_map, List.getElem_range]
    rw [show min i (dg + (cp.length + dg) + 1 - 1) = i by omega]
  have hsep : Sep eps (cyclicKnots dg (cp.length + dg) (0 : K) 1) := by
    rw [heq, Sep, List.pairwise_map]
    refine List.pairwise_lt_range.imp fun {a b} hab => ?_
    have h1 : (a : K) + 1 ≤ b := by exact_mod_cast hab
    have hi : 0 < 1 / (cp.length : K) := by positivity
    have h2 : eps < 1 / (cp.length : K) := by rwa [lt_div_iff₀ hpos]
    have h3 : 1 / (cp.length : K) ≤ ((b : K) - dg) * (1 / (cp.length : K)) - ((a : K) - dg) * (1 / (cp.length : K)) := by
      nlinarith
    exact ⟨by linarith, Or.inr (by linarith)⟩
  have hm := knotFn_mono hsep.sorted
  set t := knotFn (cyclicKnots dg (cp.length + dg) (0 : K) 1) with ht
  have ht0 : t dg = 0 := by rw [hkf dg (by omega), sub_self, zero_mul]
  have ht1 : t (cp.length + dg) = 1 := by
    rw [hkf _ (by omega)]; push_cast; rw [add_sub_cancel_right, mul_one_div_cancel hne]
  have hlt : t dg < t (dg + 1) := by
    rw [hkf _ (by omega), hkf _ (by omega)]
    have hi : 0 < 1 / (cp.length : K) := by positivity
    push_cast
    nlinarith
  refine ⟨?_, by simp [uniquePoints, cyclicForm, h]⟩
  rw [evalCurve, evalCurve, hlen]
  simp only [C128_cox_de_boor he hsep]
  rw [← ht]
  have e0 : ∑ i ∈ range (cp.length + dg), bspline t i dg 0 * (cyclicForm dg cp).getD i 0 =
      ∑ i ∈ range dg, bspline t i dg 0 * (cyclicForm dg cp).getD i 0 := by
    symm
    refine sum_subset (fun i hi => by rw [mem_range] at hi ⊢; omega) fun i hi hni => ?_
    rw [mem_range] at hi hni
    have : bspline t i dg 0 = 0 := by
      by_cases hid : i = dg
      · subst hid
        have := bspline_left hm hd hlt
        rwa [ht0] at this
      · refine bspline_support hm _ _ _ (Or.inl ?_)
        rw [← ht0]
        exact hlt.trans_le (hm (by omega))
    rw [this, zero_mul]
  have e1 : ∑ i ∈ range (cp.length + dg), bspline t i dg 1 * (cyclicForm dg cp).getD i 0 =
      ∑ j ∈ range dg, bspline t (cp.length + j) dg 1 * (cyclicForm dg cp).getD (cp.length + j) 0 := by
    rw [sum_range_add]
    rw [sum_eq_zero, zero_add]
    intro i hi
    rw [mem_range] at hi
    rw [bspline_support hm _ _ _ (Or.inr ?_), zero_mul]
    rw [← ht1]
    exact hm (by omega)
  rw [e0, e1]
  refine sum_congr rfl fun j hj => ?_
  rw [mem_range] at hj
  have hs := bspline_shift (t := t) (t' := t) 1 cp.length j dg (fun k _ hk => by
    rw [hkf _ (by omega), hkf _ (by omega)]
    push_cast
    field_simp
    ring) 0
  rw [zero_add] at hs
  rw [Nat.add_comm cp.length j, hs]
  congr 1
  have e2 : (cyclicForm dg cp).getD (j + cp.length) 0 = cp.getD j 0 := by
    rw [cyclicForm, List.getD_append_right _ _ _ _ (by omega), Nat.add_sub_cancel,
      List.getD_eq_getElem _ _ (by simp; omega), List.getD_eq_getElem _ _ (by omega)]
    simp
  rw [e2, cyclicForm, List.getD_append _ _ _ _ (by omega)]

/-- C128: for another parameter range the cyclic knot vector is wrong: it need not even be sorted. -/
theorem C128_cyclic_range_fails : ¬ (cyclicKnots 1 3 (0 : ℚ) 3).Pairwise (· ≤ ·) := by decide +kernel

example : (clampedKnots 2 4 (0 : ℚ) 1) = [0, 0, 0, 1 / 2, 1, 1, 1] ∧
    evalCurve 0 (1 / 4 : ℚ) 2 (clampedKnots 2 4 (0 : ℚ) 1) [1, 2, 4, 3] = 2 := by decide +kernel

end Verif.Spl
