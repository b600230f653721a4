import Verif.Spl.Props
import Mathlib.Data.Matrix.Mul
import Mathlib.LinearAlgebra.Matrix.DotProduct

/-!
# Knot insertion (C129), approximation and surfaces (C130)
-/

namespace Verif.Spl

open Iga Finset

variable {K : Type} [Field K] [LinearOrder K] [IsStrictOrderedRing K]

/-- The knots `t (s + 1), ..., t (s + n)`. -/
def window (t : ℕ → K) (s n : ℕ) : List K := (List.range n).map fun j => t (s + 1 + j)

omit [LinearOrder K] [IsStrictOrderedRing K] in
theorem window_cons (t : ℕ → K) (s n : ℕ) : window t s (n + 1) = t (s + 1) :: window t (s + 1) n := by
  rw [window, List.range_succ_eq_map, List.map_cons, List.map_map, window]
  congr 1
  exact List.map_congr_left fun j _ => by simp only [Function.comp]; congr 1; omega

omit [LinearOrder K] [IsStrictOrderedRing K] in
theorem window_snoc (t : ℕ → K) (s n : ℕ) : window t s (n + 1) = window t s n ++ [t (s + n + 1)] := by
  rw [window, List.range_succ, List.map_append, List.map_singleton, window, show s + 1 + n = s + n + 1 by omega]

/-- A symmetric multiaffine function is the polar form with its values in the windows of knots. -/
theorem polar_unique {t : ℕ → K} {b : ℕ} (h : Span t b) (ys : List K) (hl : ys.length ≤ b) (G : List K → K)
    (hperm : ∀ l l' : List K, l.length = ys.length → l.Perm l' → G l = G l')
    (haff : ∀ (α y z : K) (l : List K), l.length + 1 = ys.length →
      G (((1 - α) * y + α * z) :: l) = (1 - α) * G (y :: l) + α * G (z :: l))
    (d : ℕ → K) (hd : ∀ l ≤ ys.length, d l = G (window t (b - ys.length + l) ys.length)) :
    polar t b ys d = G ys := by
  induction ys generalizing G d with
  | nil =>
    have := hd 0 le_rfl
    simpa [polar, dbSteps, window] using this
  | cons y ys ih =>
    rw [polar_cons]
    simp only [List.length_cons] at hl hperm haff hd
    refine ih (by omega) (fun l => G (y :: l)) (fun l l' h1 h2 => ?_) (fun α u v l h1 => ?_) _ fun l hl' => ?_
    · exact hperm _ _ (by simp [h1]) (h2.cons y)
    · have sw : ∀ w, G (y :: w :: l) = G (w :: y :: l) := fun w =>
        hperm _ _ (by simp; omega) (List.Perm.swap _ _ _)
      rw [sw, sw, sw]
      exact haff α u v (y :: l) (by simp; omega)
    · have hne := h.ne (q := ys.length) (by omega) hl'
      have w1 := hd l (by omega)
      have w2 := hd (l + 1) (by omega)
      rw [window_cons, show b - (ys.length + 1) + l + 1 = b - ys.length + l by omega] at w1
      rw [window_snoc, show b - (ys.length + 1) + (l + 1) = b - ys.length + l by omega,
        show b - ys.length + l + ys.length + 1 = b + 1 + l by omega,
        hperm _ (t (b + 1 + l) :: window t (b - ys.length + l) ys.length) (by simp [window])
          (by rw [← List.singleton_append]; exact List.perm_append_comm)] at w2
      set u := t (b - ys.length + l) with hu
      set v := t (b + 1 + l) with hv
      have hα : y = (1 - (y - u) / (v - u)) * u + (y - u) / (v - u) * v := by field_simp; ring
      have := haff ((y - u) / (v - u)) u v (window t (b - ys.length + l) ys.length) (by simp [window])
      rw [← hα] at this
      rw [this, dbStep, ← hu, ← hv, w1, w2]
      field_simp
      ring

/-- A window of old knots gives the control point. -/
theorem polar_window {t : ℕ → K} {a p i : ℕ} (h : Span t a) (hp : p ≤ a) (h1 : a - p ≤ i) (h2 : i ≤ a) (d : ℕ → K) :
    polar t a (window t i p) (fun l => d (a - p + l)) = d i := by
  have hd := polar_dual h (i - (a - p)) (a - i) (by omega) fun l => d (a - p + l)
  rw [show a - p + (i - (a - p)) = i by omega] at hd
  rw [← hd]
  refine (polar_perm h ?_ (by simp; omega) _).symm
  have hL : leftKnots t a (a - i) = window t i (a - i) := by
    unfold leftKnots window
    exact List.map_congr_left fun j _ => by congr 1; omega
  have hR : (rightKnots t a (i - (a - p))).Perm (window t a (i - (a - p))) := by
    have : rightKnots t a (i - (a - p)) = (window t a (i - (a - p))).reverse := by
      apply List.ext_getElem
      · simp [window]
      · intro j h3 h4
        simp [rightKnots, window] at h3 ⊢
        congr 1; omega
    rw [this]
    exact List.reverse_perm _
  have hw : window t i p = window t i (a - i) ++ window t a (i - (a - p)) := by
    have gen : ∀ u v, window t i (u + v) = window t i u ++ window t (i + u) v := by
      intro u v
      rw [window, List.range_add, List.map_append, List.map_map]
      unfold window
      congr 1
      exact List.map_congr_left fun j _ => by simp only [Function.comp]; congr 1; omega
    have := gen (a - i) (i - (a - p))
    rwa [show a - i + (i - (a - p)) = p by omega, show i + (a - i) = a by omega] at this
  rw [hw, hL]
  exact List.perm_append_comm.trans (hR.append_left _)

/-- Insertion for knots as functions: `t'` has the knot `new` after the knot `idx` of `t`. -/
theorem insert_fn {t t' : ℕ → K} (hm : Monotone t) (hm' : Monotone t') {idx p n : ℕ} {new : K}
    (h1 : ∀ i ≤ idx, t' i = t i) (h2 : t' (idx + 1) = new) (h3 : ∀ i, idx + 2 ≤ i → t' i = t (i - 1))
    (hi : t idx ≤ new) (hi' : new < t (idx + 1)) (hpi : p ≤ idx) (hin : idx < n) (hp : 1 ≤ p) (d d' : ℕ → K)
    (hd : ∀ i ≤ n, d' i = if idx + 1 - p ≤ i ∧ i < idx + 1 then
        (t (i + p) - new) / (t (i + p) - t i) * d (i - 1) + (new - t i) / (t (i + p) - t i) * d i
      else if i < idx + 1 - p then d i else d (i - 1)) {x : K} (hx : t p ≤ x) (hx' : x < t n) :
    ∑ i ∈ range (n + 1), bspline t' i p x * d' i = ∑ i ∈ range n, bspline t i p x * d i := by
  have hx2 : t' p ≤ x := by rw [h1 p hpi]; exact hx
  have hx3 : x < t' (n + 1) := by rw [h3 (n + 1) (by omega)]; simpa using hx'
  obtain ⟨b, hb, hbn, hbx, hbx'⟩ := exists_span hm' hx2 hx3
  have hsb : Span t' b := ⟨hm', hbx.trans_lt hbx'⟩
  rw [sum_polar hsb hb hbn hbx hbx' d']
  -- the old span
  obtain ⟨a, hab, ha, han, hax, hax'⟩ : ∃ a, (a = b ∧ b ≤ idx ∨ a + 1 = b ∧ idx + 1 ≤ b) ∧ p ≤ a ∧ a < n ∧ t a ≤ x ∧
      x < t (a + 1) := by
    rcases Nat.lt_or_ge idx b with h | h
    · refine ⟨b - 1, Or.inr ⟨by omega, h⟩, by omega, by omega, ?_, ?_⟩
      · by_cases hb1 : b = idx + 1
        · subst hb1
          rw [Nat.add_sub_cancel]
          rw [h2] at hbx
          exact hi.trans hbx
        · rwa [h3 b (by omega)] at hbx
      · rw [h3 (b + 1) (by omega)] at hbx'
        rwa [show b - 1 + 1 = b + 1 - 1 by omega]
    · refine ⟨b, Or.inl ⟨rfl, h⟩, hb, by omega, ?_, ?_⟩
      · rwa [h1 b h] at hbx
      · by_cases hb1 : b = idx
        · subst hb1
          rw [h2] at hbx'
          exact hbx'.trans hi'
        · rwa [h1 (b + 1) (by omega)] at hbx'
  have hsa : Span t a := ⟨hm, hax.trans_lt hax'⟩
  rw [sum_polar hsa ha han hax hax' d]
  refine polar_unique hsb (List.replicate p x) (by simpa using hb) (fun ys => polar t a ys fun l => d (a - p + l))
    (fun l l' hl hperm => ?_) (fun α y z l hl => ?_) _ fun l hl => ?_
  · refine polar_perm hsa hperm ?_ _
    rw [hl, List.length_replicate]; exact ha
  · refine polar_affine hsa α y z l ?_ _
    rw [List.length_replicate] at hl; omega
  · rw [List.length_replicate] at hl ⊢
    have hle : b - p + l ≤ n := by omega
    rw [hd _ hle]
    generalize hi0 : b - p + l = i at *
    by_cases c1 : idx + 1 - p ≤ i ∧ i < idx + 1
    · rw [if_pos c1]
      -- the window contains the new knot
      have hdpos : t (i + p) - t i ≠ 0 := by
        have e1 : t (idx + 1) ≤ t (i + p) := hm (by omega)
        have e2 : t i ≤ t idx := hm (by omega)
        intro hz; linarith
      have hwin : (window t' i p).Perm (new :: window t i (p - 1)) := by
        have hw : window t' i p = window t i (idx - i) ++ new :: window t idx (p - 1 - (idx - i)) := by
          apply List.ext_getElem
          · simp [window]; omega
          · intro j q1 q2
            simp only [window, List.length_map, List.length_range] at q1
            rw [List.getElem_append]
            simp only [window, List.getElem_map, List.getElem_range, List.length_map, List.length_range]
            split_ifs with q3
            · exact h1 _ (by omega)
            · by_cases q4 : j = idx - i
              · subst q4
                simp only [Nat.sub_self, List.getElem_cons_zero]
                rw [show i + 1 + (idx - i) = idx + 1 by omega]; exact h2
              · rw [List.getElem_cons, dif_neg (by omega)]
                simp only [List.getElem_map, List.getElem_range]
                rw [h3 _ (by omega)]
                congr 1; omega
        have hw2 : window t i (p - 1) = window t i (idx - i) ++ window t idx (p - 1 - (idx - i)) := by
          have hsum : p - 1 = (idx - i) + (p - 1 - (idx - i)) := by omega
          rw [window, hsum, List.range_add, List.map_append, List.map_map]
          unfold window
          congr 1
          rw [Nat.add_sub_cancel_left]
          exact List.map_congr_left fun j _ => by simp only [Function.comp]; congr 1; omega
        rw [hw, hw2]
        exact List.perm_middle
      rw [polar_perm hsa hwin (by simp [window]; omega)]
      have e1 := polar_window hsa ha (i := i) (by omega) (by omega) d
      have e2 := polar_window hsa ha (i := i - 1) (by omega) (by omega) d
      have q1 : window t (i - 1) p = t i :: window t i (p - 1) := by
        rw [show p = p - 1 + 1 by omega, window_cons, show i - 1 + 1 = i by omega, Nat.add_sub_cancel]
      have q2 : window t i p = window t i (p - 1) ++ [t (i + p)] := by
        have := window_snoc t i (p - 1)
        rwa [show p - 1 + 1 = p by omega, show i + (p - 1) + 1 = i + p by omega] at this
      rw [q1] at e2
      rw [q2, polar_perm hsa (zs := t (i + p) :: window t i (p - 1))
        (by rw [← List.singleton_append]; exact List.perm_append_comm) (by simp [window]; omega)] at e1
      have hα : new = (1 - (new - t i) / (t (i + p) - t i)) * t i + (new - t i) / (t (i + p) - t i) * t (i + p) := by
        field_simp; ring
      have haff := polar_affine hsa ((new - t i) / (t (i + p) - t i)) (t i) (t (i + p)) (window t i (p - 1))
        (by simp [window]; omega) fun l => d (a - p + l)
      rw [← hα] at haff
      rw [haff, e1, e2]
      field_simp
      ring
    · rw [if_neg c1]
      by_cases c2 : i < idx + 1 - p
      · rw [if_pos c2]
        have hw : window t' i p = window t i p :=
          List.map_congr_left fun j hj => h1 _ (by have := List.mem_range.1 hj; omega)
        rw [hw, polar_window hsa ha (by omega) (by omega)]
      · rw [if_neg c2]
        have hw : window t' i p = window t (i - 1) p :=
          List.map_congr_left fun j hj => by rw [h3 _ (by omega)]; congr 1; omega
        rw [hw, polar_window hsa ha (by omega) (by omega)]

/-- C129: knot insertion does not change the curve. -/
theorem C129_insert_knot {eps : K} (he : 0 ≤ eps) {dg : ℕ} (hdg : 1 ≤ dg) {kn cp : List K}
    (hlen : kn.length = cp.length + dg + 1) (h : Sep eps kn) {new : K} (hnew : knotFn kn dg ≤ new)
    (hnew' : new < knotFn kn cp.length) (hsep' : Sep eps (insertKnot dg kn cp new).1) {x : K}
    (hx : knotFn kn dg ≤ x) (hx' : x < knotFn kn cp.length) :
    evalCurve eps x dg (insertKnot dg kn cp new).1 (insertKnot dg kn cp new).2 = evalCurve eps x dg kn cp := by
  have hm := knotFn_mono h.sorted
  rw [evalCurve, evalCurve]
  simp only [C128_cox_de_boor he h, C128_cox_de_boor he hsep']
  have hm' := knotFn_mono hsep'.sorted
  revert hm'
  rw [insertKnot]
  cases hw : whereSpan kn new with
  | nil => intro _; rfl
  | cons idx r =>
    have hmem : idx ∈ whereSpan kn new := by rw [hw]; exact List.mem_cons_self
    rw [whereSpan, List.mem_filter, List.mem_range, decide_eq_true_eq] at hmem
    obtain ⟨hr, hs1, hs2⟩ := hmem
    have hd1 : dg ≤ idx := by
      by_contra hc
      exact absurd (hs2.trans_le (hm (show idx + 1 ≤ dg by omega))) (not_lt.2 hnew)
    have hd2 : idx < cp.length := by
      by_contra hc
      exact absurd (hnew'.trans_le (hm (show cp.length ≤ idx by omega))) (not_lt.2 hs1)
    simp only
    by_cases hmul : kn.countP (fun k => decide (k = new)) < dg
    · rw [if_pos hmul]
      intro hm'
      simp only [List.length_map, List.length_range]
      have hklen : (kn.take (idx + 1) ++ new :: kn.drop (idx + 1)).length = kn.length + 1 := by
        simp; omega
      refine insert_fn hm hm' (idx := idx) (new := new) (fun i hi => ?_) ?_ (fun i hi => ?_) hs1 hs2 hd1 hd2 hdg
        (fun i => cp.getD i 0) _ (fun i hi => ?_) hx hx'
      · rw [knotFn, knotFn, hklen, show min i (kn.length + 1 - 1) = i by omega, show min i (kn.length - 1) = i by omega,
          List.getD_append _ _ _ _ (by simp; omega), List.getD_eq_getElem _ _ (by simp; omega),
          List.getD_eq_getElem _ _ (by omega), List.getElem_take]
      · rw [knotFn, hklen, show min (idx + 1) (kn.length + 1 - 1) = idx + 1 by omega,
          List.getD_append_right _ _ _ _ (by simp)]
        simp [show min (idx + 1) kn.length = idx + 1 by omega]
      · rw [knotFn, knotFn, hklen, List.getD_append_right _ _ _ _ (by simp; omega), List.length_take,
          show min (idx + 1) kn.length = idx + 1 by omega]
        obtain ⟨q, hq⟩ : ∃ q, min i (kn.length + 1 - 1) - (idx + 1) = q + 1 :=
          ⟨min i (kn.length + 1 - 1) - (idx + 1) - 1, by omega⟩
        rw [hq, List.getD_cons_succ, List.getD_eq_getElem _ _ (by simp; omega), List.getD_eq_getElem _ _ (by omega),
          List.getElem_drop]
        congr 1; omega
      · rw [List.getD_eq_getElem _ _ (by simp; omega)]
        simp only [List.getElem_map, List.getElem_range]
    · rw [if_neg hmul]
      intro _; rfl

/-- C129: a knot of smaller multiplicity inside the parameter range is inserted: one more knot, in its
place, and one more control point. -/
theorem C129_inserted {dg : ℕ} {kn cp : List K} {new : K} (hs : kn.Pairwise (· ≤ ·))
    (hlen : kn.length = cp.length + dg + 1) (hnew : knotFn kn dg ≤ new) (hnew' : new < knotFn kn cp.length)
    (hmul : kn.countP (fun k => decide (k = new)) < dg) :
    (insertKnot dg kn cp new).1.Perm (new :: kn) ∧ (insertKnot dg kn cp new).1.Pairwise (· ≤ ·) ∧
    (insertKnot dg kn cp new).2.length = cp.length + 1 := by
  have hm := knotFn_mono hs
  obtain ⟨a, ha, han, hx, hx'⟩ := exists_span hm hnew hnew'
  rw [insertKnot]
  cases hw : whereSpan kn new with
  | nil =>
    have : a ∈ whereSpan kn new := by
      rw [whereSpan, List.mem_filter, List.mem_range, decide_eq_true_eq]
      exact ⟨by omega, hx, hx'⟩
    rw [hw] at this
    simp at this
  | cons idx r =>
    have hmem : idx ∈ whereSpan kn new := by rw [hw]; exact List.mem_cons_self
    rw [whereSpan, List.mem_filter, List.mem_range, decide_eq_true_eq] at hmem
    obtain ⟨hr, hs1, hs2⟩ := hmem
    simp only [if_pos hmul]
    refine ⟨?_, ?_, by simp⟩
    · refine List.perm_middle.trans ?_
      rw [List.take_append_drop]
    · rw [List.pairwise_append, List.pairwise_cons]
      have hleft : ∀ y ∈ kn.take (idx + 1), y ≤ new := by
        intro y hy
        obtain ⟨j, hj, rfl⟩ := List.getElem_of_mem hy
        rw [List.getElem_take]
        simp at hj
        refine le_trans ?_ hs1
        rw [knotFn, show min idx (kn.length - 1) = idx by omega, List.getD_eq_getElem _ _ (by omega)]
        rcases Nat.lt_or_ge j idx with hlt | hge
        · exact List.pairwise_iff_getElem.1 hs _ _ _ _ hlt
        · have : j = idx := by omega
          subst this; exact le_rfl
      have hright : ∀ y ∈ kn.drop (idx + 1), new ≤ y := by
        intro y hy
        obtain ⟨j, hj, rfl⟩ := List.getElem_of_mem hy
        rw [List.getElem_drop]
        simp at hj
        refine le_trans hs2.le ?_
        rw [knotFn, show min (idx + 1) (kn.length - 1) = idx + 1 by omega, List.getD_eq_getElem _ _ (by omega)]
        rcases Nat.eq_zero_or_pos j with hz | hpos
        · subst hz; exact le_rfl
        · exact List.pairwise_iff_getElem.1 hs _ _ _ _ (by omega)
      refine ⟨hs.sublist (List.take_sublist _ _), ⟨hright, hs.sublist (List.drop_sublist _ _)⟩, fun y hy z hz => ?_⟩
      rcases List.mem_cons.1 hz with rfl | hz
      · exact hleft y hy
      · exact (hleft y hy).trans (hright z hz)

example : insertKnot 2 [0, 0, 0, 1 / 2, 1, 1, 1] [1, 2, 4, (3 : ℚ)] (1 / 4) =
    ([0, 0, 0, 1 / 4, 1 / 2, 1, 1, 1], [1, 3 / 2, 5 / 2, 4, 3]) := by decide +kernel

example (x : ℚ) (h0 : 0 ≤ x) (h1 : x < 1) :
    evalCurve 0 x 2 [0, 0, 0, 1 / 4, 1 / 2, 1, 1, 1] [1, 3 / 2, 5 / 2, 4, 3] =
      evalCurve 0 x 2 [0, 0, 0, 1 / 2, 1, 1, 1] [1, 2, 4, 3] := by
  have e : insertKnot 2 [0, 0, 0, 1 / 2, 1, 1, 1] [1, 2, 4, (3 : ℚ)] (1 / 4) =
    ([0, 0, 0, 1 / 4, 1 / 2, 1, 1, 1], [1, 3 / 2, 5 / 2, 4, 3]) := by decide +kernel
  have := C129_insert_knot (eps := (0 : ℚ)) le_rfl (dg := 2) (by decide) (kn := [0, 0, 0, 1 / 2, 1, 1, 1])
    (cp := [1, 2, 4, 3]) (by decide) (by unfold Sep; decide +kernel) (new := 1 / 4) (by decide +kernel)
    (by decide +kernel) (by rw [e]; unfold Sep; decide +kernel) (x := x) (by simpa [knotFn] using h0)
    (by simpa [knotFn] using h1)
  rwa [e] at this

/-! ## C130 -/

open Matrix

omit [IsStrictOrderedRing K] [LinearOrder K] in
theorem normal_eq {m n : ℕ} {B : Matrix (Fin m) (Fin n) K} (h : IsUnit (Bᵀ * B).det) (y : Fin m → K) :
    Bᵀ *ᵥ (B *ᵥ ((Bᵀ * B)⁻¹ *ᵥ (Bᵀ *ᵥ y))) = Bᵀ *ᵥ y := by
  rw [Matrix.mulVec_mulVec, Matrix.mulVec_mulVec, Matrix.mul_nonsing_inv _ h, Matrix.one_mulVec]

/-- The square of the distance of the curve from the points. -/
def dist2 {m n : ℕ} (B : Matrix (Fin m) (Fin n) K) (y : Fin m → K) (c : Fin n → K) : K :=
  ∑ i, ((B *ᵥ c) i - y i) ^ 2

theorem ls_of_normal {m n : ℕ} {B : Matrix (Fin m) (Fin n) K} {y : Fin m → K} {c : Fin n → K}
    (h : Bᵀ *ᵥ (B *ᵥ c) = Bᵀ *ᵥ y) (c' : Fin n → K) : dist2 B y c ≤ dist2 B y c' := by
  have hz : ∑ i, (B *ᵥ (c' - c)) i * ((B *ᵥ c) i - y i) = 0 := by
    have h1 : Bᵀ *ᵥ (B *ᵥ c - y) = 0 := by rw [Matrix.mulVec_sub, h, sub_self]
    have h2 : (B *ᵥ (c' - c)) ⬝ᵥ (B *ᵥ c - y) = (c' - c) ⬝ᵥ (Bᵀ *ᵥ (B *ᵥ c - y)) := by
      rw [Matrix.dotProduct_mulVec, Matrix.vecMul_transpose]
    rw [h1, dotProduct_zero] at h2
    simpa [dotProduct] using h2
  have hexp : dist2 B y c' = dist2 B y c + ∑ i, (B *ᵥ (c' - c)) i ^ 2 +
      2 * ∑ i, (B *ᵥ (c' - c)) i * ((B *ᵥ c) i - y i) := by
    rw [dist2, dist2, mul_sum, ← sum_add_distrib, ← sum_add_distrib]
    refine sum_congr rfl fun i _ => ?_
    rw [Matrix.mulVec_sub, Pi.sub_apply]
    ring
  rw [hexp, hz]
  have : 0 ≤ ∑ i, (B *ᵥ (c' - c)) i ^ 2 := sum_nonneg fun i _ => sq_nonneg _
  linarith

/-- C130: `approximate()` gives the control points of the curve nearest to the points in the sense of least
squares (if the matrix is regular), and reproduces the control points of a curve of the same space. -/
theorem C130_least_squares {m n : ℕ} {B : Matrix (Fin m) (Fin n) K} (h : IsUnit (Bᵀ * B).det) (y : Fin m → K) :
    (∀ c, dist2 B y (fit B y) ≤ dist2 B y c) ∧ ∀ c, fit B (B *ᵥ c) = c := by
  refine ⟨ls_of_normal (normal_eq h y), fun c => ?_⟩
  rw [fit, Matrix.mulVec_mulVec, Matrix.mulVec_mulVec, Matrix.mul_assoc, Matrix.nonsing_inv_mul _ h,
    Matrix.one_mulVec]

omit [IsStrictOrderedRing K] [LinearOrder K] in
theorem cyclicR_apply {nred dg : ℕ} (h : dg ≤ nred) (z : Fin nred → K) (i : Fin (nred + dg)) :
    (cyclicR nred dg *ᵥ z) i = if hi : i.1 < nred then z ⟨i.1, hi⟩ else z ⟨i.1 - nred, by omega⟩ := by
  rw [Matrix.mulVec, dotProduct]
  split_ifs with hi
  · rw [sum_eq_single ⟨i.1, hi⟩]
    · simp [cyclicR]
    · intro j _ hj
      have h1 : i.1 ≠ j.1 := fun e => hj (Fin.ext e.symm)
      rw [cyclicR, if_neg h1, if_neg (by omega), zero_mul]
    · simp
  · rw [sum_eq_single ⟨i.1 - nred, by omega⟩]
    · rw [cyclicR, if_neg (by simp only; omega), if_pos ⟨by simp only; omega, by simp only; omega⟩, one_mul]
    · intro j _ hj
      have h1 : i.1 - nred ≠ j.1 := fun e => hj (Fin.ext e.symm)
      rw [cyclicR, if_neg (by omega), if_neg (by omega), zero_mul]
    · simp

/-- C130: for a cyclic curve the result is in the cyclic form and is the best of all such control points. -/
theorem C130_cyclic {m nred dg : ℕ} (hn : dg ≤ nred) {B : Matrix (Fin m) (Fin (nred + dg)) K}
    (h : IsUnit ((cyclicR nred dg)ᵀ * ((Bᵀ * B) * cyclicR nred dg)).det) (y : Fin m → K) :
    (∀ j (hj : j < dg), fitCyclic nred dg B y ⟨nred + j, by omega⟩ = fitCyclic nred dg B y ⟨j, by omega⟩) ∧
    ∀ c : Fin (nred + dg) → K, (∀ j (hj : j < dg), c ⟨nred + j, by omega⟩ = c ⟨j, by omega⟩) →
      dist2 B y (fitCyclic nred dg B y) ≤ dist2 B y c := by
  constructor
  · intro j hj
    rw [fitCyclic, cyclicR_apply hn, cyclicR_apply hn, dif_neg (by simp), dif_pos (by simp only; omega)]
    congr 2
    simp
  · intro c hc
    have hcR : c = cyclicR nred dg *ᵥ fun k => c ⟨k.1, by omega⟩ := by
      funext i
      rw [cyclicR_apply hn]
      split_ifs with hi
      · rfl
      · rw [← hc (i.1 - nred) (by omega)]
        congr 1
        exact Fin.ext (by simp only; omega)
    have hB : (cyclicR nred dg)ᵀ * ((Bᵀ * B) * cyclicR nred dg) =
        (B * cyclicR nred dg)ᵀ * (B * cyclicR nred dg) := by
      rw [Matrix.transpose_mul, Matrix.mul_assoc, Matrix.mul_assoc]
    have hls := ls_of_normal (normal_eq (B := B * cyclicR nred dg) (by rw [← hB]; exact h) y)
      (fun k => c ⟨k.1, by omega⟩)
    have e1 : ∀ z, dist2 (B * cyclicR nred dg) y z = dist2 B y (cyclicR nred dg *ᵥ z) := by
      intro z
      rw [dist2, dist2, Matrix.mulVec_mulVec]
    rw [e1, e1, ← hcR] at hls
    refine le_trans (le_of_eq ?_) hls
    rw [fitCyclic, hB, Matrix.transpose_mul, ← Matrix.mulVec_mulVec]

example : ∃ B : Matrix (Fin 3) (Fin 2) ℚ, IsUnit (Bᵀ * B).det :=
  ⟨!![1, 0; 1 / 2, 1 / 2; 0, 1], by
    rw [isUnit_iff_ne_zero, Matrix.det_fin_two]
    simp [Matrix.mul_apply, Fin.sum_univ_succ]
    norm_num⟩

omit [IsStrictOrderedRing K] in
/-- C130: a surface is the tensor product of the two bases. -/
theorem C130_surface (eps t0 t1 : K) (dg0 dg1 : ℕ) (kn0 kn1 : List K) (n0 n1 : ℕ) (cp : ℕ → ℕ → K) :
    evalSurf eps t0 t1 dg0 dg1 kn0 kn1 n0 n1 cp =
      ∑ i ∈ range n0, ∑ j ∈ range n1, basisDg eps t0 (knotFn kn0) dg0 i * basisDg eps t1 (knotFn kn1) dg1 j * cp i j := by
  rw [evalSurf]
  simp only [mul_sum]
  rw [sum_comm]
  exact sum_congr rfl fun i _ => sum_congr rfl fun j _ => by ring

/-- C130: the surface lies between the bounds of its control points. -/
theorem C130_surface_bounds {eps : K} (he : 0 ≤ eps) {kn0 kn1 : List K} (h0 : Sep eps kn0) (h1 : Sep eps kn1)
    {t0 t1 : K} {dg0 dg1 n0 n1 : ℕ} (a0 : knotFn kn0 dg0 ≤ t0) (b0 : t0 < knotFn kn0 n0)
    (a1 : knotFn kn1 dg1 ≤ t1) (b1 : t1 < knotFn kn1 n1) {cp : ℕ → ℕ → K} {lo hi : K}
    (hcp : ∀ i < n0, ∀ j < n1, lo ≤ cp i j ∧ cp i j ≤ hi) :
    lo ≤ evalSurf eps t0 t1 dg0 dg1 kn0 kn1 n0 n1 cp ∧ evalSurf eps t0 t1 dg0 dg1 kn0 kn1 n0 n1 cp ≤ hi := by
  have key : ∀ c : K, ∑ i ∈ range n0, ∑ j ∈ range n1,
      basisDg eps t0 (knotFn kn0) dg0 i * basisDg eps t1 (knotFn kn1) dg1 j * c = c := by
    intro c
    have e1 := C128_partition he h1 a1 b1
    have e0 := C128_partition he h0 a0 b0
    have : ∀ i, ∑ j ∈ range n1, basisDg eps t0 (knotFn kn0) dg0 i * basisDg eps t1 (knotFn kn1) dg1 j * c =
        basisDg eps t0 (knotFn kn0) dg0 i * c := by
      intro i
      rw [← sum_mul, ← mul_sum, e1, mul_one]
    simp only [this]
    rw [← sum_mul, e0, one_mul]
  have hw : ∀ i j, 0 ≤ basisDg eps t0 (knotFn kn0) dg0 i * basisDg eps t1 (knotFn kn1) dg1 j := fun i j =>
    mul_nonneg (C128_local he h0 t0 dg0 i).1 (C128_local he h1 t1 dg1 j).1
  rw [C130_surface]
  constructor
  · rw [← key lo]
    exact sum_le_sum fun i hi' => sum_le_sum fun j hj =>
      mul_le_mul_of_nonneg_left (hcp i (mem_range.1 hi') j (mem_range.1 hj)).1 (hw i j)
  · refine le_trans ?_ (key hi).le
    exact sum_le_sum fun i hi' => sum_le_sum fun j hj =>
      mul_le_mul_of_nonneg_left (hcp i (mem_range.1 hi') j (mem_range.1 hj)).2 (hw i j)

end Verif.Spl
