import Verif.Iga.ExtractProofs

/-!
# The extraction theorem
-/

namespace Iga

variable {K : Type*} [Field K] [LinearOrder K] [IsStrictOrderedRing K]

theorem insertKnots_spec {t : ℕ → K} {a p m : ℕ} {cc : Op K} (h : Span t a) (hp : p ≤ a)
    (hm1 : 1 ≤ m) (hm : ∀ x, 1 ≤ x → x ≤ m → t (a + x) = t (a + 1)) (I : Ins t a p m 0 cc)
    (hn : Bool) :
    Final t p a (insertKnots t a (a + m) p m hn cc eye).1 ∧
    (hn = true → Span t (a + m) → Ins t (a + m) p m 0 (insertKnots t a (a + m) p m hn cc eye).2) := by
  unfold insertKnots
  by_cases hmp : m < p
  · rw [if_pos hmp]
    obtain ⟨I', N⟩ := insert_loop h hp hm1 hmp (hm m hm1 le_rfl) I hn (p - m) le_rfl
    exact ⟨ins_final hm1 hm _ le_rfl I', fun hb h' => next_start h h' hp hm1 hm (N hb)⟩
  · rw [if_neg hmp]
    refine ⟨ins_final hm1 hm 0 (by omega) I, fun _ h' => next_start h h' hp hm1 hm ?_⟩
    intro k hk
    rw [if_neg (by omega)]
    exact fun i => rfl

/-- The spans from `a` on. -/
def spansFrom (t : ℕ → K) (n p a : ℕ) : List ℕ :=
  (List.range' a (n - p - 1 - a)).filter fun a => decide (t a < t (a + 1))

theorem spansFrom_last {t : ℕ → K} {n p a : ℕ} (h : t a < t (a + 1)) (ha : a + p + 2 ≤ n)
    (hc : ∀ x, a + 1 ≤ x → x + p + 1 ≤ n → t x = t (a + 1)) : spansFrom t n p a = [a] := by
  unfold spansFrom
  rw [show n - p - 1 - a = (n - p - 2 - a) + 1 by omega, List.range'_succ, List.filter_cons,
    if_pos (by simpa using h), List.filter_eq_nil_iff.2]
  intro x hx
  rw [List.mem_range'_1] at hx
  rw [hc x (by omega) (by omega), hc (x + 1) (by omega) (by omega)]
  simp

theorem spansFrom_next {t : ℕ → K} {n p a m : ℕ} (h : t a < t (a + 1)) (hm1 : 1 ≤ m)
    (ha : a + m + p + 2 ≤ n)
    (hm : ∀ x, 1 ≤ x → x ≤ m → t (a + x) = t (a + 1)) :
    spansFrom t n p a = a :: spansFrom t n p (a + m) := by
  unfold spansFrom
  have e : List.range' a (n - p - 1 - a)
      = a :: (List.range' (a + 1) (m - 1) ++ List.range' (a + m) (n - p - 1 - (a + m))) := by
    rw [show n - p - 1 - a = ((m - 1) + (n - p - 1 - (a + m))) + 1 by omega, List.range'_succ]
    congr 1
    have := (List.range'_append_1 (s := a + 1) (m := m - 1) (n := n - p - 1 - (a + m))).symm
    rw [this, show a + 1 + (m - 1) = a + m by omega]
  rw [e, List.filter_cons, if_pos (by simpa using h), List.filter_append]
  rw [List.filter_eq_nil_iff.2, List.nil_append]
  intro x hx
  rw [List.mem_range'_1] at hx
  have e1 := hm (x - a) (by omega) (by omega)
  have e2 := hm (x + 1 - a) (by omega) (by omega)
  rw [show a + (x - a) = x by omega] at e1
  rw [show a + (x + 1 - a) = x + 1 by omega] at e2
  rw [e1, e2]; simp

theorem extractLoop_spec {t : ℕ → K} {n p : ℕ} (hmono : Monotone t)
    (hlast : ∀ i, n - p - 1 ≤ i → i < n → t i = t (n - p - 1)) (fuel a : ℕ) (hf : n ≤ fuel + a + 1)
    (h : t a < t (a + 1)) (hp : p ≤ a) (ha : a + p + 2 ≤ n) (done : List (Op K)) (cc : Op K)
    (I : Ins t a p 1 0 cc) :
    ∃ cs, extractLoop t n p fuel a (a + 1) done cc = done ++ cs ∧
      List.Forall₂ (Final t p) (spansFrom t n p a) cs := by
  induction fuel generalizing a done cc with
  | zero => omega
  | succ fuel ih =>
    unfold extractLoop
    by_cases hb : a + 1 + 1 < n
    · rw [if_pos hb]
      obtain ⟨s1, s2, s3, s4⟩ := scanKnot_spec t n n (a + 1) (by omega) (by omega)
      generalize scanKnot t n n (a + 1) = b at s1 s2 s3 s4 ⊢
      obtain ⟨m, rfl⟩ : ∃ m, b = a + m := ⟨b - a, by omega⟩
      have hm1 : 1 ≤ m := by omega
      have hm : ∀ x, 1 ≤ x → x ≤ m → t (a + x) = t (a + 1) := fun x h1 h2 => s3 _ (by omega) (by omega)
      obtain ⟨E, N⟩ := insertKnots_spec ⟨hmono, h⟩ hp hm1 hm (ins_zero I m) (decide (a + m + 1 < n))
      simp only [show a + m - (a + 1) + 1 = m by omega]
      by_cases hn : a + m + 1 < n
      · rw [if_pos hn]
        have hlt : t (a + m) < t (a + m + 1) := lt_of_le_of_ne (hmono (by omega)) (s4 hn)
        have hle : a + m + p + 2 ≤ n := by
          by_contra hc
          exact s4 hn ((hlast (a + m) (by omega) (by omega)).trans (hlast (a + m + 1) (by omega) hn).symm)
        obtain ⟨cs, e, F⟩ := ih (a + m) (by omega) hlt (by omega) hle
          (done ++ [(insertKnots t a (a + m) p m (decide (a + m + 1 < n)) cc eye).1]) _
          (ins_zero (N (by simpa using hn) ⟨hmono, hlt⟩) 1)
        refine ⟨(insertKnots t a (a + m) p m (decide (a + m + 1 < n)) cc eye).1 :: cs, ?_, ?_⟩
        · rw [e]; simp
        · rw [spansFrom_next h hm1 hle hm]
          exact List.Forall₂.cons E F
      · rw [if_neg hn]
        refine ⟨[_], rfl, ?_⟩
        rw [spansFrom_last h ha fun x h1 h2 => ?_]
        · exact List.Forall₂.cons E List.Forall₂.nil
        · exact s3 x h1 (by omega)
    · rw [if_neg hb]
      refine ⟨[cc], rfl, ?_⟩
      rw [spansFrom_last h ha fun x h1 h2 => by rw [show x = a + 1 by omega]]
      refine List.Forall₂.cons ?_ List.Forall₂.nil
      exact ins_final le_rfl (fun x h1 h2 => by rw [show x = 1 by omega]) 0
        (by omega) I

theorem knotFn_mono {knots : List K} (h : knots.Pairwise (· ≤ ·)) : Monotone (knotFn knots) := by
  intro i j hij
  unfold knotFn
  rcases Nat.eq_zero_or_pos knots.length with h0 | h0
  · have : knots = [] := List.length_eq_zero_iff.1 h0
    subst this; simp
  · rw [List.getD_eq_getElem _ _ (show min i (knots.length - 1) < knots.length by omega),
      List.getD_eq_getElem _ _ (show min j (knots.length - 1) < knots.length by omega)]
    rcases Nat.eq_or_lt_of_le (show min i (knots.length - 1) ≤ min j (knots.length - 1) by omega) with e | e
    · simp [e]
    · exact List.pairwise_iff_getElem.1 h _ _ _ _ e

theorem spans_eq {knots : List K} {p : ℕ} (h : Clamped knots p) :
    spans knots p = spansFrom (knotFn knots) knots.length p p := by
  have hl := h.long
  unfold spans spansFrom
  have e : List.range (knots.length - p - 1)
      = List.range p ++ List.range' p (knots.length - p - 1 - p) := by
    rw [List.range_eq_range', List.range_eq_range',
      show knots.length - p - 1 = p + (knots.length - p - 1 - p) by omega, ← List.range'_append_1]
    simp
  rw [e, List.filter_append, List.filter_eq_nil_iff.2, List.nil_append]
  · apply List.filter_congr
    intro x hx
    rw [List.mem_range'_1] at hx
    simp [hx.1]
  · intro x hx
    have := List.mem_range.1 hx
    simp; omega

theorem extraction_final (knots : List K) (p : ℕ) (h : Clamped knots p) :
    List.Forall₂ (Final (knotFn knots) p) (spans knots p) (computeBezierExtraction1d knots p) := by
  have hl := h.long
  have hmono := knotFn_mono h.sorted
  have I : Ins (knotFn knots) p p 1 0 eye := by
    refine ⟨fun k hk => ?_, fun i k hk hik => ?_⟩
    · exact eye_col ⟨hmono, h.firstLt⟩ le_rfl hk (fun x hx => h.first _ (by omega)) fun i => rfl
    · unfold eye; rw [if_neg (by omega)]
  obtain ⟨cs, e, F⟩ := extractLoop_spec (n := knots.length) hmono h.last knots.length p (by omega)
    h.firstLt le_rfl (by omega) [] eye I
  rw [spans_eq h]
  unfold computeBezierExtraction1d
  rw [e]
  exact F

theorem mem_spans {knots : List K} {p a : ℕ} (h : a ∈ spans knots p) :
    p ≤ a ∧ a + p + 2 ≤ knots.length ∧ knotFn knots a < knotFn knots (a + 1) := by
  unfold spans at h
  rw [List.mem_filter, List.mem_range] at h
  simp only [decide_eq_true_eq] at h
  exact ⟨h.2.1, by omega, h.2.2⟩

theorem forall₂_mem_left {α β : Type*} {R S : α → β → Prop} {l : List α} {l' : List β}
    (h : List.Forall₂ R l l') (hi : ∀ a b, a ∈ l → R a b → S a b) : List.Forall₂ S l l' := by
  induction h with
  | nil => exact List.Forall₂.nil
  | cons hr _ ih =>
    exact List.Forall₂.cons (hi _ _ (List.mem_cons_self ..) hr)
      (ih fun a b ha => hi a b (List.mem_cons_of_mem _ ha))

/-- **C76.** For every clamped knot vector and every degree, `compute_bezier_extraction_1d` gives
exactly one operator for every non-empty knot span, in the order of the spans, and on each span every
B-spline that does not vanish there (Cox – de Boor) is the corresponding row of the operator times the
Bernstein basis in the local coordinate. -/
theorem C76_bezier_extraction (knots : List K) (p : ℕ) (h : Clamped knots p) :
    List.Forall₂ (IsExtraction (knotFn knots) p) (spans knots p)
      (computeBezierExtraction1d knots p) := by
  refine forall₂_mem_left (extraction_final knots p h) fun a C ha F => ?_
  obtain ⟨h1, -, h3⟩ := mem_spans ha
  exact F.extraction ⟨knotFn_mono h.sorted, h3⟩ h1

/-- Outside the listed spans there is nothing: every point between the end knots is in exactly one of
the elements. -/
theorem C76_spans_cover (knots : List K) (p : ℕ) (h : Clamped knots p) (x : K)
    (h0 : knotFn knots p ≤ x) (h1 : x < knotFn knots (knots.length - p - 1)) :
    ∃! a, a ∈ spans knots p ∧ knotFn knots a ≤ x ∧ x < knotFn knots (a + 1) := by
  have hl := h.long
  have hmono := knotFn_mono h.sorted
  have ex : ∃ b, x < knotFn knots b := ⟨_, h1⟩
  classical
  have hb := Nat.find_spec ex
  have hmin := fun m hm => Nat.find_min ex (m := m) hm
  have hle : Nat.find ex ≤ knots.length - p - 1 := Nat.find_min' ex h1
  generalize Nat.find ex = b at hb hmin hle
  have hpb : p < b := by
    by_contra hc
    exact absurd (h0.trans_lt hb) (not_lt.2 (hmono (by omega)))
  have hprev : knotFn knots (b - 1) ≤ x := not_lt.1 (hmin _ (by omega))
  refine ⟨b - 1, ⟨?_, hprev, by rwa [show b - 1 + 1 = b by omega]⟩, ?_⟩
  · unfold spans
    rw [List.mem_filter, List.mem_range]
    refine ⟨by omega, ?_⟩
    simp only [decide_eq_true_eq]
    refine ⟨by omega, ?_⟩
    rw [show b - 1 + 1 = b by omega]
    exact hprev.trans_lt hb
  · rintro a ⟨-, ha, hb'⟩
    have g1 : ¬ a < b - 1 := fun hc =>
      absurd (hb'.trans_le (hmono (show a + 1 ≤ b - 1 by omega))) (not_lt.2 hprev)
    have g2 : ¬ b - 1 < a := fun hc =>
      absurd (hb.trans_le (hmono (show b ≤ a by omega))) (not_lt.2 ha)
    omega

end Iga
