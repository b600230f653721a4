import Verif.Prb.Props
import Verif.Mech.PropsTransform

/-!
# Probe points: adaptive sampling (C131) and geometry (C132)
-/

namespace Verif.Prb

/-! ## Auxiliary facts -/

theorem loop_mono {d : ℕ} (pts : List ℝ → List (Pt d)) (cyc : Option ℝ)
    (flagsOf : List (Pt d) → List Bool) (k : ℕ) (pars res : List ℝ)
    (h : probeLoop pts cyc flagsOf k pars = some res) (k' : ℕ) (hk : k ≤ k') :
    probeLoop pts cyc flagsOf k' pars = some res := by
  induction k generalizing pars k' with
  | zero => simp [probeLoop] at h
  | succ k ih =>
    obtain ⟨j, rfl⟩ : ∃ j, k' = j + 1 := ⟨k' - 1, by omega⟩
    rw [probeLoop] at h ⊢
    split
    · rename_i hc
      rw [if_pos hc] at h
      exact ih _ h j (by omega)
    · rename_i hc
      rw [if_neg hc] at h
      exact h

theorem linspace_length (a b : ℝ) (n : ℕ) : (linspace a b n).length = n := by simp [linspace]

theorem linspace_ne_nil (a b : ℝ) (n : ℕ) (hn : 2 ≤ n) : linspace a b n ≠ [] := by
  intro h
  have := linspace_length a b n
  rw [h] at this
  simp at this
  omega

theorem linspace_getElem? (a b : ℝ) (n i : ℕ) (hi : i < n) :
    (linspace a b n)[i]? = some (a + (i : ℝ) * ((b - a) / ((n : ℝ) - 1))) := by
  simp [linspace, hi]

theorem linspace_chain (a b m : ℝ) (n : ℕ) (hm : m ≤ (b - a) / ((n : ℝ) - 1)) :
    (linspace a b n).IsChain (fun x y => x + m ≤ y) := by
  rw [List.isChain_iff_getElem]
  intro i hi
  rw [linspace_length] at hi
  simp only [linspace, List.getElem_map, List.getElem_range]
  push_cast
  nlinarith

theorem linspace_head (a b : ℝ) (n : ℕ) (hn : 2 ≤ n) : (linspace a b n).head? = some a := by
  rw [List.head?_eq_getElem?, linspace_getElem? a b n 0 (by omega)]
  simp

theorem linspace_last (a b : ℝ) (n : ℕ) (hn : 2 ≤ n) : (linspace a b n).getLast? = some b := by
  rw [List.getLast?_eq_getElem?, linspace_length, linspace_getElem? a b n (n - 1) (by omega)]
  have h2 : (2 : ℝ) ≤ (n : ℝ) := by exact_mod_cast hn
  have h1 : ((n : ℝ) - 1) ≠ 0 := by linarith
  rw [Nat.cast_sub (by omega)]
  push_cast
  rw [mul_div_cancel₀ _ h1]
  simp

theorem circlePars_full (n : ℕ) (hn : 1 ≤ n) : circlePars n ++ [2 * Real.pi] = linspace 0 (2 * Real.pi) (n + 1) := by
  unfold circlePars
  have h := linspace_last 0 (2 * Real.pi) (n + 1) (by omega)
  exact List.dropLast_append_getLast? _ h

theorem chain_lt (l : List ℝ) (m : ℝ) (hm : 0 < m) (h : l.IsChain (fun a b => a + m ≤ b)) :
    l.Pairwise (· < ·) := by
  have h2 : l.IsChain (fun a b : ℝ => a < b) := h.imp (fun a b hab => by linarith)
  exact List.isChain_iff_pairwise.mp h2

theorem nrm_nonneg {d : ℕ} (v : Pt d) : 0 ≤ nrm v := Real.sqrt_nonneg _

theorem nrm_smul {d : ℕ} (v : Pt d) (c : ℝ) : nrm (fun i => v i * c) = nrm v * |c| := by
  unfold nrm
  have : ∑ i, (v i * c) ^ 2 = (∑ i, v i ^ 2) * c ^ 2 := by
    rw [Finset.sum_mul]
    exact Finset.sum_congr rfl fun i _ => by ring
  rw [this, Real.sqrt_mul (Finset.sum_nonneg fun i _ => sq_nonneg _), Real.sqrt_sq_eq_abs]

theorem nrm_pos {d : ℕ} (v : Pt d) (h : v ≠ 0) : 0 < nrm v := by
  unfold nrm
  apply Real.sqrt_pos.mpr
  have : ∃ i, v i ≠ 0 := by
    by_contra hh
    push Not at hh
    exact h (funext hh)
  obtain ⟨i, hi⟩ := this
  exact Finset.sum_pos' (fun j _ => sq_nonneg _) ⟨i, Finset.mem_univ _, by positivity⟩

theorem nrm_neg {d : ℕ} (v w : Pt d) : nrm (v - w) = nrm (w - v) := by
  unfold nrm
  congr 1
  exact Finset.sum_congr rfl fun i _ => by simp only [Pi.sub_apply]; ring

theorem lineDir_unit {d : ℕ} (p0 p1 : Pt d) (h : p0 ≠ p1) : nrm (lineDir p0 p1) = 1 := by
  have hp : 0 < lineLength p0 p1 := nrm_pos _ (fun h0 => h (sub_eq_zero.mp h0).symm)
  have e : lineDir p0 p1 = fun i => (p1 - p0) i * (lineLength p0 p1)⁻¹ := by
    funext i
    simp [lineDir, div_eq_mul_inv]
  rw [e, nrm_smul, abs_of_pos (inv_pos.mpr hp)]
  exact mul_inv_cancel₀ hp.ne'

theorem setNPoint_adaptive (n : Option ℤ) (h : ∀ k, n = some k → k ≤ 0) :
    (setNPoint n).2 = -1 ∧ 2 ≤ (setNPoint n).1 := by
  have h0 : n.getD (-10) ≤ 0 := by
    cases n with
    | none => simp
    | some k => simpa using h k rfl
  unfold setNPoint
  simp only [h0, if_true]
  refine ⟨trivial, ?_⟩
  omega

theorem setNPoint_fixed (k : ℤ) (h : 0 < k) :
    (setNPoint (some k)).1 = max k.toNat 2 ∧ (setNPoint (some k)).2 = ((setNPoint (some k)).1 : ℤ) := by
  unfold setNPoint
  have : ¬ k ≤ 0 := by omega
  simp only [Option.getD_some, this, if_false]
  omega

theorem flags_line {d : ℕ} (hint : Option ℝ) (ed : Pt d → ℝ) (points : List (Pt d)) :
    refinePoints (-1) hint ed false points
      = List.zipWith (fun p q => @decide (nrm (q - p) > pairSize hint ed p q)
          (Classical.propDecidable _)) points points.tail := by
  unfold refinePoints
  rw [if_neg (by omega)]
  simp

theorem flags_cyc {d : ℕ} (ed : Pt d → ℝ) (points : List (Pt d)) (p q : Pt d)
    (hp : points.head? = some p) (hq : points.getLast? = some q) :
    refinePoints (-1) none ed true points
      = List.zipWith (fun p q => @decide (nrm (q - p) > pairSize none ed p q)
          (Classical.propDecidable _)) points points.tail
        ++ [@decide (nrm (p - q) > 0.5 * (ed p + ed q)) (Classical.propDecidable _)] := by
  unfold refinePoints
  rw [if_neg (by omega)]
  simp [hp, hq]

/-! ## C131: adaptive line probes -/

/-- The step of the point comparison is bounded from below. -/
def SizesAbove {d : ℕ} (δ : ℝ) (hint : Option ℝ) (ed : Pt d → ℝ) : Prop :=
  (∀ p, δ ≤ ed p) ∧ ∀ h, hint = some h → δ ≤ h

theorem pairSize_ge {d : ℕ} (δ : ℝ) (hint : Option ℝ) (ed : Pt d → ℝ) (h : SizesAbove δ hint ed)
    (p q : Pt d) : δ ≤ pairSize hint ed p q := by
  unfold pairSize
  cases hint with
  | none => linarith [h.1 p, h.1 q]
  | some s => exact h.2 s rfl

/-- Adaptive line probe (`n_point` `None` or non-positive): provided the element sizes (or the size
hint) are bounded from below by a positive number, `probe()` stops after finitely many refinements.
The parameters returned increase strictly from 0 to the length of the line, contain the initial
equidistant ones, and any two neighbouring points are not farther from each other than the mean
size of their elements (or the hint). -/
theorem C131_line_adaptive {d : ℕ} (p0 p1 : Pt d) (hp : p0 ≠ p1) (n : Option ℤ)
    (hn : ∀ k, n = some k → k ≤ 0) (hint : Option ℝ) (ed : Pt d → ℝ) (δ : ℝ) (hδ : 0 < δ)
    (hs : SizesAbove δ hint ed) :
    ∃ pars points K, (∀ fuel ≥ K, lineProbe p0 p1 n hint ed fuel = some (pars, points)) ∧
      pars.Pairwise (· < ·) ∧ pars.head? = some 0 ∧ pars.getLast? = some (lineLength p0 p1) ∧
      (linspace 0 (lineLength p0 p1) (setNPoint n).1).Sublist pars ∧
      points = pars.map (fun t i => p0 i + lineDir p0 p1 i * t) ∧
      ∀ i p q, points[i]? = some p → points[i + 1]? = some q →
        nrm (q - p) ≤ pairSize hint ed p q := by
  obtain ⟨hreq, hn0⟩ := setNPoint_adaptive n hn
  set L := lineLength p0 p1 with hL
  have hLpos : 0 < L := nrm_pos _ (fun h0 => hp (sub_eq_zero.mp h0).symm)
  set n0 := (setNPoint n).1 with hn0d
  have hn2 : (2 : ℝ) ≤ (n0 : ℝ) := by exact_mod_cast hn0
  set pts := linePoints p0 (lineDir p0 p1) with hpts
  set m := min (δ / 2) ((L - 0) / ((n0 : ℝ) - 1)) with hm
  have hm0 : 0 < m := lt_min (by linarith) (div_pos (by linarith) (by linarith))
  have hdist : ∀ a b : ℝ, nrm ((fun i => p0 i + lineDir p0 p1 i * b)
      - (fun i => p0 i + lineDir p0 p1 i * a)) = |b - a| := by
    intro a b
    have : ((fun i => p0 i + lineDir p0 p1 i * b) - (fun i => p0 i + lineDir p0 p1 i * a))
        = fun i => lineDir p0 p1 i * (b - a) := by
      funext i
      simp only [Pi.sub_apply]
      ring
    rw [this, nrm_smul, lineDir_unit p0 p1 hp, one_mul]
  obtain ⟨N, hN⟩ := exists_nat_gt ((L - 0) / m + 1)
  obtain ⟨res, hr, hsub, hch, hhd, hlt, hne, hfl⟩ := loop_terminates pts none
    (refinePoints (-1) hint ed false) m hm0 0 L
    (by
      intro pars hne
      rw [flags_line]
      have : 0 < pars.length := List.length_pos_iff.mpr hne
      simp [hpts, linePoints]
      omega)
    (by
      intro pars hch _ _ i a b h1 h2 h3
      rw [flags_line, List.getElem?_zipWith_eq_some] at h1
      obtain ⟨p, q, hp1, hq1, hd⟩ := h1
      rw [List.getElem?_tail] at hq1
      simp only [Option.toList_none, List.append_nil] at hch h2 h3
      have hpe : p = fun i => p0 i + lineDir p0 p1 i * a := by
        simp only [hpts, linePoints, List.getElem?_map, h2, Option.map_some, Option.some.injEq] at hp1
        exact hp1.symm
      have hqe : q = fun i => p0 i + lineDir p0 p1 i * b := by
        simp only [hpts, linePoints, List.getElem?_map, h3, Option.map_some, Option.some.injEq] at hq1
        exact hq1.symm
      have hgt := of_decide_eq_true hd
      have hps := pairSize_ge δ hint ed hs p q
      have hlt : a < b := by
        have hpw := chain_lt _ m hm0 hch
        obtain ⟨hi1, e1⟩ := List.getElem?_eq_some_iff.mp h2
        obtain ⟨hi2, e2⟩ := List.getElem?_eq_some_iff.mp h3
        have := List.pairwise_iff_getElem.mp hpw i (i + 1) hi1 hi2 (by omega)
        rw [e1, e2] at this
        exact this
      rw [hpe, hqe, hdist, abs_of_pos (by linarith)] at hgt
      rw [hpe, hqe] at hps
      have : m ≤ δ / 2 := min_le_left _ _
      linarith)
    N (linspace 0 L n0) (linspace_ne_nil 0 L n0 hn0)
    (by
      have : (0 : ℝ) ≤ ((linspace 0 L n0 ++ (none : Option ℝ).toList).length : ℝ) := by positivity
      linarith)
    (by simpa using linspace_chain 0 L m n0 (min_le_right _ _))
    (by simpa using linspace_head 0 L n0 hn0)
    (by simpa using linspace_last 0 L n0 hn0)
  simp only [Option.toList_none, List.append_nil] at hch hhd hlt
  refine ⟨res, pts res, N, ?_, chain_lt _ m hm0 hch, hhd, hlt, hsub, rfl, ?_⟩
  · intro fuel hf
    have := loop_mono pts none (refinePoints (-1) hint ed false) N _ res hr fuel hf
    unfold lineProbe
    simp only [← hn0d, hreq, ← hL, ← hpts, this, Option.map_some]
  · intro i p q h1 h2
    rw [flags_line] at hfl
    by_contra hgt
    rw [not_le] at hgt
    have hz : (List.zipWith (fun p q => @decide (nrm (q - p) > pairSize hint ed p q)
        (Classical.propDecidable _)) (pts res) (pts res).tail)[i]? = some true := by
      rw [List.getElem?_zipWith_eq_some]
      exact ⟨p, q, h1, by rw [List.getElem?_tail]; exact h2, decide_eq_true hgt⟩
    have := hfl true (List.mem_of_getElem? hz)
    exact absurd this (by simp)

/-! ## C131: one refinement step, fixed numbers of points -/

/-- One refinement step of an open probe: with one flag per interval, exactly the midpoints of the
flagged intervals are inserted at their places; nothing is removed or reordered, the ends stay. -/
theorem C131_refine_pars (pars : List ℝ) (fl : List Bool) (h : fl.length + 1 = pars.length) :
    refinePars pars fl none = midpoints pars fl ∧
    pars.Sublist (refinePars pars fl none) ∧
    (refinePars pars fl none).length = pars.length + fl.count true ∧
    (refinePars pars fl none).head? = pars.head? ∧
    (refinePars pars fl none).getLast? = pars.getLast? := by
  have e := refine_full pars fl none (by simpa using h)
  simp only [Option.toList_none, List.append_nil] at e
  rw [e]
  exact ⟨rfl, midpoints_sublist _ _, midpoints_length _ _ h, midpoints_head _ _, midpoints_last _ _⟩

/-- One refinement step of a cyclic probe with the period `c`: the same, for the list closed by the
period, so that the interval between the last and the first point is refined, too. -/
theorem C131_refine_pars_cyclic (pars : List ℝ) (c : ℝ) (fl : List Bool)
    (h : fl.length = pars.length) :
    refinePars pars fl (some c) ++ [c] = midpoints (pars ++ [c]) fl ∧
    pars.Sublist (refinePars pars fl (some c)) ∧
    (refinePars pars fl (some c)).length = pars.length + fl.count true := by
  have e := refine_full pars fl (some c) (by simpa using h)
  simp only [Option.toList_some] at e
  refine ⟨e, ?_, ?_⟩
  · have := midpoints_sublist (pars ++ [c]) fl
    rw [← e] at this
    exact (List.append_sublist_append_right _).mp this
  · have := midpoints_length (pars ++ [c]) fl (by simpa using h)
    rw [← e] at this
    simp at this
    omega

/-- A positive number of points is kept (at least two): the line probe does one evaluation at
equidistant parameters whatever the element sizes are. -/
theorem C131_line_fixed {d : ℕ} (p0 p1 : Pt d) (k : ℤ) (hk : 0 < k) (hint : Option ℝ)
    (ed : Pt d → ℝ) (fuel : ℕ) (hf : 1 ≤ fuel) :
    ∃ pars, lineProbe p0 p1 (some k) hint ed fuel
        = some (pars, linePoints p0 (lineDir p0 p1) pars) ∧
      pars.length = max k.toNat 2 ∧
      ∀ i, i < pars.length → pars[i]? = some ((i : ℝ) * (lineLength p0 p1 / ((pars.length : ℝ) - 1))) := by
  obtain ⟨h1, h2⟩ := setNPoint_fixed k hk
  obtain ⟨j, rfl⟩ : ∃ j, fuel = j + 1 := ⟨fuel - 1, by omega⟩
  refine ⟨linspace 0 (lineLength p0 p1) (setNPoint (some k)).1, ?_, ?_, ?_⟩
  · unfold lineProbe
    simp only [h2]
    rw [probeLoop]
    have : refinePoints ((setNPoint (some k)).1 : ℤ) hint ed false
        (linePoints p0 (lineDir p0 p1) (linspace 0 (lineLength p0 p1) (setNPoint (some k)).1))
          = [false] := by
      unfold refinePoints
      rw [if_pos]
      simp [linePoints, linspace_length]
    simp [this]
  · rw [linspace_length, h1]
  · intro i hi
    rw [linspace_length] at hi ⊢
    rw [linspace_getElem? _ _ _ _ hi]
    simp

/-- The same for the circle: equidistant angles of the full circle, the end not repeated. -/
theorem C131_circle_fixed {d : ℕ} (pt : ℝ → Pt d) (k : ℤ) (hk : 0 < k) (ed : Pt d → ℝ) (fuel : ℕ)
    (hf : 1 ≤ fuel) :
    ∃ pars, circleProbe pt (some k) ed fuel = some (pars, pars.map pt) ∧
      pars.length = max k.toNat 2 ∧
      ∀ i, i < pars.length → pars[i]? = some ((i : ℝ) * (2 * Real.pi / (pars.length : ℝ))) := by
  obtain ⟨h1, h2⟩ := setNPoint_fixed k hk
  obtain ⟨j, rfl⟩ : ∃ j, fuel = j + 1 := ⟨fuel - 1, by omega⟩
  have hl : (circlePars (setNPoint (some k)).1).length = (setNPoint (some k)).1 := by
    simp [circlePars, linspace_length]
  refine ⟨circlePars (setNPoint (some k)).1, ?_, ?_, ?_⟩
  · unfold circleProbe
    simp only [h2]
    rw [probeLoop]
    have : refinePoints ((setNPoint (some k)).1 : ℤ) none ed true
        ((circlePars (setNPoint (some k)).1).map pt) = [false] := by
      unfold refinePoints
      rw [if_pos]
      simp [hl]
    simp [this]
  · rw [hl, h1]
  · intro i hi
    rw [hl] at hi ⊢
    unfold circlePars
    rw [List.getElem?_dropLast, linspace_length, if_pos (by omega),
      linspace_getElem? _ _ _ _ (by omega)]
    simp

/-! ## C131: adaptive circle probes -/

theorem circle_adaptive {d : ℕ} (pt : ℝ → Pt d) (r : ℝ) (hr : 0 < r)
    (hlip : ∀ a b, nrm (pt b - pt a) ≤ r * |b - a|) (hper : pt (2 * Real.pi) = pt 0)
    (n : Option ℤ) (hn : ∀ k, n = some k → k ≤ 0) (ed : Pt d → ℝ) (δ : ℝ) (hδ : 0 < δ)
    (hs : ∀ p, δ ≤ ed p) :
    ∃ pars K, (∀ fuel ≥ K, circleProbe pt n ed fuel = some (pars, pars.map pt)) ∧
      (pars ++ [2 * Real.pi]).Pairwise (· < ·) ∧ pars.head? = some 0 ∧
      (circlePars (setNPoint n).1).Sublist pars ∧
      (∀ i p q, (pars.map pt)[i]? = some p → (pars.map pt)[i + 1]? = some q →
        nrm (q - p) ≤ (ed p + ed q) / 2) ∧
      (∀ p q, (pars.map pt).head? = some p → (pars.map pt).getLast? = some q →
        nrm (p - q) ≤ (ed p + ed q) / 2) := by
  obtain ⟨hreq, hn0⟩ := setNPoint_adaptive n hn
  set n0 := (setNPoint n).1 with hn0d
  have hn2 : (2 : ℝ) ≤ (n0 : ℝ) := by exact_mod_cast hn0
  have hpi := Real.pi_pos
  set L := 2 * Real.pi with hL
  have hfull := circlePars_full n0 (by omega)
  rw [← hL] at hfull
  set m := min (δ / r / 2) ((L - 0) / (((n0 + 1 : ℕ) : ℝ) - 1)) with hm
  have hm0 : 0 < m := lt_min (by positivity) (div_pos (by linarith) (by push_cast; linarith))
  have hmδ : m ≤ δ / r / 2 := min_le_left _ _
  have hends : ∀ pars : List ℝ, pars ≠ [] → ∃ x y, pars.head? = some x ∧ pars.getLast? = some y := by
    intro pars hne
    exact ⟨pars.head hne, pars.getLast hne, List.head?_eq_some_head hne,
      List.getLast?_eq_some_getLast hne⟩
  have hflags : ∀ (pars : List ℝ) (x y : ℝ), pars.head? = some x → pars.getLast? = some y →
      refinePoints (-1) none ed true (pars.map pt)
      = List.zipWith (fun p q => @decide (nrm (q - p) > pairSize none ed p q)
          (Classical.propDecidable _)) (pars.map pt) (pars.map pt).tail
        ++ [@decide (nrm (pt x - pt y) > 0.5 * (ed (pt x) + ed (pt y)))
          (Classical.propDecidable _)] := by
    intro pars x y hx hy
    exact flags_cyc ed _ _ _ (by simp [List.head?_map, hx]) (by simp [List.getLast?_map, hy])
  obtain ⟨N, hN⟩ := exists_nat_gt ((L - 0) / m + 1)
  obtain ⟨res, hr1, hsub, hch, hhd, hlt, hne, hfl⟩ := loop_terminates
    (fun pars : List ℝ => pars.map pt) (some L) (refinePoints (-1) none ed true) m hm0 0 L
    (by
      intro pars hne
      obtain ⟨x, y, hx, hy⟩ := hends pars hne
      rw [hflags pars x y hx hy]
      have : 0 < pars.length := List.length_pos_iff.mpr hne
      simp
      omega)
    (by
      intro pars hch hhd hlast i a b h1 h2 h3
      simp only [Option.toList_some] at hch hhd hlast h2 h3
      have hne : pars ≠ [] := by
        intro h0
        subst h0
        simp at hhd
        linarith
      obtain ⟨x, y, hx, hy⟩ := hends pars hne
      have hx0 : x = 0 := by
        rw [List.head?_append, hx] at hhd
        simpa using hhd
      rw [hflags pars x y hx hy] at h1
      have hlen : 0 < pars.length := List.length_pos_iff.mpr hne
      have hlt : a < b := by
        have hpw := chain_lt _ m hm0 hch
        obtain ⟨hi1, e1⟩ := List.getElem?_eq_some_iff.mp h2
        obtain ⟨hi2, e2⟩ := List.getElem?_eq_some_iff.mp h3
        have := List.pairwise_iff_getElem.mp hpw i (i + 1) hi1 hi2 (by omega)
        rw [e1, e2] at this
        exact this
      have hδ2 : 2 * m ≤ δ / r := by linarith
      suffices hs' : δ < r * (b - a) by
        have : δ / r < b - a := by rw [div_lt_iff₀ hr]; linarith
        linarith
      have hzl : (List.zipWith (fun p q => @decide (nrm (q - p) > pairSize none ed p q)
          (Classical.propDecidable _)) (pars.map pt) (pars.map pt).tail).length
            = pars.length - 1 := by simp
      by_cases hi : i < pars.length - 1
      · rw [List.getElem?_append_left (by rw [hzl]; exact hi), List.getElem?_zipWith_eq_some] at h1
        obtain ⟨p, q, hp1, hq1, hd⟩ := h1
        rw [List.getElem?_append_left (by omega)] at h2 h3
        rw [List.getElem?_tail] at hq1
        rw [List.getElem?_map, h2, Option.map_some, Option.some.injEq] at hp1
        rw [List.getElem?_map, h3, Option.map_some, Option.some.injEq] at hq1
        have hgt := of_decide_eq_true hd
        subst hp1; subst hq1
        have hl := hlip a b
        rw [abs_of_pos (by linarith)] at hl
        have hps := pairSize_ge δ none ed ⟨hs, by simp⟩ (pt a) (pt b)
        linarith
      · rw [List.getElem?_append_right (by rw [hzl]; omega), hzl] at h1
        have hi0 : i = pars.length - 1 := by
          by_contra hh
          rw [List.getElem?_eq_none (by simp; omega)] at h1
          exact absurd h1 (by simp)
        rw [hi0, Nat.sub_self] at h1
        simp only [List.getElem?_cons_zero, Option.some.injEq] at h1
        have hgt := of_decide_eq_true h1
        rw [hi0, List.getElem?_append_left (by omega), ← List.getLast?_eq_getElem?, hy,
          Option.some.injEq] at h2
        have hb : b = L := by
          rw [hi0, Nat.sub_add_cancel (by omega)] at h3
          simpa using h3.symm
        subst h2
        rw [hx0, ← hper, ← hb] at hgt
        have hl := hlip y b
        rw [abs_of_pos (by linarith)] at hl
        have := hs (pt y)
        have := hs (pt b)
        linarith)
    N (circlePars n0)
    (by
      intro h0
      have := linspace_length 0 L (n0 + 1)
      rw [← hfull, h0] at this
      simp at this
      omega)
    (by
      have : (0 : ℝ) ≤ ((circlePars n0 ++ (some L).toList).length : ℝ) := by positivity
      linarith)
    (by
      rw [Option.toList_some, hfull]
      exact linspace_chain 0 L m (n0 + 1) (min_le_right _ _))
    (by rw [Option.toList_some, hfull]; exact linspace_head 0 L (n0 + 1) (by omega))
    (by rw [Option.toList_some, hfull]; exact linspace_last 0 L (n0 + 1) (by omega))
  obtain ⟨x, y, hx, hy⟩ := hends res hne
  rw [hflags res x y hx hy] at hfl
  simp only [Option.toList_some] at hch hhd hlt
  refine ⟨res, N, ?_, chain_lt _ m hm0 hch, ?_, hsub, ?_, ?_⟩
  · intro fuel hf
    have := loop_mono _ _ _ N _ res hr1 fuel hf
    unfold circleProbe
    simp only [← hn0d, hreq, ← hL, this, Option.map_some]
  · rw [List.head?_append, hx] at hhd
    rw [hx]
    simpa using hhd
  · intro i p q h1 h2
    by_contra hgt
    rw [not_le] at hgt
    have hz : (List.zipWith (fun p q => @decide (nrm (q - p) > pairSize none ed p q)
        (Classical.propDecidable _)) (res.map pt) (res.map pt).tail)[i]? = some true := by
      rw [List.getElem?_zipWith_eq_some]
      refine ⟨p, q, h1, by rw [List.getElem?_tail]; exact h2, decide_eq_true ?_⟩
      unfold pairSize
      simp only
      linarith
    have := hfl true (List.mem_append_left _ (List.mem_of_getElem? hz))
    exact absurd this (by simp)
  · intro p q h1 h2
    rw [List.head?_map, hx, Option.map_some, Option.some.injEq] at h1
    rw [List.getLast?_map, hy, Option.map_some, Option.some.injEq] at h2
    have := hfl _ (List.mem_append_right _ (List.mem_singleton.mpr rfl))
    have := of_decide_eq_false this
    rw [not_lt] at this
    rw [← h1, ← h2]
    linarith

/-! ## C132: geometry of the points -/

/-- The points of a line probe: parameter differences are distances, the first point is `p0`, the
last one `p1`. -/
theorem C132_line {d : ℕ} (p0 p1 : Pt d) (hp : p0 ≠ p1) :
    (∀ pars, linePoints p0 (lineDir p0 p1) pars
      = pars.map fun t j => p0 j + t * ((p1 j - p0 j) / nrm (p1 - p0))) ∧
    linePoints p0 (lineDir p0 p1) [0, lineLength p0 p1] = [p0, p1] ∧
    (∀ a b : ℝ, nrm ((fun i => p0 i + lineDir p0 p1 i * b) - (fun i => p0 i + lineDir p0 p1 i * a))
      = |b - a|) := by
  have hpos : 0 < lineLength p0 p1 := nrm_pos _ (fun h0 => hp (sub_eq_zero.mp h0).symm)
  refine ⟨fun pars => ?_, ?_, fun a b => ?_⟩
  · unfold linePoints
    apply List.map_congr_left
    intro t _
    funext j
    simp only [lineDir, lineLength]
    ring
  · simp only [linePoints, List.map_cons, List.map_nil, mul_zero, add_zero]
    congr 1
    congr 1
    funext i
    simp only [lineDir]
    rw [div_mul_cancel₀ _ hpos.ne']
    ring
  · have : ((fun i => p0 i + lineDir p0 p1 i * b) - (fun i => p0 i + lineDir p0 p1 i * a))
        = fun i => lineDir p0 p1 i * (b - a) := by
      funext i
      simp only [Pi.sub_apply]
      ring
    rw [this, nrm_smul, lineDir_unit p0 p1 hp, one_mul]

/-- The points of a ray probe lie at the signed distances `pars` from `p0` in the direction given;
in the two-sided case there are twice as many points and the parameters are antisymmetric. -/
theorem C132_ray {d : ℕ} (p0 dir : Pt d) (hd : dir ≠ 0) (pFun : ℝ → ℝ) (n : ℕ) (both : Bool) :
    (rayPoints p0 dir pFun n both).2
      = (rayPoints p0 dir pFun n both).1.map (fun t i => p0 i + t * (dir i / nrm dir)) ∧
    (rayPoints p0 dir pFun n both).1.length = (if both then 2 * n else n) ∧
    (both = true → (rayPoints p0 dir pFun n both).1.reverse
      = (rayPoints p0 dir pFun n both).1.map (fun t => -t)) ∧
    nrm (fun i => dir i / nrm dir) = 1 := by
  refine ⟨?_, ?_, ?_, ?_⟩
  · cases both with
    | false =>
      simp only [rayPoints, Bool.false_eq_true, if_false]
      apply List.map_congr_left
      intro t _
      funext i
      ring
    | true =>
      simp only [rayPoints, if_true, List.map_append]
      congr 1
      · rw [← List.map_reverse, List.map_map]
        apply List.map_congr_left
        intro t _
        funext i
        simp only [Function.comp_apply]
        ring
      · apply List.map_congr_left
        intro t _
        funext i
        ring
  · cases both <;> simp [rayPoints]
    omega
  · intro hb
    subst hb
    simp [rayPoints, Function.comp_def]
  · have hp := nrm_pos dir hd
    have e : (fun i => dir i / nrm dir) = fun i => dir i * (nrm dir)⁻¹ := by
      funext i; exact div_eq_mul_inv _ _
    rw [e, nrm_smul, abs_of_pos (inv_pos.mpr hp)]
    exact mul_inv_cancel₀ hp.ne'

theorem chord (r a b : ℝ) :
    (r * Real.cos b - r * Real.cos a) ^ 2 + (r * Real.sin b - r * Real.sin a) ^ 2
      ≤ (r * (b - a)) ^ 2 := by
  have h := Real.one_sub_sq_div_two_le_cos (x := b - a)
  rw [Real.cos_sub] at h
  have h1 := Real.sin_sq_add_cos_sq a
  have h2 := Real.sin_sq_add_cos_sq b
  have e : (r * Real.cos b - r * Real.cos a) ^ 2 + (r * Real.sin b - r * Real.sin a) ^ 2
      = r ^ 2 * (2 - 2 * (Real.cos b * Real.cos a + Real.sin b * Real.sin a)) := by
    linear_combination r ^ 2 * h1 + r ^ 2 * h2
  rw [e, mul_pow]
  apply mul_le_mul_of_nonneg_left _ (sq_nonneg r)
  linarith

/-- The points of a plane circle probe lie on the circle. -/
theorem C132_circle_plane (c : Pt 2) (r : ℝ) (hr : 0 ≤ r) (t : ℝ) :
    nrm (circlePoint2 c r t - c) = r ∧ circlePoint2 c r (t + 2 * Real.pi) = circlePoint2 c r t ∧
    circlePoint2 c r 0 = ![c 0 + r, c 1] := by
  refine ⟨?_, ?_, ?_⟩
  · have : ∑ i, (circlePoint2 c r t - c) i ^ 2 = r ^ 2 := by
      simp only [Fin.sum_univ_two, Pi.sub_apply, circlePoint2, Matrix.cons_val_zero,
        Matrix.cons_val_one, add_sub_cancel_right]
      linear_combination r ^ 2 * Real.sin_sq_add_cos_sq t
    rw [nrm, this, Real.sqrt_sq hr]
  · simp [circlePoint2]
  · simp [circlePoint2, add_comm]

theorem nrm_vecMul (R : Matrix (Fin 3) (Fin 3) ℝ) (h : R * R.transpose = 1) (v : Pt 3) :
    nrm (fun j => ∑ i, v i * R i j) = nrm v := by
  have h00 := congrFun (congrFun h 0) 0
  have h01 := congrFun (congrFun h 0) 1
  have h02 := congrFun (congrFun h 0) 2
  have h11 := congrFun (congrFun h 1) 1
  have h12 := congrFun (congrFun h 1) 2
  have h22 := congrFun (congrFun h 2) 2
  simp [Matrix.mul_apply, Fin.sum_univ_three] at h00 h01 h02 h11 h12 h22
  unfold nrm
  congr 1
  simp only [Fin.sum_univ_three]
  linear_combination v 0 ^ 2 * h00 + v 1 ^ 2 * h11 + v 2 ^ 2 * h22 + 2 * v 0 * v 1 * h01
    + 2 * v 0 * v 2 * h02 + 2 * v 1 * v 2 * h12

theorem circleRotation_orth (n : Pt 3) : circleRotation n * (circleRotation n).transpose = 1 := by
  unfold circleRotation
  dsimp only
  split
  · simp
  · rename_i h
    have hax : (crossProduct ![0, 0, 1] n : Fin 3 → ℝ) ≠ 0 := by
      intro h0
      apply h
      rw [h0]
      unfold nrm
      norm_num
    exact mul_eq_one_comm.mp (Verif.Mech.C49_rotation _ hax _ 0).1

theorem unit_sum (n : Pt 3) (hn : nrm n = 1) : n 0 ^ 2 + n 1 ^ 2 + n 2 ^ 2 = 1 := by
  unfold nrm at hn
  rw [Real.sqrt_eq_one] at hn
  rw [← hn, Fin.sum_univ_three]

theorem axis_norm (n : Pt 3) : nrm (crossProduct ![0, 0, 1] n : Fin 3 → ℝ) = √(n 0 ^ 2 + n 1 ^ 2) := by
  unfold nrm
  congr 1
  simp [crossProduct, Fin.sum_univ_three]
  ring

/-- The rotation takes the normal to the z axis, whenever it is not treated as the z axis. -/
theorem circleRotation_normal (n : Pt 3) (hn : nrm n = 1) (h : 0.1 ≤ √(n 0 ^ 2 + n 1 ^ 2)) (i : Fin 3) :
    ∑ j, circleRotation n i j * n j = (![0, 0, 1] : Pt 3) i := by
  have hu := unit_sum n hn
  set s := √(n 0 ^ 2 + n 1 ^ 2) with hs
  have hspos : 0 < s := lt_of_lt_of_le (by norm_num) h
  have hs2 : s ^ 2 = n 0 ^ 2 + n 1 ^ 2 := Real.sq_sqrt (by positivity)
  have hdot : (∑ i, (![0, 0, 1] : Pt 3) i * n i) = n 2 := by simp [Fin.sum_univ_three]
  have hc1 : -1 ≤ n 2 := by nlinarith [sq_nonneg (n 0), sq_nonneg (n 1)]
  have hc2 : n 2 ≤ 1 := by nlinarith [sq_nonneg (n 0), sq_nonneg (n 1)]
  have hsin : Real.sin (Real.arccos (n 2)) = s := by
    rw [Real.sin_arccos, hs]
    congr 1
    linarith
  have hcos : Real.cos (Real.arccos (n 2)) = n 2 := Real.cos_arccos hc1 hc2
  have hax : (crossProduct ![0, 0, 1] n : Fin 3 → ℝ) = ![-n 1, n 0, 0] := by
    funext k
    fin_cases k <;> simp [crossProduct]
  have hrot : circleRotation n = Verif.Mech.axisRotation ![-n 1, n 0, 0] (Real.arccos (n 2)) := by
    unfold circleRotation
    dsimp only
    rw [if_neg (by rw [axis_norm]; exact not_lt.mpr h), hdot, hax]
  rw [hrot]
  have hnr : √((![-n 1, n 0, 0] : Fin 3 → ℝ) 0 ^ 2 + (![-n 1, n 0, 0] : Fin 3 → ℝ) 1 ^ 2
      + (![-n 1, n 0, 0] : Fin 3 → ℝ) 2 ^ 2) = s := by
    rw [hs]
    congr 1
    simp
    ring
  unfold Verif.Mech.axisRotation
  dsimp only
  rw [hnr, hsin, hcos]
  fin_cases i <;> simp [Fin.sum_univ_three] <;> field_simp <;> ring_nf <;> nlinarith

theorem unit_normal {d : ℕ} (n : Pt d) (hn : n ≠ 0) : nrm (fun i => n i / nrm n) = 1 := by
  have hp := nrm_pos n hn
  have e : (fun i => n i / nrm n) = fun i => n i * (nrm n)⁻¹ := by
    funext i; exact div_eq_mul_inv _ _
  rw [e, nrm_smul, abs_of_pos (inv_pos.mpr hp)]
  exact mul_inv_cancel₀ hp.ne'

/-- The points of a circle probe in space have the distance `radius` from the centre, for any
normal. -/
theorem C132_circle_radius (c n : Pt 3) (r : ℝ) (hr : 0 ≤ r) (t : ℝ) :
    nrm (circlePoint3 c n r t - c) = r := by
  have e : circlePoint3 c n r t - c = fun j => ∑ i,
      (![r * Real.cos t, r * Real.sin t, 0] : Pt 3) i * circleRotation (fun i => n i / nrm n) i j := by
    funext j
    simp [circlePoint3]
  rw [e, nrm_vecMul _ (circleRotation_orth _)]
  have : ∑ i, (![r * Real.cos t, r * Real.sin t, 0] : Pt 3) i ^ 2 = r ^ 2 := by
    simp only [Fin.sum_univ_three, Matrix.cons_val_zero, Matrix.cons_val_one, Matrix.cons_val_two,
      Matrix.tail_cons, Matrix.head_cons]
    linear_combination r ^ 2 * Real.sin_sq_add_cos_sq t
  rw [nrm, this, Real.sqrt_sq hr]

/-- The circle is perpendicular to its normal when the angle of the normal and the z axis has sine
at least 0.1, or when the normal is parallel to the z axis. -/
theorem C132_circle_normal (c n : Pt 3) (hn : n ≠ 0) (r t : ℝ)
    (h : 0.1 * nrm n ≤ √(n 0 ^ 2 + n 1 ^ 2) ∨ (n 0 = 0 ∧ n 1 = 0)) :
    ∑ j, (circlePoint3 c n r t j - c j) * n j = 0 := by
  have hp := nrm_pos n hn
  have hu := unit_normal n hn
  have hp0 := hp.ne'
  set nh : Pt 3 := fun i => n i / nrm n with hnh
  have hsq : √(nh 0 ^ 2 + nh 1 ^ 2) = √(n 0 ^ 2 + n 1 ^ 2) / nrm n := by
    have : nh 0 ^ 2 + nh 1 ^ 2 = (n 0 ^ 2 + n 1 ^ 2) / nrm n ^ 2 := by
      simp only [hnh]; ring
    rw [this, Real.sqrt_div (by positivity), Real.sqrt_sq hp.le]
  have hnn : ∀ j, n j = nrm n * nh j := by
    intro j
    simp only [hnh]
    field_simp
  have e : ∑ j, (circlePoint3 c n r t j - c j) * n j = nrm n * ∑ i,
      (![r * Real.cos t, r * Real.sin t, 0] : Pt 3) i * ∑ j, circleRotation nh i j * nh j := by
    have : ∀ j, circlePoint3 c n r t j - c j = ∑ i,
        (![r * Real.cos t, r * Real.sin t, 0] : Pt 3) i * circleRotation nh i j := by
      intro j
      simp [circlePoint3, hnh]
    simp only [this]
    rw [Finset.sum_congr rfl (fun j _ => by rw [hnn j])]
    simp only [Fin.sum_univ_three]
    ring
  rw [e]
  rcases h with h | ⟨h0, h1⟩
  · have hge : 0.1 ≤ √(nh 0 ^ 2 + nh 1 ^ 2) := by
      rw [hsq, le_div_iff₀ hp]
      exact h
    simp only [circleRotation_normal nh hu hge]
    simp [Fin.sum_univ_three]
  · have hz0 : nh 0 = 0 := by simp [hnh, h0]
    have hz1 : nh 1 = 0 := by simp [hnh, h1]
    have hrot : circleRotation nh = 1 := by
      unfold circleRotation
      dsimp only
      rw [if_pos]
      rw [axis_norm, hz0, hz1]
      norm_num
    rw [hrot]
    simp [Fin.sum_univ_three, hz0, hz1, Matrix.one_apply]

/-- The restriction is needed: the normal `(5, 0, 100)`, tilted by about three degrees, gives the
circle in the xy plane, which is not perpendicular to it. -/
theorem C132_circle_tilted_counterexample :
    ∑ j, (circlePoint3 0 ![5, 0, 100] 1 0 j - (0 : Pt 3) j) * (![5, 0, 100] : Pt 3) j = 5 := by
  have hn : nrm (![5, 0, 100] : Pt 3) = √10025 := by
    unfold nrm
    congr 1
    simp [Fin.sum_univ_three]
    norm_num
  have hge : (100 : ℝ) ≤ √10025 := Real.le_sqrt_of_sq_le (by norm_num)
  have hrot : circleRotation (fun i => (![5, 0, 100] : Pt 3) i / nrm (![5, 0, 100] : Pt 3)) = 1 := by
    unfold circleRotation
    dsimp only
    rw [if_pos]
    rw [axis_norm, hn]
    simp only [Matrix.cons_val_zero, Matrix.cons_val_one, zero_div]
    rw [show ((5 : ℝ) / √10025) ^ 2 + (0 : ℝ) ^ 2 = (5 / √10025) ^ 2 by ring,
      Real.sqrt_sq (by positivity), div_lt_iff₀ (by linarith)]
    linarith
  unfold circlePoint3
  rw [hrot]
  simp [Fin.sum_univ_three, Matrix.one_apply]

/-! ## C131: adaptive circle probes, plane and space -/

theorem lip2 (c : Pt 2) (r : ℝ) (hr : 0 ≤ r) (a b : ℝ) :
    nrm (circlePoint2 c r b - circlePoint2 c r a) ≤ r * |b - a| := by
  rw [show r * |b - a| = |r * (b - a)| by rw [abs_mul, abs_of_nonneg hr], nrm]
  rw [← Real.sqrt_sq_eq_abs]
  apply Real.sqrt_le_sqrt
  have := chord r a b
  simp only [Fin.sum_univ_two, Pi.sub_apply, circlePoint2, Matrix.cons_val_zero,
    Matrix.cons_val_one]
  linarith

theorem lip3 (c n : Pt 3) (r : ℝ) (hr : 0 ≤ r) (a b : ℝ) :
    nrm (circlePoint3 c n r b - circlePoint3 c n r a) ≤ r * |b - a| := by
  have e : circlePoint3 c n r b - circlePoint3 c n r a = fun j => ∑ i,
      (![r * Real.cos b - r * Real.cos a, r * Real.sin b - r * Real.sin a, 0] : Pt 3) i
        * circleRotation (fun i => n i / nrm n) i j := by
    funext j
    simp [circlePoint3, Fin.sum_univ_three]
    ring
  rw [e, nrm_vecMul _ (circleRotation_orth _),
    show r * |b - a| = |r * (b - a)| by rw [abs_mul, abs_of_nonneg hr], nrm,
    ← Real.sqrt_sq_eq_abs]
  apply Real.sqrt_le_sqrt
  have := chord r a b
  simp [Fin.sum_univ_three]
  linarith

/-- What an adaptive circle probe guarantees. -/
def CircleAdaptive {d : ℕ} (pt : ℝ → Pt d) (n : Option ℤ) (ed : Pt d → ℝ) : Prop :=
    ∃ pars K, (∀ fuel ≥ K, circleProbe pt n ed fuel = some (pars, pars.map pt)) ∧
      (pars ++ [2 * Real.pi]).Pairwise (· < ·) ∧ pars.head? = some 0 ∧
      (circlePars (setNPoint n).1).Sublist pars ∧
      (∀ i p q, (pars.map pt)[i]? = some p → (pars.map pt)[i + 1]? = some q →
        nrm (q - p) ≤ (ed p + ed q) / 2) ∧
      (∀ p q, (pars.map pt).head? = some p → (pars.map pt).getLast? = some q →
        nrm (p - q) ≤ (ed p + ed q) / 2)

/-- Adaptive circle probes, in the plane and in space: provided the element sizes are bounded from
below by a positive number, `probe()` stops; the angles increase strictly from 0 and stay below the
full circle, contain the initial ones, and any two neighbouring points, including the last and the
first one, are not farther from each other than the mean size of their elements. -/
theorem C131_circle_adaptive (r : ℝ) (hr : 0 < r) (n : Option ℤ) (hn : ∀ k, n = some k → k ≤ 0)
    (δ : ℝ) (hδ : 0 < δ) :
    (∀ (c : Pt 2) (ed : Pt 2 → ℝ), (∀ p, δ ≤ ed p) → CircleAdaptive (circlePoint2 c r) n ed) ∧
    (∀ (c normal : Pt 3) (ed : Pt 3 → ℝ), (∀ p, δ ≤ ed p) →
      CircleAdaptive (circlePoint3 c normal r) n ed) := by
  refine ⟨fun c ed hs => ?_, fun c m ed hs => ?_⟩
  · exact circle_adaptive (circlePoint2 c r) r hr (lip2 c r hr.le) (by simp [circlePoint2]) n hn ed
      δ hδ hs
  · exact circle_adaptive (circlePoint3 c m r) r hr (lip3 c m r hr.le)
      (by funext j; simp [circlePoint3]) n hn ed δ hδ hs

/-! ## Non-vacuity -/

/-- A flagged middle interval. -/
example : refinePars [0, 1, 2, 4] [false, true, true] none = [0, 1, 3 / 2, 2, 3, 4] := by
  rw [(C131_refine_pars _ _ rfl).1]
  norm_num [midpoints]

/-- A cyclic list with the closing interval flagged. -/
example : refinePars [0, 1, 2] [false, false, true] (some 4) ++ [4] = [0, 1, 2, 3, 4] := by
  rw [(C131_refine_pars_cyclic _ _ _ rfl).1]
  norm_num [midpoints]

/-- Element sizes varying in the plane. -/
example : SizesAbove (d := 2) 1 none (fun p => 1 + p 0 ^ 2) :=
  ⟨fun p => by nlinarith [sq_nonneg (p 0)], by simp⟩

example : (setNPoint none) = (10, -1) ∧ setNPoint (some (-1)) = (2, -1) ∧
    setNPoint (some 1) = (2, 2) ∧ setNPoint (some 7) = (7, 7) := by decide

/-- A normal meeting the angle condition. -/
example : (![1, 0, 1] : Pt 3) ≠ 0 ∧
    0.1 * nrm (![1, 0, 1] : Pt 3) ≤ √((![1, 0, 1] : Pt 3) 0 ^ 2 + (![1, 0, 1] : Pt 3) 1 ^ 2) := by
  refine ⟨fun h => by simpa using congrFun h 0, ?_⟩
  have h2 : √2 ≤ 2 := by
    rw [Real.sqrt_le_left (by norm_num)]; norm_num
  have : nrm (![1, 0, 1] : Pt 3) = √2 := by
    unfold nrm; congr 1; simp [Fin.sum_univ_three]; norm_num
  rw [this]
  simp
  linarith

end Verif.Prb
