import Verif.Box.Model
import Verif.Spl.Props
import Mathlib.Algebra.BigOperators.Fin
import Mathlib.Tactic.Linarith
import Mathlib.Tactic.FieldSimp
import Mathlib.Tactic.Ring

/-!
# Properties of spline boxes (C133, C134)
-/

namespace Verif.Box

open Iga Spl Finset

variable {K : Type} [Field K] [LinearOrder K]

/-! ## Grid indices -/

theorem mulIdx_prod (ncp : ℕ → ℕ) (d : ℕ) : mulIdx ncp d = ∏ i ∈ range d, ncp i := by
  induction d with
  | zero => rfl
  | succ d ih => rw [mulIdx, prod_range_succ, ih]

theorem mulIdx_dvd (ncp : ℕ → ℕ) {i d : ℕ} (h : i ≤ d) : mulIdx ncp i ∣ mulIdx ncp d := by
  induction d, h using Nat.le_induction with
  | base => exact dvd_refl _
  | succ d _ ih => exact ih.trans (Dvd.intro _ rfl)

theorem mulIdx_pos (ncp : ℕ → ℕ) (d : ℕ) (h : ∀ i < d, 0 < ncp i) : 0 < mulIdx ncp d := by
  rw [mulIdx_prod]
  exact prod_pos fun i hi => h i (mem_range.1 hi)

theorem cpIdx_mod (ncp : ℕ → ℕ) (k : ℕ) {i d : ℕ} (h : i < d) :
    cpIdx ncp (k % mulIdx ncp d) i = cpIdx ncp k i := by
  obtain ⟨r, hr⟩ := mulIdx_dvd ncp (show i + 1 ≤ d from h)
  unfold cpIdx
  rw [hr, mulIdx, mul_assoc, Nat.mod_mul_right_div_self, Nat.mod_mod_of_dvd _ (Dvd.intro _ rfl)]

theorem decode_length (ncp : ℕ → ℕ) (d k : ℕ) : (decode ncp d k).length = d := by
  induction d generalizing k with
  | zero => rfl
  | succ d ih => rw [decode, List.length_cons, ih]

/-- The loop of `evaluate_derivative()` recovers the grid indices of the control point. -/
theorem decode_cpIdx (ncp : ℕ → ℕ) (d k : ℕ) (hk : k < mulIdx ncp d) (i : ℕ) (hi : i < d) :
    (decode ncp d k).reverse.getD i 0 = cpIdx ncp k i := by
  induction d generalizing k with
  | zero => omega
  | succ d ih =>
    rw [decode, List.reverse_cons]
    have hl : (decode ncp d (k % mulIdx ncp d)).reverse.length = d := by
      rw [List.length_reverse, decode_length]
    have hm : 0 < mulIdx ncp d := by
      rcases Nat.eq_zero_or_pos (mulIdx ncp d) with h | h
      · rw [mulIdx, h] at hk; omega
      · exact h
    rw [List.getD_eq_getElem?_getD]
    by_cases hid : i < d
    · rw [List.getElem?_append_left (by omega), ← List.getD_eq_getElem?_getD,
        ih _ (Nat.mod_lt _ hm) hid, cpIdx_mod ncp k hid]
    · have : i = d := by omega
      subst this
      rw [List.getElem?_append_right (by omega), hl, Nat.sub_self]
      simp only [List.getElem?_cons_zero, Option.getD_some]
      unfold cpIdx
      rw [Nat.mod_eq_of_lt]
      rw [mulIdx] at hk
      exact Nat.div_lt_of_lt_mul hk

/-- The flat index of grid indices and back. -/
theorem gridIdx_lt (ncp : ℕ → ℕ) (d : ℕ) (c : ℕ → ℕ) (h : ∀ i < d, c i < ncp i) :
    gridIdx ncp d c < mulIdx ncp d := by
  induction d with
  | zero => simp [gridIdx, mulIdx]
  | succ d ih =>
    have h1 := ih fun i hi => h i (by omega)
    have h2 := h d (by omega)
    unfold gridIdx at h1 ⊢
    rw [sum_range_succ, mulIdx]
    nlinarith

theorem cpIdx_grid (ncp : ℕ → ℕ) (d : ℕ) (c : ℕ → ℕ) (h : ∀ i < d, c i < ncp i) (i : ℕ) (hi : i < d) :
    cpIdx ncp (gridIdx ncp d c) i = c i := by
  induction d with
  | zero => omega
  | succ d ih =>
    have hlt := gridIdx_lt ncp d c fun i hi => h i (by omega)
    have e : gridIdx ncp (d + 1) c = gridIdx ncp d c + mulIdx ncp d * c d := by
      unfold gridIdx
      rw [sum_range_succ, mul_comm (c d)]
    by_cases hid : i < d
    · rw [← cpIdx_mod ncp _ hid, e, Nat.add_mul_mod_self_left, Nat.mod_eq_of_lt hlt]
      exact ih (fun i hi => h i (by omega)) hid
    · have : i = d := by omega
      subst this
      unfold cpIdx
      rw [e, Nat.add_mul_div_left _ _ (by omega), Nat.div_eq_of_lt hlt, Nat.zero_add,
        Nat.mod_eq_of_lt (h i hi)]

/-! ## Sums over the control points -/

theorem sum_range_mul' (m n : ℕ) (f : ℕ → K) :
    ∑ k ∈ range (m * n), f k = ∑ q ∈ range n, ∑ r ∈ range m, f (r + m * q) := by
  induction n with
  | zero => simp
  | succ n ih =>
    rw [Nat.mul_succ, sum_range_add, ih, sum_range_succ]
    congr 1
    exact sum_congr rfl fun r _ => by rw [add_comm]

/-- The sum of products over all control points is the product of sums. -/
theorem sum_grid (ncp : ℕ → ℕ) (d : ℕ) (F : ℕ → ℕ → K) :
    ∑ k ∈ range (mulIdx ncp d), ∏ i ∈ range d, F i (cpIdx ncp k i)
      = ∏ i ∈ range d, ∑ j ∈ range (ncp i), F i j := by
  induction d with
  | zero => simp [mulIdx]
  | succ d ih =>
    rw [mulIdx, sum_range_mul', prod_range_succ, ← ih, mul_sum]
    refine sum_congr rfl fun q hq => ?_
    rw [sum_mul]
    refine sum_congr rfl fun r hr => ?_
    have hr' := mem_range.1 hr
    have hq' := mem_range.1 hq
    rw [prod_range_succ]
    congr 1
    · refine prod_congr rfl fun i hi => ?_
      rw [← cpIdx_mod ncp (r + mulIdx ncp d * q) (mem_range.1 hi), Nat.add_mul_mod_self_left,
        Nat.mod_eq_of_lt hr']
    · unfold cpIdx
      rw [Nat.add_mul_div_left _ _ (by omega), Nat.div_eq_of_lt hr', Nat.zero_add,
        Nat.mod_eq_of_lt hq']

variable [IsStrictOrderedRing K]

/-! ## Linear precision -/

/-- The polar form of the averages of knots is the average of the arguments. -/
theorem polar_greville {t : ℕ → K} {a : ℕ} (h : Span t a) (P S : K) (ys : List K) (hl : ys.length ≤ a) :
    polar t a ys (fun l => (S + ∑ m ∈ range ys.length, t (a - ys.length + l + 1 + m)) / P)
      = (S + ys.sum) / P := by
  induction ys generalizing S with
  | nil => simp [polar, dbSteps]
  | cons y ys ih =>
    have hl' : ys.length + 1 ≤ a := by simpa using hl
    rw [polar_cons, List.sum_cons, ← add_assoc, ← ih (S + y) (by omega)]
    refine polar_congr _ fun l hlq => ?_
    have hne := h.ne (q := ys.length) (by omega) hlq
    unfold dbStep
    rw [div_eq_iff hne, List.length_cons]
    have e1 : ∑ m ∈ range (ys.length + 1), t (a - (ys.length + 1) + l + 1 + m)
        = t (a - ys.length + l) + ∑ m ∈ range ys.length, t (a - ys.length + l + 1 + m) := by
      rw [sum_range_succ']
      rw [add_comm]
      congr 1
      · congr 1; omega
      · exact sum_congr rfl fun m _ => by congr 1; omega
    have e2 : ∑ m ∈ range (ys.length + 1), t (a - (ys.length + 1) + (l + 1) + 1 + m)
        = (∑ m ∈ range ys.length, t (a - ys.length + l + 1 + m)) + t (a + 1 + l) := by
      rw [sum_range_succ]
      congr 1
      · exact sum_congr rfl fun m _ => by congr 1; omega
      · congr 1; omega
    beta_reduce
    rw [e1, e2]
    ring

/-- The setting of a usable box: at least one segment in each direction, the knots farther than `eps` from
each other, and the floating-point `hi - eps` in the last segment, different from `hi`. -/
structure SBox.Ok (b : SBox K) : Prop where
  dg : 1 ≤ b.dg
  nsg : ∀ i < b.d, 1 ≤ b.nsg i
  eps : 0 ≤ b.eps
  sep : ∀ i < b.d, b.eps * (b.nsg i : K) < b.hi i - b.lo i
  lo : ∀ i < b.d, b.lo i ≤ b.tEnd i
  hi : ∀ i < b.d, b.tEnd i < b.hi i

section direction

variable {b : SBox K} {i : ℕ}

theorem knots_facts (hn : 1 ≤ b.nsg i) (he : 0 ≤ b.eps) (hs : b.eps * (b.nsg i : K) < b.hi i - b.lo i) :
    (b.knots i).length = b.dg + b.ncp i + 1 ∧ Sep b.eps (b.knots i) ∧
    knotFn (b.knots i) b.dg = b.lo i ∧ knotFn (b.knots i) (b.ncp i) = b.hi i ∧
    (b.knots i).getD ((b.knots i).length - (b.dg + 1)) 0 = b.hi i := by
  have hlt : b.dg < b.ncp i := by unfold SBox.ncp; omega
  have hsub : b.ncp i - b.dg = b.nsg i := by unfold SBox.ncp; omega
  obtain ⟨h1, h2, h3, h4, _⟩ := C128_clamped (r0 := b.lo i) (r1 := b.hi i) hlt he (by rw [hsub]; exact hs)
  have h4' := h4 (b.ncp i) le_rfl
  refine ⟨h1, h2, h3 b.dg le_rfl, h4', ?_⟩
  have hl : (b.knots i).length = b.dg + b.ncp i + 1 := h1
  rw [← h4', hl]
  unfold knotFn SBox.knots
  rw [h1]
  congr 1
  omega

theorem param_range (hn : 1 ≤ b.nsg i) (he : 0 ≤ b.eps) (hs : b.eps * (b.nsg i : K) < b.hi i - b.lo i)
    (h0 : b.lo i ≤ b.tEnd i) (h1 : b.tEnd i < b.hi i) {t : K} (ht : b.lo i ≤ t ∧ t ≤ b.hi i) :
    b.lo i ≤ b.param i t ∧ b.param i t < b.hi i := by
  obtain ⟨_, _, _, _, hend⟩ := knots_facts hn he hs
  unfold SBox.param
  rw [hend]
  split_ifs with h
  · exact ⟨h0, h1⟩
  · exact ⟨ht.1, lt_of_le_of_ne ht.2 h⟩

theorem base_sum (hn : 1 ≤ b.nsg i) (he : 0 ≤ b.eps) (hs : b.eps * (b.nsg i : K) < b.hi i - b.lo i)
    {t : K} (h0 : b.lo i ≤ t) (h1 : t < b.hi i) :
    ∑ j ∈ range (b.ncp i), basisDg b.eps t (knotFn (b.knots i)) b.dg j = 1 := by
  obtain ⟨_, hsep, hlo, hhi, _⟩ := knots_facts hn he hs
  exact C128_partition he hsep (by rw [hlo]; exact h0) (by rw [hhi]; exact h1)

theorem cp0_eq (hn : 1 ≤ b.nsg i) (he : 0 ≤ b.eps) (hs : b.eps * (b.nsg i : K) < b.hi i - b.lo i)
    {j : ℕ} (hj : j < b.ncp i) :
    b.cp0 i j = (∑ m ∈ range b.dg, knotFn (b.knots i) (j + 1 + m)) / (b.dg : K) := by
  obtain ⟨hl, _, _, _, _⟩ := knots_facts hn he hs
  unfold SBox.cp0
  congr 1
  have e : ((b.knots i).drop (j + 1)).take b.dg
      = (List.range b.dg).map fun m => knotFn (b.knots i) (j + 1 + m) := by
    apply List.ext_getElem
    · simp [hl]; omega
    · intro m hm1 hm2
      have hm : m < b.dg := by simpa using hm2
      simp only [List.getElem_take, List.getElem_drop, List.getElem_map, List.getElem_range]
      unfold knotFn
      rw [Nat.min_eq_left (by omega), List.getD_eq_getElem _ _ (by omega)]
  rw [e]
  exact (Multiset.sum_coe _).symm

theorem base_linear (hd : 1 ≤ b.dg) (hn : 1 ≤ b.nsg i) (he : 0 ≤ b.eps)
    (hs : b.eps * (b.nsg i : K) < b.hi i - b.lo i) {t : K} (h0 : b.lo i ≤ t) (h1 : t < b.hi i) :
    ∑ j ∈ range (b.ncp i), basisDg b.eps t (knotFn (b.knots i)) b.dg j * b.cp0 i j = t := by
  obtain ⟨_, hsep, hlo, hhi, _⟩ := knots_facts hn he hs
  have hm := knotFn_mono hsep.sorted
  obtain ⟨a, ha, han, hx, hx'⟩ := exists_span hm (p := b.dg) (n := b.ncp i) (x := t)
    (by rw [hlo]; exact h0) (by rw [hhi]; exact h1)
  have hsp : Span (knotFn (b.knots i)) a := ⟨hm, hx.trans_lt hx'⟩
  have hdg : (b.dg : K) ≠ 0 := Nat.cast_ne_zero.2 (by omega)
  have e := sum_polar hsp ha han hx hx'
    (fun j => (∑ m ∈ range b.dg, knotFn (b.knots i) (j + 1 + m)) / (b.dg : K))
  have hg := polar_greville hsp (b.dg : K) 0 (List.replicate b.dg t) (by simpa using ha)
  simp only [List.length_replicate, List.sum_replicate, nsmul_eq_mul, zero_add] at hg
  rw [hg] at e
  have : (b.dg : K) * t / (b.dg : K) = t := by field_simp
  rw [this] at e
  refine Eq.trans ?_ e
  refine sum_congr rfl fun j hj => ?_
  rw [C128_cox_de_boor he hsep, cp0_eq hn he hs (mem_range.1 hj)]

end direction

/-! ## C133: the untouched box -/

theorem ncpTot_eq (b : SBox K) : b.ncpTot = mulIdx b.ncp b.d := by
  rw [mulIdx_prod]; rfl

theorem sum_mtx (b : SBox K) (h : b.Ok) (x : ℕ → K) (hx : b.inside x) :
    ∑ k ∈ range b.ncpTot, b.mtx x k = 1 := by
  rw [ncpTot_eq]
  unfold SBox.mtx
  rw [sum_grid b.ncp b.d (fun i j => b.base x i j)]
  refine prod_eq_one fun i hi => ?_
  have hi' := mem_range.1 hi
  obtain ⟨p0, p1⟩ := param_range (h.nsg i hi') h.eps (h.sep i hi') (h.lo i hi') (h.hi i hi') (hx i hi')
  exact base_sum (h.nsg i hi') h.eps (h.sep i hi') p0 p1

/-- A box whose control points were not moved does not change the geometry: the points outside of the box
keep their values; for a point inside, each coordinate is returned exactly if it is not the upper end of
the box, and as the shifted value `tEnd` of that end otherwise. -/
theorem C133_identity (b : SBox K) (h : b.Ok) (x field : ℕ → K) (c : ℕ) (hc : c < b.d) :
    (¬ b.inside x → b.evaluate b.cpCoors x field c = field c) ∧
    (b.inside x → x c ≠ b.hi c → b.evaluate b.cpCoors x field c = x c) ∧
    (b.inside x → x c = b.hi c → b.evaluate b.cpCoors x field c = b.tEnd c) := by
  have main : b.inside x → b.evaluate b.cpCoors x field c = b.param c (x c) := by
    intro hx
    unfold SBox.evaluate
    rw [if_pos hx, ncpTot_eq]
    have e : ∀ k, b.mtx x k * b.cpCoors k c = ∏ i ∈ range b.d,
        (fun i j => b.base x i j * if i = c then b.cp0 c j else 1) i (cpIdx b.ncp k i) := by
      intro k
      unfold SBox.mtx SBox.cpCoors
      rw [prod_mul_distrib]
      congr 1
      rw [prod_ite_eq' (range b.d) c (fun i => b.cp0 c (cpIdx b.ncp k i)), if_pos (mem_range.2 hc)]
    rw [sum_congr rfl fun k _ => e k,
      sum_grid b.ncp b.d (fun i j => b.base x i j * if i = c then b.cp0 c j else 1)]
    have hsplit : ∀ i ∈ range b.d, (∑ j ∈ range (b.ncp i),
        b.base x i j * if i = c then b.cp0 c j else 1) = if i = c then b.param c (x c) else 1 := by
      intro i hi
      have hi' := mem_range.1 hi
      obtain ⟨p0, p1⟩ := param_range (h.nsg i hi') h.eps (h.sep i hi') (h.lo i hi') (h.hi i hi')
        (hx i hi')
      by_cases hic : i = c
      · subst hic
        simp only [if_true]
        exact base_linear h.dg (h.nsg i hi') h.eps (h.sep i hi') p0 p1
      · simp only [hic, if_false, mul_one]
        exact base_sum (h.nsg i hi') h.eps (h.sep i hi') p0 p1
    rw [prod_congr rfl hsplit, prod_ite_eq' (range b.d) c (fun _ => b.param c (x c)),
      if_pos (mem_range.2 hc)]
  have hend := (knots_facts (h.nsg c hc) h.eps (h.sep c hc)).2.2.2.2
  refine ⟨?_, ?_, ?_⟩
  · intro hx
    unfold SBox.evaluate
    rw [if_neg hx]
  · intro hx hne
    rw [main hx]
    unfold SBox.param
    rw [hend, if_neg hne]
  · intro hx he
    rw [main hx]
    unfold SBox.param
    rw [hend, if_pos he]

/-- When subtracting `eps` does not change the upper end (in double precision, when it is 4 or more), all
points on that side of the box are evaluated to zero, whatever the control points are. -/
theorem C133_end_collapse (b : SBox K) (i : ℕ) (hi : i < b.d) (hn : 1 ≤ b.nsg i) (he : 0 ≤ b.eps)
    (hs : b.eps * (b.nsg i : K) < b.hi i - b.lo i) (ht : b.tEnd i = b.hi i) (cp : ℕ → ℕ → K)
    (x field : ℕ → K) (hx : b.inside x) (hxi : x i = b.hi i) (c : ℕ) :
    b.evaluate cp x field c = 0 := by
  obtain ⟨hl, hsep, hlo, hhi, hend⟩ := knots_facts hn he hs
  unfold SBox.evaluate
  rw [if_pos hx]
  refine sum_eq_zero fun k hk => ?_
  have hz : b.base x i (cpIdx b.ncp k i) = 0 := by
    unfold SBox.base
    apply (C128_local he hsep _ _ _).2
    right
    have hp : b.param i (x i) = b.hi i := by
      unfold SBox.param
      rw [hend, if_pos hxi, ht]
    rw [hp, ← hhi]
    have hlt : b.dg < b.ncp i := by unfold SBox.ncp; omega
    have hsub : b.ncp i - b.dg = b.nsg i := by unfold SBox.ncp; omega
    obtain ⟨_, _, _, h4, _⟩ := C128_clamped (r0 := b.lo i) (r1 := b.hi i) hlt he (by rw [hsub]; exact hs)
    have hm := knotFn_mono hsep.sorted
    have hj : cpIdx b.ncp k i < b.ncp i := Nat.mod_lt _ (by omega)
    have := hm (show cpIdx b.ncp k i + b.dg + 1 ≤ b.ncp i + b.dg by omega)
    have e : knotFn (b.knots i) (b.ncp i + b.dg) = b.hi i := h4 _ (by omega)
    rw [hhi, ← e]
    exact this
  unfold SBox.mtx
  rw [prod_eq_zero (mem_range.2 hi) hz, zero_mul]

/-! ## C134: moved control points -/

/-- Moving a control point, given by grid indices, changes the evaluated geometry in the points inside of
the box by `evaluate_derivative()` of that control point in the direction of the displacement, exactly and
for any displacement; the points outside are not changed.  The flat index and the grid indices of a control
point give the same derivative. -/
theorem C134_move (b : SBox K) (cp : ℕ → ℕ → K) (g : ℕ → ℕ) (hg : ∀ i < b.d, g i < b.ncp i)
    (val x field : ℕ → K) (c : ℕ) :
    (b.inside x → b.evaluate (moveCp cp (gridIdx b.ncp b.d g) val) x field c
      = b.evaluate cp x field c + b.derivGrid x g val c) ∧
    (¬ b.inside x → b.evaluate (moveCp cp (gridIdx b.ncp b.d g) val) x field c = field c) ∧
    b.derivFlat x (gridIdx b.ncp b.d g) val c = b.derivGrid x g val c := by
  have hlt := gridIdx_lt b.ncp b.d g hg
  refine ⟨?_, ?_, ?_⟩
  · intro hx
    unfold SBox.evaluate
    rw [if_pos hx, if_pos hx, ncpTot_eq]
    have e : ∀ k, b.mtx x k * moveCp cp (gridIdx b.ncp b.d g) val k c
        = b.mtx x k * cp k c + if k = gridIdx b.ncp b.d g then b.mtx x k * val c else 0 := by
      intro k
      unfold moveCp
      split_ifs <;> ring
    rw [sum_congr rfl fun k _ => e k, sum_add_distrib,
      sum_ite_eq' (range (mulIdx b.ncp b.d)) (gridIdx b.ncp b.d g) (fun k => b.mtx x k * val c),
      if_pos (mem_range.2 hlt)]
    congr 1
    unfold SBox.mtx SBox.derivGrid
    congr 1
    exact prod_congr rfl fun i hi => by rw [cpIdx_grid b.ncp b.d g hg i (mem_range.1 hi)]
  · intro hx
    unfold SBox.evaluate
    rw [if_neg hx]
  · unfold SBox.derivFlat SBox.derivGrid
    simp only
    congr 1
    refine prod_congr rfl fun i hi => ?_
    rw [decode_cpIdx b.ncp b.d _ hlt i (mem_range.1 hi), cpIdx_grid b.ncp b.d g hg i (mem_range.1 hi)]

/-- Every control point is given by grid indices, and by exactly one flat index below their number. -/
theorem C134_indices (ncp : ℕ → ℕ) (d : ℕ) (hn : ∀ i < d, 0 < ncp i) :
    (∀ k < ∏ i ∈ range d, ncp i, (∀ i < d, cpIdx ncp k i < ncp i) ∧
      gridIdx ncp d (cpIdx ncp k) = k) ∧
    (∀ g : ℕ → ℕ, (∀ i < d, g i < ncp i) → gridIdx ncp d g < ∏ i ∈ range d, ncp i ∧
      ∀ i < d, cpIdx ncp (gridIdx ncp d g) i = g i) := by
  rw [← mulIdx_prod]
  refine ⟨fun k hk => ⟨fun i hi => Nat.mod_lt _ (hn i hi), ?_⟩,
    fun g hg => ⟨gridIdx_lt ncp d g hg, cpIdx_grid ncp d g hg⟩⟩
  induction d generalizing k with
  | zero =>
    rw [mulIdx] at hk
    simp [gridIdx]
    omega
  | succ d ih =>
    have hm := mulIdx_pos ncp d fun i hi => hn i (by omega)
    have h1 := ih (fun i hi => hn i (by omega)) (k % mulIdx ncp d) (Nat.mod_lt _ hm)
    have h2 : ∑ i ∈ range d, cpIdx ncp k i * mulIdx ncp i = k % mulIdx ncp d := by
      refine Eq.trans ?_ h1
      unfold gridIdx
      exact sum_congr rfl fun i hi => by rw [cpIdx_mod ncp k (mem_range.1 hi)]
    unfold gridIdx
    rw [sum_range_succ, h2]
    have h3 : cpIdx ncp k d = k / mulIdx ncp d := by
      unfold cpIdx
      apply Nat.mod_eq_of_lt
      rw [mulIdx] at hk
      exact Nat.div_lt_of_lt_mul hk
    rw [h3, mul_comm]
    exact Nat.mod_add_div _ _

/-- Affine maps of the control points are applied to the geometry: translations, rotations, scalings. -/
theorem C134_affine (b : SBox K) (h : b.Ok) (cp : ℕ → ℕ → K) (A : ℕ → ℕ → K) (v x field : ℕ → K)
    (hx : b.inside x) (c : ℕ) :
    b.evaluate (fun k c => (∑ j ∈ range b.d, A c j * cp k j) + v c) x field c
      = (∑ j ∈ range b.d, A c j * b.evaluate cp x field j) + v c := by
  unfold SBox.evaluate
  simp only [if_pos hx]
  have h1 := sum_mtx b h x hx
  simp only [mul_add, sum_add_distrib]
  rw [← sum_mul, h1, one_mul]
  congr 1
  simp only [mul_sum]
  rw [sum_comm]
  exact sum_congr rfl fun j _ => sum_congr rfl fun k _ => by ring

/-- The evaluated values are averages of the control values: they keep their bounds. -/
theorem C134_bounds (b : SBox K) (h : b.Ok) (cp : ℕ → ℕ → K) (lo hi : K) (x field : ℕ → K)
    (hx : b.inside x) (c : ℕ) (hcp : ∀ k < b.ncpTot, lo ≤ cp k c ∧ cp k c ≤ hi) :
    lo ≤ b.evaluate cp x field c ∧ b.evaluate cp x field c ≤ hi := by
  have h1 := sum_mtx b h x hx
  have hnn : ∀ k, 0 ≤ b.mtx x k := by
    intro k
    unfold SBox.mtx
    refine prod_nonneg fun i hi => ?_
    have hi' := mem_range.1 hi
    have hsep := (knots_facts (h.nsg i hi') h.eps (h.sep i hi')).2.1
    exact (C128_local h.eps hsep _ _ _).1
  unfold SBox.evaluate
  rw [if_pos hx]
  constructor
  · calc lo = ∑ k ∈ range b.ncpTot, b.mtx x k * lo := by rw [← sum_mul, h1, one_mul]
      _ ≤ _ := sum_le_sum fun k hk =>
        mul_le_mul_of_nonneg_left (hcp k (mem_range.1 hk)).1 (hnn k)
  · calc _ ≤ ∑ k ∈ range b.ncpTot, b.mtx x k * hi := sum_le_sum fun k hk =>
          mul_le_mul_of_nonneg_left (hcp k (mem_range.1 hk)).2 (hnn k)
      _ = hi := by rw [← sum_mul, h1, one_mul]

/-- Moving a control point is local: a point does not move if in some direction its (shifted) coordinate is
not in the support of the basis function of the control point. -/
theorem C134_local (b : SBox K) (h : b.Ok) (g : ℕ → ℕ) (val x : ℕ → K) (c i : ℕ) (hi : i < b.d)
    (hx : b.param i (x i) < knotFn (b.knots i) (g i) ∨
      knotFn (b.knots i) (g i + b.dg + 1) ≤ b.param i (x i)) :
    b.derivGrid x g val c = 0 := by
  unfold SBox.derivGrid
  have hsep := (knots_facts (h.nsg i hi) h.eps (h.sep i hi)).2.1
  have hz : b.base x i (g i) = 0 := (C128_local h.eps hsep _ _ _).2 hx
  rw [prod_eq_zero (mem_range.2 hi) hz, zero_mul]

/-! ## Non-vacuity -/

/-- The unit square with cubic splines, two segments in the first direction. -/
def demo : SBox ℚ where
  d := 2
  lo := fun _ => 0
  hi := fun _ => 1
  dg := 3
  nsg := fun i => if i = 0 then 2 else 1
  eps := 1 / 1000
  tEnd := fun _ => 999 / 1000

theorem demo_ok : demo.Ok := by
  refine ⟨by decide, ?_, by decide +kernel, ?_, fun _ _ => by norm_num [demo],
    fun _ _ => by norm_num [demo]⟩
  · intro i _
    simp only [demo]
    split_ifs <;> omega
  · intro i _
    simp only [demo]
    split_ifs <;> norm_num

example : demo.inside (fun i => if i = 0 then 1 / 4 else 1) := by
  intro i _
  simp only [demo]
  split_ifs <;> norm_num

example : (List.range 5).map (fun j => demo.cp0 0 j) = [0, 1 / 6, 1 / 2, 5 / 6, 1] := by decide +kernel

example : gridIdx demo.ncp 2 (fun i => i + 2) = 17 ∧ decode demo.ncp 2 17 = [3, 2] := by decide +kernel

end Verif.Box
