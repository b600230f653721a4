import Verif.Iga.Global

/-!
# Proofs: combined operators and the Bezier control points
-/

namespace Iga

section Scatter

variable {K : Type*} [Field K]

theorem scatterRow_spec (row : List ℕ) (val : ℕ → K) (g arr : ℕ → K)
    (hg : ∀ l < row.length, val l = g (row.getD l 0)) (m : ℕ) (hm : m ≤ row.length) (v : ℕ) :
    ((List.range m).foldl (fun arr l v => if v = row.getD l 0 then val l else arr v) arr v = arr v ∨
      (List.range m).foldl (fun arr l v => if v = row.getD l 0 then val l else arr v) arr v = g v) ∧
    ((∃ l < m, row.getD l 0 = v) →
      (List.range m).foldl (fun arr l v => if v = row.getD l 0 then val l else arr v) arr v = g v) := by
  induction m with
  | zero => exact ⟨Or.inl rfl, by rintro ⟨l, hl, -⟩; omega⟩
  | succ m ih =>
    obtain ⟨i1, i2⟩ := ih (by omega)
    rw [List.range_succ, List.foldl_append]
    simp only [List.foldl_cons, List.foldl_nil]
    by_cases h : v = row.getD m 0
    · rw [if_pos h, hg m (by omega), ← h]
      exact ⟨Or.inr rfl, fun _ => rfl⟩
    · rw [if_neg h]
      refine ⟨i1, ?_⟩
      rintro ⟨l, hl, e⟩
      refine i2 ⟨l, ?_, e⟩
      rcases Nat.lt_succ_iff_lt_or_eq.1 hl with h' | h'
      · exact h'
      · subst h'; exact absurd e.symm h

theorem scatterElems_spec (rows : List (List ℕ × (ℕ → K))) (init g : ℕ → K)
    (hg : ∀ r ∈ rows, ∀ l < r.1.length, r.2 l = g (r.1.getD l 0)) (v : ℕ)
    (hv : (∃ r ∈ rows, ∃ l < r.1.length, r.1.getD l 0 = v) ∨ init v = g v) :
    scatterElems rows init v = g v := by
  unfold scatterElems
  induction rows generalizing init with
  | nil =>
    rcases hv with ⟨r, hr, -⟩ | h
    · simp at hr
    · exact h
  | cons r rows ih =>
    rw [List.foldl_cons]
    apply ih
    · exact fun r hr => hg r (List.mem_cons_of_mem _ hr)
    · obtain ⟨s1, s2⟩ := scatterRow_spec r.1 r.2 g init (hg r (List.mem_cons_self ..)) _ le_rfl v
      rcases hv with ⟨r', hr', l, hl, e⟩ | h
      · rcases List.mem_cons.1 hr' with rfl | hr''
        · exact Or.inr (s2 ⟨l, hl, e⟩)
        · exact Or.inl ⟨r', hr'', l, hl, e⟩
      · right
        rcases s1 with s | s
        · rw [s, h]
        · exact s

/-- If the values for shared points agree, every element finds its own values in the array. -/
theorem scatterElems_consistent (rows : List (List ℕ × (ℕ → K))) (init : ℕ → K)
    (hc : ∀ r ∈ rows, ∀ r' ∈ rows, ∀ l < r.1.length, ∀ l' < r'.1.length,
      r.1.getD l 0 = r'.1.getD l' 0 → r.2 l = r'.2 l')
    (r : List ℕ × (ℕ → K)) (hr : r ∈ rows) (l : ℕ) (hl : l < r.1.length) :
    scatterElems rows init (r.1.getD l 0) = r.2 l := by
  classical
  let g : ℕ → K := fun v =>
    if h : ∃ x : (List ℕ × (ℕ → K)) × ℕ, x.1 ∈ rows ∧ x.2 < x.1.1.length ∧ x.1.1.getD x.2 0 = v
    then h.choose.1.2 h.choose.2 else 0
  have hg : ∀ r ∈ rows, ∀ l < r.1.length, r.2 l = g (r.1.getD l 0) := by
    intro r hr l hl
    have h : ∃ x : (List ℕ × (ℕ → K)) × ℕ, x.1 ∈ rows ∧ x.2 < x.1.1.length ∧
        x.1.1.getD x.2 0 = r.1.getD l 0 := ⟨(r, l), hr, hl, rfl⟩
    simp only [g]
    rw [dif_pos h]
    exact hc r hr _ h.choose_spec.1 l hl _ h.choose_spec.2.1 h.choose_spec.2.2.symm
  rw [hg r hr l hl]
  exact scatterElems_spec rows init g hg _ (Or.inl ⟨r, hr, l, hl, rfl⟩)

end Scatter

section Combine

variable {K : Type*} [Field K]

/-- The product of the entries of the 1D operators. -/
def entry : List (Op K) → List ℕ → List ℕ → K
  | C :: Cs, i :: is, k :: ks => C i k * entry Cs is ks
  | _, _, _ => 1

/-- **C77.** The combined operator of an element is the tensor product of its 1D operators, in the order
of the raveled indices, in any number of dimensions. -/
theorem C77_combined_operator (cs : List (ℕ × Op K)) (i k : List ℕ)
    (hi : Valid (cs.map Prod.fst) i) (hk : Valid (cs.map Prod.fst) k) :
    combineOne cs (ravel (cs.map Prod.fst) i) (ravel (cs.map Prod.fst) k)
      = entry (cs.map Prod.snd) i k := by
  induction cs generalizing i k with
  | nil => cases i <;> cases k <;> rfl
  | cons c cs ih =>
    cases i with
    | nil => simp [Valid] at hi
    | cons i is =>
    cases k with
    | nil => simp [Valid] at hk
    | cons k ks =>
    simp only [List.map_cons, Valid, List.forall₂_cons] at hi hk
    cases cs with
    | nil =>
      cases is with
      | cons => simp at hi
      | nil =>
      cases ks with
      | cons => simp at hk
      | nil => simp [combineOne, ravel, entry]
    | cons c' cs =>
      have h1 := ravel_lt hi.2
      have h2 := ravel_lt hk.2
      have e := ih is ks hi.2 hk.2
      simp only [List.map_cons] at e h1 h2 ⊢
      rw [combineOne, tensorProduct, entry, ravel, ravel, ← e]
      · simp only [List.map_cons]
        rw [Nat.add_comm (i * _), Nat.add_comm (k * _), Nat.add_mul_div_right _ _ (by omega),
          Nat.add_mul_div_right _ _ (by omega), Nat.div_eq_of_lt h1, Nat.div_eq_of_lt h2,
          Nat.add_mul_mod_self_right, Nat.add_mul_mod_self_right, Nat.mod_eq_of_lt h1,
          Nat.mod_eq_of_lt h2, Nat.zero_add, Nat.zero_add]
      · simp

/-- **C77.** One element: the rational Bezier form with the computed Bezier weights and control points
is the NURBS form with the original ones, for every Bernstein values `B` — if no Bezier weight is
zero. -/
theorem C77_bezier_form (n : ℕ) (cc : Op K) (ew ecp B : ℕ → K) (hw : ∀ k < n, bezWeight n cc ew k ≠ 0) :
    (∑ k ∈ Finset.range n, bezWeight n cc ew k * B k
      = ∑ i ∈ Finset.range n, ew i * ∑ k ∈ Finset.range n, cc i k * B k) ∧
    ∑ k ∈ Finset.range n, bezWeight n cc ew k * bezPoint n cc ew ecp k * B k
      = ∑ i ∈ Finset.range n, ew i * ecp i * ∑ k ∈ Finset.range n, cc i k * B k := by
  constructor
  · unfold bezWeight
    simp only [Finset.sum_mul, Finset.mul_sum]
    rw [Finset.sum_comm]
    refine Finset.sum_congr rfl fun i _ => Finset.sum_congr rfl fun k _ => ?_
    ring
  · have : ∀ k ∈ Finset.range n, bezWeight n cc ew k * bezPoint n cc ew ecp k * B k
        = ∑ i ∈ Finset.range n, ew i * ecp i * (cc i k * B k) := by
      intro k hk
      have h := hw k (Finset.mem_range.1 hk)
      unfold bezPoint
      rw [← mul_assoc, mul_one_div, div_self h, one_mul, Finset.sum_mul]
      refine Finset.sum_congr rfl fun i _ => ?_
      ring
    rw [Finset.sum_congr rfl this, Finset.sum_comm]
    refine Finset.sum_congr rfl fun i _ => ?_
    rw [Finset.mul_sum]

end Combine

/-! ### Shared points -/

section Shared

variable {K : Type*} [Field K] [LinearOrder K] [IsStrictOrderedRing K]

theorem spans_sorted (knots : List K) (p : ℕ) : (spans knots p).Pairwise (· < ·) := by
  unfold spans
  exact List.pairwise_lt_range.filter _

/-- Consecutive elements: the knots between are equal. -/
theorem spans_next (d : Dir K) (h : Clamped d.knots d.p) (e : ℕ) (he : e + 1 < d.nEl) :
    d.span e < d.span (e + 1) ∧
    ∀ x, d.span e < x → x ≤ d.span (e + 1) → knotFn d.knots x = knotFn d.knots (d.span e + 1) := by
  have hs := spans_sorted d.knots d.p
  unfold Dir.nEl at he
  have e1 : d.span e = (spans d.knots d.p)[e] := by
    unfold Dir.span; rw [List.getD_eq_getElem _ _ (by omega)]
  have e2 : d.span (e + 1) = (spans d.knots d.p)[e + 1] := by
    unfold Dir.span; rw [List.getD_eq_getElem _ _ he]
  have hlt : d.span e < d.span (e + 1) := by
    rw [e1, e2]; exact List.pairwise_iff_getElem.1 hs _ _ _ _ (Nat.lt_succ_self e)
  refine ⟨hlt, ?_⟩
  have m1 := mem_spans (e1 ▸ List.getElem_mem (l := spans d.knots d.p) (by omega : e < _))
  have m2 := mem_spans (e2 ▸ List.getElem_mem (l := spans d.knots d.p) he)
  intro x
  induction x with
  | zero => intro h1; omega
  | succ x ih =>
    intro h1 h2
    by_cases hx : x = d.span e
    · rw [hx]
    · rw [← ih (by omega) (by omega)]
      by_contra hne
      have hmono := knotFn_mono h.sorted
      have hl : knotFn d.knots x < knotFn d.knots (x + 1) :=
        lt_of_le_of_ne (hmono (by omega)) fun e => hne e.symm
      have hx' : x ∈ spans d.knots d.p := by
        unfold spans
        rw [List.mem_filter, List.mem_range]
        refine ⟨by omega, ?_⟩
        simp only [decide_eq_true_eq]
        exact ⟨by omega, hl⟩
      obtain ⟨i, hi, hxi⟩ := List.getElem_of_mem hx'
      have g1 : e < i := by
        by_contra hc
        have : i ≤ e := by omega
        rcases Nat.eq_or_lt_of_le this with rfl | hlt'
        · omega
        · have := List.pairwise_iff_getElem.1 hs i e hi (by omega) hlt'
          omega
      have g2 : i < e + 1 := by
        by_contra hc
        have : e + 1 ≤ i := by omega
        rcases Nat.eq_or_lt_of_le this with rfl | hlt'
        · omega
        · have := List.pairwise_iff_getElem.1 hs (e + 1) i he hi hlt'
          omega
      omega

/-- The functional of the column `k` of the operator of the element `e`. -/
def Dir.functional (d : Dir K) (e k : ℕ) (c : ℕ → K) : K :=
  ∑ i ∈ Finset.range (d.p + 1), (computeBezierExtraction1d d.knots d.p).getD e eye i k * c (d.glob e i)

/-- No inner knot is repeated more than `p` times: the basis is continuous. -/
def Dir.Continuous (d : Dir K) : Prop := ∀ e, e + 1 < d.nEl → d.span (e + 1) - d.span e ≤ d.p

theorem functional_meet (d : Dir K) (h : Clamped d.knots d.p) (hc : d.Continuous) (e : ℕ)
    (he : e + 1 < d.nEl) (c : ℕ → K) : d.functional e d.p c = d.functional (e + 1) 0 c := by
  obtain ⟨n1, n2⟩ := spans_next d h e he
  have F := extraction_final d.knots d.p h
  have F1 := forall₂_get F e (by unfold Dir.nEl at he; omega) 0 eye
  have F2 := forall₂_get F (e + 1) he 0 eye
  change Final _ _ (d.span e) _ at F1
  change Final _ _ (d.span (e + 1)) _ at F2
  have m1 : d.span e ∈ spans d.knots d.p := by
    unfold Dir.span
    rw [List.getD_eq_getElem _ _ (by unfold Dir.nEl at he; omega)]; exact List.getElem_mem _
  have m2 : d.span (e + 1) ∈ spans d.knots d.p := by
    unfold Dir.span
    rw [List.getD_eq_getElem _ _ he]; exact List.getElem_mem _
  have s1 := mem_spans m1
  have s2 := mem_spans m2
  have hm := hc e he
  obtain ⟨m, hmm⟩ : ∃ m, d.span (e + 1) = d.span e + m := ⟨d.span (e + 1) - d.span e, by omega⟩
  have hmono := knotFn_mono h.sorted
  unfold Dir.functional Dir.glob
  rw [hmm] at F2 s2 ⊢
  exact Final.meet ⟨hmono, s1.2.2⟩ ⟨hmono, s2.2.2⟩ s1.1 (by omega)
    (fun x h1 h2 => n2 _ (by omega) (by omega)) (by omega) F1 F2 c

/-- Points with the same number in the Bezier connectivity have the same functional. -/
theorem functional_shared (d : Dir K) (h : Clamped d.knots d.p) (hc : d.Continuous) (hp : 1 ≤ d.p)
    (e k e' k' : ℕ) (he : e < d.nEl) (he' : e' < d.nEl) (hk : k < d.p + 1) (hk' : k' < d.p + 1)
    (heq : k + d.p * e = k' + d.p * e') : d.functional e k = d.functional e' k' := by
  wlog hle : e ≤ e' generalizing e k e' k'
  · exact (this e' k' e k he' he hk' hk heq.symm (by omega)).symm
  · rcases Nat.eq_or_lt_of_le hle with rfl | hlt
    · have : k = k' := by omega
      rw [this]
    · obtain ⟨g, rfl⟩ : ∃ g, e' = e + 1 + g := ⟨e' - e - 1, by omega⟩
      have h1 : d.p * (e + 1 + g) = d.p * e + d.p + d.p * g := by ring
      have h2 : d.p * g = 0 := by omega
      have hg : g = 0 := by
        rcases Nat.mul_eq_zero.1 h2 with h | h <;> omega
      subst hg
      obtain rfl : k = d.p := by omega
      obtain rfl : k' = 0 := by omega
      funext c
      exact functional_meet d h hc e he' c

/-- The functional in more dimensions. -/
def multi : List (Dir K) → List ℕ → List ℕ → (List ℕ → K) → K
  | d :: ds, e :: es, k :: ks, F => d.functional e k fun A => multi ds es ks fun B => F (A :: B)
  | _, _, _, F => F []

/-- The patch: clamped, continuous, the degrees at least one. -/
structure GoodDir (d : Dir K) : Prop where
  clamped : Clamped d.knots d.p
  cont : d.Continuous
  deg : 1 ≤ d.p

/-- The multi-index of a point in the Bezier connectivity. -/
def bezIdx : List (Dir K) → List ℕ → List ℕ → List ℕ
  | d :: ds, e :: es, k :: ks => (k + d.p * e) :: bezIdx ds es ks
  | _, _, _ => []

theorem multi_shared (ds : List (Dir K)) (h : ∀ d ∈ ds, GoodDir d) (e k e' k' : List ℕ)
    (he : Valid (ds.map Dir.nEl) e) (he' : Valid (ds.map Dir.nEl) e')
    (hk : Valid (ds.map fun d => d.p + 1) k) (hk' : Valid (ds.map fun d => d.p + 1) k')
    (heq : bezIdx ds e k = bezIdx ds e' k') (F : List ℕ → K) :
    multi ds e k F = multi ds e' k' F := by
  induction ds generalizing e k e' k' F with
  | nil => cases e <;> cases k <;> cases e' <;> cases k' <;> rfl
  | cons d ds ih =>
    rcases e with _ | ⟨e, es⟩
    · simp [Valid] at he
    rcases e' with _ | ⟨e', es'⟩
    · simp [Valid] at he'
    rcases k with _ | ⟨k, ks⟩
    · simp [Valid] at hk
    rcases k' with _ | ⟨k', ks'⟩
    · simp [Valid] at hk'
    simp only [List.map_cons, Valid, List.forall₂_cons] at he he' hk hk'
    simp only [bezIdx, List.cons.injEq] at heq
    have hd := h d (List.mem_cons_self ..)
    simp only [multi]
    rw [functional_shared d hd.clamped hd.cont hd.deg e k e' k' he.1 he'.1 hk.1 hk'.1 heq.1]
    congr 1
    funext A
    exact ih (fun d hd => h d (List.mem_cons_of_mem _ hd)) es ks es' ks' he.2 he'.2 hk.2 hk'.2 heq.2 _

/-- The 1D operators of the element. -/
def opsOf : List (Dir K) → List ℕ → List (Op K)
  | d :: ds, e :: es => (computeBezierExtraction1d d.knots d.p).getD e eye :: opsOf ds es
  | _, _ => []

/-- The global multi-index. -/
def globOf : List (Dir K) → List ℕ → List ℕ → List ℕ
  | d :: ds, e :: es, l :: ls => d.glob e l :: globOf ds es ls
  | _, _, _ => []

theorem multi_eq (ds : List (Dir K)) (e k : List ℕ) (he : e.length = ds.length)
    (hk : k.length = ds.length) (F : List ℕ → K) :
    multi ds e k F
      = ((tp (ds.map fun d => d.p + 1)).map fun l => entry (opsOf ds e) l k * F (globOf ds e l)).sum := by
  induction ds generalizing e k F with
  | nil => cases e <;> cases k <;> simp [multi, tp, entry, opsOf, globOf]
  | cons d ds ih =>
    rcases e with _ | ⟨e, es⟩
    · simp at he
    rcases k with _ | ⟨k, ks⟩
    · simp at hk
    simp only [multi, List.map_cons]
    rw [sum_tp_cons]
    unfold Dir.functional
    refine Finset.sum_congr rfl fun i _ => ?_
    simp only
    rw [ih es ks (by simpa using he) (by simpa using hk), ← List.sum_map_mul_left]
    congr 1
    refine List.map_congr_left fun l _ => ?_
    simp only [opsOf, entry, globOf]
    ring

end Shared

end Iga
