import Verif.Iga.ExtractSpec

/-!
# Proofs: Bezier extraction
-/

namespace Iga

variable {K : Type*} [Field K] [LinearOrder K] [IsStrictOrderedRing K]

/-! ### The sweep -/

omit [LinearOrder K] [IsStrictOrderedRing K] in
theorem sweep_aux (al : ℕ → K) (p s : ℕ) (cc : Op K) (m : ℕ) (hm : m ≤ p - s) (i k : ℕ) :
    (List.range m).foldl (fun cc q => colUpdate (al (p - q - s - 1)) (p - q) cc) cc i k
      = if p - m < k ∧ k ≤ p then al (k - s - 1) * cc i k + (1 - al (k - s - 1)) * cc i (k - 1)
        else cc i k := by
  induction m generalizing i k with
  | zero => rw [if_neg (by omega)]; rfl
  | succ m ih =>
    rw [List.range_succ, List.foldl_append]
    simp only [List.foldl_cons, List.foldl_nil]
    rw [colUpdate]
    by_cases h : k = p - m
    · rw [if_pos h, if_pos (by omega), ih (by omega), ih (by omega), if_neg (by omega),
        if_neg (by omega), h]
    · rw [if_neg h, ih (by omega)]
      by_cases h2 : p - m < k ∧ k ≤ p
      · rw [if_pos h2, if_pos (by omega)]
      · rw [if_neg h2, if_neg (by omega)]

omit [LinearOrder K] [IsStrictOrderedRing K] in
theorem sweep_eq (al : ℕ → K) (p s : ℕ) (cc : Op K) (i k : ℕ) :
    sweep al p s cc i k
      = if s < k ∧ k ≤ p then al (k - s - 1) * cc i k + (1 - al (k - s - 1)) * cc i (k - 1)
        else cc i k := by
  unfold sweep
  rw [sweep_aux al p s cc _ le_rfl]
  by_cases h : s < k ∧ k ≤ p
  · rw [if_pos h, if_pos (by omega)]
  · rw [if_neg h, if_neg (by omega)]

/-! ### Columns as values of the polar form -/

/-- The column `k` of `cc`, applied to coefficients, is the polar form in `ys`. -/
def Rep (t : ℕ → K) (a p : ℕ) (cc : Op K) (k : ℕ) (ys : List K) : Prop :=
  ∀ c : ℕ → K, ∑ i ∈ Finset.range (p + 1), cc i k * c i = polar t a ys c

/-- The state after `j` inserted knots: the knots of the column `k`. -/
def colKnots (t : ℕ → K) (a p m j k : ℕ) : List K :=
  List.replicate (p - k) (t a) ++
    (rightKnots t a (k - min j (k - m)) ++ List.replicate (min j (k - m)) (t (a + 1)))

/-- The invariant. -/
structure Ins (t : ℕ → K) (a p m j : ℕ) (cc : Op K) : Prop where
  rep : ∀ k ≤ p, Rep t a p cc k (colKnots t a p m j k)
  low : ∀ i k, k ≤ p → i + j < k → cc i k = 0

theorem Ins.step {t : ℕ → K} {a p m j : ℕ} {cc : Op K} (h : Span t a) (hp : p ≤ a) (hm : 1 ≤ m)
    (ht : t (a + m) = t (a + 1)) (I : Ins t a p m j cc) :
    Ins t a p m (j + 1) (sweep (alphas t a (a + m) m) p (m + j) cc) := by
  constructor
  · intro k hk c
    by_cases hkm : m + j < k
    · have e : ∀ i, sweep (alphas t a (a + m) m) p (m + j) cc i k
          = alphas t a (a + m) m (k - (m + j) - 1) * cc i k
            + (1 - alphas t a (a + m) m (k - (m + j) - 1)) * cc i (k - 1) := by
        intro i; rw [sweep_eq, if_pos ⟨hkm, hk⟩]
      set α := alphas t a (a + m) m (k - (m + j) - 1) with hα
      have s : ∑ i ∈ Finset.range (p + 1), sweep (alphas t a (a + m) m) p (m + j) cc i k * c i
          = α * (∑ i ∈ Finset.range (p + 1), cc i k * c i)
            + (1 - α) * ∑ i ∈ Finset.range (p + 1), cc i (k - 1) * c i := by
        rw [Finset.mul_sum, Finset.mul_sum, ← Finset.sum_add_distrib]
        refine Finset.sum_congr rfl fun i _ => ?_
        rw [e]; ring
      rw [s, I.rep k hk, I.rep (k - 1) (by omega)]
      -- the common arguments
      let ys := List.replicate (p - k) (t a) ++
        (rightKnots t a (k - j - 1) ++ List.replicate j (t (a + 1)))
      have hlen : ys.length ≤ a := by simp [ys]; omega
      have p1 : (colKnots t a p m j k).Perm (t (a + (k - j)) :: ys) := by
        unfold colKnots
        rw [show min j (k - m) = j by omega, show k - j = (k - j - 1) + 1 by omega, rightKnots_succ]
        simp only [List.cons_append]
        rw [show a + (k - j - 1) + 1 = a + (k - j - 1 + 1) by omega]
        exact List.perm_middle
      have p2 : colKnots t a p m j (k - 1) = t a :: ys := by
        unfold colKnots
        rw [show min j (k - 1 - m) = j by omega, show p - (k - 1) = (p - k) + 1 by omega,
          List.replicate_succ, show k - 1 - j = k - j - 1 by omega]
        rfl
      have p3 : (colKnots t a p m (j + 1) k).Perm (t (a + 1) :: ys) := by
        unfold colKnots
        rw [show min (j + 1) (k - m) = j + 1 by omega, List.replicate_succ,
          show k - (j + 1) = k - j - 1 by omega]
        exact (List.perm_middle.append_left _).trans List.perm_middle
      have l1 : (colKnots t a p m j k).length ≤ a := by rw [p1.length_eq]; simp [ys]; omega
    
      have l3 : (colKnots t a p m (j + 1) k).length ≤ a := by rw [p3.length_eq]; simp [ys]; omega
      rw [polar_perm h p1 l1, p2, polar_perm h p3 l3]
      have hd : t (a + (k - j)) - t a ≠ 0 := by
        have h1 : t (a + 1) ≤ t (a + (k - j)) := h.mono (by omega)
        have := h.lt
        intro e'; linarith
      have hx : t (a + 1) = (1 - α) * t a + α * t (a + (k - j)) := by
        rw [hα]; unfold alphas
        rw [show k - (m + j) - 1 + m + 1 = k - j by omega, ht]
        field_simp
        ring
      have ha := polar_affine h α (t a) (t (a + (k - j))) ys hlen c
      rw [← hx] at ha
      rw [ha]
      ring
    · have e : ∀ i, sweep (alphas t a (a + m) m) p (m + j) cc i k = cc i k := by
        intro i; rw [sweep_eq, if_neg (by omega)]
      rw [Finset.sum_congr rfl fun i _ => by rw [e i], I.rep k hk]
      unfold colKnots
      rw [show min (j + 1) (k - m) = min j (k - m) by omega]
  · intro i k hk hik
    rw [sweep_eq]
    split_ifs with hc
    · rw [I.low i k hk (by omega), I.low i (k - 1) (by omega) (by omega)]; ring
    · exact I.low i k hk (by omega)

/-! ### The loop over the inserted knots -/

/-- What the next operator holds after `j` of the `r = p - m` insertions. -/
def nextCol (t : ℕ → K) (a p m j : ℕ) (cn : Op K) : Prop :=
  ∀ k ≤ p, (if p - m - j ≤ k ∧ k < p - m then
      ∃ cc : Op K, Ins t a p m (p - m - k) cc ∧
        ∀ i, cn i k = if k ≤ i ∧ i ≤ p - m then cc (i + m) p else 0
    else ∀ i, cn i k = eye i k)

theorem insert_loop {t : ℕ → K} {a p m : ℕ} {cc : Op K} (h : Span t a) (hp : p ≤ a) (hm : 1 ≤ m)
    (hmp : m < p) (ht : t (a + m) = t (a + 1)) (I : Ins t a p m 0 cc) (hn : Bool) (j : ℕ)
    (hj : j ≤ p - m) :
    Ins t a p m j ((List.range j).foldl (insertBody (alphas t a (a + m) m) p m hn) (cc, eye)).1 ∧
    (hn = true → nextCol t a p m j
      ((List.range j).foldl (insertBody (alphas t a (a + m) m) p m hn) (cc, eye)).2) := by
  induction j with
  | zero =>
    refine ⟨I, fun _ k hk => ?_⟩
    rw [if_neg (by omega)]
    exact fun i => rfl
  | succ j ih =>
    obtain ⟨I', N'⟩ := ih (by omega)
    rw [List.range_succ, List.foldl_append]
    simp only [List.foldl_cons, List.foldl_nil]
    generalize hst : (List.range j).foldl (insertBody (alphas t a (a + m) m) p m hn) (cc, eye) = st
      at I' N' ⊢
    have I2 := I'.step h hp hm ht
    refine ⟨I2, fun hb k hk => ?_⟩
    subst hb
    have N := N' rfl k hk
    simp only [insertBody, if_true]
    by_cases hkj : k = p - m - j - 1
    · rw [if_pos (by omega)]
      rw [if_neg (by omega)] at N
      refine ⟨_, by rw [show p - m - k = j + 1 by omega]; exact I2, fun i => ?_⟩
      unfold saveColumn
      by_cases hi : k ≤ i ∧ i ≤ p - m
      · rw [if_pos (by omega), if_pos hi]
        congr 1
        omega
      · rw [if_neg (by omega), if_neg hi, N]
        unfold eye
        rw [if_neg (by omega)]
    · have e : ∀ i, saveColumn p j (p - m - j - 1)
          (sweep (alphas t a (a + m) m) p (m + j) st.1) st.2 i k = st.2 i k := by
        intro i; unfold saveColumn; rw [if_neg (by omega)]
      by_cases hc : p - m - (j + 1) ≤ k ∧ k < p - m
      · rw [if_pos hc]
        rw [if_pos (by omega)] at N
        simpa only [e] using N
      · rw [if_neg hc]
        rw [if_neg (by omega)] at N
        simpa only [e] using N

/-! ### From one span to the next -/

omit [LinearOrder K] [IsStrictOrderedRing K] in
theorem dbSteps_shift (t : ℕ → K) (a m m' : ℕ) (ys : List K) (hl : m' + ys.length ≤ a + 1) (c : ℕ → K)
    (l : ℕ) :
    dbSteps t a m' ys c (l + m) = dbSteps t (a + m) m' ys (fun l => c (l + m)) l := by
  induction ys generalizing c l with
  | nil => rfl
  | cons y ys ih =>
    rw [dbSteps, dbSteps, ih (by simp at hl; omega)]
    congr 1
    funext l
    unfold dbStep
    have hl' : m' + ys.length ≤ a := by simp at hl; omega
    rw [show a + 1 + (l + m) = a + m + 1 + l by omega,
      show a - (m' + ys.length) + (l + m) = a + m - (m' + ys.length) + l by omega,
      show l + m + 1 = l + 1 + m by omega]

theorem rightKnots_add (t : ℕ → K) (a m k : ℕ) :
    rightKnots t a (m + k) = rightKnots t (a + m) k ++ rightKnots t a m := by
  induction k with
  | zero => simp [rightKnots]
  | succ k ih =>
    rw [← Nat.add_assoc, rightKnots_succ, ih, rightKnots_succ, List.cons_append,
      Nat.add_assoc a m k]

theorem rightKnots_const {t : ℕ → K} {a : ℕ} {u : K} (m : ℕ) (hm : ∀ x, 1 ≤ x → x ≤ m → t (a + x) = u) :
    rightKnots t a m = List.replicate m u := by
  induction m with
  | zero => simp [rightKnots]
  | succ m ih =>
    rw [rightKnots_succ, ih fun x h1 h2 => hm x h1 (by omega), List.replicate_succ,
      Nat.add_assoc, hm (m + 1) (by omega) le_rfl]

theorem leftKnots_const {t : ℕ → K} {a : ℕ} {u : K} (n : ℕ) (hn : n ≤ a)
    (hm : ∀ x, x < n → t (a - x) = u) :
    leftKnots t a n = List.replicate n u := by
  induction n with
  | zero => simp [leftKnots]
  | succ n ih =>
    rw [leftKnots_succ t a n hn, ih (by omega) fun x h1 => hm x (by omega), List.replicate_succ,
      hm n (by omega)]

/-- The next span `a + m`: the knots `a + 1, …, a + m` are equal. -/
theorem polar_next {t : ℕ → K} {a m : ℕ} (h : Span t a) (h' : Span t (a + m)) 
    (hm : ∀ x, 1 ≤ x → x ≤ m → t (a + x) = t (a + 1)) (ys : List K) (hl : ys.length + m ≤ a)
    (c c' : ℕ → K) (hc : ∀ l, c' (l + m) = c l) :
    polar t a (ys ++ List.replicate m (t (a + 1))) c'
      = polar t (a + m) (ys ++ List.replicate m (t (a + 1))) c := by
  have e1 : List.replicate m (t (a + 1)) = rightKnots t a m ++ leftKnots t a 0 := by
    rw [rightKnots_const m hm]; simp [leftKnots]
  have e2 : List.replicate m (t (a + 1)) = rightKnots t (a + m) 0 ++ leftKnots t (a + m) m := by
    rw [leftKnots_const (u := t (a + 1)) m (by omega) fun x hx => ?_]
    · simp [rightKnots]
    · rw [show a + m - x = a + (m - x) by omega]; exact hm _ (by omega) (by omega)
  have l1 : polar t a (ys ++ List.replicate m (t (a + 1))) c'
      = dbSteps t a m ys c' m := by
    rw [polar_append, List.length_replicate]
    conv_lhs => rw [e1]
    exact polar_dual h m 0 (by omega) _
  have l2 : polar t (a + m) (ys ++ List.replicate m (t (a + 1))) c
      = dbSteps t (a + m) m ys c 0 := by
    rw [polar_append, List.length_replicate]
    conv_lhs => rw [e2]
    exact polar_dual h' 0 m (by omega) _
  have s := dbSteps_shift t a m m ys (by omega) c' 0
  rw [Nat.zero_add] at s
  rw [l1, s, l2]
  congr 1
  exact funext hc

/-- The state at the start of a span. -/
theorem ins_zero {t : ℕ → K} {a p m : ℕ} {cc : Op K} (h : Ins t a p m 0 cc) (m' : ℕ) :
    Ins t a p m' 0 cc := by
  refine ⟨fun k hk => ?_, h.low⟩
  have := h.rep k hk
  unfold colKnots at this ⊢
  simpa using this

/-- The identity column `k` when the `p - k` knots up to `a` are equal. -/
theorem eye_col {t : ℕ → K} {a p m k : ℕ} (h : Span t a) (hp : p ≤ a) (hk : k ≤ p)
    (hl : ∀ x, x < p - k → t (a - x) = t a) {cc : Op K} (hc : ∀ i, cc i k = eye i k) :
    Rep t a p cc k (colKnots t a p m 0 k) := by
  intro c
  unfold colKnots
  rw [Nat.zero_min, Nat.sub_zero, List.replicate_zero, List.append_nil,
    ← leftKnots_const (u := t a) (p - k) (by omega) hl,
    polar_perm h (List.perm_append_comm) (by simp; omega), polar_dual h k (p - k) (by omega)]
  simp only [hc, eye, ite_mul, one_mul, zero_mul]
  rw [Finset.sum_ite_eq' (Finset.range (p + 1)) k c, if_pos (Finset.mem_range.2 (by omega))]

/-- The next operator is in the start state of the next span. -/
theorem next_start {t : ℕ → K} {a p m : ℕ} {cn : Op K} (h : Span t a) (h' : Span t (a + m))
    (hp : p ≤ a) (hm1 : 1 ≤ m) (hm : ∀ x, 1 ≤ x → x ≤ m → t (a + x) = t (a + 1))
    (N : nextCol t a p m (p - m) cn) : Ins t (a + m) p m 0 cn := by
  have htb : t (a + m) = t (a + 1) := hm m hm1 le_rfl
  constructor
  · intro k hk
    have Nk := N k hk
    by_cases hc : p - m - (p - m) ≤ k ∧ k < p - m
    · rw [if_pos hc] at Nk
      obtain ⟨cc, I, e⟩ := Nk
      intro c
      have hr := I.rep p le_rfl (fun l => c (l - m))
      -- the sums agree
      have hs : ∑ i ∈ Finset.range (p + 1), cn i k * c i
          = ∑ i ∈ Finset.range (p + 1), cc i p * c (i - m) := by
        have s1 : ∑ i ∈ Finset.range (p + 1), cc i p * c (i - m)
            = ∑ i ∈ Finset.Ico (m + k) (p + 1), cc i p * c (i - m) := by
          symm
          apply Finset.sum_subset
          · intro i hi; rw [Finset.mem_Ico] at hi; exact Finset.mem_range.2 hi.2
          · intro i hi hi'
            rw [Finset.mem_range] at hi
            rw [Finset.mem_Ico] at hi'
            rw [I.low i p le_rfl (by omega), zero_mul]
        have s2 : ∑ i ∈ Finset.range (p + 1), cn i k * c i
            = ∑ i ∈ Finset.Ico k (p - m + 1), cc (i + m) p * c i := by
          symm
          have : ∀ i ∈ Finset.Ico k (p - m + 1), cc (i + m) p * c i = cn i k * c i := by
            intro i hi; rw [Finset.mem_Ico] at hi
            rw [e, if_pos (by omega)]
          rw [Finset.sum_congr rfl this]
          apply Finset.sum_subset
          · intro i hi; rw [Finset.mem_Ico] at hi; exact Finset.mem_range.2 (by omega)
          · intro i hi hi'
            rw [Finset.mem_Ico] at hi'
            rw [e, if_neg (by omega), zero_mul]
        rw [s1, s2, show m + k = k + m by omega, show p + 1 = p - m + 1 + m by omega,
          ← Finset.sum_Ico_add' (fun i => cc i p * c (i - m)) k (p - m + 1) m]
        simp
      rw [hs, hr]
      -- the arguments agree
      have q1 : (colKnots t a p m (p - m - k) p).Perm
          ((rightKnots t (a + m) k ++ List.replicate (p - m - k) (t (a + 1)))
            ++ List.replicate m (t (a + 1))) := by
        unfold colKnots
        rw [show min (p - m - k) (p - m) = p - m - k by omega, show p - (p - m - k) = m + k by omega,
          rightKnots_add, rightKnots_const m hm, Nat.sub_self, List.replicate_zero, List.nil_append,
          List.append_assoc, List.append_assoc]
        exact (List.perm_append_comm).append_left _
      have q2 : (colKnots t (a + m) p m 0 k).Perm
          ((rightKnots t (a + m) k ++ List.replicate (p - m - k) (t (a + 1)))
            ++ List.replicate m (t (a + 1))) := by
        unfold colKnots
        rw [Nat.zero_min, Nat.sub_zero, List.replicate_zero, List.append_nil, htb, List.append_assoc,
          ← List.replicate_add, show p - m - k + m = p - k by omega]
        exact List.perm_append_comm
      rw [polar_perm h q1 (by rw [q1.length_eq]; simp; omega),
        polar_perm h' q2 (by rw [q2.length_eq]; simp; omega)]
      exact polar_next h h' hm _ (by simp; omega) c _ fun l => by simp
    · rw [if_neg hc] at Nk
      refine eye_col h' (by omega) hk (fun x hx => ?_) Nk
      rw [show a + m - x = a + (m - x) by omega, htb]
      exact hm _ (by omega) (by omega)
  · intro i k hk hik
    have Nk := N k hk
    by_cases hc : p - m - (p - m) ≤ k ∧ k < p - m
    · rw [if_pos hc] at Nk
      obtain ⟨cc, I, e⟩ := Nk
      rw [e, if_neg (by omega)]
    · rw [if_neg hc] at Nk
      rw [Nk]; unfold eye; rw [if_neg (by omega)]

/-- The columns of a finished operator: values of the polar form in the two end knots. -/
def Final (t : ℕ → K) (p a : ℕ) (cc : Op K) : Prop :=
  ∀ k ≤ p, Rep t a p cc k (List.replicate (p - k) (t a) ++ List.replicate k (t (a + 1)))

theorem ins_final {t : ℕ → K} {a p m : ℕ} {cc : Op K} (hm1 : 1 ≤ m)
    (hm : ∀ x, 1 ≤ x → x ≤ m → t (a + x) = t (a + 1)) (j : ℕ) (hj : p - m ≤ j)
    (I : Ins t a p m j cc) : Final t p a cc := by
  intro k hk
  have r := I.rep k hk
  unfold colKnots at r
  rw [rightKnots_const (u := t (a + 1)) _ fun x h1 h2 => hm x h1 (by omega),
    ← List.replicate_add, show k - min j (k - m) + min j (k - m) = k by omega] at r
  exact r

/-- The finished state gives the extraction operator. -/
theorem Final.extraction {t : ℕ → K} {a p : ℕ} {cc : Op K} (h : Span t a) (hp : p ≤ a)
    (I : Final t p a cc) : IsExtraction t p a cc := by
  intro x hx hx' i hi
  have hd : t (a + 1) - t a ≠ 0 := by have := h.lt; intro e; linarith
  have b := bspline_polar h p hp x hx hx' (fun l => if l = i then 1 else 0)
  simp only [ite_mul, one_mul, zero_mul] at b
  rw [Finset.sum_ite_eq' (Finset.range (p + 1)) i, if_pos (Finset.mem_range.2 (by omega))] at b
  rw [b]
  set ξ := (x - t a) / (t (a + 1) - t a) with hξ
  have hxx : x = (1 - ξ) * t a + ξ * t (a + 1) := by rw [hξ]; field_simp; ring
  have pb := polar_bernstein h ξ (t a) (t (a + 1)) p [] (by simpa using hp)
    (fun l => if l = i then 1 else 0)
  rw [List.append_nil, ← hxx] at pb
  rw [pb]
  refine Finset.sum_congr rfl fun k hk => ?_
  have hk' : k ≤ p := by have := Finset.mem_range.1 hk; omega
  have r := I k hk' (fun l => if l = i then 1 else 0)
  simp only [mul_ite, mul_one, mul_zero] at r
  rw [Finset.sum_ite_eq' (Finset.range (p + 1)) i, if_pos (Finset.mem_range.2 (by omega))] at r
  rw [r, mul_comm, List.append_nil]

/-- Where two elements meet, the last column of the one and the first column of the next are the same
functional of the coefficients. -/
theorem Final.meet {t : ℕ → K} {a m p : ℕ} {C C' : Op K} (h : Span t a) (h' : Span t (a + m))
    (hp : p ≤ a) (hmp : m ≤ p)
    (hm : ∀ x, 1 ≤ x → x ≤ m → t (a + x) = t (a + 1)) (hm1 : 1 ≤ m) (F : Final t p a C)
    (F' : Final t p (a + m) C') (c : ℕ → K) :
    ∑ i ∈ Finset.range (p + 1), C i p * c (a - p + i)
      = ∑ i ∈ Finset.range (p + 1), C' i 0 * c (a + m - p + i) := by
  rw [F p le_rfl (fun i => c (a - p + i)), F' 0 (Nat.zero_le _) (fun i => c (a + m - p + i))]
  rw [Nat.sub_self, Nat.sub_zero, List.replicate_zero, List.replicate_zero, List.nil_append,
    List.append_nil, hm m hm1 le_rfl,
    show List.replicate p (t (a + 1)) = List.replicate (p - m) (t (a + 1)) ++ List.replicate m (t (a + 1))
      by rw [← List.replicate_add]; congr 1; omega]
  refine polar_next h h' hm _ (by simp; omega) _ _ fun l => ?_
  congr 1; omega

/-! ### The scan -/

omit [IsStrictOrderedRing K] in
theorem scanKnot_spec (t : ℕ → K) (n fuel b : ℕ) (hf : n ≤ fuel + b) (hb : b < n) :
    b ≤ scanKnot t n fuel b ∧ scanKnot t n fuel b < n ∧
    (∀ x, b ≤ x → x ≤ scanKnot t n fuel b → t x = t b) ∧
    (scanKnot t n fuel b + 1 < n → t (scanKnot t n fuel b) ≠ t (scanKnot t n fuel b + 1)) := by
  induction fuel generalizing b with
  | zero => omega
  | succ fuel ih =>
    unfold scanKnot
    split_ifs with hc
    · obtain ⟨h1, h2, h3, h4⟩ := ih (b + 1) (by omega) (by omega)
      refine ⟨by omega, h2, fun x hx hx' => ?_, h4⟩
      rcases Nat.eq_or_lt_of_le hx with e | e
      · rw [e]
      · rw [h3 x e hx', hc.2]
    · refine ⟨le_rfl, hb, fun x hx hx' => by rw [Nat.le_antisymm hx' hx], fun h e => hc ⟨h, e⟩⟩

end Iga
