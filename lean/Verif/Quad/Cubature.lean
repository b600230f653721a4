/-
The code of the simplex cubature computes the formulas of Grundmann and Moeller.
-/
import Verif.Quad.Gm

namespace Quad

/-- The values of the barycentric coordinates given as fractions. -/
noncomputable def vals (p : List (ℤ × ℤ)) : List ℝ := p.map fun ab => (ab.1 : ℝ) / (ab.2 : ℝ)

theorem dictAdd_sum (G : List (ℤ × ℤ) → ℝ) (k : List (ℤ × ℤ)) (w : ℝ) :
    ∀ d : List (List (ℤ × ℤ) × ℝ), ((dictAdd k w d).map fun p => p.2 * G p.1).sum =
      (d.map fun p => p.2 * G p.1).sum + w * G k := by
  intro d
  induction d with
  | nil => simp [dictAdd]
  | cons p d ih =>
    rw [dictAdd]
    split
    · rename_i h
      simp only [List.map_cons, List.sum_cons]
      rw [h]
      ring
    · simp only [List.map_cons, List.sum_cons]
      rw [ih]
      ring

theorem dictAdd_keys (k : List (ℤ × ℤ)) (w : ℝ) : ∀ d : List (List (ℤ × ℤ) × ℝ),
    ∀ p ∈ dictAdd k w d, p.1 = k ∨ ∃ q ∈ d, q.1 = p.1 := by
  intro d
  induction d with
  | nil => intro p hp; left; simp [dictAdd] at hp; rw [hp]
  | cons q d ih =>
    intro p hp
    rw [dictAdd] at hp
    split at hp
    · rcases List.mem_cons.1 hp with rfl | hp
      · exact Or.inr ⟨q, by simp, rfl⟩
      · exact Or.inr ⟨p, by simp [hp], rfl⟩
    · rcases List.mem_cons.1 hp with rfl | hp
      · exact Or.inr ⟨p, by simp, rfl⟩
      · rcases ih p hp with h | ⟨r, hr, h⟩
        · exact Or.inl h
        · exact Or.inr ⟨r, by simp [hr], h⟩

theorem dictFold_sum (G : List (ℤ × ℤ) → ℝ) (l : List (List (ℤ × ℤ) × ℝ)) :
    ∀ d : List (List (ℤ × ℤ) × ℝ), ((l.foldl (fun d p => dictAdd p.1 p.2 d) d).map
      fun p => p.2 * G p.1).sum = (d.map fun p => p.2 * G p.1).sum + (l.map fun p => p.2 * G p.1).sum := by
  induction l with
  | nil => intro d; simp
  | cons q l ih =>
    intro d
    rw [List.foldl_cons, ih, dictAdd_sum]
    simp only [List.map_cons, List.sum_cons]
    ring

theorem dictFold_keys (l : List (List (ℤ × ℤ) × ℝ)) : ∀ d : List (List (ℤ × ℤ) × ℝ),
    ∀ p ∈ l.foldl (fun d p => dictAdd p.1 p.2 d) d, (∃ q ∈ d, q.1 = p.1) ∨ ∃ q ∈ l, q.1 = p.1 := by
  induction l with
  | nil => intro d p hp; exact Or.inl ⟨p, hp, rfl⟩
  | cons q l ih =>
    intro d p hp
    rw [List.foldl_cons] at hp
    rcases ih _ p hp with ⟨r, hr, h⟩ | ⟨r, hr, h⟩
    · rcases dictAdd_keys _ _ _ r hr with h2 | ⟨t, ht, h2⟩
      · exact Or.inr ⟨q, by simp, by rw [← h, h2]⟩
      · exact Or.inl ⟨t, ht, by rw [← h, h2]⟩
    · exact Or.inr ⟨r, by simp [hr], h⟩

/-! ## The coordinates of the points -/

theorem foldl_zipAdd (n : ℕ) (vs : List (List ℝ)) : ∀ v : List ℝ, v.length = n →
    (∀ u ∈ vs, u.length = n) → (vs.foldl (List.zipWith (· + ·)) v).length = n ∧
    ∀ j < n, (vs.foldl (List.zipWith (· + ·)) v).getD j 0 =
      v.getD j 0 + (vs.map fun u => u.getD j 0).sum := by
  induction vs with
  | nil => intro v hv _; exact ⟨hv, fun j _ => by simp⟩
  | cons u vs ih =>
    intro v hv hvs
    have hu := hvs u (by simp)
    have hl : (List.zipWith (· + ·) v u).length = n := by simp [hv, hu]
    obtain ⟨h1, h2⟩ := ih _ hl fun w hw => hvs w (by simp [hw])
    rw [List.foldl_cons]
    refine ⟨h1, fun j hj => ?_⟩
    rw [h2 j hj, List.map_cons, List.sum_cons, ← add_assoc]
    congr 1
    rw [List.getD_eq_getElem _ _ (by omega), List.getD_eq_getElem _ _ (by omega),
      List.getD_eq_getElem _ _ (by omega), List.getElem_zipWith]

theorem wandering_length {K : Type} (n : ℕ) (a b : K) : (wandering n a b).length = n := by simp [wandering]

theorem wandering_getElem (n i : ℕ) (hi : i < n) (a b : ℝ) :
    (wandering n a b)[i]'(by rw [wandering_length]; exact hi) =
      List.replicate i b ++ [a] ++ List.replicate (n - 1 - i) b := by
  simp [wandering]

theorem wander_getD (n i j : ℕ) (hi : i < n) (hj : j < n) (a b : ℝ) :
    (List.replicate i b ++ [a] ++ List.replicate (n - 1 - i) b).getD j 0 = if i = j then a else b := by
  rw [List.getD_eq_getElem _ _ (by simp; omega), List.getElem_append]
  split
  · rename_i h
    rw [List.getElem_append]
    simp only [List.length_append, List.length_replicate, List.length_singleton] at h
    split
    · rename_i h2
      rw [List.length_replicate] at h2
      rw [if_neg (by omega), List.getElem_replicate]
    · rename_i h2
      rw [List.length_replicate] at h2
      rw [if_pos (by omega)]
      simp
  · rename_i h
    simp only [List.length_append, List.length_replicate, List.length_singleton] at h
    rw [if_neg (by omega), List.getElem_replicate]

theorem sum_select (n j : ℕ) (hj : j < n) (x : List ℝ) (hx : x.length = n) :
    ((List.range n).map fun k => x.getD k 0 * (if k = j then (1 : ℝ) else -1)).sum =
      2 * x.getD j 0 - x.sum := by
  rw [sum_range_list]
  have h1 : ∀ k ∈ Finset.range n, x.getD k 0 * (if k = j then (1 : ℝ) else -1) =
      (if k = j then 2 * x.getD k 0 else 0) - x.getD k 0 := by
    intro k _
    split <;> ring
  rw [Finset.sum_congr rfl h1, Finset.sum_sub_distrib, Finset.sum_ite_eq' (Finset.range n) j,
    if_pos (Finset.mem_range.2 hj)]
  congr 1
  rw [← sum_range_list]
  congr 1
  apply List.ext_getElem
  · simp [hx]
  · intro i h1 h2
    simp [List.getElem?_eq_getElem h2]

/-- A point with barycentric coordinates of sum one is the image of the other coordinates in
`[-1, 1]^n`. -/
theorem realPoint_eq (n : ℕ) (p : List (ℤ × ℤ)) (hl : p.length = n + 1) (hs : (vals p).sum = 1) :
    (realPoint (K := ℝ) n p) = (vals p).tail.map fun x => 2 * x - 1 := by
  rcases p with _ | ⟨q, p⟩
  · simp at hl
  have hp : p.length = n := by simpa using hl
  have hv : (vals (q :: p)).tail = vals p := rfl
  have hvl : (vals p).length = n := by simp [vals, hp]
  rw [hv]
  have hs' : (q.1 : ℝ) / q.2 + (vals p).sum = 1 := hs
  unfold realPoint gmVertices
  rw [List.zipWith_cons_cons, reduceAdd]
  have hz : List.zipWith (fun (ab : ℤ × ℤ) v => v.map fun x => (ab.1 : ℝ) / (ab.2 : ℝ) * x) p
      (wandering n (1 : ℝ) (-1)) = (List.range n).map fun k =>
      (List.replicate k (-1 : ℝ) ++ [1] ++ List.replicate (n - 1 - k) (-1)).map
        fun x => (vals p).getD k 0 * x := by
    apply List.ext_getElem
    · simp [hp, wandering_length]
    · intro i h1 h2
      have hi : i < n := by simpa using h2
      rw [List.getElem_zipWith, wandering_getElem n i hi, List.getElem_map, List.getElem_range,
        List.getD_eq_getElem _ _ (by omega)]
      simp [vals]
  rw [hz]
  obtain ⟨h1, h2⟩ := foldl_zipAdd n ((List.range n).map fun k =>
      (List.replicate k (-1 : ℝ) ++ [1] ++ List.replicate (n - 1 - k) (-1)).map
        fun x => (vals p).getD k 0 * x) ((List.replicate n (-1)).map fun x => (q.1 : ℝ) / q.2 * x)
    (by simp) (by
      intro u hu
      rw [List.mem_map] at hu
      obtain ⟨k, hk, rfl⟩ := hu
      rw [List.mem_range] at hk
      simp
      omega)
  apply List.ext_getElem
  · rw [h1]; simp [hvl]
  · intro j hj1 hj2
    have hj : j < n := by rw [h1] at hj1; exact hj1
    have h3 := h2 j hj
    rw [List.getD_eq_getElem _ _ hj1] at h3
    rw [h3, List.map_map]
    have h4 : ∀ k ∈ List.range n, ((fun u : List ℝ => u.getD j 0) ∘ fun k =>
        (List.replicate k (-1 : ℝ) ++ [1] ++ List.replicate (n - 1 - k) (-1)).map
        fun x => (vals p).getD k 0 * x) k = (vals p).getD k 0 * (if k = j then (1 : ℝ) else -1) := by
      intro k hk
      rw [List.mem_range] at hk
      rw [← wander_getD n k j hk hj 1 (-1)]
      simp only [Function.comp_apply]
      have hlen : j < (List.replicate k (-1 : ℝ) ++ [1] ++ List.replicate (n - 1 - k) (-1)).length := by
        simp; omega
      rw [List.getD_eq_getElem _ _ hlen, List.getD_eq_getElem _ _ (by rw [List.length_map]; exact hlen),
        List.getElem_map]
    rw [List.map_congr_left h4, sum_select n j hj _ hvl, List.getElem_map]
    rw [List.getD_eq_getElem (vals p) _ (by omega)]
    rw [List.getD_eq_getElem _ _ (by simp; exact hj), List.getElem_map, List.getElem_replicate]
    linarith

/-! ## The rule -/

theorem key_vals (s n i : ℕ) (hi : i < s + 1) (b : List ℕ) :
    vals (b.map fun (b : ℕ) => simplifyFraction (2 * b + 1) (2 * s + 1 + n - 2 * i)) =
      bary ((2 * s + 1 + n - 2 * i : ℕ) : ℝ) b := by
  unfold vals bary
  rw [List.map_map]
  refine List.map_congr_left fun c _ => ?_
  simp only [Function.comp_apply]
  rw [simplifyFraction_value _ _ (by omega)]
  have h1 : ((2 * (s : ℤ) + 1 + (n : ℤ) - 2 * (i : ℤ) : ℤ) : ℝ) = ((2 * s + 1 + n - 2 * i : ℕ) : ℝ) := by
    rw [show (2 * (s : ℤ) + 1 + (n : ℤ) - 2 * (i : ℤ)) = ((2 * s + 1 + n - 2 * i : ℕ) : ℤ) by omega,
      Int.cast_natCast]
  rw [h1]
  push_cast
  rfl

/-- The dictionary of points and weights. -/
theorem gmDict_spec (s n : ℕ) (hn : 1 ≤ n) : ∃ d, gmDict (K := ℝ) s n = some d ∧
    (∀ F : List ℝ → ℝ, (d.map fun p => p.2 * F (vals p.1)).sum = gmSum s n F) ∧
    ∀ p ∈ d, p.1.length = n + 1 ∧ (vals p.1).sum = 1 ∧ ∀ x ∈ vals p.1, 0 ≤ x := by
  have hex : ∀ i ∈ List.range (s + 1), ∃ L, gmGroup (K := ℝ) s n i = some L ∧
      (∀ F : List ℝ → ℝ, (L.map fun p => p.2 * F (vals p.1)).sum = gmWeight s n i *
        ((comps (s - i) (n + 1)).map fun b => F (bary ((2 * s + 1 + n - 2 * i : ℕ) : ℝ) b)).sum) ∧
      ∀ p ∈ L, p.1.length = n + 1 ∧ (vals p.1).sum = 1 ∧ ∀ x ∈ vals p.1, 0 ≤ x := by
    intro i hi
    rw [List.mem_range] at hi
    obtain ⟨T, h1, h2, h3⟩ := betas_spec (s - i) n hn
    refine ⟨(T.flatMap uniquePerms).map fun beta =>
      (beta.map fun (b : ℕ) => simplifyFraction (2 * b + 1) (2 * s + 1 + n - 2 * i), gmWeight s n i), ?_,
      fun F => ?_, fun p hp => ?_⟩
    · rw [gmGroup, h1, Option.map_some, List.map_flatMap]
    · rw [List.map_map, ← sum_map_mul]
      have hperm : (T.flatMap uniquePerms).Perm (comps (s - i) (n + 1)) := by
        rw [List.perm_ext_iff_of_nodup h2 (comps_nodup _ _)]
        intro b
        rw [h3, mem_comps]
      rw [← (hperm.map _).sum_eq]
      congr 1
      refine List.map_congr_left fun b _ => ?_
      simp only [Function.comp_apply]
      rw [key_vals s n i hi]
    · rw [List.mem_map] at hp
      obtain ⟨b, hb, rfl⟩ := hp
      rw [h3] at hb
      simp only
      rw [key_vals s n i hi]
      refine ⟨by simp [hb.1], ?_, ?_⟩
      · have hD : 2 * s + 1 + n - 2 * i = 2 * b.sum + b.length := by omega
        rw [bary_sum, hD]
        push_cast
        have : ((2 * b.sum + b.length : ℕ) : ℝ) ≠ 0 := by
          have : 2 * b.sum + b.length ≠ 0 := by omega
          exact_mod_cast this
        push_cast at this
        exact div_self this
      · intro y hy
        simp only [bary, List.mem_map] at hy
        obtain ⟨c, _, rfl⟩ := hy
        positivity
  obtain ⟨g, hg⟩ := exists_fun_of_forall _ _ hex
  refine ⟨_, by rw [gmDict, mapM_some _ g _ fun i hi => (hg i hi).1]; rfl, fun F => ?_, fun p hp => ?_⟩
  · rw [dictFold_sum (fun k => F (vals k))]
    rw [List.map_nil, List.sum_nil, zero_add, gmSum, ← sum_range_list]
    rw [← List.flatMap_def, sum_flatMap]
    congr 1
    exact List.map_congr_left fun i hi => (hg i hi).2.1 F
  · rcases dictFold_keys _ _ p hp with ⟨q, hq, _⟩ | ⟨q, hq, h⟩
    · simp at hq
    · rw [List.mem_flatten] at hq
      obtain ⟨L, hL, hq⟩ := hq
      rw [List.mem_map] at hL
      obtain ⟨i, hi, rfl⟩ := hL
      rw [← h]
      exact (hg i hi).2.2 q hq

theorem sum_filter_split {α : Type} (l : List α) (P : α → Bool) (f : α → ℝ) :
    ((l.filter P).map f).sum + ((l.filter fun a => !P a).map f).sum = (l.map f).sum := by
  induction l with
  | nil => simp
  | cons a l ih =>
    rw [List.filter_cons, List.filter_cons]
    cases hP : P a <;> simp [← ih] <;> ring

/-- The rule that `from_table` builds from the simplex cubature. -/
theorem cubature_spec (s n : ℕ) (hn : 1 ≤ n) (tp : ℝ) (htp : tp ≠ 0) :
    ∃ R, simplexCubature (K := ℝ) s n = some (R, 2 * s + 1) ∧
    ∃ R', mkQP false R (some (-1, 1)) tp 1 false = some R' ∧
      (∀ f : List ℝ → ℝ, quad R' f = gmSum s n fun x => f x.tail) ∧
      ∀ p ∈ R', p.1.length = n ∧ (∀ x ∈ p.1, 0 ≤ x) ∧ p.1.sum ≤ 1 := by
  obtain ⟨d, h1, h2, h3⟩ := gmDict_spec s n hn
  refine ⟨_, by rw [simplexCubature, h1]; rfl, ?_⟩
  set pts := d.map fun p => (realPoint (K := ℝ) n p.1, (2 ^ n : ℝ) * p.2, decide (p.2 > 0)) with hpts
  set R := ((pts.filter fun p => p.2.2).map fun p => (p.1, p.2.1)) ++
    ((pts.filter fun p => !p.2.2).map fun p => (p.1, p.2.1)) with hR
  have hmem : ∀ r ∈ R, ∃ p ∈ d, r = (realPoint (K := ℝ) n p.1, (2 ^ n : ℝ) * p.2) := by
    intro r hr
    have : ∃ q ∈ pts, r = (q.1, q.2.1) := by
      rw [hR, List.mem_append, List.mem_map, List.mem_map] at hr
      rcases hr with ⟨q, hq, rfl⟩ | ⟨q, hq, rfl⟩
      · exact ⟨q, (List.mem_filter.1 hq).1, rfl⟩
      · exact ⟨q, (List.mem_filter.1 hq).1, rfl⟩
    obtain ⟨q, hq, rfl⟩ := this
    rw [hpts, List.mem_map] at hq
    obtain ⟨p, hp, rfl⟩ := hq
    exact ⟨p, hp, rfl⟩
  have hsum : ∀ G : List ℝ × ℝ → ℝ, (R.map G).sum =
      (d.map fun p => G (realPoint (K := ℝ) n p.1, (2 ^ n : ℝ) * p.2)).sum := by
    intro G
    rw [hR, List.map_append, List.sum_append, List.map_map, List.map_map,
      sum_filter_split pts (fun p => p.2.2), hpts, List.map_map]
    rfl
  have hdim : R = [] ∨ ruleDim R = n := by
    rcases hRR : R with _ | ⟨r, R'⟩
    · exact Or.inl rfl
    · right
      obtain ⟨p, hp, rfl⟩ := hmem r (by rw [hRR]; simp)
      simp only [ruleDim]
      rw [realPoint_eq n p.1 (h3 p hp).1 (h3 p hp).2.1]
      simp [vals, (h3 p hp).1]
  refine ⟨R.map fun p => (p.1.map fun x => 1 / 2 * x + 1 / 2, p.2 * (1 / 2 ^ n)), ?_, fun f => ?_,
    fun p hp => ?_⟩
  · rcases hdim with h | h
    · rw [h]; simp [mkQP]
    · simp only [mkQP, h, Bool.false_eq_true, if_false, List.map_map, Function.comp_def]
      congr 1
      refine List.map_congr_left fun p _ => ?_
      have e : (1 : ℝ) ^ n * tp / ((1 - -1) ^ n * tp) = 1 / 2 ^ n := by
        rw [one_pow, show (1 : ℝ) - -1 = 2 by norm_num, one_mul]
        have : (2 : ℝ) ^ n ≠ 0 := by positivity
        field_simp
      rw [e]
      norm_num
  · rw [quad, List.map_map, hsum, ← h2]
    congr 1
    refine List.map_congr_left fun p hp => ?_
    simp only [Function.comp_apply]
    rw [realPoint_eq n p.1 (h3 p hp).1 (h3 p hp).2.1, List.map_map]
    have e : ((fun x : ℝ => 1 / 2 * x + 1 / 2) ∘ fun x => 2 * x - 1) = id := by
      funext x
      simp only [Function.comp_apply, id]
      ring
    rw [e, List.map_id]
    have : (2 : ℝ) ^ n ≠ 0 := by positivity
    field_simp
  · rw [List.mem_map] at hp
    obtain ⟨r, hr, rfl⟩ := hp
    obtain ⟨p, hp, rfl⟩ := hmem r hr
    simp only
    rw [realPoint_eq n p.1 (h3 p hp).1 (h3 p hp).2.1, List.map_map]
    have e : ((fun x : ℝ => 1 / 2 * x + 1 / 2) ∘ fun x => 2 * x - 1) = id := by
      funext x
      simp only [Function.comp_apply, id]
      ring
    rw [e, List.map_id]
    obtain ⟨a1, a2, a3⟩ := h3 p hp
    refine ⟨by simp [vals, a1], fun x hx => a3 x (List.mem_of_mem_tail hx), ?_⟩
    rcases hv : vals p.1 with _ | ⟨y, v⟩
    · simp
    · rw [hv, List.sum_cons] at a2
      have := a3 y (by rw [hv]; simp)
      simp only [List.tail_cons]
      linarith

end Quad
