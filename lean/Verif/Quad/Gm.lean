/-
The formulas of Grundmann and Moeller are exact for every dimension and order.
-/
import Verif.Quad.Euler
import Verif.Quad.Enum

namespace Quad

/-! ## Compositions and the coefficients of the product of the odd series -/

/-- All multi-indices of a given sum and length. -/
def comps : ℕ → ℕ → List (List ℕ)
  | k, 0 => if k = 0 then [[]] else []
  | k, N + 1 => (List.range (k + 1)).flatMap fun i => (comps (k - i) N).map fun r => i :: r

theorem mem_comps (N : ℕ) : ∀ (k : ℕ) (b : List ℕ), b ∈ comps k N ↔ b.length = N ∧ b.sum = k := by
  induction N with
  | zero =>
    intro k b
    rw [comps]
    constructor
    · intro h
      split at h
      · obtain rfl : b = [] := by simpa using h
        simp [*]
      · simp at h
    · rintro ⟨h1, h2⟩
      obtain rfl := List.length_eq_zero_iff.1 h1
      rw [if_pos (by simpa using h2.symm)]
      simp
  | succ N ih =>
    intro k b
    rw [comps, List.mem_flatMap]
    constructor
    · rintro ⟨i, hi, hb⟩
      rw [List.mem_map] at hb
      obtain ⟨r, hr, rfl⟩ := hb
      rw [ih] at hr
      rw [List.mem_range] at hi
      exact ⟨by simp [hr.1], by rw [List.sum_cons, hr.2]; omega⟩
    · rintro ⟨h1, h2⟩
      rcases b with _ | ⟨i, r⟩
      · simp at h1
      · rw [List.sum_cons] at h2
        refine ⟨i, List.mem_range.2 (by omega), List.mem_map.2 ⟨r, (ih _ _).2 ⟨by simpa using h1, ?_⟩, rfl⟩⟩
        omega

theorem comps_nodup (N : ℕ) : ∀ k : ℕ, (comps k N).Nodup := by
  induction N with
  | zero => intro k; rw [comps]; split <;> simp
  | succ N ih =>
    intro k
    rw [comps, List.nodup_flatMap]
    refine ⟨fun i _ => (ih _).map fun a b h => by simpa using h, ?_⟩
    refine List.nodup_range.imp fun {i j} hij => ?_
    simp only [Function.onFun]
    rw [List.disjoint_left]
    intro t h1 h2
    rw [List.mem_map] at h1 h2
    obtain ⟨_, _, rfl⟩ := h1
    obtain ⟨_, _, h3⟩ := h2
    simp at h3
    exact hij h3.1.symm

theorem sum_flatMap {α β : Type} (l : List α) (g : α → List β) (f : β → ℝ) :
    ((l.flatMap g).map f).sum = (l.map fun a => ((g a).map f).sum).sum := by
  induction l with
  | nil => simp
  | cons a l ih => simp [ih]

theorem sum_range_list (n : ℕ) (f : ℕ → ℝ) :
    ((List.range n).map f).sum = ∑ i ∈ Finset.range n, f i := by
  induction n with
  | zero => simp
  | succ n ih => rw [List.range_succ, Finset.sum_range_succ, ← ih]; simp

theorem sum_map_mul {α : Type} (l : List α) (c : ℝ) (f : α → ℝ) :
    (l.map fun a => c * f a).sum = c * (l.map f).sum := by
  induction l with
  | nil => simp
  | cons a l ih => simp [ih, mul_add]

theorem sum_map_add {α : Type} (l : List α) (f g : α → ℝ) :
    (l.map fun a => f a + g a).sum = (l.map f).sum + (l.map g).sum := by
  induction l with
  | nil => simp
  | cons a l ih => simp [ih]; ring

theorem sum_swap {α β : Type} (l : List α) (m : List β) (f : α → β → ℝ) :
    (l.map fun a => (m.map fun b => f a b).sum).sum =
      (m.map fun b => (l.map fun a => f a b).sum).sum := by
  induction l with
  | nil => simp
  | cons a l ih =>
    simp only [List.map_cons, List.sum_cons]
    rw [ih, ← sum_map_add]

/-- `Π (2 b_j + 1) ^ a_j`. -/
def oddMon (al b : List ℕ) : ℝ := (List.zipWith (fun a b : ℕ => (2 * (b : ℝ) + 1) ^ a) al b).prod

theorem oddP_coeff (al : List ℕ) : ∀ k : ℕ, PowerSeries.coeff k (oddP al) =
    ((comps k al.length).map (oddMon al)).sum := by
  induction al with
  | nil =>
    intro k
    rw [oddP, List.map_nil, List.prod_nil, List.length_nil, comps, PowerSeries.coeff_one]
    split <;> simp [oddMon]
  | cons a al ih =>
    intro k
    have e : oddP (a :: al) = oddSeries a * oddP al := by simp [oddP]
    rw [e, PowerSeries.coeff_mul, Finset.Nat.sum_antidiagonal_eq_sum_range_succ_mk, List.length_cons, comps,
      sum_flatMap, sum_range_list]
    refine Finset.sum_congr rfl fun i _ => ?_
    rw [ih, oddSeries, PowerSeries.coeff_mk, List.map_map, ← sum_map_mul]
    rfl

/-! ## The sum over the points, in barycentric coordinates -/

/-- The barycentric coordinates of a point. -/
noncomputable def bary (D : ℝ) (b : List ℕ) : List ℝ := b.map fun b : ℕ => (2 * (b : ℝ) + 1) / D

theorem bary_length (D : ℝ) (b : List ℕ) : (bary D b).length = b.length := by simp [bary]

theorem bary_sum (D : ℝ) (b : List ℕ) : (bary D b).sum = (2 * (b.sum : ℝ) + b.length) / D := by
  induction b with
  | nil => simp [bary]
  | cons a b ih =>
    have : bary D (a :: b) = (2 * (a : ℝ) + 1) / D :: bary D b := rfl
    rw [this, List.sum_cons, ih, List.sum_cons, List.length_cons, ← add_div]
    push_cast
    congr 1
    ring

theorem mon_bary (D : ℝ) (al : List ℕ) : ∀ b : List ℕ, al.length = b.length →
    mon al (bary D b) = oddMon al b / D ^ al.sum := by
  induction al with
  | nil => intro b h; obtain rfl := List.length_eq_zero_iff.1 h.symm; simp [mon, oddMon]
  | cons a al ih =>
    intro b h
    rcases b with _ | ⟨c, b⟩
    · simp at h
    · have e : bary D (c :: b) = (2 * (c : ℝ) + 1) / D :: bary D b := rfl
      rw [e, mon, List.headD_cons, List.tail_cons, ih b (by simpa using h), List.sum_cons, pow_add, div_pow]
      simp only [oddMon, List.zipWith_cons_cons, List.prod_cons]
      rw [div_mul_div_comm]

theorem pyFactorial_eq (n : ℕ) : pyFactorial n = n.factorial := by
  have : ∀ (l : List ℕ) (a : ℕ), l.foldl (· * ·) a = a * l.prod := by
    intro l
    induction l with
    | nil => intro a; simp
    | cons b l ih => intro a; simp [ih, mul_assoc]
  rw [pyFactorial, this, one_mul]
  induction n with
  | zero => rfl
  | succ n ih => rw [List.range_succ, List.map_append, List.prod_append, ih, Nat.factorial_succ]; simp [mul_comm]

/-- The value of the formula on a function of the barycentric coordinates. -/
noncomputable def gmSum (s n : ℕ) (F : List ℝ → ℝ) : ℝ :=
  ∑ i ∈ Finset.range (s + 1), gmWeight s n i *
    ((comps (s - i) (n + 1)).map fun b => F (bary ((2 * s + 1 + n - 2 * i : ℕ) : ℝ) b)).sum

/-- The integral of a monomial of the barycentric coordinates. -/
noncomputable def momBary (al : List ℕ) : ℝ :=
  (al.map fun a => (a.factorial : ℝ)).prod / ((al.sum + al.length - 1).factorial : ℝ)

theorem gmSum_top (s n : ℕ) (al : List ℕ) (hl : al.length = n + 1) (hs : al.sum = 2 * s + 1) :
    gmSum s n (mon al) = momBary al := by
  have h1 := oddP_alternating al s hs (by intro h; simp [h] at hl)
  have hN : al.sum + al.length - 1 = 2 * s + 1 + n := by omega
  rw [momBary]
  rw [hN] at h1 ⊢
  have hF : ((2 * s + 1 + n).factorial : ℝ) ≠ 0 := by exact_mod_cast Nat.factorial_ne_zero _
  rw [eq_div_iff hF]
  have h2 : (2 : ℝ) ^ (2 * s) ≠ 0 := by positivity
  apply mul_left_cancel₀ h2
  rw [← h1, gmSum, Finset.sum_mul, Finset.mul_sum]
  refine Finset.sum_congr rfl fun i hi => ?_
  rw [Finset.mem_range] at hi
  rw [oddP_coeff, hl]
  have hD : (((2 * s + 1 + n - 2 * i : ℕ)) : ℝ) ≠ 0 := by
    have : 2 * s + 1 + n - 2 * i ≠ 0 := by omega
    exact_mod_cast this
  have e : ((comps (s - i) (n + 1)).map fun b => mon al (bary ((2 * s + 1 + n - 2 * i : ℕ) : ℝ) b)) =
      (comps (s - i) (n + 1)).map fun b => (1 / ((2 * s + 1 + n - 2 * i : ℕ) : ℝ) ^ (2 * s + 1)) *
        oddMon al b := by
    refine List.map_congr_left fun b hb => ?_
    rw [mem_comps] at hb
    rw [mon_bary _ _ _ (by omega), hs]
    ring
  rw [e, sum_map_mul, gmWeight, pyFactorial_eq, pyFactorial_eq, Nat.choose_eq_factorial_div_factorial (by omega),
    Nat.cast_div (Nat.factorial_mul_factorial_dvd_factorial (by omega)) (by
      have := Nat.factorial_ne_zero i
      have h3 := Nat.factorial_ne_zero (2 * s + 1 + n - i)
      exact_mod_cast Nat.mul_ne_zero this h3)]
  have hi1 : (i.factorial : ℝ) ≠ 0 := by exact_mod_cast Nat.factorial_ne_zero _
  have hi2 : ((2 * s + 1 + n - i).factorial : ℝ) ≠ 0 := by exact_mod_cast Nat.factorial_ne_zero _
  push_cast
  generalize ((List.map (fun b => oddMon al b) (comps (s - i) (n + 1))).sum) = S
  generalize ((2 * s + 1 + n - 2 * i : ℕ) : ℝ) = D at *
  field_simp

/-- The multi-indices with one exponent raised by one. -/
def incs : List ℕ → List (List ℕ)
  | [] => []
  | a :: as => ((a + 1) :: as) :: (incs as).map fun r => a :: r

theorem incs_mem (al : List ℕ) : ∀ b ∈ incs al, b.length = al.length ∧ b.sum = al.sum + 1 := by
  induction al with
  | nil => intro b hb; simp [incs] at hb
  | cons a al ih =>
    intro b hb
    rw [incs, List.mem_cons, List.mem_map] at hb
    rcases hb with rfl | ⟨r, hr, rfl⟩
    · simp; ring
    · have := ih r hr
      simp [this.1, this.2]
      ring

theorem incs_mon (al : List ℕ) : ∀ x : List ℝ, x.length = al.length →
    ((incs al).map fun e => mon e x).sum = x.sum * mon al x := by
  induction al with
  | nil => intro x hx; obtain rfl := List.length_eq_zero_iff.1 hx; simp [incs, mon]
  | cons a al ih =>
    intro x hx
    rcases x with _ | ⟨y, x⟩
    · simp at hx
    · have := ih x (by simpa using hx)
      simp only [incs, List.map_cons, List.sum_cons, List.map_map, Function.comp_def, mon, List.headD_cons,
        List.tail_cons]
      rw [sum_map_mul, this]
      ring

theorem incs_fact (al : List ℕ) : ((incs al).map fun e => (e.map fun a => (a.factorial : ℝ)).prod).sum =
    (al.sum + al.length : ℝ) * (al.map fun a => (a.factorial : ℝ)).prod := by
  induction al with
  | nil => simp [incs]
  | cons a al ih =>
    simp only [incs, List.map_cons, List.sum_cons, List.map_map, Function.comp_def, List.prod_cons,
      List.length_cons]
    rw [sum_map_mul, ih, Nat.factorial_succ]
    push_cast
    ring

theorem incs_momBary (al : List ℕ) (hl : al ≠ []) : ((incs al).map momBary).sum = momBary al := by
  have hpos := List.length_pos_of_ne_nil hl
  have e : (incs al).map momBary = (incs al).map fun e =>
      (1 / ((al.sum + al.length).factorial : ℝ)) * (e.map fun a => (a.factorial : ℝ)).prod := by
    refine List.map_congr_left fun b hb => ?_
    obtain ⟨h1, h2⟩ := incs_mem al b hb
    rw [momBary, h1, h2, show al.sum + 1 + al.length - 1 = al.sum + al.length by omega]
    ring
  rw [e, sum_map_mul, incs_fact, momBary]
  obtain ⟨m, hm⟩ : ∃ m, al.sum + al.length = m + 1 := ⟨al.sum + al.length - 1, by omega⟩
  have hm' : ((al.sum : ℝ) + (al.length : ℝ)) = m + 1 := by exact_mod_cast hm
  rw [hm, hm', Nat.factorial_succ, Nat.add_sub_cancel]
  have h3 : ((m : ℝ) + 1) ≠ 0 := by positivity
  have h4 : (m.factorial : ℝ) ≠ 0 := by exact_mod_cast Nat.factorial_ne_zero _
  push_cast
  field_simp

theorem gmSum_congr (s n : ℕ) (F G : List ℝ → ℝ)
    (h : ∀ x : List ℝ, x.length = n + 1 → x.sum = 1 → (∀ y ∈ x, 0 ≤ y) → F x = G x) :
    gmSum s n F = gmSum s n G := by
  unfold gmSum
  refine Finset.sum_congr rfl fun i hi => ?_
  rw [Finset.mem_range] at hi
  congr 2
  refine List.map_congr_left fun b hb => ?_
  rw [mem_comps] at hb
  have hD : 2 * s + 1 + n - 2 * i = 2 * b.sum + b.length := by omega
  refine h _ (by rw [bary_length, hb.1]) ?_ ?_
  · rw [bary_sum, hD]
    push_cast
    have : ((2 * b.sum + b.length : ℕ) : ℝ) ≠ 0 := by
      have : 2 * b.sum + b.length ≠ 0 := by omega
      exact_mod_cast this
    push_cast at this
    exact div_self this
  · intro y hy
    simp only [bary, List.mem_map] at hy
    obtain ⟨c, _, rfl⟩ := hy
    positivity

theorem gmSum_list {α : Type} (s n : ℕ) (l : List α) (F : α → List ℝ → ℝ) :
    gmSum s n (fun x => (l.map fun a => F a x).sum) = (l.map fun a => gmSum s n (F a)).sum := by
  induction l with
  | nil => simp [gmSum]
  | cons a l ih =>
    simp only [List.map_cons, List.sum_cons]
    rw [← ih]
    simp only [gmSum]
    rw [← Finset.sum_add_distrib]
    refine Finset.sum_congr rfl fun i _ => ?_
    rw [sum_map_add, mul_add]

/-- The formula integrates every monomial of the barycentric coordinates of degree at most `2 s + 1`. -/
theorem gmSum_mon (s n : ℕ) : ∀ (m : ℕ) (al : List ℕ), al.length = n + 1 → al.sum + m = 2 * s + 1 →
    gmSum s n (mon al) = momBary al := by
  intro m
  induction m with
  | zero => intro al hl hs; exact gmSum_top s n al hl (by omega)
  | succ m ih =>
    intro al hl hs
    have h1 : gmSum s n (mon al) = gmSum s n fun x => ((incs al).map fun e => mon e x).sum := by
      refine gmSum_congr s n _ _ fun x hx hx1 _ => ?_
      rw [incs_mon al x (by omega), hx1, one_mul]
    rw [h1, gmSum_list, ← incs_momBary al (by intro h; simp [h] at hl)]
    congr 1
    refine List.map_congr_left fun e he => ?_
    obtain ⟨h2, h3⟩ := incs_mem al e he
    exact ih e (by omega) (by omega)

/-- The formula integrates every monomial of degree at most `2 s + 1` over the unit simplex. -/
theorem gmSum_tail (s n : ℕ) (e : List ℕ) (hl : e.length = n) (hs : e.sum ≤ 2 * s + 1) :
    gmSum s n (fun x => mon e x.tail) = momSimplex e := by
  have h1 : gmSum s n (fun x => mon e x.tail) = gmSum s n (mon (0 :: e)) := by
    refine gmSum_congr s n _ _ fun x _ _ _ => ?_
    simp [mon]
  rw [h1, gmSum_mon s n (2 * s + 1 - e.sum) (0 :: e) (by simp [hl]) (by simp; omega), momBary, momSimplex]
  simp only [List.map_cons, List.prod_cons, List.sum_cons, List.length_cons, Nat.factorial_zero]
  rw [show 0 + e.sum + (e.length + 1) - 1 = e.sum + e.length by omega]
  simp

end Quad
