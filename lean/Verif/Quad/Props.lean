/-
The built-in quadrature rules integrate polynomials.
-/
import Verif.Quad.Cubature
import Verif.Quad.CheckLine
import Verif.Quad.CheckTri
import Verif.Quad.CheckRest
import Mathlib.Data.List.TakeWhile

namespace Quad

/-! ## The selection of the order -/

theorem takeWhile_lt_spec (order : ℕ) : ∀ l : List ℕ, l.Pairwise (· < ·) → (∃ o ∈ l, order ≤ o) →
    ∃ o, l[(l.takeWhile fun o => decide (o < order)).length]? = some o ∧ order ≤ o ∧ o ∈ l ∧
      ∀ o' ∈ l, order ≤ o' → o ≤ o' := by
  intro l
  induction l with
  | nil => rintro _ ⟨o, ho, _⟩; simp at ho
  | cons a l ih =>
    intro hp hex
    rw [List.pairwise_cons] at hp
    by_cases ha : a < order
    · obtain ⟨o, ho, hle⟩ := hex
      have hol : o ∈ l := by
        rcases List.mem_cons.1 ho with rfl | h
        · omega
        · exact h
      obtain ⟨o1, h1, h2, h3, h4⟩ := ih hp.2 ⟨o, hol, hle⟩
      refine ⟨o1, ?_, h2, by simp [h3], ?_⟩
      · rw [List.takeWhile_cons_of_pos (by simpa using ha)]
        simpa using h1
      · intro o' ho' hle'
        rcases List.mem_cons.1 ho' with rfl | h
        · omega
        · exact h4 o' h hle'
    · refine ⟨a, ?_, by omega, by simp, ?_⟩
      · rw [List.takeWhile_cons_of_neg (by simpa using ha)]
        simp
      · intro o' ho' _
        rcases List.mem_cons.1 ho' with rfl | h
        · exact le_refl _
        · exact (hp.1 o' h).le

/-- The least available order that is not less than the order asked for. -/
theorem getActualOrder_spec (orders : List ℕ) (order : ℕ) (hp : orders.Pairwise (· < ·))
    (hex : ∃ o ∈ orders, order ≤ o) : getActualOrder orders order ∈ orders ∧
      order ≤ getActualOrder orders order ∧
      ∀ o ∈ orders, order ≤ o → getActualOrder orders order ≤ o := by
  obtain ⟨o1, h1, h2, h3, h4⟩ := takeWhile_lt_spec order orders hp hex
  unfold getActualOrder
  split
  · rename_i h
    exact ⟨h, le_refl _, fun o _ ho => ho⟩
  · have hlt := (List.getElem?_eq_some_iff.1 h1).1
    simp only
    rw [if_neg (by omega), List.getD_eq_getElem?_getD, h1]
    exact ⟨h3, h2, h4⟩

theorem foldl_max_spec (l : List ℕ) : ∀ a, a ≤ l.foldl max a ∧ (∀ o ∈ l, o ≤ l.foldl max a) ∧
    (l.foldl max a = a ∨ l.foldl max a ∈ l) := by
  induction l with
  | nil => intro a; simp
  | cons b l ih =>
    intro a
    obtain ⟨h1, h2, h3⟩ := ih (max a b)
    rw [List.foldl_cons]
    refine ⟨by omega, fun o ho => ?_, ?_⟩
    · rcases List.mem_cons.1 ho with rfl | h
      · omega
      · exact h2 o h
    · rcases h3 with h | h
      · rw [h]
        rcases le_total a b with hab | hab
        · right; rw [max_eq_right hab]; simp
        · left; rw [max_eq_left hab]
      · right; simp [h]

/-- Beyond the largest order, the largest one is taken. -/
theorem getActualOrder_beyond (orders : List ℕ) (order : ℕ) (hne : orders ≠ [])
    (h : ∀ o ∈ orders, o < order) : getActualOrder orders order ∈ orders ∧
      ∀ o ∈ orders, o ≤ getActualOrder orders order := by
  unfold getActualOrder
  rw [if_neg (fun hm => lt_irrefl _ (h order hm))]
  have ht : (orders.takeWhile fun o => decide (o < order)) = orders := by
    rw [List.takeWhile_eq_self_iff]
    intro o ho
    simpa using h o ho
  simp only [ht, ge_iff_le, le_refl, if_true]
  obtain ⟨h1, h2, h3⟩ := foldl_max_spec orders 0
  refine ⟨?_, h2⟩
  rcases h3 with h3 | h3
  · rcases orders with _ | ⟨a, l⟩
    · exact absurd rfl hne
    · have := h2 a (by simp)
      rw [h3] at this
      have ha : a = 0 := by omega
      rw [h3, ← ha]
      simp
  · exact h3

/-! ## Tables -/

theorem momSimplex_cast (e : List ℕ) : ((momSimplex e : ℚ) : ℝ) = momSimplex e := by
  unfold momSimplex
  rw [Rat.cast_div, Rat.cast_natCast]
  congr 1
  induction e with
  | nil => simp
  | cons a e ih => simp [ih]

theorem momCube_cast (e : List ℕ) : ((momCube e : ℚ) : ℝ) = momCube e := by
  unfold momCube
  induction e with
  | nil => simp
  | cons a e ih =>
    rw [List.map_cons, List.prod_cons, List.map_cons, List.prod_cons, Rat.cast_mul, ih]
    push_cast
    rfl

theorem momWedge_cast (e : List ℕ) : ((momWedge e : ℚ) : ℝ) = momWedge e := by
  unfold momWedge
  rw [Rat.cast_mul, momSimplex_cast, momCube_cast]

/-- What the check of a table says. -/
theorem chk_rule {K : Type} [Chk K] {roots : List K} {en : Entry} {mom : List ℕ → ℚ} {eps : ℚ}
    {es : List (List ℕ)} {inside : List K → Bool} (h : checkEntry roots en mom eps es inside = true)
    (momR : List ℕ → ℝ) (hm : ∀ e, ((mom e : ℚ) : ℝ) = momR e) (P : List ℝ → Prop)
    (hP : ∀ x : List K, inside x = true → P (x.map Chk.val)) :
    ∃ R, en.rule = some R ∧ (∀ e ∈ es, |quad R (mon e) - momR e| ≤ (eps : ℝ)) ∧ ∀ p ∈ R, P p.1 := by
  obtain ⟨R, h1, h2, h3⟩ := checkEntry_sound _ _ _ _ _ _ h
  refine ⟨ruleVal R, h1, fun e he => ?_, fun p hp => ?_⟩
  · rw [← hm]; exact h2 e he
  · rw [ruleVal, List.mem_map] at hp
    obtain ⟨q, hq, rfl⟩ := hp
    exact hP _ (h3 q hq)

/-- The accuracy, as a real number. -/
noncomputable def eps0R : ℝ := (eps0 : ℝ)

theorem eps0R_eq : eps0R = 1 / 200000000000000 := by
  unfold eps0R eps0
  push_cast
  norm_num

/-- The tables of the simplices. -/
theorem simplex_table (g : Geom) (hg : g.simplex = true) (o : ℕ) (ho : o ∈ (tables g).map Entry.order) :
    ∃ R, tableRule (tables g) o = some R ∧
      (∀ e : List ℕ, e.length = g.dim → e.sum ≤ o → |quad R (mon e) - momSimplex e| ≤ eps0R) ∧
      ∀ p ∈ R, SimplexPt g.dim p.1 := by
  have key : ∀ (n : ℕ) {K : Type} [Chk K] {roots : List K} {en : Entry},
      checkEntry roots en momSimplex eps0 (expsTot n en.order) (inSimplex n) = true →
      ∃ R, en.rule = some R ∧
      (∀ e : List ℕ, e.length = n → e.sum ≤ en.order → |quad R (mon e) - momSimplex e| ≤ eps0R) ∧
      ∀ p ∈ R, SimplexPt n p.1 := by
    intro n K _ roots en h
    obtain ⟨R, h1, h2, h3⟩ := chk_rule h _ momSimplex_cast _ (inSimplex_sound n)
    exact ⟨R, h1, fun e he hs => h2 e (mem_expsTot n _ e he hs), h3⟩
  cases g with
  | g12 =>
    simp only [tables, List.map_cons, List.map_nil, List.mem_cons, List.not_mem_nil, or_false] at ho
    rcases ho with rfl | rfl | rfl | rfl | rfl | rfl | rfl | rfl | rfl | rfl | rfl | rfl | rfl | rfl
    · exact key 1 chk12o1
    · exact key 1 chk12o3
    · exact key 1 chk12o5
    · exact key 1 chk12o7
    · exact key 1 chk12o9
    · exact key 1 chk12o11
    · exact key 1 chk12o13
    · exact key 1 chk12o15
    · exact key 1 chk12o17
    · exact key 1 chk12o19
    · exact key 1 chk12o23
    · exact key 1 chk12o31
    · exact key 1 chk12o39
    · exact key 1 chk12o47
  | g23 =>
    simp only [tables, List.map_cons, List.map_nil, List.mem_cons, List.not_mem_nil, or_false] at ho
    rcases ho with rfl | rfl | rfl | rfl | rfl | rfl | rfl | rfl | rfl | rfl | rfl | rfl | rfl | rfl | rfl
    · exact key 2 chk23o1
    · exact key 2 chk23o2
    · exact key 2 chk23o3
    · exact key 2 chk23o4
    · exact key 2 chk23o5
    · exact key 2 chk23o6
    · exact key 2 chk23o7
    · exact key 2 chk23o8
    · exact key 2 chk23o9
    · exact key 2 chk23o10
    · exact key 2 chk23o12
    · exact key 2 chk23o13
    · exact key 2 chk23o14
    · exact key 2 chk23o17
    · exact key 2 chk23o19
  | g34 =>
    simp only [tables, List.map_cons, List.map_nil, List.mem_cons, List.not_mem_nil, or_false] at ho
    rcases ho with rfl | rfl | rfl | rfl | rfl
    · exact key 3 chk34o1
    · exact key 3 chk34o2
    · exact key 3 chk34o3
    · exact key 3 chk34o4
    · exact key 3 chk34o6
  | g01 => simp [Geom.simplex] at hg
  | g24 => simp [Geom.simplex] at hg
  | g36 => simp [Geom.simplex] at hg
  | g38 => simp [Geom.simplex] at hg

/-- The tables of the tensor product geometries. -/
theorem cube_table (g : Geom) (hg : g = .g24 ∨ g = .g38) (o : ℕ) (ho : o ∈ (tables g).map Entry.order) :
    ∃ R, tableRule (tables g) o = some R ∧
      (∀ e : List ℕ, e.length = g.dim → e.sum ≤ o → |quad R (mon e) - momCube e| ≤ eps0R) ∧
      ∀ p ∈ R, CubePt g.dim p.1 := by
  have key : ∀ (n : ℕ) {K : Type} [Chk K] {roots : List K} {en : Entry},
      checkEntry roots en momCube eps0 (expsTot n en.order) (inCube n) = true →
      ∃ R, en.rule = some R ∧
      (∀ e : List ℕ, e.length = n → e.sum ≤ en.order → |quad R (mon e) - momCube e| ≤ eps0R) ∧
      ∀ p ∈ R, CubePt n p.1 := by
    intro n K _ roots en h
    obtain ⟨R, h1, h2, h3⟩ := chk_rule h _ momCube_cast _ (inCube_sound n)
    exact ⟨R, h1, fun e he hs => h2 e (mem_expsTot n _ e he hs), h3⟩
  rcases hg with rfl | rfl
  · simp only [tables, List.map_cons, List.map_nil, List.mem_cons, List.not_mem_nil, or_false] at ho
    rcases ho with rfl | rfl | rfl
    · exact key 2 chk24o2
    · exact key 2 chk24o3
    · exact key 2 chk24o5
  · simp only [tables, List.map_cons, List.map_nil, List.mem_cons, List.not_mem_nil, or_false] at ho
    rcases ho with rfl | rfl | rfl
    · exact key 3 chk38o2
    · exact key 3 chk38o3
    · exact key 3 chk38o5

/-- The table of the wedge. -/
theorem wedge_table (o : ℕ) (a b : ℕ) (ho : (o = 3 ∧ a = 1 ∧ b = 1) ∨ (o = 6 ∧ a = 2 ∧ b = 3) ∨
    (o = 9 ∧ a = 4 ∧ b = 5)) :
    ∃ R, tableRule (tables .g36) o = some R ∧
      (∀ e : List ℕ, e.length = 3 → (e.take 2).sum ≤ a → (e.drop 2).sum ≤ b →
        |quad R (mon e) - momWedge e| ≤ eps0R) ∧
      ∀ p ∈ R, WedgePt p.1 := by
  have key : ∀ (a b : ℕ) {K : Type} [Chk K] {roots : List K} {en : Entry},
      checkEntry roots en momWedge eps0 (expsWedge a b) inWedge = true →
      ∃ R, en.rule = some R ∧
      (∀ e : List ℕ, e.length = 3 → (e.take 2).sum ≤ a → (e.drop 2).sum ≤ b →
        |quad R (mon e) - momWedge e| ≤ eps0R) ∧
      ∀ p ∈ R, WedgePt p.1 := by
    intro a b K _ roots en h
    obtain ⟨R, h1, h2, h3⟩ := chk_rule h _ momWedge_cast _ inWedge_sound
    exact ⟨R, h1, fun e he hs ht => h2 e (mem_expsWedge a b e he hs ht), h3⟩
  rcases ho with ⟨rfl, rfl, rfl⟩ | ⟨rfl, rfl, rfl⟩ | ⟨rfl, rfl, rfl⟩
  · exact key 1 1 chk36o3
  · exact key 2 3 chk36o6
  · exact key 4 5 chk36o9

theorem orders_increasing (g : Geom) : ((tables g).map Entry.order).Pairwise (· < ·) := by
  cases g <;> decide +kernel

theorem maxOrder_mem (g : Geom) : ((tables g).map Entry.order).foldl max 0 ∈ (tables g).map Entry.order := by
  cases g <;> decide +kernel

/-! ## Degrees -/

theorem expList_sum_le {n : ℕ} (p : MvPolynomial (Fin n) ℝ) (k : ℕ) (h : p.totalDegree ≤ k) :
    ∀ m ∈ p.support, (expList m).sum ≤ k := by
  intro m hm
  rw [expList_sum]
  exact le_trans (MvPolynomial.le_totalDegree hm) h

theorem expList_mem_le {n : ℕ} (p : MvPolynomial (Fin n) ℝ) (k : ℕ) (h : ∀ i, p.degreeOf i ≤ k) :
    ∀ m ∈ p.support, ∀ a ∈ expList m, a ≤ k := by
  intro m hm a ha
  rw [expList, List.mem_ofFn] at ha
  obtain ⟨i, rfl⟩ := ha
  exact le_trans (MvPolynomial.monomial_le_degreeOf i hm) (h i)

/-! ## Tensor products -/

theorem quad_tensor2 (r : Rule ℝ) (hr : ∀ p ∈ r, p.1.length = 1) (a b : ℕ) :
    quad (tensorRule 2 r) (mon [a, b]) = quad r (mon [a]) * quad r (mon [b]) := by
  have e1 : ∀ (y : List ℝ × ℝ), (r.map fun x => (x.1 ++ y.1, y.2 * x.2)).map
      (fun p : List ℝ × ℝ => p.2 * mon [a, b] p.1) =
      r.map fun x => (y.2 * mon [b] y.1) * (x.2 * mon [a] x.1) := by
    intro y
    rw [List.map_map]
    refine List.map_congr_left fun x hx => ?_
    simp only [Function.comp_apply]
    rw [show ([a, b] : List ℕ) = [a] ++ [b] from rfl, mon_append _ _ _ _ (by rw [hr x hx]; rfl)]
    ring
  simp only [quad, tensorRule, show ¬(2 : ℕ) = 3 by omega, if_false]
  rw [sum_flatMap]
  simp only [e1]
  simp only [sum_map_mul]
  rw [show (fun y : List ℝ × ℝ => y.2 * mon [b] y.1 * (r.map fun x => x.2 * mon [a] x.1).sum) =
    fun y => (r.map fun x => x.2 * mon [a] x.1).sum * (y.2 * mon [b] y.1) from funext fun y => mul_comm _ _,
    sum_map_mul]

theorem quad_tensor3 (r : Rule ℝ) (hr : ∀ p ∈ r, p.1.length = 1) (a b c : ℕ) :
    quad (tensorRule 3 r) (mon [a, b, c]) = quad r (mon [a]) * quad r (mon [b]) * quad r (mon [c]) := by
  have e1 : ∀ (z : List ℝ × ℝ), ∀ y ∈ r, (r.map fun x => (x.1 ++ y.1 ++ z.1, z.2 * (y.2 * x.2))).map
      (fun p : List ℝ × ℝ => p.2 * mon [a, b, c] p.1) =
      r.map fun x => ((z.2 * mon [c] z.1) * (y.2 * mon [b] y.1)) * (x.2 * mon [a] x.1) := by
    intro z y hy
    rw [List.map_map]
    refine List.map_congr_left fun x hx => ?_
    simp only [Function.comp_apply]
    rw [show ([a, b, c] : List ℕ) = ([a] ++ [b]) ++ [c] from rfl,
      mon_append _ _ _ _ (by rw [List.length_append, List.length_append, hr x hx, hr y hy]; rfl),
      mon_append _ _ _ _ (by rw [hr x hx]; rfl)]
    ring
  simp only [quad, tensorRule, if_true]
  rw [sum_flatMap]
  have e2 : ∀ z ∈ r, ((r.flatMap fun y => r.map fun x => (x.1 ++ y.1 ++ z.1, z.2 * (y.2 * x.2))).map
      fun p : List ℝ × ℝ => p.2 * mon [a, b, c] p.1).sum =
      ((r.map fun x => x.2 * mon [a] x.1).sum * (r.map fun y => y.2 * mon [b] y.1).sum) *
        (z.2 * mon [c] z.1) := by
    intro z _
    rw [sum_flatMap]
    rw [List.map_congr_left (g := fun y => ((r.map fun x => x.2 * mon [a] x.1).sum * (z.2 * mon [c] z.1)) *
      (y.2 * mon [b] y.1)) fun y hy => by rw [e1 z y hy, sum_map_mul]; ring]
    rw [sum_map_mul]
    ring
  rw [List.map_congr_left e2, sum_map_mul]

theorem tensor_points (dim : ℕ) (hd : dim = 2 ∨ dim = 3) (r : Rule ℝ) (hr : ∀ p ∈ r, SimplexPt 1 p.1) :
    ∀ p ∈ tensorRule dim r, CubePt dim p.1 := by
  have h1 : ∀ p ∈ r, p.1.length = 1 ∧ ∀ y ∈ p.1, 0 ≤ y ∧ y ≤ 1 := by
    intro p hp
    obtain ⟨a1, a2, a3⟩ := hr p hp
    obtain ⟨x, hx⟩ := List.length_eq_one_iff.1 a1
    rw [hx] at a2 a3 ⊢
    refine ⟨rfl, fun y hy => ?_⟩
    obtain rfl : y = x := by simpa using hy
    exact ⟨a2 y hy, by simpa using a3⟩
  rcases hd with rfl | rfl
  · intro p hp
    simp only [tensorRule, show ¬(2 : ℕ) = 3 by omega, if_false, List.mem_flatMap, List.mem_map] at hp
    obtain ⟨y, hy, x, hx, rfl⟩ := hp
    refine ⟨by simp [(h1 x hx).1, (h1 y hy).1], fun t ht => ?_⟩
    rcases List.mem_append.1 ht with h | h
    · exact (h1 x hx).2 t h
    · exact (h1 y hy).2 t h
  · intro p hp
    simp only [tensorRule, if_true, List.mem_flatMap, List.mem_map] at hp
    obtain ⟨z, hz, y, hy, x, hx, rfl⟩ := hp
    refine ⟨by simp [(h1 x hx).1, (h1 y hy).1, (h1 z hz).1], fun t ht => ?_⟩
    rcases List.mem_append.1 ht with h | h
    · rcases List.mem_append.1 h with h | h
      · exact (h1 x hx).2 t h
      · exact (h1 y hy).2 t h
    · exact (h1 z hz).2 t h

theorem mul_close (a a' b b' e f : ℝ) (ha : |a - a'| ≤ e) (hb : |b - b'| ≤ f) (ha' : |a'| ≤ 1)
    (hb' : |b'| ≤ 1) : |a * b - a' * b'| ≤ e * (1 + f) + f := by
  have hb1 : |b| ≤ 1 + f := by
    have := abs_sub_abs_le_abs_sub b b'
    linarith
  have e1 : a * b - a' * b' = (a - a') * b + a' * (b - b') := by ring
  rw [e1]
  refine le_trans (abs_add_le _ _) ?_
  rw [abs_mul, abs_mul]
  have he : 0 ≤ e := le_trans (abs_nonneg _) ha
  have hf : 0 ≤ f := le_trans (abs_nonneg _) hb
  have h1 : |a - a'| * |b| ≤ e * (1 + f) := mul_le_mul ha hb1 (abs_nonneg _) he
  have h2 : |a'| * |b - b'| ≤ 1 * f := mul_le_mul ha' hb (abs_nonneg _) (by norm_num)
  linarith

theorem momLine (a : ℕ) : (momSimplex [a] : ℝ) = 1 / ((a : ℝ) + 1) := by
  unfold momSimplex
  simp only [List.map_cons, List.map_nil, List.prod_cons, List.prod_nil, List.sum_cons, List.sum_nil,
    List.length_cons, List.length_nil, add_zero, zero_add, mul_one, Nat.factorial_succ]
  have : (a.factorial : ℝ) ≠ 0 := by exact_mod_cast Nat.factorial_ne_zero a
  have h2 : (a : ℝ) + 1 ≠ 0 := by positivity
  push_cast
  field_simp

theorem momLine_abs (a : ℕ) : |(1 / ((a : ℝ) + 1))| ≤ 1 := by
  have h : (0 : ℝ) < (a : ℝ) + 1 := by positivity
  rw [abs_of_pos (by positivity), div_le_one h]
  have : (0 : ℝ) ≤ a := by positivity
  linarith

/-- The accuracy of all built-in rules. -/
noncomputable def tol : ℝ := 2 / 10 ^ 14

theorem eps0R_le : eps0R ≤ tol := by rw [eps0R_eq, tol]; norm_num

end Quad
