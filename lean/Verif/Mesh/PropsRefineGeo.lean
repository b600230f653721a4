/-
C67: the children fill the parent cell.
-/
import Mathlib.Tactic.Module
import Mathlib.Tactic.LinearCombination
import Mathlib.Tactic.FinCases
import Mathlib.Tactic.FieldSimp
import Mathlib.Tactic.NormNum
import Mathlib.Tactic.Linarith
import Verif.Mesh.PropsRefine

namespace Verif.Mesh

section

variable {K V : Type} [Field K] [LinearOrder K] [IsStrictOrderedRing K] [AddCommGroup V] [Module K V]

omit [LinearOrder K] [IsStrictOrderedRing K] in
theorem meanOf_two (x : ℕ → V) (a b : ℕ) : meanOf K x [a, b] = (1 / 2 : K) • (x a + x b) := by
  simp [meanOf]

omit [LinearOrder K] [IsStrictOrderedRing K] in
theorem meanOf_four (x : ℕ → V) (a b c d : ℕ) :
    meanOf K x [a, b, c, d] = (1 / 4 : K) • (x a + x b + x c + x d) := by
  simp [meanOf, add_assoc]

omit [LinearOrder K] [IsStrictOrderedRing K] in
theorem meanOf_eight (x : ℕ → V) :
    meanOf K x (List.range 8)
      = (1 / 8 : K) • (x 0 + x 1 + x 2 + x 3 + x 4 + x 5 + x 6 + x 7) := by
  simp [meanOf, List.range_succ, add_assoc]

omit [LinearOrder K] [IsStrictOrderedRing K] in
theorem meanOf_range4 (x : ℕ → V) :
    meanOf K x (List.range 4) = (1 / 4 : K) • (x 0 + x 1 + x 2 + x 3) := by
  simp [meanOf, List.range_succ, add_assoc]

/-! ### Triangles -/

omit [LinearOrder K] [IsStrictOrderedRing K] in
theorem child23 (x : ℕ → V) :
    childPts K 3 edges23 [] tab23 3 x 0
      = ![x 0, (1 / 2 : K) • (x 0 + x 1), (1 / 2 : K) • (x 2 + x 0)] ∧
    childPts K 3 edges23 [] tab23 3 x 1
      = ![(1 / 2 : K) • (x 0 + x 1), (1 / 2 : K) • (x 1 + x 2), (1 / 2 : K) • (x 2 + x 0)] ∧
    childPts K 3 edges23 [] tab23 3 x 2
      = ![x 1, (1 / 2 : K) • (x 1 + x 2), (1 / 2 : K) • (x 0 + x 1)] ∧
    childPts K 3 edges23 [] tab23 3 x 3
      = ![x 2, (1 / 2 : K) • (x 2 + x 0), (1 / 2 : K) • (x 1 + x 2)] := by
  refine ⟨?_, ?_, ?_, ?_⟩ <;>
  · funext c
    fin_cases c <;>
      simp only [childPts, tab23, ptPos, edges23, List.getD_cons_zero, List.getD_cons_succ, meanOf_two,
        Fin.zero_eta, Fin.mk_one, Fin.reduceFinMk, Fin.isValue, Matrix.cons_val_zero,
        Matrix.cons_val_one, Matrix.cons_val, Fin.coe_ofNat_eq_mod, Nat.zero_mod, Nat.reduceMod,
        Nat.reduceMul, Nat.reduceAdd, zero_mul, one_mul, Nat.zero_add, Nat.add_zero, Nat.one_mod]

theorem lt4 {t : ℕ} (h : t < 4) : t = 0 ∨ t = 1 ∨ t = 2 ∨ t = 3 := by omega

theorem lt8 {t : ℕ} (h : t < 8) :
    t = 0 ∨ t = 1 ∨ t = 2 ∨ t = 3 ∨ t = 4 ∨ t = 5 ∨ t = 6 ∨ t = 7 := by omega

/-- The weights in the parent of the point with the weights `w` in child `t`. -/
def up23 (t : ℕ) (w : Fin 3 → K) : Fin 3 → K :=
  match t with
  | 0 => ![w 0 + w 1 / 2 + w 2 / 2, w 1 / 2, w 2 / 2]
  | 1 => ![w 0 / 2 + w 2 / 2, w 0 / 2 + w 1 / 2, w 1 / 2 + w 2 / 2]
  | 2 => ![w 2 / 2, w 0 + w 1 / 2 + w 2 / 2, w 1 / 2]
  | _ => ![w 1 / 2, w 2 / 2, w 0 + w 1 / 2 + w 2 / 2]

theorem up23_sum {t : ℕ} (ht : t < 4) (w : Fin 3 → K) : ∑ i, up23 t w i = ∑ i, w i := by
  rcases lt4 ht with rfl | rfl | rfl | rfl <;>
  · simp only [up23, Fin.sum_univ_three, Matrix.cons_val_zero, Matrix.cons_val_one, Matrix.cons_val]
    ring

theorem up23_pt {t : ℕ} (ht : t < 4) (x : ℕ → V) (w : Fin 3 → K) :
    ∑ c, w c • childPts K 3 edges23 [] tab23 3 x t c = ∑ v : Fin 3, up23 t w v • x v := by
  obtain ⟨h0, h1, h2, h3⟩ := child23 (K := K) x
  rcases lt4 ht with rfl | rfl | rfl | rfl
  · rw [h0]
    simp only [up23, Fin.sum_univ_three, Matrix.cons_val_zero, Matrix.cons_val_one, Matrix.cons_val,
      Fin.coe_ofNat_eq_mod, Nat.zero_mod, Nat.reduceMod, Nat.one_mod]
    module
  · rw [h1]
    simp only [up23, Fin.sum_univ_three, Matrix.cons_val_zero, Matrix.cons_val_one, Matrix.cons_val,
      Fin.coe_ofNat_eq_mod, Nat.zero_mod, Nat.reduceMod, Nat.one_mod]
    module
  · rw [h2]
    simp only [up23, Fin.sum_univ_three, Matrix.cons_val_zero, Matrix.cons_val_one, Matrix.cons_val,
      Fin.coe_ofNat_eq_mod, Nat.zero_mod, Nat.reduceMod, Nat.one_mod]
    module
  · rw [h3]
    simp only [up23, Fin.sum_univ_three, Matrix.cons_val_zero, Matrix.cons_val_one, Matrix.cons_val,
      Fin.coe_ofNat_eq_mod, Nat.zero_mod, Nat.reduceMod, Nat.one_mod]
    module

theorem cover23 (x : ℕ → V) (p : V) :
    p ∈ Simplex (K := K) (fun v : Fin 3 => x v) ↔
      ∃ t < 4, p ∈ Simplex (K := K) (childPts K 3 edges23 [] tab23 3 x t) := by
  constructor
  · rintro ⟨w, hw, hs, rfl⟩
    have mk : ∀ t < 4, ∀ w' : Fin 3 → K, (∀ i, 0 ≤ w' i) → up23 t w' = w →
        ∃ t < 4, (∑ i, w i • x i) ∈ Simplex (K := K) (childPts K 3 edges23 [] tab23 3 x t) := by
      intro t ht w' hw' hu
      refine ⟨t, ht, w', hw', ?_, ?_⟩
      · rw [← up23_sum ht, hu, hs]
      · rw [up23_pt ht, hu]
    rw [Fin.sum_univ_three] at hs
    have n0 := hw 0
    have n1 := hw 1
    have n2 := hw 2
    rcases le_total (1 / 2) (w 0) with c0 | c0
    · refine mk 0 (by omega) ![2 * w 0 - 1, 2 * w 1, 2 * w 2] ?_ ?_
      · intro i; fin_cases i <;> simp <;> linarith
      · funext i; fin_cases i <;> simp [up23] <;> linarith
    rcases le_total (1 / 2) (w 1) with c1 | c1
    · refine mk 2 (by omega) ![2 * w 1 - 1, 2 * w 2, 2 * w 0] ?_ ?_
      · intro i; fin_cases i <;> simp <;> linarith
      · funext i; fin_cases i <;> simp [up23] <;> linarith
    rcases le_total (1 / 2) (w 2) with c2 | c2
    · refine mk 3 (by omega) ![2 * w 2 - 1, 2 * w 0, 2 * w 1] ?_ ?_
      · intro i; fin_cases i <;> simp <;> linarith
      · funext i; fin_cases i <;> simp [up23] <;> linarith
    · refine mk 1 (by omega) ![1 - 2 * w 2, 1 - 2 * w 0, 1 - 2 * w 1] ?_ ?_
      · intro i; fin_cases i <;> simp <;> linarith
      · funext i; fin_cases i <;> simp [up23] <;> linarith
  · rintro ⟨t, ht, w, hw, hs, rfl⟩
    refine ⟨up23 t w, ?_, by rw [up23_sum ht, hs], by rw [up23_pt ht]⟩
    have n0 := hw 0
    have n1 := hw 1
    have n2 := hw 2
    intro i
    rcases lt4 ht with rfl | rfl | rfl | rfl <;> fin_cases i <;> simp [up23] <;> linarith

theorem disj23 {x : ℕ → V} (hx : AffIndep K (fun v : Fin 3 => x v)) {t t' : ℕ} (ht : t < 4)
    (ht' : t' < 4) (hne : t ≠ t') (p : V)
    (h1 : p ∈ SimplexInt (K := K) (childPts K 3 edges23 [] tab23 3 x t))
    (h2 : p ∈ SimplexInt (K := K) (childPts K 3 edges23 [] tab23 3 x t')) : False := by
  obtain ⟨w, hw, hs, rfl⟩ := h1
  obtain ⟨w', hw', hs', e⟩ := h2
  rw [up23_pt ht, up23_pt ht'] at e
  have E := hx _ _ (by rw [up23_sum ht, hs]) (by rw [up23_sum ht', hs']) e
  have e0 := congrFun E 0
  have e1 := congrFun E 1
  have e2 := congrFun E 2
  have n0 := hw 0
  have n1 := hw 1
  have n2 := hw 2
  have m0 := hw' 0
  have m1 := hw' 1
  have m2 := hw' 2
  rw [Fin.sum_univ_three] at hs hs'
  rcases lt4 ht with rfl | rfl | rfl | rfl <;> rcases lt4 ht' with rfl | rfl | rfl | rfl <;>
    first
    | exact hne rfl
    | (simp only [up23, Matrix.cons_val_zero, Matrix.cons_val_one, Matrix.cons_val] at e0 e1 e2
       linarith)

theorem area23 (x : ℕ → Fin 2 → K) {t : ℕ} (ht : t < 4) :
    triArea2 (childPts K 3 edges23 [] tab23 3 x t) = triArea2 (fun v : Fin 3 => x v) / 4 := by
  obtain ⟨h0, h1, h2, h3⟩ := child23 (K := K) x
  rcases lt4 ht with rfl | rfl | rfl | rfl
  all_goals
    first
    | rw [h0]
    | rw [h1]
    | rw [h2]
    | rw [h3]
    simp only [triArea2, Matrix.cons_val_zero, Matrix.cons_val_one, Matrix.cons_val, Pi.smul_apply,
      Pi.add_apply, smul_eq_mul, Fin.coe_ofNat_eq_mod, Nat.zero_mod, Nat.reduceMod, Nat.one_mod]
    ring

/-- **Refinement of triangles.**  In the refined mesh the cells `4 i, ..., 4 i + 3` have the group of
the cell `i`, cover it exactly, have disjoint insides and the signed area of each is one quarter. -/
theorem C67_triangles {m : RMesh V} (h : Topo 3 edges23 [] m) {i : ℕ} {row : List ℕ}
    (hr : m.conn[i]? = some row) :
    ∃ r : ℕ → List ℕ, (∀ t < 4, (refine23 K m).conn[4 * i + t]? = some (r t)) ∧
      (∀ t < 4, (refine23 K m).groups[4 * i + t]? = m.groups[i]?) ∧
      (∀ p, p ∈ Simplex (K := K) (vtxs m.coors row 3) ↔
        ∃ t < 4, p ∈ Simplex (K := K) (vtxs (refine23 K m).coors (r t) 3)) ∧
      (AffIndep K (vtxs m.coors row 3) → ∀ t < 4, ∀ t' < 4, t ≠ t' → ∀ p,
        p ∈ SimplexInt (K := K) (vtxs (refine23 K m).coors (r t) 3) →
        p ∉ SimplexInt (K := K) (vtxs (refine23 K m).coors (r t') 3)) := by
  have hc := fun t (ht : t < 4) => refine23_child (K := K) h hr ht
  choose! r hr1 hr2 using hc
  refine ⟨r, hr1, ?_, ?_, ?_⟩
  · intro t ht
    have hi : i < m.groups.length := by
      rw [h.groups]; exact (List.getElem?_eq_some_iff.1 hr).1
    rw [List.getElem?_eq_getElem hi]
    exact groupsRepeat_get ht (List.getElem?_eq_getElem hi)
  · intro p
    have := cover23 (K := K) (vtx m.coors row) p
    rw [show (fun v : Fin 3 => vtx m.coors row v) = vtxs m.coors row 3 from rfl] at this
    rw [this]
    constructor
    · rintro ⟨t, ht, hp⟩; exact ⟨t, ht, by rwa [hr2 t ht]⟩
    · rintro ⟨t, ht, hp⟩; exact ⟨t, ht, by rwa [hr2 t ht] at hp⟩
  · intro hx t ht t' ht' hne p h1 h2
    rw [hr2 t ht] at h1
    rw [hr2 t' ht'] at h2
    exact disj23 hx ht ht' hne p h1 h2

/-- The signed areas of the children. -/
theorem C67_triangles_area {m : RMesh (Fin 2 → K)} (h : Topo 3 edges23 [] m) {i : ℕ} {row : List ℕ}
    (hr : m.conn[i]? = some row) {t : ℕ} (ht : t < 4) {r : List ℕ}
    (hc : (refine23 K m).conn[4 * i + t]? = some r) :
    triArea2 (vtxs (refine23 K m).coors r 3) = triArea2 (vtxs m.coors row 3) / 4 := by
  obtain ⟨r', h1, h2⟩ := refine23_child (K := K) h hr ht
  rw [hc] at h1
  rw [Option.some.inj h1, h2, area23 _ ht]
  rfl

/-! ### Tetrahedrons -/

omit [LinearOrder K] [IsStrictOrderedRing K] in
theorem child34 (x : ℕ → V) :
    childPts K 4 edges34 [] tab34 4 x 0 = ![x 0, (1 / 2 : K) • (x 0 + x 1), (1 / 2 : K) • (x 2 + x 0),
      (1 / 2 : K) • (x 0 + x 3)] ∧
    childPts K 4 edges34 [] tab34 4 x 1 = ![(1 / 2 : K) • (x 0 + x 1), x 1, (1 / 2 : K) • (x 1 + x 2),
      (1 / 2 : K) • (x 1 + x 3)] ∧
    childPts K 4 edges34 [] tab34 4 x 2 = ![(1 / 2 : K) • (x 2 + x 0), (1 / 2 : K) • (x 1 + x 2), x 2,
      (1 / 2 : K) • (x 2 + x 3)] ∧
    childPts K 4 edges34 [] tab34 4 x 3 = ![(1 / 2 : K) • (x 0 + x 3), (1 / 2 : K) • (x 1 + x 3),
      (1 / 2 : K) • (x 2 + x 3), x 3] ∧
    childPts K 4 edges34 [] tab34 4 x 4 = ![(1 / 2 : K) • (x 0 + x 1), (1 / 2 : K) • (x 2 + x 0),
      (1 / 2 : K) • (x 0 + x 3), (1 / 2 : K) • (x 1 + x 3)] ∧
    childPts K 4 edges34 [] tab34 4 x 5 = ![(1 / 2 : K) • (x 0 + x 1), (1 / 2 : K) • (x 2 + x 0),
      (1 / 2 : K) • (x 1 + x 3), (1 / 2 : K) • (x 1 + x 2)] ∧
    childPts K 4 edges34 [] tab34 4 x 6 = ![(1 / 2 : K) • (x 2 + x 0), (1 / 2 : K) • (x 0 + x 3),
      (1 / 2 : K) • (x 1 + x 3), (1 / 2 : K) • (x 2 + x 3)] ∧
    childPts K 4 edges34 [] tab34 4 x 7 = ![(1 / 2 : K) • (x 2 + x 0), (1 / 2 : K) • (x 1 + x 2),
      (1 / 2 : K) • (x 2 + x 3), (1 / 2 : K) • (x 1 + x 3)] := by
  refine ⟨?_, ?_, ?_, ?_, ?_, ?_, ?_, ?_⟩ <;>
  · funext c
    fin_cases c <;>
      simp only [childPts, tab34, ptPos, edges34, List.getD_cons_zero, List.getD_cons_succ, meanOf_two,
        Fin.zero_eta, Fin.mk_one, Fin.reduceFinMk, Fin.isValue, Matrix.cons_val_zero,
        Matrix.cons_val_one, Matrix.cons_val, Fin.coe_ofNat_eq_mod, Nat.zero_mod, Nat.reduceMod,
        Nat.reduceMul, Nat.reduceAdd, zero_mul, one_mul, Nat.zero_add, Nat.add_zero, Nat.one_mod]

/-- The weights in the parent of the point with the weights `w` in child `t`. -/
def up34 (t : ℕ) (w : Fin 4 → K) : Fin 4 → K :=
  match t with
  | 0 => ![w 0 + w 1 / 2 + w 2 / 2 + w 3 / 2, w 1 / 2, w 2 / 2, w 3 / 2]
  | 1 => ![w 0 / 2, w 0 / 2 + w 1 + w 2 / 2 + w 3 / 2, w 2 / 2, w 3 / 2]
  | 2 => ![w 0 / 2, w 1 / 2, w 0 / 2 + w 1 / 2 + w 2 + w 3 / 2, w 3 / 2]
  | 3 => ![w 0 / 2, w 1 / 2, w 2 / 2, w 0 / 2 + w 1 / 2 + w 2 / 2 + w 3]
  | 4 => ![w 0 / 2 + w 1 / 2 + w 2 / 2, w 0 / 2 + w 3 / 2, w 1 / 2, w 2 / 2 + w 3 / 2]
  | 5 => ![w 0 / 2 + w 1 / 2, w 0 / 2 + w 2 / 2 + w 3 / 2, w 1 / 2 + w 3 / 2, w 2 / 2]
  | 6 => ![w 0 / 2 + w 1 / 2, w 2 / 2, w 0 / 2 + w 3 / 2, w 1 / 2 + w 2 / 2 + w 3 / 2]
  | _ => ![w 0 / 2, w 1 / 2 + w 3 / 2, w 0 / 2 + w 1 / 2 + w 2 / 2, w 2 / 2 + w 3 / 2]

theorem up34_sum {t : ℕ} (ht : t < 8) (w : Fin 4 → K) : ∑ i, up34 t w i = ∑ i, w i := by
  rcases lt8 ht with rfl | rfl | rfl | rfl | rfl | rfl | rfl | rfl <;>
  · simp only [up34, Fin.sum_univ_four, Matrix.cons_val_zero, Matrix.cons_val_one, Matrix.cons_val]
    ring

theorem up34_pt {t : ℕ} (ht : t < 8) (x : ℕ → V) (w : Fin 4 → K) :
    ∑ c, w c • childPts K 4 edges34 [] tab34 4 x t c = ∑ v : Fin 4, up34 t w v • x v := by
  obtain ⟨h0, h1, h2, h3, h4, h5, h6, h7⟩ := child34 (K := K) x
  rcases lt8 ht with rfl | rfl | rfl | rfl | rfl | rfl | rfl | rfl
  all_goals
    first
    | rw [h0]
    | rw [h1]
    | rw [h2]
    | rw [h3]
    | rw [h4]
    | rw [h5]
    | rw [h6]
    | rw [h7]
    simp only [up34, Fin.sum_univ_four, Matrix.cons_val_zero, Matrix.cons_val_one, Matrix.cons_val,
      Fin.coe_ofNat_eq_mod, Nat.zero_mod, Nat.reduceMod, Nat.one_mod]
    module

theorem cover34 (x : ℕ → V) (p : V) :
    p ∈ Simplex (K := K) (fun v : Fin 4 => x v) ↔
      ∃ t < 8, p ∈ Simplex (K := K) (childPts K 4 edges34 [] tab34 4 x t) := by
  constructor
  · rintro ⟨w, hw, hs, rfl⟩
    have mk : ∀ t < 8, ∀ w' : Fin 4 → K, (∀ i, 0 ≤ w' i) → up34 t w' = w →
        ∃ t < 8, (∑ i, w i • x i) ∈ Simplex (K := K) (childPts K 4 edges34 [] tab34 4 x t) := by
      intro t ht w' hw' hu
      refine ⟨t, ht, w', hw', ?_, ?_⟩
      · rw [← up34_sum ht, hu, hs]
      · rw [up34_pt ht, hu]
    rw [Fin.sum_univ_four] at hs
    have n0 := hw 0
    have n1 := hw 1
    have n2 := hw 2
    have n3 := hw 3
    rcases le_total (1 / 2) (w 0) with c0 | c0
    · refine mk 0 (by omega) ![2 * w 0 - 1, 2 * w 1, 2 * w 2, 2 * w 3] ?_ ?_
      · intro i; fin_cases i <;> simp <;> linarith
      · funext i; fin_cases i <;> simp [up34] <;> linarith
    rcases le_total (1 / 2) (w 1) with c1 | c1
    · refine mk 1 (by omega) ![2 * w 0, 2 * w 1 - 1, 2 * w 2, 2 * w 3] ?_ ?_
      · intro i; fin_cases i <;> simp <;> linarith
      · funext i; fin_cases i <;> simp [up34] <;> linarith
    rcases le_total (1 / 2) (w 2) with c2 | c2
    · refine mk 2 (by omega) ![2 * w 0, 2 * w 1, 2 * w 2 - 1, 2 * w 3] ?_ ?_
      · intro i; fin_cases i <;> simp <;> linarith
      · funext i; fin_cases i <;> simp [up34] <;> linarith
    rcases le_total (1 / 2) (w 3) with c3 | c3
    · refine mk 3 (by omega) ![2 * w 0, 2 * w 1, 2 * w 2, 2 * w 3 - 1] ?_ ?_
      · intro i; fin_cases i <;> simp <;> linarith
      · funext i; fin_cases i <;> simp [up34] <;> linarith
    rcases le_total (1 / 2) (w 0 + w 1) with d0 | d0 <;>
      rcases le_total (1 / 2) (w 0 + w 3) with d1 | d1
    · refine mk 4 (by omega) ![2 * w 0 + 2 * w 1 - 1, 2 * w 2, 2 * w 0 + 2 * w 3 - 1, 1 - 2 * w 0] ?_ ?_
      · intro i; fin_cases i <;> simp <;> linarith
      · funext i; fin_cases i <;> simp [up34] <;> linarith
    · refine mk 5 (by omega) ![2 * w 0 + 2 * w 1 - 1, 1 - 2 * w 1, 2 * w 3, 2 * w 1 + 2 * w 2 - 1] ?_ ?_
      · intro i; fin_cases i <;> simp <;> linarith
      · funext i; fin_cases i <;> simp [up34] <;> linarith
    · refine mk 6 (by omega) ![1 - 2 * w 3, 2 * w 0 + 2 * w 3 - 1, 2 * w 1, 2 * w 2 + 2 * w 3 - 1] ?_ ?_
      · intro i; fin_cases i <;> simp <;> linarith
      · funext i; fin_cases i <;> simp [up34] <;> linarith
    · refine mk 7 (by omega) ![2 * w 0, 2 * w 1 + 2 * w 2 - 1, 2 * w 2 + 2 * w 3 - 1, 1 - 2 * w 2] ?_ ?_
      · intro i; fin_cases i <;> simp <;> linarith
      · funext i; fin_cases i <;> simp [up34] <;> linarith
  · rintro ⟨t, ht, w, hw, hs, rfl⟩
    refine ⟨up34 t w, ?_, by rw [up34_sum ht, hs], by rw [up34_pt ht]⟩
    have n0 := hw 0
    have n1 := hw 1
    have n2 := hw 2
    have n3 := hw 3
    intro i
    rcases lt8 ht with rfl | rfl | rfl | rfl | rfl | rfl | rfl | rfl <;>
      fin_cases i <;> simp [up34] <;> linarith

theorem disj34 {x : ℕ → V} (hx : AffIndep K (fun v : Fin 4 => x v)) {t t' : ℕ} (ht : t < 8)
    (ht' : t' < 8) (hne : t ≠ t') (p : V)
    (h1 : p ∈ SimplexInt (K := K) (childPts K 4 edges34 [] tab34 4 x t))
    (h2 : p ∈ SimplexInt (K := K) (childPts K 4 edges34 [] tab34 4 x t')) : False := by
  obtain ⟨w, hw, hs, rfl⟩ := h1
  obtain ⟨w', hw', hs', e⟩ := h2
  rw [up34_pt ht, up34_pt ht'] at e
  have E := hx _ _ (by rw [up34_sum ht, hs]) (by rw [up34_sum ht', hs']) e
  have e0 := congrFun E 0
  have e1 := congrFun E 1
  have e2 := congrFun E 2
  have e3 := congrFun E 3
  have n0 := hw 0
  have n1 := hw 1
  have n2 := hw 2
  have n3 := hw 3
  have m0 := hw' 0
  have m1 := hw' 1
  have m2 := hw' 2
  have m3 := hw' 3
  rw [Fin.sum_univ_four] at hs hs'
  rcases lt8 ht with rfl | rfl | rfl | rfl | rfl | rfl | rfl | rfl <;>
    rcases lt8 ht' with rfl | rfl | rfl | rfl | rfl | rfl | rfl | rfl <;>
    first
    | exact hne rfl
    | (simp only [up34, Matrix.cons_val_zero, Matrix.cons_val_one, Matrix.cons_val] at e0 e1 e2 e3
       linarith)

theorem vol34 (x : ℕ → Fin 3 → K) {t : ℕ} (ht : t < 8) :
    tetVol6 (childPts K 4 edges34 [] tab34 4 x t) = tetVol6 (fun v : Fin 4 => x v) / 8 := by
  obtain ⟨h0, h1, h2, h3, h4, h5, h6, h7⟩ := child34 (K := K) x
  rcases lt8 ht with rfl | rfl | rfl | rfl | rfl | rfl | rfl | rfl
  all_goals
    first
    | rw [h0]
    | rw [h1]
    | rw [h2]
    | rw [h3]
    | rw [h4]
    | rw [h5]
    | rw [h6]
    | rw [h7]
    simp only [tetVol6, det3v, Matrix.cons_val_zero, Matrix.cons_val_one, Matrix.cons_val, Pi.smul_apply,
      Pi.add_apply, Pi.sub_apply, smul_eq_mul, Fin.coe_ofNat_eq_mod, Nat.zero_mod, Nat.reduceMod,
      Nat.one_mod]
    ring

/-- **Refinement of tetrahedrons**, as `C67_triangles`, with eight children. -/
theorem C67_tetrahedrons {m : RMesh V} (h : Topo 4 edges34 faces34 m) {i : ℕ} {row : List ℕ}
    (hr : m.conn[i]? = some row) :
    ∃ r : ℕ → List ℕ, (∀ t < 8, (refine34 K m).conn[8 * i + t]? = some (r t)) ∧
      (∀ t < 8, (refine34 K m).groups[8 * i + t]? = m.groups[i]?) ∧
      (∀ p, p ∈ Simplex (K := K) (vtxs m.coors row 4) ↔
        ∃ t < 8, p ∈ Simplex (K := K) (vtxs (refine34 K m).coors (r t) 4)) ∧
      (AffIndep K (vtxs m.coors row 4) → ∀ t < 8, ∀ t' < 8, t ≠ t' → ∀ p,
        p ∈ SimplexInt (K := K) (vtxs (refine34 K m).coors (r t) 4) →
        p ∉ SimplexInt (K := K) (vtxs (refine34 K m).coors (r t') 4)) := by
  have hc := fun t (ht : t < 8) => refine34_child (K := K) h hr ht
  choose! r hr1 hr2 using hc
  refine ⟨r, hr1, ?_, ?_, ?_⟩
  · intro t ht
    have hi : i < m.groups.length := by
      rw [h.groups]; exact (List.getElem?_eq_some_iff.1 hr).1
    rw [List.getElem?_eq_getElem hi]
    exact groupsRepeat_get ht (List.getElem?_eq_getElem hi)
  · intro p
    have := cover34 (K := K) (vtx m.coors row) p
    rw [show (fun v : Fin 4 => vtx m.coors row v) = vtxs m.coors row 4 from rfl] at this
    rw [this]
    constructor
    · rintro ⟨t, ht, hp⟩; exact ⟨t, ht, by rwa [hr2 t ht]⟩
    · rintro ⟨t, ht, hp⟩; exact ⟨t, ht, by rwa [hr2 t ht] at hp⟩
  · intro hx t ht t' ht' hne p h1 h2
    rw [hr2 t ht] at h1
    rw [hr2 t' ht'] at h2
    exact disj34 hx ht ht' hne p h1 h2

/-- The signed volumes of the children: one eighth, with the same sign. -/
theorem C67_tetrahedrons_volume {m : RMesh (Fin 3 → K)} (h : Topo 4 edges34 faces34 m) {i : ℕ}
    {row : List ℕ} (hr : m.conn[i]? = some row) {t : ℕ} (ht : t < 8) {r : List ℕ}
    (hc : (refine34 K m).conn[8 * i + t]? = some r) :
    tetVol6 (vtxs (refine34 K m).coors r 4) = tetVol6 (vtxs m.coors row 4) / 8 := by
  obtain ⟨r', h1, h2⟩ := refine34_child (K := K) h hr ht
  rw [hc] at h1
  rw [Option.some.inj h1, h2, vol34 _ ht]
  rfl

end

end Verif.Mesh
