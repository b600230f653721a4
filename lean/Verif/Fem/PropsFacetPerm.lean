/-
The permutations of the facet DOFs compose with the local order of the facet nodes to a numbering that
depends only on the position of the node with respect to the facet vertices.
-/
import Verif.Fem.Facets
import Verif.CMesh.Model
import Mathlib.Data.List.Nodup
import Mathlib.Data.List.GetD
import Mathlib.Tactic.Linarith
import Mathlib.Tactic.Ring
import Mathlib.Tactic.IntervalCases
import Mathlib.Tactic.Common

namespace Verif.Fem

open Verif.CMesh (oriKey)

/-! ### Lists -/

theorem downRange_eq (n b : ℕ) : downRange n b = (List.range (n - b)).map fun i => n - 1 - i := by
  apply List.ext_getElem
  · simp [downRange]
  · intro i h1 h2
    simp only [downRange, List.length_reverse, List.length_range'] at h1
    simp only [downRange, List.getElem_reverse, List.getElem_range', List.length_range', List.getElem_map,
      List.getElem_range]
    omega

/-- The order of the nodes inside a triangle of the side `m`. -/
def triL (m : ℕ) : List (ℕ × ℕ) :=
  (List.range m).flatMap fun i1 => (List.range (m - i1)).map fun i2 => (i1, i2)

/-- The order of the nodes inside a square of the side `m`. -/
def sqL (m : ℕ) : List (ℕ × ℕ) :=
  (List.range m).flatMap fun i1 => (List.range m).map fun i2 => (i1, i2)

theorem mem_triL {m : ℕ} {p : ℕ × ℕ} : p ∈ triL m ↔ p.1 + p.2 < m := by
  obtain ⟨x, y⟩ := p
  simp only [triL, List.mem_flatMap, List.mem_range, List.mem_map, Prod.mk.injEq]
  constructor
  · rintro ⟨a, ha, b, hb, rfl, rfl⟩; omega
  · intro h; exact ⟨x, by omega, y, by omega, rfl, rfl⟩

theorem mem_sqL {m : ℕ} {p : ℕ × ℕ} : p ∈ sqL m ↔ p.1 < m ∧ p.2 < m := by
  obtain ⟨x, y⟩ := p
  simp only [sqL, List.mem_flatMap, List.mem_range, List.mem_map, Prod.mk.injEq]
  constructor
  · rintro ⟨a, ha, b, hb, rfl, rfl⟩; omega
  · intro h; exact ⟨x, by omega, y, by omega, rfl, rfl⟩

theorem nodup_rows (m : ℕ) (k : ℕ → ℕ) :
    ((List.range m).flatMap fun i1 => (List.range (k i1)).map fun i2 => (i1, i2)).Nodup := by
  rw [List.nodup_flatMap]
  constructor
  · intro i _
    exact List.nodup_range.map fun a b h => (Prod.mk.inj h).2
  · refine List.nodup_range.imp fun {a b} hab => ?_
    intro p hp hq
    simp only [List.mem_map, List.mem_range] at hp hq
    obtain ⟨x, -, rfl⟩ := hp
    obtain ⟨y, -, e⟩ := hq
    exact hab (Prod.mk.inj e).1.symm

theorem nodup_triL (m : ℕ) : (triL m).Nodup := nodup_rows m _

theorem nodup_sqL (m : ℕ) : (sqL m).Nodup := nodup_rows m _

theorem flatMap_down {β : Type} (m : ℕ) (f : ℕ → List β) :
    (downRange m 0).flatMap f = (List.range m).flatMap fun i => f (m - 1 - i) := by
  rw [downRange_eq, List.flatMap_map, Nat.sub_zero]

theorem iter01_eq (m : ℕ) : iter01 m = (triL m).map fun p => (m - 1 - p.1, p.2) := by
  rw [iter01, flatMap_down, triL, List.map_flatMap]
  refine List.flatMap_congr fun i hi => ?_
  have := List.mem_range.1 hi
  rw [List.map_map, show m - 1 - i + 1 = m - i by omega]
  rfl

theorem iter10_eq (m : ℕ) : iter10 m = (triL m).map fun p => (m - 1 - p.1, m - 1 - p.1 - p.2) := by
  rw [iter10, flatMap_down, triL, List.map_flatMap]
  refine List.flatMap_congr fun i hi => ?_
  have := List.mem_range.1 hi
  rw [List.map_map, downRange_eq, List.map_map, show m - 1 - i + 1 - 0 = m - i by omega]
  rfl

theorem iter02_eq (m : ℕ) : iter02 m = (triL m).map fun p => (m - 1 - p.2, p.1) := by
  rw [iter02, triL, List.map_flatMap]
  refine List.flatMap_congr fun i _ => ?_
  rw [List.map_map, downRange_eq, List.map_map]
  rfl

theorem iter20_eq (m : ℕ) : iter20 m = (triL m).map fun p => (p.1 + p.2, p.1) := by
  rw [iter20, triL, List.map_flatMap]
  refine List.flatMap_congr fun i _ => ?_
  rw [List.map_map, List.range'_eq_map_range, List.map_map]
  rfl

theorem iter12_eq (m : ℕ) : iter12 m = (triL m).map fun p => (m - p.1 - 1 - p.2 + p.1, m - p.1 - 1 - p.2) := by
  rw [iter12, triL, List.map_flatMap]
  refine List.flatMap_congr fun i _ => ?_
  rw [List.map_map, downRange_eq, List.map_map]
  rfl

theorem iter21_eq (m : ℕ) : iter21 m = (triL m).map fun p => (p.2 + p.1, p.2) := by
  rw [iter21, triL, List.map_flatMap]
  refine List.flatMap_congr fun i _ => ?_
  rw [List.map_map]
  rfl

theorem foldl_update_zipIdx {α : Type} [DecidableEq α] (l : List α) (hl : l.Nodup) (f : α → ℕ) (s i : ℕ)
    (hi : i < l.length) :
    (l.zipIdx s).foldl (fun mtx p => Function.update mtx p.1 p.2) f l[i] = s + i := by
  induction l generalizing f s i with
  | nil => simp at hi
  | cons x l ih =>
    rw [List.nodup_cons] at hl
    rw [List.zipIdx_cons, List.foldl_cons]
    cases i with
    | zero =>
      have aux : ∀ (l : List α) (g : α → ℕ) (s : ℕ), x ∉ l →
          (l.zipIdx s).foldl (fun mtx p => Function.update mtx p.1 p.2) g x = g x := by
        intro l
        induction l with
        | nil => intro g s _; rfl
        | cons y l ih =>
          intro g s hx
          rw [List.zipIdx_cons, List.foldl_cons, ih _ _ fun h => hx (List.mem_cons_of_mem _ h)]
          exact Function.update_of_ne (fun h => hx (by rw [h]; exact List.mem_cons_self)) _ _
      rw [List.getElem_cons_zero, aux l _ _ hl.1]
      simp
    | succ i =>
      rw [List.getElem_cons_succ, ih hl.2 _ _ i (by simpa using hi)]
      omega

theorem triMatrix {order : ℕ} {q : ℕ × ℕ} (hq : q ∈ triL (order - 2)) :
    makeTriangleMatrix order (order - 2 - 1 - q.1, q.2) = (triL (order - 2)).idxOf q := by
  set m := order - 2
  have hn : (iter01 m).Nodup := by
    rw [iter01_eq]
    refine (nodup_triL m).map_on fun p hp p' hp' h => ?_
    rw [mem_triL] at hp hp'
    have := Prod.mk.inj h
    ext
    · omega
    · exact this.2
  have hi : (triL m).idxOf q < (triL m).length := List.idxOf_lt_length_iff.2 hq
  have hi' : (triL m).idxOf q < (iter01 m).length := by rw [iter01_eq, List.length_map]; exact hi
  have := foldl_update_zipIdx (iter01 m) hn (fun _ => 0) 0 _ hi'
  rw [Nat.zero_add] at this
  rw [makeTriangleMatrix, ← this]
  rw [List.getElem_of_eq (iter01_eq m), List.getElem_map, List.getElem_idxOf]

/-! ### Edges -/

/-- The weights of the node `j` inside the edge `(a, b)`. -/
def edgeW (order a b j v : ℕ) : ℕ := (if v = a then order - 1 - j else 0) + if v = b then j + 1 else 0

theorem line_perm (order a b : ℕ) : ∃ perm, facetDofPermutation 2 order (oriKey [a, b]) = some perm ∧
    perm.length = order - 1 ∧ ∀ j, (hj : j < perm.length) →
      perm[j] = if a < b then j else order - 2 - j := by
  by_cases h : a < b
  · refine ⟨(iter1 (order - 1)).map fun ii => (makeLineMatrix order).getD ii 0, ?_, by simp [iter1], ?_⟩
    · simp only [facetDofPermutation, oriKey, h, if_true, if_false]; rfl
    · intro j hj
      simp only [iter1, List.length_map, List.length_range] at hj
      have ho : ¬ order < 2 := by omega
      simp [iter1, makeLineMatrix, h, ho, hj]
  · refine ⟨(iter0 (order - 1)).map fun ii => (makeLineMatrix order).getD ii 0, ?_, by simp [iter0], ?_⟩
    · simp only [facetDofPermutation, oriKey, h, if_true, if_false]; rfl
    · intro j hj
      simp only [iter0, List.length_map, List.length_reverse, List.length_range] at hj
      have ho : ¬ order < 2 := by omega
      simp only [iter0, List.getElem_map, List.getElem_reverse, List.length_range, List.getElem_range,
        makeLineMatrix, if_neg ho, if_neg h]
      have : order - 1 - 1 - j < order - 1 := by omega
      rw [List.getD_eq_getElem _ _ (by simpa using this), List.getElem_range]
      omega

theorem line_same {order a b a' b' j j' : ℕ} (hab : a ≠ b) (hp : [a, b].Perm [a', b']) {perm perm' : List ℕ}
    (e : facetDofPermutation 2 order (oriKey [a, b]) = some perm)
    (e' : facetDofPermutation 2 order (oriKey [a', b']) = some perm') (hj : j < order - 1)
    (hj' : j' < order - 1) :
    perm.getD j 0 = perm'.getD j' 0 ↔ ∀ v, edgeW order a b j v = edgeW order a' b' j' v := by
  obtain ⟨q, eq, hl, hq⟩ := line_perm order a b
  obtain ⟨q', eq', hl', hq'⟩ := line_perm order a' b'
  rw [e] at eq; rw [e'] at eq'
  obtain rfl := Option.some.inj eq
  obtain rfl := Option.some.inj eq'
  rw [List.getD_eq_getElem _ _ (by omega), List.getD_eq_getElem _ _ (by omega), hq, hq']
  have hc : (a = a' ∧ b = b') ∨ (a = b' ∧ b = a') := by
    have h1 := hp.mem_iff (a := a); have h2 := hp.mem_iff (a := b)
    simp at h1 h2
    omega
  constructor
  · intro h v
    unfold edgeW
    rcases hc with ⟨rfl, rfl⟩ | ⟨rfl, rfl⟩ <;> split_ifs at h ⊢ <;> omega
  · intro h
    have h1 := h a; have h2 := h b
    unfold edgeW at h1 h2
    rcases hc with ⟨rfl, rfl⟩ | ⟨rfl, rfl⟩ <;> split_ifs at h1 h2 ⊢ <;> omega

/-! ### Triangles -/

/-- The weights of the node `p` inside the triangle `(a, b, c)` of the given order. -/
def triW (m a b c : ℕ) (p : ℕ × ℕ) (v : ℕ) : ℕ :=
  (if v = a then m - p.1 - p.2 else 0) + (if v = b then p.2 + 1 else 0) + if v = c then p.1 + 1 else 0

theorem triW_inj {m a b c : ℕ} (h1 : a ≠ b) (h2 : a ≠ c) (h3 : b ≠ c) {p q : ℕ × ℕ}
    (h : ∀ v, triW m a b c p v = triW m a b c q v) : p = q := by
  have hb := h b; have hc := h c
  simp [triW, h1, h2, h3, h1.symm, h2.symm, h3.symm] at hb hc
  ext <;> omega

theorem perm3 {x y z a b c : ℕ}
    (h : ∀ v, (if x = v then 1 else 0) + ((if y = v then 1 else 0) + if z = v then 1 else 0) =
      (if a = v then 1 else 0) + ((if b = v then 1 else 0) + if c = v then 1 else 0)) :
    [x, y, z].Perm [a, b, c] := by
  refine List.perm_iff_count.2 fun v => ?_
  have := h v
  simp only [List.count_cons, List.count_nil, beq_iff_eq]
  omega

theorem tri_canon {order a b c : ℕ} (h1 : a ≠ b) (h2 : a ≠ c) (h3 : b ≠ c) :
    ∃ x y z, x < y ∧ y < z ∧ [x, y, z].Perm [a, b, c] ∧
      ∃ perm, facetDofPermutation 3 order (oriKey [a, b, c]) = some perm ∧
        perm.length = (triL (order - 2)).length ∧
        ∀ j, (hj : j < (triL (order - 2)).length) → ∃ q ∈ triL (order - 2),
          perm.getD j 0 = (triL (order - 2)).idxOf q ∧
          ∀ v, triW (order - 2) a b c (triL (order - 2))[j] v = triW (order - 2) x y z q v := by
  set m := order - 2 with hm
  have main : ∀ (it : ℕ → List (ℕ × ℕ)) (f : ℕ × ℕ → ℕ × ℕ) (x y z : ℕ),
      oriTriangleToIter.lookup (oriKey [a, b, c]) = some it → it m = (triL m).map f →
      (∀ p ∈ triL m, ∃ q ∈ triL m, f p = (m - 1 - q.1, q.2) ∧ ∀ v, triW m a b c p v = triW m x y z q v) →
      ∃ perm, facetDofPermutation 3 order (oriKey [a, b, c]) = some perm ∧
        perm.length = (triL m).length ∧
        ∀ j, (hj : j < (triL m).length) → ∃ q ∈ triL m,
          perm.getD j 0 = (triL m).idxOf q ∧
          ∀ v, triW m a b c (triL m)[j] v = triW m x y z q v := by
    intro it f x y z hk hit hp
    refine ⟨(it m).map (makeTriangleMatrix order), by simp [facetDofPermutation, hk, ← hm], by simp [hit], ?_⟩
    intro j hj
    obtain ⟨q, hq, e, hw⟩ := hp _ (List.getElem_mem hj)
    refine ⟨q, hq, ?_, hw⟩
    rw [List.getD_eq_getElem _ _ (by simpa [hit] using hj), List.getElem_map, List.getElem_of_eq hit,
      List.getElem_map, e, triMatrix hq]
  have fin : ∀ (x y z : ℕ), x < y → y < z → [x, y, z].Perm [a, b, c] →
      (∃ perm, facetDofPermutation 3 order (oriKey [a, b, c]) = some perm ∧
        perm.length = (triL m).length ∧
        ∀ j, (hj : j < (triL m).length) → ∃ q ∈ triL m,
          perm.getD j 0 = (triL m).idxOf q ∧
          ∀ v, triW m a b c (triL m)[j] v = triW m x y z q v) →
      ∃ x y z, x < y ∧ y < z ∧ [x, y, z].Perm [a, b, c] ∧
      ∃ perm, facetDofPermutation 3 order (oriKey [a, b, c]) = some perm ∧
        perm.length = (triL m).length ∧
        ∀ j, (hj : j < (triL m).length) → ∃ q ∈ triL m,
          perm.getD j 0 = (triL m).idxOf q ∧
          ∀ v, triW m a b c (triL m)[j] v = triW m x y z q v :=
    fun x y z h1 h2 h3 h4 => ⟨x, y, z, h1, h2, h3, h4⟩
  rcases lt_or_gt_of_ne h1 with hab | hab <;> rcases lt_or_gt_of_ne h2 with hac | hac <;>
    rcases lt_or_gt_of_ne h3 with hbc | hbc
  · -- a < b < c
    refine fin a b c hab hbc (.refl _) (main iter01 _ a b c ?_ (iter01_eq m) ?_)
    · simp only [oriKey, hab, hac, hbc, if_true, if_false]; rfl
    · intro p hp
      exact ⟨p, hp, rfl, fun v => rfl⟩
  · -- a < c < b
    refine fin a c b hac hbc (perm3 (by intro v; ring)) (main iter02 _ a c b ?_ (iter02_eq m) ?_)
    · simp only [oriKey, hab, hac, hbc.not_gt, if_true, if_false]; rfl
    · intro p hp
      rw [mem_triL] at hp
      refine ⟨(p.2, p.1), mem_triL.2 (by simp; omega), rfl, fun v => ?_⟩
      simp only [triW]
      split_ifs <;> omega
  · omega
  · -- c < a < b
    refine fin c a b hac hab (perm3 (by intro v; ring)) (main iter12 _ c a b ?_ (iter12_eq m) ?_)
    · simp only [oriKey, hab, hac.not_gt, hbc.not_gt, if_true, if_false]; rfl
    · intro p hp
      rw [mem_triL] at hp
      refine ⟨(p.2, m - 1 - p.1 - p.2), mem_triL.2 (by simp; omega), by simp; omega, fun v => ?_⟩
      simp only [triW]
      split_ifs <;> omega
  · -- b < a < c
    refine fin b a c hab hac (perm3 (by intro v; ring)) (main iter10 _ b a c ?_ (iter10_eq m) ?_)
    · simp only [oriKey, hab.not_gt, hac, hbc, if_true, if_false]; rfl
    · intro p hp
      rw [mem_triL] at hp
      refine ⟨(p.1, m - 1 - p.1 - p.2), mem_triL.2 (by simp; omega), rfl, fun v => ?_⟩
      simp only [triW]
      split_ifs <;> omega
  · omega
  · -- b < c < a
    refine fin b c a hbc hac (perm3 (by intro v; ring)) (main iter20 _ b c a ?_ (iter20_eq m) ?_)
    · simp only [oriKey, hab.not_gt, hac.not_gt, hbc, if_true, if_false]; rfl
    · intro p hp
      rw [mem_triL] at hp
      refine ⟨(m - 1 - p.1 - p.2, p.1), mem_triL.2 (by simp; omega), by simp; omega, fun v => ?_⟩
      simp only [triW]
      split_ifs <;> omega
  · -- c < b < a
    refine fin c b a hbc hab (perm3 (by intro v; ring)) (main iter21 _ c b a ?_ (iter21_eq m) ?_)
    · simp only [oriKey, hab.not_gt, hac.not_gt, hbc.not_gt, if_true, if_false]; rfl
    · intro p hp
      rw [mem_triL] at hp
      refine ⟨(m - 1 - p.1 - p.2, p.2), mem_triL.2 (by simp; omega), by simp; omega, fun v => ?_⟩
      simp only [triW]
      split_ifs <;> omega

theorem sorted3_unique {x y z x' y' z' : ℕ} (h1 : x < y) (h2 : y < z) (h1' : x' < y') (h2' : y' < z')
    (hp : [x, y, z].Perm [x', y', z']) : x = x' ∧ y = y' ∧ z = z' := by
  have := hp.eq_of_pairwise (le := (· ≤ ·)) (fun a b _ _ h h' => le_antisymm h h')
    (by simp; omega) (by simp; omega)
  simpa using this

/-- Two nodes inside of a triangle shared by two cells have the same number iff they have the same
weights. -/
theorem tri_same {order a b c a' b' c' j j' : ℕ} (h1 : a ≠ b) (h2 : a ≠ c) (h3 : b ≠ c)
    (hp : [a, b, c].Perm [a', b', c']) {perm perm' : List ℕ}
    (e : facetDofPermutation 3 order (oriKey [a, b, c]) = some perm)
    (e' : facetDofPermutation 3 order (oriKey [a', b', c']) = some perm')
    (hj : j < (triL (order - 2)).length) (hj' : j' < (triL (order - 2)).length) :
    perm.getD j 0 = perm'.getD j' 0 ↔ ∀ v, triW (order - 2) a b c (triL (order - 2))[j] v =
      triW (order - 2) a' b' c' (triL (order - 2))[j'] v := by
  have hn : [a, b, c].Nodup := by simp [h1, h2, h3]
  have hn' := hp.nodup_iff.1 hn
  simp only [List.nodup_cons, List.mem_cons, List.not_mem_nil, or_false, not_or, not_false_iff,
    List.nodup_nil, and_true] at hn'
  obtain ⟨x, y, z, hxy, hyz, hx, q, eq, -, hq⟩ := tri_canon (order := order) h1 h2 h3
  obtain ⟨x', y', z', hxy', hyz', hx', q', eq', -, hq'⟩ :=
    tri_canon (order := order) hn'.1.1 hn'.1.2 hn'.2
  rw [e] at eq; rw [e'] at eq'
  obtain rfl := Option.some.inj eq
  obtain rfl := Option.some.inj eq'
  obtain ⟨rfl, rfl, rfl⟩ := sorted3_unique hxy hyz hxy' hyz' (hx.trans (hp.trans hx'.symm))
  obtain ⟨r, hr, er, hw⟩ := hq j hj
  obtain ⟨r', hr', er', hw'⟩ := hq' j' hj'
  rw [er, er', List.idxOf_inj hr]
  constructor
  · rintro rfl v
    rw [hw, hw']
  · intro h
    exact triW_inj (m := order - 2) hxy.ne (hxy.trans hyz).ne hyz.ne fun v => by rw [← hw, ← hw', h]

/-! ### Squares -/

/-- The weights of the node `p` inside the quadrilateral `(a, b, c, d)`, `m` is the order minus one. -/
def sqW (m a b c d : ℕ) (p : ℕ × ℕ) (v : ℕ) : ℕ :=
  (if v = a then (m - p.2) * (m - p.1) else 0) + (if v = b then (p.2 + 1) * (m - p.1) else 0)
    + (if v = c then (p.2 + 1) * (p.1 + 1) else 0) + if v = d then (m - p.2) * (p.1 + 1) else 0

theorem sqW_inj {m a b c d : ℕ} (hn : [a, b, c, d].Nodup) {p q : ℕ × ℕ} (hp : p.1 < m ∧ p.2 < m)
    (hq : q.1 < m ∧ q.2 < m) (h : ∀ v, sqW m a b c d p v = sqW m a b c d q v) : p = q := by
  simp only [List.nodup_cons, List.mem_cons, List.not_mem_nil, or_false, not_or, not_false_iff,
    List.nodup_nil, and_true] at hn
  obtain ⟨⟨h1, h2, h3⟩, ⟨h4, h5⟩, h6⟩ := hn
  have ha := h a; have hb := h b; have hc := h c; have hd := h d
  simp [sqW, h1, h2, h3, h4, h5, h6, Ne.symm h1, Ne.symm h2, Ne.symm h3, Ne.symm h4, Ne.symm h5,
    Ne.symm h6] at ha hb hc hd
  obtain ⟨p1, p2⟩ := p
  obtain ⟨q1, q2⟩ := q
  simp only at hp hq ha hb hc hd
  obtain ⟨u, hu⟩ : ∃ u, m = p1 + 1 + u := ⟨m - p1 - 1, by omega⟩
  obtain ⟨u', hu'⟩ : ∃ u, m = p2 + 1 + u := ⟨m - p2 - 1, by omega⟩
  obtain ⟨w, hw⟩ : ∃ u, m = q1 + 1 + u := ⟨m - q1 - 1, by omega⟩
  obtain ⟨w', hw'⟩ : ∃ u, m = q2 + 1 + u := ⟨m - q2 - 1, by omega⟩
  rw [show m - p1 = u + 1 by omega, show m - q1 = w + 1 by omega] at ha hb
  rw [show m - p2 = u' + 1 by omega, show m - q2 = w' + 1 by omega] at ha hd
  have e1 : (p2 + 1) * (m + 1) = (q2 + 1) * (m + 1) := by
    calc (p2 + 1) * (m + 1) = (p2 + 1) * (u + 1) + (p2 + 1) * (p1 + 1) := by rw [hu]; ring
      _ = (q2 + 1) * (w + 1) + (q2 + 1) * (q1 + 1) := by rw [hb, hc]
      _ = (q2 + 1) * (m + 1) := by rw [hw]; ring
  have e2 : (p1 + 1) * (m + 1) = (q1 + 1) * (m + 1) := by
    calc (p1 + 1) * (m + 1) = (u' + 1) * (p1 + 1) + (p2 + 1) * (p1 + 1) := by rw [hu']; ring
      _ = (w' + 1) * (q1 + 1) + (q2 + 1) * (q1 + 1) := by rw [hd, hc]
      _ = (q1 + 1) * (m + 1) := by rw [hw']; ring
  have := Nat.eq_of_mul_eq_mul_right (Nat.succ_pos m) e1
  have := Nat.eq_of_mul_eq_mul_right (Nat.succ_pos m) e2
  ext <;> simp <;> omega

/-- The sequences of the vertices around the same quadrilateral. -/
def around (a b c d : ℕ) : List (List ℕ) :=
  [[a, b, c, d], [b, c, d, a], [c, d, a, b], [d, a, b, c],
    [d, c, b, a], [c, b, a, d], [b, a, d, c], [a, d, c, b]]

theorem iter01x01y_eq (m : ℕ) : iter01x01y m = (sqL m).map fun p => (p.1, p.2) := by
  rw [iter01x01y, sqL, List.map_flatMap]
  exact List.flatMap_congr fun i _ => by rw [List.map_map]; rfl

theorem iter10x01y_eq (m : ℕ) : iter10x01y m = (sqL m).map fun p => (m - 1 - p.1, p.2) := by
  rw [iter10x01y, flatMap_down, sqL, List.map_flatMap]
  exact List.flatMap_congr fun i _ => by rw [List.map_map]; rfl

theorem iter01x10y_eq (m : ℕ) : iter01x10y m = (sqL m).map fun p => (p.1, m - 1 - p.2) := by
  rw [iter01x10y, sqL, List.map_flatMap]
  exact List.flatMap_congr fun i _ => by rw [List.map_map, downRange_eq, List.map_map]; rfl

theorem iter10x10y_eq (m : ℕ) : iter10x10y m = (sqL m).map fun p => (m - 1 - p.1, m - 1 - p.2) := by
  rw [iter10x10y, flatMap_down, sqL, List.map_flatMap]
  exact List.flatMap_congr fun i _ => by rw [List.map_map, downRange_eq, List.map_map]; rfl

theorem swap_eq {m : ℕ} {l : List (ℕ × ℕ)} {f : ℕ × ℕ → ℕ × ℕ} (h : l = (sqL m).map f) :
    l.map (fun p => (p.2, p.1)) = (sqL m).map fun p => ((f p).2, (f p).1) := by
  rw [h, List.map_map]; rfl

theorem m_sub {m k : ℕ} (hk : k < m) : m - (m - 1 - k) = k + 1 := by omega

theorem m_sub' {m k : ℕ} (hk : k < m) : m - 1 - k + 1 = m - k := by omega

theorem quadAux63 (m a b c d : ℕ) (p : ℕ × ℕ) (hp : p.1 < m ∧ p.2 < m) :
    (((p.1, p.2) : ℕ × ℕ).1 < m ∧ ((p.1, p.2) : ℕ × ℕ).2 < m) ∧
      ∀ v, sqW m a b c d p v = sqW m a b c d (p.1, p.2) v := by
  refine ⟨by simp only; omega, fun v => ?_⟩
  rfl

theorem quadAux11 (m a b c d : ℕ) (p : ℕ × ℕ) (hp : p.1 < m ∧ p.2 < m) :
    (((p.2, p.1) : ℕ × ℕ).1 < m ∧ ((p.2, p.1) : ℕ × ℕ).2 < m) ∧
      ∀ v, sqW m a b c d p v = sqW m a d c b (p.2, p.1) v := by
  refine ⟨by simp only; omega, fun v => ?_⟩
  simp only [sqW, m_sub hp.1, m_sub hp.2, m_sub' hp.1, m_sub' hp.2]
  split_ifs <;> ring

theorem quadAux0 (m a b c d : ℕ) (p : ℕ × ℕ) (hp : p.1 < m ∧ p.2 < m) :
    (((m - 1 - p.1, p.2) : ℕ × ℕ).1 < m ∧ ((m - 1 - p.1, p.2) : ℕ × ℕ).2 < m) ∧
      ∀ v, sqW m a b c d p v = sqW m d c b a (m - 1 - p.1, p.2) v := by
  refine ⟨by simp only; omega, fun v => ?_⟩
  simp only [sqW, m_sub hp.1, m_sub hp.2, m_sub' hp.1, m_sub' hp.2]
  split_ifs <;> ring

theorem quadAux7 (m a b c d : ℕ) (p : ℕ × ℕ) (hp : p.1 < m ∧ p.2 < m) :
    (((p.2, m - 1 - p.1) : ℕ × ℕ).1 < m ∧ ((p.2, m - 1 - p.1) : ℕ × ℕ).2 < m) ∧
      ∀ v, sqW m a b c d p v = sqW m d a b c (p.2, m - 1 - p.1) v := by
  refine ⟨by simp only; omega, fun v => ?_⟩
  simp only [sqW, m_sub hp.1, m_sub hp.2, m_sub' hp.1, m_sub' hp.2]
  split_ifs <;> ring

theorem quadAux30 (m a b c d : ℕ) (p : ℕ × ℕ) (hp : p.1 < m ∧ p.2 < m) :
    (((p.1, m - 1 - p.2) : ℕ × ℕ).1 < m ∧ ((p.1, m - 1 - p.2) : ℕ × ℕ).2 < m) ∧
      ∀ v, sqW m a b c d p v = sqW m b a d c (p.1, m - 1 - p.2) v := by
  refine ⟨by simp only; omega, fun v => ?_⟩
  simp only [sqW, m_sub hp.1, m_sub hp.2, m_sub' hp.1, m_sub' hp.2]
  split_ifs <;> ring

theorem quadAux33 (m a b c d : ℕ) (p : ℕ × ℕ) (hp : p.1 < m ∧ p.2 < m) :
    (((m - 1 - p.1, m - 1 - p.2) : ℕ × ℕ).1 < m ∧ ((m - 1 - p.1, m - 1 - p.2) : ℕ × ℕ).2 < m) ∧
      ∀ v, sqW m a b c d p v = sqW m c d a b (m - 1 - p.1, m - 1 - p.2) v := by
  refine ⟨by simp only; omega, fun v => ?_⟩
  simp only [sqW, m_sub hp.1, m_sub hp.2, m_sub' hp.1, m_sub' hp.2]
  split_ifs <;> ring

theorem quadAux52 (m a b c d : ℕ) (p : ℕ × ℕ) (hp : p.1 < m ∧ p.2 < m) :
    (((m - 1 - p.2, p.1) : ℕ × ℕ).1 < m ∧ ((m - 1 - p.2, p.1) : ℕ × ℕ).2 < m) ∧
      ∀ v, sqW m a b c d p v = sqW m b c d a (m - 1 - p.2, p.1) v := by
  refine ⟨by simp only; omega, fun v => ?_⟩
  simp only [sqW, m_sub hp.1, m_sub hp.2, m_sub' hp.1, m_sub' hp.2]
  split_ifs <;> ring

theorem quadAux56 (m a b c d : ℕ) (p : ℕ × ℕ) (hp : p.1 < m ∧ p.2 < m) :
    (((m - 1 - p.2, m - 1 - p.1) : ℕ × ℕ).1 < m ∧ ((m - 1 - p.2, m - 1 - p.1) : ℕ × ℕ).2 < m) ∧
      ∀ v, sqW m a b c d p v = sqW m c b a d (m - 1 - p.2, m - 1 - p.1) v := by
  refine ⟨by simp only; omega, fun v => ?_⟩
  simp only [sqW, m_sub hp.1, m_sub hp.2, m_sub' hp.1, m_sub' hp.2]
  split_ifs <;> ring

theorem quad_canon {order a b c d : ℕ} (hn : [a, b, c, d].Nodup) :
    ∃ x y z w, x < y ∧ x < z ∧ x < w ∧ y < w ∧ [x, y, z, w] ∈ around a b c d ∧
      ∃ perm, facetDofPermutation 4 order (oriKey [a, b, c, d]) = some perm ∧
        perm.length = (sqL (order - 1)).length ∧
        ∀ j, (hj : j < (sqL (order - 1)).length) → ∃ q ∈ sqL (order - 1),
          perm.getD j 0 = q.1 * (order - 1) + q.2 ∧
          ∀ v, sqW (order - 1) a b c d (sqL (order - 1))[j] v = sqW (order - 1) x y z w q v := by
  set m := order - 1 with hm
  have main : ∀ (key : ℕ) (it : ℕ → List (ℕ × ℕ)) (f : ℕ × ℕ → ℕ × ℕ) (x y z w : ℕ),
      quadOriGroups.lookup (oriKey [a, b, c, d]) = some key →
      oriSquareToIter.lookup key = some it → it m = (sqL m).map f →
      x < y → x < z → x < w → y < w → [x, y, z, w] ∈ around a b c d →
      (∀ p : ℕ × ℕ, p.1 < m ∧ p.2 < m → ((f p).1 < m ∧ (f p).2 < m) ∧
        ∀ v, sqW m a b c d p v = sqW m x y z w (f p) v) →
      ∃ x y z w, x < y ∧ x < z ∧ x < w ∧ y < w ∧ [x, y, z, w] ∈ around a b c d ∧
      ∃ perm, facetDofPermutation 4 order (oriKey [a, b, c, d]) = some perm ∧
        perm.length = (sqL m).length ∧
        ∀ j, (hj : j < (sqL m).length) → ∃ q ∈ sqL m,
          perm.getD j 0 = q.1 * m + q.2 ∧
          ∀ v, sqW m a b c d (sqL m)[j] v = sqW m x y z w q v := by
    intro key it f x y z w hk hk2 hit g1 g2 g3 g4 g5 hp
    refine ⟨x, y, z, w, g1, g2, g3, g4, g5, (it m).map (makeSquareMatrix order),
      by simp [facetDofPermutation, hk, hk2, ← hm], by simp [hit], ?_⟩
    intro j hj
    obtain ⟨hf, hw⟩ := hp _ (mem_sqL.1 (List.getElem_mem hj))
    refine ⟨f (sqL m)[j], mem_sqL.2 hf, ?_, hw⟩
    rw [List.getD_eq_getElem _ _ (by simpa [hit] using hj), List.getElem_map, List.getElem_of_eq hit,
      List.getElem_map]
    rfl
  simp only [List.nodup_cons, List.mem_cons, List.not_mem_nil, or_false, not_or, not_false_iff,
    List.nodup_nil, and_true] at hn
  obtain ⟨⟨h1, h2, h3⟩, ⟨h4, h5⟩, h6⟩ := hn
  have c63 := fun hk => main 63 _ _ a b c d hk rfl (iter01x01y_eq m)
  have c11 := fun hk => main 11 _ _ a d c b hk rfl (swap_eq (iter01x01y_eq m))
  have c0 := fun hk => main 0 _ _ d c b a hk rfl (iter10x01y_eq m)
  have c7 := fun hk => main 7 _ _ d a b c hk rfl (swap_eq (iter10x01y_eq m))
  have c30 := fun hk => main 30 _ _ b a d c hk rfl (iter01x10y_eq m)
  have c33 := fun hk => main 33 _ _ c d a b hk rfl (iter10x10y_eq m)
  have c52 := fun hk => main 52 _ _ b c d a hk rfl (swap_eq (iter01x10y_eq m))
  have c56 := fun hk => main 56 _ _ c b a d hk rfl (swap_eq (iter10x10y_eq m))
  clear main
  rcases lt_or_gt_of_ne h1 with k1 | k1 <;> rcases lt_or_gt_of_ne h2 with k2 | k2 <;>
    rcases lt_or_gt_of_ne h4 with k3 | k3 <;> rcases lt_or_gt_of_ne h3 with k4 | k4 <;>
    rcases lt_or_gt_of_ne h5 with k5 | k5 <;> rcases lt_or_gt_of_ne h6 with k6 | k6 <;>
    first
    | omega
    | (
       first
       | exact c63 (by
           simp only [oriKey, k1, k2, k3, k4, k5, k6, not_lt_of_gt k1, not_lt_of_gt k2, not_lt_of_gt k3,
             not_lt_of_gt k4, not_lt_of_gt k5, not_lt_of_gt k6, if_true, if_false]; rfl) (by omega) (by omega) (by omega) (by omega) (by simp [around]) (quadAux63 m a b c d)
       | exact c11 (by
           simp only [oriKey, k1, k2, k3, k4, k5, k6, not_lt_of_gt k1, not_lt_of_gt k2, not_lt_of_gt k3,
             not_lt_of_gt k4, not_lt_of_gt k5, not_lt_of_gt k6, if_true, if_false]; rfl) (by omega) (by omega) (by omega) (by omega) (by simp [around]) (quadAux11 m a b c d)
       | exact c0 (by
           simp only [oriKey, k1, k2, k3, k4, k5, k6, not_lt_of_gt k1, not_lt_of_gt k2, not_lt_of_gt k3,
             not_lt_of_gt k4, not_lt_of_gt k5, not_lt_of_gt k6, if_true, if_false]; rfl) (by omega) (by omega) (by omega) (by omega) (by simp [around]) (quadAux0 m a b c d)
       | exact c7 (by
           simp only [oriKey, k1, k2, k3, k4, k5, k6, not_lt_of_gt k1, not_lt_of_gt k2, not_lt_of_gt k3,
             not_lt_of_gt k4, not_lt_of_gt k5, not_lt_of_gt k6, if_true, if_false]; rfl) (by omega) (by omega) (by omega) (by omega) (by simp [around]) (quadAux7 m a b c d)
       | exact c30 (by
           simp only [oriKey, k1, k2, k3, k4, k5, k6, not_lt_of_gt k1, not_lt_of_gt k2, not_lt_of_gt k3,
             not_lt_of_gt k4, not_lt_of_gt k5, not_lt_of_gt k6, if_true, if_false]; rfl) (by omega) (by omega) (by omega) (by omega) (by simp [around]) (quadAux30 m a b c d)
       | exact c33 (by
           simp only [oriKey, k1, k2, k3, k4, k5, k6, not_lt_of_gt k1, not_lt_of_gt k2, not_lt_of_gt k3,
             not_lt_of_gt k4, not_lt_of_gt k5, not_lt_of_gt k6, if_true, if_false]; rfl) (by omega) (by omega) (by omega) (by omega) (by simp [around]) (quadAux33 m a b c d)
       | exact c52 (by
           simp only [oriKey, k1, k2, k3, k4, k5, k6, not_lt_of_gt k1, not_lt_of_gt k2, not_lt_of_gt k3,
             not_lt_of_gt k4, not_lt_of_gt k5, not_lt_of_gt k6, if_true, if_false]; rfl) (by omega) (by omega) (by omega) (by omega) (by simp [around]) (quadAux52 m a b c d)
       | exact c56 (by
           simp only [oriKey, k1, k2, k3, k4, k5, k6, not_lt_of_gt k1, not_lt_of_gt k2, not_lt_of_gt k3,
             not_lt_of_gt k4, not_lt_of_gt k5, not_lt_of_gt k6, if_true, if_false]; rfl) (by omega) (by omega) (by omega) (by omega) (by simp [around]) (quadAux56 m a b c d))

theorem around_trans {a b c d a' b' c' d' : ℕ} (h : [a', b', c', d'] ∈ around a b c d) {l : List ℕ}
    (hl : l ∈ around a' b' c' d') : l ∈ around a b c d := by
  simp only [around, List.mem_cons, List.cons.injEq, and_true, List.not_mem_nil, or_false] at h
  rcases h with ⟨rfl, rfl, rfl, rfl⟩ | ⟨rfl, rfl, rfl, rfl⟩ | ⟨rfl, rfl, rfl, rfl⟩ | ⟨rfl, rfl, rfl, rfl⟩ |
    ⟨rfl, rfl, rfl, rfl⟩ | ⟨rfl, rfl, rfl, rfl⟩ | ⟨rfl, rfl, rfl, rfl⟩ | ⟨rfl, rfl, rfl, rfl⟩ <;>
    simp only [around, List.mem_cons, List.not_mem_nil, or_false] at hl ⊢ <;> tauto

theorem around_unique {a b c d x y z w x' y' z' w' : ℕ} (h : [x, y, z, w] ∈ around a b c d)
    (h' : [x', y', z', w'] ∈ around a b c d) (g1 : x < y) (g2 : x < z) (g3 : x < w) (g4 : y < w)
    (g1' : x' < y') (g2' : x' < z') (g3' : x' < w') (g4' : y' < w') :
    x = x' ∧ y = y' ∧ z = z' ∧ w = w' := by
  simp only [around, List.mem_cons, List.cons.injEq, and_true, List.not_mem_nil, or_false] at h h'
  omega

theorem around_perm {a b c d : ℕ} {l : List ℕ} (h : l ∈ around a b c d) : l.Perm [a, b, c, d] := by
  simp only [around, List.mem_cons, List.not_mem_nil, or_false] at h
  rcases h with rfl | rfl | rfl | rfl | rfl | rfl | rfl | rfl <;>
  · refine List.perm_iff_count.2 fun v => ?_
    simp only [List.count_cons, List.count_nil, beq_iff_eq]
    try omega

/-- Two nodes inside of a quadrilateral shared by two cells have the same number iff they have the same
weights. -/
theorem quad_same {order a b c d a' b' c' d' j j' : ℕ} (hn : [a, b, c, d].Nodup)
    (hp : [a', b', c', d'] ∈ around a b c d) {perm perm' : List ℕ}
    (e : facetDofPermutation 4 order (oriKey [a, b, c, d]) = some perm)
    (e' : facetDofPermutation 4 order (oriKey [a', b', c', d']) = some perm')
    (hj : j < (sqL (order - 1)).length) (hj' : j' < (sqL (order - 1)).length) :
    perm.getD j 0 = perm'.getD j' 0 ↔ ∀ v, sqW (order - 1) a b c d (sqL (order - 1))[j] v =
      sqW (order - 1) a' b' c' d' (sqL (order - 1))[j'] v := by
  have hn' : [a', b', c', d'].Nodup := (around_perm hp).nodup_iff.2 hn
  obtain ⟨x, y, z, w, g1, g2, g3, g4, hx, q, eq, -, hq⟩ := quad_canon (order := order) hn
  obtain ⟨x', y', z', w', g1', g2', g3', g4', hx', q', eq', -, hq'⟩ := quad_canon (order := order) hn'
  rw [e] at eq; rw [e'] at eq'
  obtain rfl := Option.some.inj eq
  obtain rfl := Option.some.inj eq'
  obtain ⟨rfl, rfl, rfl, rfl⟩ := around_unique hx (around_trans hp hx') g1 g2 g3 g4 g1' g2' g3' g4'
  obtain ⟨r, hr, er, hw⟩ := hq j hj
  obtain ⟨r', hr', er', hw'⟩ := hq' j' hj'
  have hr := mem_sqL.1 hr
  have hr' := mem_sqL.1 hr'
  rw [er, er']
  constructor
  · intro h v
    have : r = r' := by
      have h1 : r.1 = r'.1 := by
        have := congrArg (· / (order - 1)) h
        simp only [Nat.mul_add_div (show 0 < order - 1 by omega), Nat.mul_comm _ (order - 1),
          Nat.div_eq_of_lt hr.2, Nat.div_eq_of_lt hr'.2] at this
        omega
      rw [h1] at h
      ext
      · exact h1
      · omega
    rw [hw, hw', this]
  · intro h
    rw [sqW_inj ((around_perm hx).nodup_iff.2 hn) hr hr' fun v => by rw [← hw, ← hw', h]]

end Verif.Fem
