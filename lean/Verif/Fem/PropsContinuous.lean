/-
The functions of the Lagrange fields are continuous: simplices.
-/
import Verif.Fem.PropsLagrange
import Verif.Fem.SpecField

namespace Verif.Fem

open Finset

variable {K : Type} [Field K] [CharZero K]

/-- The DOF in a place. -/
noncomputable def dofAt (econn : ℕ × ℕ → ℤ) (u : ℤ → K) (nNod nEl : ℕ) (loc : ℕ → ℕ → ℕ → ℕ) (W : ℕ → ℕ) : K :=
  open Classical in
  if h : ∃ p : ℕ × ℕ, p.1 < nEl ∧ p.2 < nNod ∧ loc p.1 p.2 = W then u (econn (Classical.choose h)) else 0

theorem dofAt_eq {econn : ℕ × ℕ → ℤ} (u : ℤ → K) {nNod nEl : ℕ} {loc : ℕ → ℕ → ℕ → ℕ}
    (hc : ∀ el < nEl, ∀ el' < nEl, ∀ k < nNod, ∀ k' < nNod, loc el k = loc el' k' → econn (el, k) = econn (el', k'))
    {el k : ℕ} (hel : el < nEl) (hk : k < nNod) : dofAt econn u nNod nEl loc (loc el k) = u (econn (el, k)) := by
  have h : ∃ p : ℕ × ℕ, p.1 < nEl ∧ p.2 < nNod ∧ loc p.1 p.2 = loc el k := ⟨(el, k), hel, hk, rfl⟩
  rw [dofAt, dif_pos h]
  have hs := Classical.choose_spec h
  exact congrArg u (hc _ hs.1 _ hel _ hs.2.1 _ hk hs.2.2)

theorem meshWeight_at {nV i : ℕ} {conn : ℕ → ℕ} (hinj : ∀ i < nV, ∀ i' < nV, conn i = conn i' → i = i') (hi : i < nV)
    (w : ℕ → K) : meshWeight nV conn w (conn i) = w i := by
  unfold meshWeight
  rw [Finset.sum_eq_single i]
  · simp
  · intro b hb hne
    rw [if_neg fun h => hne (hinj _ (Finset.mem_range.1 hb) _ hi h)]
  · intro h
    exact absurd (Finset.mem_range.2 hi) h

theorem meshWeight_out {nV v : ℕ} {conn : ℕ → ℕ} (hv : v ∉ (range nV).image conn)
    (w : ℕ → K) : meshWeight nV conn w v = 0 := by
  refine sum_eq_zero fun i hi => if_neg fun h => hv (mem_image.2 ⟨i, hi, h⟩)

theorem pushW_out {nV v : ℕ} {conn : ℕ → ℕ} (hv : v ∉ (range nV).image conn)
    (w : ℕ → ℕ) : pushW nV conn w v = 0 := by
  refine sum_eq_zero fun i hi => if_neg fun h => hv (mem_image.2 ⟨i, hi, h⟩)

theorem ch_zero_succ {x : K} (hx : x = 0) {n : ℕ} (hn : n ≠ 0) : ch x n = 0 := by
  have := ch_nat (K := K) 0 n
  rw [Nat.cast_zero, Nat.choose_eq_zero_of_lt (by omega), Nat.cast_zero] at this
  rw [hx, this]

/-- The sum over the multi-indices of a cell is a sum over the weights of the mesh vertices. -/
theorem sum_push (h : K → ℕ → K) (nV o : ℕ) (conn : ℕ → ℕ) (hinj : ∀ i < nV, ∀ i' < nV, conn i = conn i' → i = i')
    (bc : ℕ → K) (U : (ℕ → ℕ) → K) :
    ∑ m ∈ finsuppAntidiag (range nV) o, (∏ i ∈ range nV, h (bc i) (m i)) * U (simplexLoc nV conn m) =
      ∑ W ∈ finsuppAntidiag ((range nV).image conn) o,
        (∏ v ∈ (range nV).image conn, h (meshWeight nV conn bc v) (W v)) * U W := by
  have hI : Set.InjOn conn (range nV : Finset ℕ) := fun i hi i' hi' h =>
    hinj i (by simpa using hi) i' (by simpa using hi') h
  refine sum_bij' (fun m _ => Finsupp.onFinset ((range nV).image conn) (pushW nV conn m) fun v hv => by
      by_contra hc; exact hv (pushW_out hc _))
    (fun W _ => Finsupp.onFinset (range nV) (fun i => if i < nV then W (conn i) else 0) fun i hi => by
      by_contra hc; exact hi (if_neg (by simpa using hc))) ?_ ?_ ?_ ?_ ?_
  · intro m hm
    rw [mem_finsuppAntidiag] at hm ⊢
    refine ⟨?_, Finsupp.support_onFinset_subset⟩
    rw [sum_image hI, ← hm.1]
    exact sum_congr rfl fun i hi => by
      rw [Finsupp.onFinset_apply, pushW_at hinj (mem_range.1 hi)]
  · intro W hW
    rw [mem_finsuppAntidiag] at hW ⊢
    refine ⟨?_, Finsupp.support_onFinset_subset⟩
    rw [← hW.1, sum_image hI]
    exact sum_congr rfl fun i hi => by
      rw [Finsupp.onFinset_apply, if_pos (mem_range.1 hi)]
  · intro m hm
    rw [mem_finsuppAntidiag] at hm
    ext i
    simp only [Finsupp.onFinset_apply]
    split_ifs with hi
    · exact pushW_at hinj hi _
    · symm
      exact Finsupp.notMem_support_iff.1 fun h => hi (mem_range.1 (hm.2 h))
  · intro W hW
    rw [mem_finsuppAntidiag] at hW
    ext v
    simp only [Finsupp.onFinset_apply]
    by_cases hv : v ∈ (range nV).image conn
    · obtain ⟨i, hi, rfl⟩ := mem_image.1 hv
      rw [pushW_at hinj (mem_range.1 hi), Finsupp.onFinset_apply, if_pos (mem_range.1 hi)]
    · rw [pushW_out hv]
      symm
      exact Finsupp.notMem_support_iff.1 fun h => hv (hW.2 h)
  · intro m hm
    congr 1
    rw [prod_image hI]
    exact prod_congr rfl fun i hi => by
      rw [Finsupp.onFinset_apply, pushW_at hinj (mem_range.1 hi), meshWeight_at hinj (mem_range.1 hi)]

/-- The sum depends on the nonzero weights only. -/
theorem sum_restrict {h : K → ℕ → K} (h1 : ∀ x, h x 0 = 1) (h0 : ∀ n, n ≠ 0 → h 0 n = 0) (o : ℕ) {V Z : Finset ℕ} (hZ : Z ⊆ V) (w : ℕ → K) (hw : ∀ v ∈ V, v ∉ Z → w v = 0)
    (U : (ℕ → ℕ) → K) :
    ∑ W ∈ finsuppAntidiag V o, (∏ v ∈ V, h (w v) (W v)) * U W =
      ∑ W ∈ finsuppAntidiag Z o, (∏ v ∈ Z, h (w v) (W v)) * U W := by
  symm
  have hsub : finsuppAntidiag Z o ⊆ finsuppAntidiag V o := fun W hW => by
    rw [mem_finsuppAntidiag] at hW ⊢
    refine ⟨?_, hW.2.trans hZ⟩
    rw [← hW.1]
    exact (sum_subset hZ fun v _ hv => Finsupp.notMem_support_iff.1 fun h => hv (hW.2 h)).symm
  rw [← sum_subset hsub ?_]
  · refine sum_congr rfl fun W hW => ?_
    rw [mem_finsuppAntidiag] at hW
    congr 1
    refine prod_subset hZ fun v _ hv => ?_
    rw [Finsupp.notMem_support_iff.1 fun h => hv (hW.2 h), h1]
  · intro W hW hn
    rw [mem_finsuppAntidiag] at hW hn
    have : ∃ v ∈ V, v ∉ Z ∧ W v ≠ 0 := by
      by_contra hc
      push Not at hc
      have hs : W.support ⊆ Z := fun v hv => by
        by_contra hz
        exact Finsupp.mem_support_iff.1 hv (hc v (hW.2 hv) hz)
      exact hn ⟨by rw [← hW.1]; exact sum_subset hZ fun v hv hz => hc v hv hz, hs⟩
    obtain ⟨v, hv, hz, hn0⟩ := this
    rw [prod_eq_zero hv (by rw [hw v hv hz, h0 _ hn0]), zero_mul]

/-- The functions of a field on simplices are continuous, when the basis function of a node is the product of the
values of a function `h` of the barycentric coordinate and of the item of the node, with `h x 0 = 1` and `h 0 n = 0`
for `n > 0`. -/
theorem continuous_simplex {h : K → ℕ → K} (h1 : ∀ x, h x 0 = 1) (h0 : ∀ n, n ≠ 0 → h 0 n = 0) (g : Gel) (hg : IsSimplex g) (o : ℕ) (ho : 1 ≤ o) (d : FieldData) (M : MeshOk g d)
    (u : ℤ → K) (el el' : ℕ) (hel : el < d.cells.length) (hel' : el' < d.cells.length) (bc bc' : ℕ → K)
    (hw : ∀ v, meshWeight g.nV (d.conn (d.cells.getD el 0)) bc v = meshWeight g.nV (d.conn (d.cells.getD el' 0)) bc' v) :
    fieldValue (setupGlobalBasis g (simplexNodes g o) o d).1 u
        (fun k => ∏ i ∈ range g.nV, h (bc i) (rowAt (simplexNodes g o) k i)) (simplexNodes g o).length el =
      fieldValue (setupGlobalBasis g (simplexNodes g o) o d).1 u
        (fun k => ∏ i ∈ range g.nV, h (bc' i) (rowAt (simplexNodes g o) k i)) (simplexNodes g o).length el' := by
  set N := simplexNodes g o with hN
  set econn := (setupGlobalBasis g N o d).1 with he
  set loc : ℕ → ℕ → ℕ → ℕ := fun el k => simplexLoc g.nV (d.conn (d.cells.getD el 0)) (rowAt N k) with hloc
  have hconf : ∀ el < d.cells.length, ∀ el' < d.cells.length, ∀ k < N.length, ∀ k' < N.length,
      loc el k = loc el' k' → econn (el, k) = econn (el', k') := fun el hel el' hel' k hk k' hk' h =>
    (C55_conforming_simplex g hg o ho d M el el' k k' hel hel' hk hk').2 fun v => congrFun h v
  set U := dofAt econn u N.length d.cells.length loc with hU
  have hmem : ∀ el < d.cells.length, d.cells.getD el 0 ∈ d.cells := fun el hel => by
    rw [List.getD_eq_getElem _ _ hel]; exact List.getElem_mem hel
  have key : ∀ el < d.cells.length, ∀ bc : ℕ → K,
      fieldValue econn u (fun k => ∏ i ∈ range g.nV, h (bc i) (rowAt N k i)) N.length el =
        ∑ W ∈ finsuppAntidiag ((range g.nV).image (d.conn (d.cells.getD el 0))) o,
        (∏ v ∈ (range g.nV).image (d.conn (d.cells.getD el 0)),
          h (meshWeight g.nV (d.conn (d.cells.getD el 0)) bc v) (W v)) * U W := by
    intro el hel bc
    rw [← sum_push h g.nV o _ (M.inj _ (hmem el hel)), ← simplex_sum hg ho fun m =>
      (∏ i ∈ range g.nV, h (bc i) (m i)) * U (simplexLoc g.nV (d.conn (d.cells.getD el 0)) m)]
    refine sum_congr rfl fun k hk => ?_
    rw [← dofAt_eq u hconf hel (mem_range.1 hk)]
  rw [key el hel, key el' hel']
  have hw' : meshWeight g.nV (d.conn (d.cells.getD el' 0)) bc' = meshWeight g.nV (d.conn (d.cells.getD el 0)) bc :=
    funext fun v => (hw v).symm
  rw [hw']
  refine (sum_restrict h1 h0 o (inter_subset_left (s₂ := (range g.nV).image (d.conn (d.cells.getD el' 0)))) _ ?_ U).trans
    (sum_restrict h1 h0 o (inter_subset_right (s₁ := (range g.nV).image (d.conn (d.cells.getD el 0)))) _ ?_ U).symm
  · intro v hv hz
    rw [hw v]
    exact meshWeight_out (fun hc => hz (mem_inter.2 ⟨hv, hc⟩)) _
  · intro v hv hz
    exact meshWeight_out (fun hc => hz (mem_inter.2 ⟨hc, hv⟩)) _

/-- **C57**: a function of a Lagrange field of any order on simplices is continuous: its values in a point common to
two cells, computed from the two cells, are the same. -/
theorem C57_continuous_simplex (g : Gel) (hg : IsSimplex g) (o : ℕ) (ho : 1 ≤ o) (d : FieldData) (M : MeshOk g d)
    (u : ℤ → K) (el el' : ℕ) (hel : el < d.cells.length) (hel' : el' < d.cells.length) (bc bc' : ℕ → K)
    (hw : ∀ v, meshWeight g.nV (d.conn (d.cells.getD el 0)) bc v = meshWeight g.nV (d.conn (d.cells.getD el' 0)) bc' v) :
    fieldValue (setupGlobalBasis g (simplexNodes g o) o d).1 u
        (fun k => lagVal g.nV o bc (rowAt (simplexNodes g o) k)) (simplexNodes g o).length el =
      fieldValue (setupGlobalBasis g (simplexNodes g o) o d).1 u
        (fun k => lagVal g.nV o bc' (rowAt (simplexNodes g o) k)) (simplexNodes g o).length el' := by
  simp only [lagVal_eq]
  exact continuous_simplex (h := fun (x : K) n => ch ((o : K) * x) n) (fun x => ch_zero _) (fun n hn => ch_zero_succ (mul_zero _) hn)
    g hg o ho d M u el el' hel hel' bc bc' hw

end Verif.Fem
