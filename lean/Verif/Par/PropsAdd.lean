import Verif.Par.PropsAssemble
import Mathlib.Algebra.BigOperators.Group.Finset.Sigma

/-!
# C74 continued: assembling without overlaps, preallocation, scattering of the solution
-/

namespace Par

open Verif.Np

variable {K : Type*}

section

variable {ov : Bool} {m : FEMesh} {ct : ℕ → ℕ} {nc size : ℕ} {D : Dist}
variable (re : ℕ → ℕ → K) (ke : ℕ → ℕ → ℕ → K)

theorem rank_pd_iff [AddCommMonoid K] (hv : VertexCells m) (hm : Conforming m) (hn : NodesCovered m)
    (hT : Tasks m ct size) (hnc : 0 < nc)
    (hD : createMaps ov m ct nc (interFacets m ct) = some D) {t : ℕ} (ht : t < size)
    (L : LocalField m (rankCells D t)) (junk : ℕ → ℕ) (stored : List (ℕ × ℕ))
    {d : ℕ} (hd : d < nc * m.nNod) {l : ℕ} (hl : l < nc * L.nLoc) :
    (rankOf m nc D re ke t L junk stored).pd l = D.idMap d ↔
      DofIn m nc (rankCells D t) d ∧ l = L.locD nc d := by
  obtain ⟨-, -, -, hbij⟩ := C73_numbering hm hn hT.touch hT.h2 hnc hD
  obtain ⟨e, he, rfl⟩ := L.locD_surj l hl
  rw [rank_pd re ke L junk stored he]
  constructor
  · intro h
    have := hbij.injOn (dofIn_lt hv hm hn hT hD ht he) hd h
    exact ⟨this ▸ he, by rw [this]⟩
  · rintro ⟨hdi, h⟩
    rw [L.locD_inj he hdi h]

theorem assembledVec_zero [AddCommMonoid K] {cells : List ℕ} (hnc : 0 < nc) {d : ℕ}
    (h : ¬ DofIn m nc cells d) :
    assembledVec cells (fun c => expandDofs nc (m.econn c)) re d = 0 := by
  unfold assembledVec
  apply List.sum_eq_zero
  intro x hx
  obtain ⟨c, hc, rfl⟩ := List.mem_map.1 hx
  apply elemVec_zero
  intro hmem
  exact h ⟨hnc, c, hc, (mem_row.1 hmem).2⟩

theorem assembledMat_zero [AddCommMonoid K] {cells : List ℕ} (hnc : 0 < nc) {d e : ℕ}
    (h : ¬ (DofIn m nc cells d ∧ DofIn m nc cells e)) :
    assembledMat cells (fun c => expandDofs nc (m.econn c)) ke d e = 0 := by
  unfold assembledMat
  apply List.sum_eq_zero
  intro x hx
  obtain ⟨c, hc, rfl⟩ := List.mem_map.1 hx
  by_cases h1 : d ∈ expandDofs nc (m.econn c)
  · by_cases h2 : e ∈ expandDofs nc (m.econn c)
    · exact absurd ⟨⟨hnc, c, hc, (mem_row.1 h1).2⟩, ⟨hnc, c, hc, (mem_row.1 h2).2⟩⟩ h
    · exact elemMat_zero_col h2 _
  · exact elemMat_zero_row h1 _

/-- One task adds the contributions of its cells. -/
theorem addRhs_eq [AddCommMonoid K] (hv : VertexCells m) (hm : Conforming m) (hn : NodesCovered m)
    (hT : Tasks m ct size) (hnc : 0 < nc)
    (hD : createMaps ov m ct nc (interFacets m ct) = some D) {t : ℕ} (ht : t < size)
    (L : LocalField m (rankCells D t)) (junk : ℕ → ℕ) (stored : List (ℕ × ℕ)) (v : ℕ → K)
    {d : ℕ} (hd : d < nc * m.nNod) :
    (rankOf m nc D re ke t L junk stored).addRhs v (D.idMap d)
      = v (D.idMap d) + assembledVec (rankCells D t) (fun c => expandDofs nc (m.econn c)) re d := by
  unfold Rank.addRhs
  rw [addVec_eq]
  congr 1
  by_cases hdi : DofIn m nc (rankCells D t) d
  · rw [Finset.sum_eq_single (L.locD nc d)]
    · rw [if_pos (rank_pd re ke L junk stored hdi)]
      exact assembledVec_local L hdi re
    · intro l hl hne
      rw [if_neg]
      intro h
      exact hne ((rank_pd_iff re ke hv hm hn hT hnc hD ht L junk stored hd
        (Finset.mem_range.1 hl)).1 h).2
    · intro h
      exact absurd (Finset.mem_range.2 (L.locD_lt hdi)) h
  · rw [assembledVec_zero re hnc hdi]
    apply Finset.sum_eq_zero
    intro l hl
    rw [if_neg]
    intro h
    exact hdi ((rank_pd_iff re ke hv hm hn hT hnc hD ht L junk stored hd
      (Finset.mem_range.1 hl)).1 h).1

theorem addMtx_eq [AddCommMonoid K] (hv : VertexCells m) (hm : Conforming m) (hn : NodesCovered m)
    (hT : Tasks m ct size) (hnc : 0 < nc)
    (hD : createMaps ov m ct nc (interFacets m ct) = some D) {t : ℕ} (ht : t < size)
    (S : Locals K m nc D ke) (p : ℕ → ℕ → K)
    {d e : ℕ} (hd : d < nc * m.nNod) (he : e < nc * m.nNod) :
    (S.rank re t).addMtx p (D.idMap d) (D.idMap e)
      = p (D.idMap d) (D.idMap e)
        + assembledMat (rankCells D t) (fun c => expandDofs nc (m.econn c)) ke d e := by
  unfold Rank.addMtx
  rw [foldl_addMtx]
  congr 1
  have hiff : ∀ x ∈ S.stored t, ((S.rank re t).pd x.1 = D.idMap d ∧ (S.rank re t).pd x.2 = D.idMap e)
      ↔ (DofIn m nc (rankCells D t) d ∧ DofIn m nc (rankCells D t) e) ∧
        x = ((S.L t).locD nc d, (S.L t).locD nc e) := by
    intro x hx
    obtain ⟨b1, b2⟩ := S.bound t x hx
    unfold Locals.rank
    rw [rank_pd_iff re ke hv hm hn hT hnc hD ht (S.L t) (S.junk t) (S.stored t) hd b1,
      rank_pd_iff re ke hv hm hn hT hnc hD ht (S.L t) (S.junk t) (S.stored t) he b2]
    obtain ⟨x1, x2⟩ := x
    simp only [Prod.mk.injEq]; tauto
  change ((S.stored t).map _).sum = _
  by_cases h : DofIn m nc (rankCells D t) d ∧ DofIn m nc (rankCells D t) e
  · have hloc := assembledMat_local (S.L t) h.1 h.2 ke
    by_cases hmem : ((S.L t).locD nc d, (S.L t).locD nc e) ∈ S.stored t
    · rw [← List.sum_toFinset _ (S.nodup t),
        Finset.sum_eq_single ((S.L t).locD nc d, (S.L t).locD nc e)]
      · rw [if_pos ((hiff _ hmem).2 ⟨h, rfl⟩)]
        exact hloc
      · intro x hx hne
        rw [if_neg]
        intro hc
        exact hne ((hiff x (List.mem_toFinset.1 hx)).1 hc).2
      · intro hc
        exact absurd (List.mem_toFinset.2 hmem) hc
    · rw [← hloc]
      have h0 : assembledMat (rankCells D t) (fun c => expandDofs nc ((S.L t).lconn c)) ke
          ((S.L t).locD nc d) ((S.L t).locD nc e) = 0 := by
        by_contra hne
        exact hmem (S.complete t _ ((S.L t).locD_lt h.1) _ ((S.L t).locD_lt h.2) hne)
      rw [h0]
      apply List.sum_eq_zero
      intro y hy
      obtain ⟨x, hx, rfl⟩ := List.mem_map.1 hy
      rw [if_neg]
      intro hc
      have := ((hiff x hx).1 hc).2
      exact hmem (this ▸ hx)
  · rw [assembledMat_zero ke hnc h]
    apply List.sum_eq_zero
    intro y hy
    obtain ⟨x, hx, rfl⟩ := List.mem_map.1 hy
    rw [if_neg]
    intro hc
    exact h ((hiff x hx).1 hc).1

/-- Without overlaps the cells of the tasks partition the cells. -/
theorem sum_tasks [AddCommMonoid K] (hm : Conforming m) (hT : Tasks m ct size)
    (hD : createMaps false m ct nc (interFacets m ct) = some D) (F : ℕ → K)
    (order : List ℕ) (hord : order.Perm (List.range size)) :
    (order.map fun t => ((rankCells D t).map F).sum).sum = ((List.range m.nCell).map F).sum := by
  rw [(hord.map _).sum_eq]
  have hmem : ∀ t < size, ∀ c, c ∈ rankCells D t ↔ c < m.nCell ∧ ct c = t := by
    intro t ht c
    rw [mem_rankCells hm hT hD ht]
    constructor
    · rintro (h | h)
      · exact h
      · exact (overlap_forall (fun _ => False) (fun h => by simp at h) hm hD t c h).elim
    · exact Or.inl
  have hsum : ∀ t < size, ((rankCells D t).map F).sum
      = ∑ c ∈ (Finset.range m.nCell).filter (fun c => ct c = t), F c := by
    intro t ht
    have hnd : (rankCells D t).Nodup := nodup_unique _
    rw [← List.sum_toFinset F hnd]
    apply Finset.sum_congr _ fun _ _ => rfl
    ext c
    simp only [List.mem_toFinset, Finset.mem_filter, Finset.mem_range]
    exact hmem t ht c
  have e : ∀ n, (List.range n).toFinset = Finset.range n := by intro n; ext; simp
  rw [← List.sum_toFinset _ List.nodup_range, ← List.sum_toFinset F List.nodup_range, e, e,
    Finset.sum_congr rfl fun t ht => hsum t (Finset.mem_range.1 ht)]
  apply Finset.sum_fiberwise_of_maps_to
  intro c hc
  exact Finset.mem_range.2 ((hT.range _).2 ⟨c, Finset.mem_range.1 hc, rfl⟩)

/-- **C74.** Without overlaps: in whatever order the tasks add their values, the serial right-hand
side, in the new numbering, is added to the previous contents of the vector. -/
theorem C74_rhs_add [AddCommMonoid K] (hv : VertexCells m) (hm : Conforming m)
    (hn : NodesCovered m) (hT : Tasks m ct size) (hnc : 0 < nc)
    (hD : createMaps false m ct nc (interFacets m ct) = some D) (S : Locals K m nc D ke)
    (order : List ℕ) (hord : order.Perm (List.range size)) (v : ℕ → K)
    (d : ℕ) (hd : d < nc * m.nNod) :
    order.foldl (fun v t => (S.rank re t).addRhs v) v (D.idMap d)
      = v (D.idMap d) + serialVec m nc re d := by
  have main : ∀ (order : List ℕ), (∀ t ∈ order, t < size) → ∀ v : ℕ → K,
      order.foldl (fun v t => (S.rank re t).addRhs v) v (D.idMap d)
        = v (D.idMap d) + (order.map fun t => ((rankCells D t).map fun c =>
            elemVec (expandDofs nc (m.econn c)) (re c) d).sum).sum := by
    intro order
    induction order with
    | nil => intro _ v; simp
    | cons t r ih =>
      intro hb v
      rw [List.foldl_cons, ih (fun s hs => hb s (List.mem_cons_of_mem _ hs))]
      unfold Locals.rank
      rw [addRhs_eq re ke hv hm hn hT hnc hD (hb t List.mem_cons_self) (S.L t) (S.junk t)
        (S.stored t) v hd, List.map_cons, List.sum_cons, add_assoc]
      rfl
  rw [main order (fun t ht => List.mem_range.1 (hord.mem_iff.1 ht)) v,
    sum_tasks hm hT hD _ order hord]
  rfl

/-- **C74.** Without overlaps: in whatever order the tasks add their values, the serial matrix is
added to the previous contents of the matrix. -/
theorem C74_matrix_add [AddCommMonoid K] (hv : VertexCells m) (hm : Conforming m)
    (hn : NodesCovered m) (hT : Tasks m ct size) (hnc : 0 < nc)
    (hD : createMaps false m ct nc (interFacets m ct) = some D) (S : Locals K m nc D ke)
    (order : List ℕ) (hord : order.Perm (List.range size)) (p : ℕ → ℕ → K)
    (d e : ℕ) (hd : d < nc * m.nNod) (he : e < nc * m.nNod) :
    order.foldl (fun p t => (S.rank re t).addMtx p) p (D.idMap d) (D.idMap e)
      = p (D.idMap d) (D.idMap e) + serialMat m nc ke d e := by
  have main : ∀ (order : List ℕ), (∀ t ∈ order, t < size) → ∀ p : ℕ → ℕ → K,
      order.foldl (fun p t => (S.rank re t).addMtx p) p (D.idMap d) (D.idMap e)
        = p (D.idMap d) (D.idMap e) + (order.map fun t => ((rankCells D t).map fun c =>
            elemMat (expandDofs nc (m.econn c)) (ke c) d e).sum).sum := by
    intro order
    induction order with
    | nil => intro _ v; simp
    | cons t r ih =>
      intro hb p
      rw [List.foldl_cons, ih (fun s hs => hb s (List.mem_cons_of_mem _ hs)),
        addMtx_eq re ke hv hm hn hT hnc hD (hb t List.mem_cons_self) S p hd he, List.map_cons,
        List.sum_cons, add_assoc]
      rfl
  rw [main order (fun t ht => List.mem_range.1 (hord.mem_iff.1 ht)) p,
    sum_tasks hm hT hD _ order hord]
  rfl

/-- **C74.** The rows of the preallocation data of a task are, in order, the rows of its PETSc
range: row `k` describes the PETSc row `drange[0] + k`, and there are as many as the owned DOFs. -/
theorem C74_prealloc_rows [AddCommMonoid K] (hv : VertexCells m) (hm : Conforming m)
    (hn : NodesCovered m) (hT : Tasks m ct size) (hnc : 0 < nc)
    (hD : createMaps ov m ct nc (interFacets m ct) = some D) (S : Locals K m nc D ke)
    (t : ℕ) (ht : t < size) :
    (S.rank re t).preallocRows.map (S.rank re t).pd
      = List.range' (offsetOf D t) (ownedBy D t).length := by
  obtain ⟨hmap, -, -, hbij⟩ := C73_numbering hm hn hT.touch hT.h2 hnc hD
  set R := S.rank re t with hR
  have hRn : R.n = nc * (S.L t).nLoc := rfl
  have hpd : ∀ {d}, DofIn m nc (rankCells D t) d → R.pd ((S.L t).locD nc d) = D.idMap d :=
    fun hd => rank_pd re ke (S.L t) (S.junk t) (S.stored t) hd
  unfold Rank.preallocRows
  generalize hF : (List.range R.n).filter
    (fun l => decide (R.dr.1 ≤ R.pd l ∧ R.pd l < R.dr.2)) = F
  have hFmem : ∀ l, l ∈ F ↔ ∃ d ∈ ownedBy D t, l = (S.L t).locD nc d := by
    intro l
    rw [← hF, List.mem_filter, List.mem_range, decide_eq_true_iff]
    constructor
    · rintro ⟨hl, h⟩
      obtain ⟨d, hd, rfl⟩ := (S.L t).locD_surj l hl
      rw [hpd hd] at h
      exact ⟨d, (mem_rankRange hm hn hT hnc hD ht (dofIn_lt hv hm hn hT hD ht hd)).1 h, rfl⟩
    · rintro ⟨d, hd, rfl⟩
      have hdi := owned_dofIn hm hT hD ht hd
      refine ⟨(S.L t).locD_lt hdi, ?_⟩
      rw [hpd hdi]
      exact (mem_rankRange hm hn hT hnc hD ht (dofIn_lt hv hm hn hT hD ht hdi)).2 hd
  have hFnd : F.Nodup := by rw [← hF]; exact List.nodup_range.filter _
  have hperm : (F.insertionSort (fun a b => R.pd a ≤ R.pd b)).Perm F := List.perm_insertionSort _ _
  have hle : ((F.insertionSort (fun a b => R.pd a ≤ R.pd b)).map R.pd).Pairwise (· ≤ ·) := by
    rw [List.pairwise_map]
    have : Std.Total (fun a b : ℕ => R.pd a ≤ R.pd b) := ⟨fun a b => Nat.le_total _ _⟩
    have : IsTrans ℕ (fun a b : ℕ => R.pd a ≤ R.pd b) := ⟨fun _ _ _ h h' => Nat.le_trans h h'⟩
    exact List.pairwise_insertionSort _ _
  have hnd : ((F.insertionSort (fun a b => R.pd a ≤ R.pd b)).map R.pd).Nodup := by
    rw [(hperm.map _).nodup_iff]
    refine List.Nodup.map_on ?_ hFnd
    intro a ha b hb hab
    obtain ⟨d, hd, rfl⟩ := (hFmem a).1 ha
    obtain ⟨e, he, rfl⟩ := (hFmem b).1 hb
    have hdi := owned_dofIn hm hT hD ht hd
    have hei := owned_dofIn hm hT hD ht he
    rw [hpd hdi, hpd hei] at hab
    rw [hbij.injOn (dofIn_lt hv hm hn hT hD ht hdi) (dofIn_lt hv hm hn hT hD ht hei) hab]
  have hlt : ((F.insertionSort (fun a b => R.pd a ≤ R.pd b)).map R.pd).Pairwise (· < ·) :=
    (hle.and hnd).imp fun ⟨a, b⟩ => lt_of_le_of_ne a b
  refine List.Perm.eq_of_pairwise (le := (· < ·)) (fun a b _ _ h h' => absurd h (Nat.lt_asymm h'))
    hlt List.pairwise_lt_range' ?_
  rw [List.perm_ext_iff_of_nodup hnd List.nodup_range']
  intro x
  rw [(hperm.map _).mem_iff, ← hmap t, List.mem_map, List.mem_map]
  constructor
  · rintro ⟨l, hl, rfl⟩
    obtain ⟨d, hd, rfl⟩ := (hFmem l).1 hl
    exact ⟨d, hd, (hpd (owned_dofIn hm hT hD ht hd)).symm⟩
  · rintro ⟨d, hd, rfl⟩
    exact ⟨_, (hFmem _).2 ⟨d, hd, rfl⟩, hpd (owned_dofIn hm hT hD ht hd)⟩

/-- **C74.** With overlaps, every entry that the assembling puts into an owned row was
preallocated: the stored columns of the local row, renumbered, contain its PETSc column. -/
theorem C74_prealloc_columns [AddCommMonoid K] (hv : VertexCells m) (hm : Conforming m)
    (hf : FacetConnected m) (hT : Tasks m ct size) (hnc : 0 < nc)
    (hD : createMaps true m ct nc (interFacets m ct) = some D) (S : Locals K m nc D ke)
    (t : ℕ) (ht : t < size) (d e : ℕ) (hd : d ∈ ownedBy D t)
    (hnz : serialMat m nc ke d e ≠ 0) :
    ∃ q ∈ (S.rank re t).stored, (S.rank re t).pd q.1 = D.idMap d ∧
      (S.rank re t).pd q.2 = D.idMap e := by
  have hdi := owned_dofIn hm hT hD ht hd
  have hval := owned_mat ke hv hm hf hT hD ht hd e
  have hei : DofIn m nc (rankCells D t) e := by
    by_contra hcon
    apply hnz
    rw [← hval]
    exact assembledMat_zero ke hnc fun h => hcon h.2
  refine ⟨((S.L t).locD nc d, (S.L t).locD nc e), ?_, rank_pd re ke _ _ _ hdi, rank_pd re ke _ _ _ hei⟩
  apply S.complete t _ ((S.L t).locD_lt hdi) _ ((S.L t).locD_lt hei)
  rw [assembledMat_local (S.L t) hdi hei, hval]
  exact hnz

/-- `scatter(pvec_i, pvec)`: the values of the global vector at the PETSc DOFs.
/repo/sfepy/parallel/parallel.py:657-666 -/
def Rank.scatterVec (r : Rank K) (v : ℕ → K) : ℕ → K := fun l => v (r.pd l)

/-- **C74.** Scattering a global vector in the PETSc numbering gives every task the values of the
DOFs of all its cells, owned or not, at their local positions. -/
theorem C74_scatter [AddCommMonoid K] (S : Locals K m nc D ke) (t : ℕ) (u v : ℕ → K)
    (hu : ∀ d < nc * m.nNod, v (D.idMap d) = u d) (hnc : 0 < nc) (hn : NodesCovered m) (c : ℕ)
    (hc : c ∈ rankCells D t) (hcb : c < m.nCell) (x : ℕ) (hx : x ∈ m.econn c) (k : ℕ) (hk : k < nc) :
    (S.rank re t).scatterVec v (nc * (S.L t).loc x + k) = u (nc * x + k) := by
  have hxd : (nc * x + k) / nc = x := by
    rw [Nat.mul_add_div hnc, Nat.div_eq_of_lt hk, Nat.add_zero]
  have hxm : (nc * x + k) % nc = k := by rw [Nat.mul_add_mod, Nat.mod_eq_of_lt hk]
  have hdi : DofIn m nc (rankCells D t) (nc * x + k) := ⟨hnc, c, hc, by rwa [hxd]⟩
  have hloc : (S.L t).locD nc (nc * x + k) = nc * (S.L t).loc x + k := by
    unfold LocalField.locD; rw [hxd, hxm]
  unfold Rank.scatterVec
  rw [← hloc, Locals.rank, rank_pd re ke _ _ _ hdi]
  apply hu
  have := hn.bound c hcb x hx
  calc nc * x + k < nc * x + nc := by omega
    _ = nc * (x + 1) := by ring
    _ ≤ nc * m.nNod := Nat.mul_le_mul_left _ this

/-! ### Repeated assembling (nonlinear problems) -/

/-- **C74.** Repeated assembling of the right-hand side with overlaps does not depend on the
history: the result is the one for the last element vectors. -/
theorem C74_rhs_reassembled [AddCommMonoid K] (hv : VertexCells m) (hm : Conforming m)
    (hf : FacetConnected m) (hn : NodesCovered m) (hT : Tasks m ct size) (hnc : 0 < nc)
    (hD : createMaps true m ct nc (interFacets m ct) = some D) (S : Locals K m nc D ke)
    (order : List ℕ) (hord : ∀ t, t ∈ order ↔ t < size) (res : List (ℕ → ℕ → K)) (v : ℕ → K)
    (d : ℕ) (hd : d < nc * m.nNod) :
    (res ++ [re]).foldl (fun v re => order.foldl (fun v t => (S.rank re t).setRhs v) v) v (D.idMap d)
      = serialVec m nc re d := by
  rw [List.foldl_append, List.foldl_cons, List.foldl_nil]
  exact C74_rhs_overlap re ke hv hm hf hn hT hnc hD S order hord _ d hd

/-- **C74.** Reassembling the matrix with overlaps: the previous value of an entry survives exactly
when the new value is zero. So a reassembled matrix is right if and only if no entry that was nonzero
becomes zero. -/
theorem C74_matrix_reassembled_iff [AddCommMonoid K] [DecidableEq K] (hv : VertexCells m)
    (hm : Conforming m) (hf : FacetConnected m) (hn : NodesCovered m) (hT : Tasks m ct size)
    (hnc : 0 < nc) (hD : createMaps true m ct nc (interFacets m ct) = some D)
    (ke' : ℕ → ℕ → ℕ → K) (S : Locals K m nc D ke) (S' : Locals K m nc D ke')
    (order : List ℕ) (hord : ∀ t, t ∈ order ↔ t < size)
    (d e : ℕ) (hd : d < nc * m.nNod) (he : e < nc * m.nNod) :
    (order.foldl (fun p t => (S'.rank re t).setMtx p)
        (order.foldl (fun p t => (S.rank re t).setMtx p) (fun _ _ => 0)) (D.idMap d) (D.idMap e)
      = serialMat m nc ke' d e) ↔ (serialMat m nc ke' d e = 0 → serialMat m nc ke d e = 0) := by
  rw [C74_matrix_overlap re ke' hv hm hf hn hT hnc hD S' order hord _ d e hd he,
    C74_matrix_overlap_zero re ke hv hm hf hn hT hnc hD S order hord d e hd he]
  by_cases h : serialMat m nc ke' d e = 0
  · simp [h]
  · simp [h]

end

end Par
