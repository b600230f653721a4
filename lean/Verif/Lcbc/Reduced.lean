import Verif.Lcbc.PropsGlobal

/-!
# The reduced residual and the reduced tangent matrix

Model of the use of the LCBC operator in `BasicEvaluator.eval_residual` and
`eval_tangent_matrix` (sfepy/discrete/evaluate.py:75-137).
-/

set_option linter.unusedSectionVars false

namespace Verif.Lcbc

variable {K : Type*} [CommRing K]

/-- `mtx.T @ y` for a matrix in the COO format. -/
def appT (T : Trips K) (y : ℕ → K) (c : ℕ) : K :=
  (T.map fun t => if t.2.1 = c then t.2.2 * y t.1 else 0).sum

/-- Entry of a matrix in the COO format. -/
def ent (T : Trips K) (r c : ℕ) : K :=
  (T.map fun t => if t.1 = r ∧ t.2.1 = c then t.2.2 else 0).sum

/-- `vec_rr = mtx_lcbc.T @ vec_r` (evaluate.py:91-94). -/
def reducedResidual (nDof : List ℕ) (ops : List (Op K)) (res : ℕ → K) (c : ℕ) : K :=
  appT (globalTrip nDof ops) res c

/-- `mtx_r = mtx_lcbc.T @ mtx @ mtx_lcbc` (evaluate.py:128-131) of an `n × n` matrix. -/
def reducedMatrix (nDof : List ℕ) (ops : List (Op K)) (A : ℕ → ℕ → K) (c d : ℕ) : K :=
  ∑ r ∈ Finset.range nDof.sum, ∑ s ∈ Finset.range nDof.sum,
    ent (globalTrip nDof ops) r c * A r s * ent (globalTrip nDof ops) s d

theorem app_eq_sum (T : Trips K) (w : ℕ → K) (r C : ℕ) (h : ∀ t ∈ T, t.2.1 < C) :
    app T w r = ∑ c ∈ Finset.range C, ent T r c * w c := by
  induction T with
  | nil => simp [app, ent]
  | cons t T ih =>
    rw [app_cons, ih (fun t' ht' => h t' (by simp [ht']))]
    have : ∀ c, ent (t :: T) r c = (if t.1 = r ∧ t.2.1 = c then t.2.2 else 0) + ent T r c := by
      intro c; simp [ent]
    simp only [this, add_mul, Finset.sum_add_distrib]
    congr 1
    have h1 := h t (by simp)
    by_cases hr : t.1 = r
    · simp [hr, h1]
    · simp [hr]

theorem appT_eq_sum (T : Trips K) (y : ℕ → K) (c R : ℕ) (h : ∀ t ∈ T, t.1 < R) :
    appT T y c = ∑ r ∈ Finset.range R, ent T r c * y r := by
  induction T with
  | nil => simp [appT, ent]
  | cons t T ih =>
    have e : appT (t :: T) y c = (if t.2.1 = c then t.2.2 * y t.1 else 0) + appT T y c := by
      simp [appT]
    rw [e, ih (fun t' ht' => h t' (by simp [ht']))]
    have : ∀ r, ent (t :: T) r c = (if t.1 = r ∧ t.2.1 = c then t.2.2 else 0) + ent T r c := by
      intro c; simp [ent]
    simp only [this, add_mul, Finset.sum_add_distrib]
    congr 1
    have h1 := h t (by simp)
    by_cases hr : t.2.1 = c
    · simp [hr, h1]
    · simp [hr]

variable {nDof : List ℕ} {ops : List (Op K)}

theorem sum_eq_aoff (nDof : List ℕ) : nDof.sum = off (nDofOf nDof) nDof.length := by
  have e := aoff_eq nDof nDof.length
  rw [List.take_length] at e
  exact e.symm

/-- The triples stay inside the matrix. -/
theorem globalTrip_bounds (hc : Consistent nDof ops) {t : ℕ × ℕ × K}
    (ht : t ∈ globalTrip nDof ops) : t.1 < nDof.sum ∧ t.2.1 < nActiveTotal nDof ops := by
  rw [sum_eq_aoff]
  rcases List.mem_append.1 ht with ht | ht
  · obtain ⟨ii, hii, ht⟩ := List.mem_flatMap.1 ht
    have hii' := List.mem_range.1 hii
    have hop : ops[ii]? = some ops[ii] := by simp [hii']
    rw [hop] at ht
    have hm : ops[ii] ∈ ops := List.getElem_mem hii'
    constructor
    · obtain ⟨i, hi, e⟩ := opTrip_row hc hm ht
      rw [e]
      exact off_lt (nDofOf nDof) (hc.rvar_lt _ hm) (hc.ameq_lt _ hm _ hi)
    · unfold opTrip at ht
      cases hcv : ops[ii].cvar with
      | none =>
        simp only [hcv] at ht
        obtain ⟨t', ht', rfl⟩ := List.mem_map.1 ht
        have h2 := (hc.reduction _ hm hcv t' ht').2
        have h3 := newCol_lt hop h2
        show newCol nDof ops ops[ii].rvar ii + t'.2.1 < _
        rw [newCol_eq hop]
        have := off_lt (nActive nDof ops) (a := ops[ii].rvar) (n := nDof.length)
          (i := nFree nDof ops ops[ii].rvar + (off (newAt ops ops[ii].rvar) ii + t'.2.1))
          (hc.rvar_lt _ hm) (by unfold nActive; omega)
        unfold nActiveTotal lcoff
        omega
      | some c =>
        simp only [hcv] at ht
        obtain ⟨t', ht', rfl⟩ := List.mem_map.1 ht
        have h := hc.tie _ hm c hcv
        have h2 := h.2.2 t' ht'
        have h3 := freeCol_lt hc h2.2.1 h2.2.2
        exact off_lt (nActive nDof ops) h.2.1 (by unfold nActive; omega)
  · rw [freeTrip_eq hc] at ht
    obtain ⟨v, hv, ht⟩ := List.mem_flatMap.1 ht
    obtain ⟨k, hk, rfl⟩ := List.mem_map.1 ht
    have hv' := List.mem_range.1 hv
    have hk' := List.mem_range.1 hk
    constructor
    · have hl := (freeLoc_length hc v).1
      have hk2 : k < (freeLoc nDof ops v).length := by omega
      have hm : (freeLoc nDof ops v).getD k 0 ∈ freeLoc nDof ops v := by
        rw [List.getD_eq_getElem _ _ hk2]; exact List.getElem_mem hk2
      exact off_lt (nDofOf nDof) hv' ((mem_freeLoc hc).1 hm).1
    · exact off_lt (nActive nDof ops) hv' (by unfold nActive; omega)

/-! The matrix does not depend on the right-hand sides. -/

/-- The homogeneous version of a condition. -/
def Op.hom (op : Op K) : Op K := { op with rhs := none }

theorem hom_filter (ops : List (Op K)) (v : ℕ) (g : Op K → ℕ) (hg : ∀ op, g op.hom = g op) :
    (((ops.map Op.hom).filter fun op => op.rvar = v).map g).sum
      = ((ops.filter fun op => op.rvar = v).map g).sum := by
  induction ops with
  | nil => rfl
  | cons op ops ih =>
    have e : op.hom.rvar = op.rvar := rfl
    by_cases h : op.rvar = v
    · simp [h, e, hg, ih]
    · simp [h, e, ih]

theorem hom_nFree (v : ℕ) : nFree nDof (ops.map Op.hom) v = nFree nDof ops v := by
  unfold nFree nMaster; rw [hom_filter ops v _ (fun _ => rfl)]

theorem hom_nActive : nActive nDof (ops.map Op.hom) = nActive nDof ops := by
  funext v
  unfold nActive nNewOf; rw [hom_nFree, hom_filter ops v _ (fun _ => rfl)]

theorem hom_lcoff (v : ℕ) : lcoff nDof (ops.map Op.hom) v = lcoff nDof ops v := by
  unfold lcoff; rw [hom_nActive]

theorem hom_constrained (g : ℕ) : constrained nDof (ops.map Op.hom) g = constrained nDof ops g := by
  unfold constrained; rw [List.any_map]; rfl

theorem hom_freeLoc (v : ℕ) : freeLoc nDof (ops.map Op.hom) v = freeLoc nDof ops v := by
  unfold freeLoc; simp only [hom_constrained]

theorem hom_icsOf (v : ℕ) : icsOf (ops.map Op.hom) v = icsOf ops v := by
  unfold icsOf
  rw [List.length_map]
  congr 1
  funext ii
  rw [List.getElem?_map]
  cases ops[ii]? <;> rfl

theorem hom_newCol (v ii : ℕ) : newCol nDof (ops.map Op.hom) v ii = newCol nDof ops v ii := by
  unfold newCol icol; rw [hom_lcoff, hom_nFree, hom_icsOf]

theorem hom_globalTrip : globalTrip nDof (ops.map Op.hom) = globalTrip nDof ops := by
  unfold globalTrip
  congr 1
  · rw [List.length_map]
    congr 1
    funext ii
    rw [List.getElem?_map]
    cases ops[ii]? with
    | none => rfl
    | some op =>
      show opTrip nDof (ops.map Op.hom) ii op.hom = opTrip nDof ops ii op
      unfold opTrip
      have e : op.hom.cvar = op.cvar := rfl
      rw [e]
      cases op.cvar with
      | none => simp only [hom_newCol]; rfl
      | some c => simp only [hom_lcoff, hom_freeLoc]; rfl
  · unfold freeTrip irOf icOf
    simp only [hom_constrained, hom_nFree, hom_lcoff]

theorem hom_expand (w : ℕ → K) (r : ℕ) :
    expand nDof (ops.map Op.hom) w r = app (globalTrip nDof ops) w r := by
  unfold expand
  rw [hom_globalTrip]
  have : globalVec nDof (ops.map Op.hom) r = 0 := by
    apply List.sum_eq_zero
    intro x hx
    rw [List.map_map] at hx
    obtain ⟨op, _, rfl⟩ := List.mem_map.1 hx
    rfl
  rw [this, add_zero]

theorem isConstrained_hom {v i : ℕ} :
    IsConstrained (ops.map Op.hom) v i ↔ IsConstrained ops v i := by
  constructor
  · rintro ⟨op, hop, h1, h2⟩
    obtain ⟨op', hop', rfl⟩ := List.mem_map.1 hop
    exact ⟨op', hop', h1, h2⟩
  · rintro ⟨op, hop, h1, h2⟩
    exact ⟨op.hom, List.mem_map_of_mem hop, h1, h2⟩

theorem consistent_hom (hc : Consistent nDof ops) : Consistent nDof (ops.map Op.hom) where
  rvar_lt := by
    intro op hop
    obtain ⟨op', hop', rfl⟩ := List.mem_map.1 hop
    exact hc.rvar_lt op' hop'
  ameq_lt := by
    intro op hop
    obtain ⟨op', hop', rfl⟩ := List.mem_map.1 hop
    exact hc.ameq_lt op' hop'
  once := by
    rw [List.pairwise_map]
    exact hc.once
  nodup := by
    intro op hop
    obtain ⟨op', hop', rfl⟩ := List.mem_map.1 hop
    exact hc.nodup op' hop'
  count := by
    intro op hop
    obtain ⟨op', hop', rfl⟩ := List.mem_map.1 hop
    exact hc.count op' hop'
  reduction := by
    intro op hop
    obtain ⟨op', hop', rfl⟩ := List.mem_map.1 hop
    exact hc.reduction op' hop'
  tie := by
    intro op hop c hcv
    obtain ⟨op', hop', rfl⟩ := List.mem_map.1 hop
    have := hc.tie op' hop' c hcv
    refine ⟨this.1, this.2.1, fun t ht => ?_⟩
    have h3 := this.2.2 t ht
    exact ⟨h3.1, h3.2.1, fun h => h3.2.2 (isConstrained_hom.1 h)⟩

theorem dual (hc : Consistent nDof ops) (res w : ℕ → K) :
    ∑ r ∈ Finset.range nDof.sum, res r * app (globalTrip nDof ops) w r
      = ∑ c ∈ Finset.range (nActiveTotal nDof ops), reducedResidual nDof ops res c * w c := by
  have h1 : ∀ r, app (globalTrip nDof ops) w r
      = ∑ c ∈ Finset.range (nActiveTotal nDof ops), ent (globalTrip nDof ops) r c * w c :=
    fun r => app_eq_sum _ w r _ (fun t ht => (globalTrip_bounds hc ht).2)
  have h2 : ∀ c, reducedResidual nDof ops res c
      = ∑ r ∈ Finset.range nDof.sum, ent (globalTrip nDof ops) r c * res r :=
    fun c => appT_eq_sum _ res c _ (fun t ht => (globalTrip_bounds hc ht).1)
  simp only [h1, h2, Finset.mul_sum, Finset.sum_mul]
  rw [Finset.sum_comm]
  refine Finset.sum_congr rfl fun c _ => Finset.sum_congr rfl fun r _ => ?_
  ring

/-- C72: the reduced residual vanishes exactly when the residual is orthogonal to all the
variations admitted by the (homogeneous) conditions: solving the reduced system is solving
the constrained weak problem. -/
theorem C72_reduced_residual_weak (hc : Consistent nDof ops) (res : ℕ → K) :
    (∀ c < nActiveTotal nDof ops, reducedResidual nDof ops res c = 0) ↔
    ∀ δ : ℕ → K, (∀ op ∈ ops, Holds nDof δ { op with rhs := none }) →
      ∑ r ∈ Finset.range nDof.sum, res r * δ r = 0 := by
  have hr := fun δ => C72_range_is_constraint_set (consistent_hom hc) δ
  constructor
  · intro h δ hδ
    obtain ⟨w, hw⟩ := (hr δ).2 (by
      intro op hop
      obtain ⟨op', hop', rfl⟩ := List.mem_map.1 hop
      exact hδ op' hop')
    have : ∑ r ∈ Finset.range nDof.sum, res r * δ r
        = ∑ r ∈ Finset.range nDof.sum, res r * app (globalTrip nDof ops) w r := by
      refine Finset.sum_congr rfl fun r hr' => ?_
      rw [hw r (Finset.mem_range.1 hr'), hom_expand]
    rw [this, dual hc]
    apply Finset.sum_eq_zero
    intro c hcc
    rw [h c (Finset.mem_range.1 hcc), zero_mul]
  · intro h c hcl
    have hδ := (hr (fun r => app (globalTrip nDof ops) (Pi.single c 1) r)).1
      ⟨Pi.single c 1, fun r _ => (hom_expand _ r).symm⟩
    have := h _ (fun op hop => hδ op.hom (List.mem_map_of_mem hop))
    rw [dual hc, Finset.sum_eq_single c] at this
    · simpa using this
    · intro b _ hb
      simp [Pi.single_eq_of_ne hb]
    · intro h'
      exact absurd (Finset.mem_range.2 hcl) h'

/-- C72: the reduced matrix is the derivative of the reduced residual: for a residual
`A u - b` a change `d` of the reduced DOFs changes the reduced residual by `Tᵀ A T d`. -/
theorem C72_reduced_tangent (hc : Consistent nDof ops) (A : ℕ → ℕ → K) (b w d : ℕ → K) (c : ℕ) :
    reducedResidual nDof ops (fun r => ∑ s ∈ Finset.range nDof.sum,
        A r s * expand nDof ops (fun x => w x + d x) s - b r) c
      = reducedResidual nDof ops (fun r => ∑ s ∈ Finset.range nDof.sum,
          A r s * expand nDof ops w s - b r) c
        + ∑ e ∈ Finset.range (nActiveTotal nDof ops), reducedMatrix nDof ops A c e * d e := by
  have h1 : ∀ w r, app (globalTrip nDof ops) w r
      = ∑ c ∈ Finset.range (nActiveTotal nDof ops), ent (globalTrip nDof ops) r c * w c :=
    fun w r => app_eq_sum _ w r _ (fun t ht => (globalTrip_bounds hc ht).2)
  have h2 : ∀ res c, reducedResidual nDof ops res c
      = ∑ r ∈ Finset.range nDof.sum, ent (globalTrip nDof ops) r c * res r :=
    fun res c => appT_eq_sum _ res c _ (fun t ht => (globalTrip_bounds hc ht).1)
  have h3 : ∀ s, expand nDof ops (fun x => w x + d x) s
      = expand nDof ops w s
        + ∑ e ∈ Finset.range (nActiveTotal nDof ops), ent (globalTrip nDof ops) s e * d e := by
    intro s
    unfold expand
    rw [h1, h1]
    simp only [mul_add, Finset.sum_add_distrib]
    ring
  simp only [h2, h3, reducedMatrix]
  have h4 : ∀ r, (∑ s ∈ Finset.range nDof.sum, A r s * (expand nDof ops w s
        + ∑ e ∈ Finset.range (nActiveTotal nDof ops), ent (globalTrip nDof ops) s e * d e) - b r)
      = (∑ s ∈ Finset.range nDof.sum, A r s * expand nDof ops w s - b r)
        + ∑ s ∈ Finset.range nDof.sum, ∑ e ∈ Finset.range (nActiveTotal nDof ops),
          A r s * (ent (globalTrip nDof ops) s e * d e) := by
    intro r
    simp only [mul_add, Finset.sum_add_distrib, Finset.mul_sum]
    ring
  simp only [h4]
  simp only [mul_add, Finset.sum_add_distrib]
  congr 1
  simp only [Finset.mul_sum, Finset.sum_mul]
  rw [Finset.sum_comm (s := Finset.range (nActiveTotal nDof ops))]
  refine Finset.sum_congr rfl fun r _ => ?_
  rw [Finset.sum_comm (s := Finset.range (nActiveTotal nDof ops))]
  refine Finset.sum_congr rfl fun s _ => Finset.sum_congr rfl fun e _ => ?_
  ring

end Verif.Lcbc
