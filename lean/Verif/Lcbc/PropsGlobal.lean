import Verif.Lcbc.LemmasGlobal
import Mathlib.Data.List.GetD

set_option linter.unusedSectionVars false

namespace Verif.Lcbc

variable {K : Type*}

section
variable [Semiring K] {nDof : List ℕ} {ops : List (Op K)}

/-- The number of the column holding the free DOF `i` of variable `v`: the start of the
block of the variable plus the number of smaller unconstrained DOFs. -/
def freeCol (nDof : List ℕ) (ops : List (Op K)) (v i : ℕ) : ℕ :=
  lcoff nDof ops v + ss (freeLoc nDof ops v) i

theorem app_freeTrip_con (hc : Consistent nDof ops) (w : ℕ → K) {v i : ℕ}
    (hi : i < nDof.getD v 0) (h : IsConstrained ops v i) :
    app (freeTrip nDof ops) w (aoff nDof v + i) = 0 := by
  apply app_eq_zero
  intro t ht e
  rw [freeTrip_eq hc] at ht
  obtain ⟨a, ha, ht⟩ := List.mem_flatMap.1 ht
  obtain ⟨k, hk, rfl⟩ := List.mem_map.1 ht
  have hl := (freeLoc_length hc a).1
  have hk' : k < (freeLoc nDof ops a).length := by rw [hl]; exact List.mem_range.1 hk
  have hm : (freeLoc nDof ops a).getD k 0 ∈ freeLoc nDof ops a := by
    rw [List.getD_eq_getElem _ _ hk']; exact List.getElem_mem hk'
  have hm' := (mem_freeLoc hc).1 hm
  have := off_inj (nDofOf nDof) (a := a) (b := v) hm'.1 hi e
  rw [this.2, this.1] at hm'
  exact hm'.2 h

theorem app_freeTrip_free (hc : Consistent nDof ops) (w : ℕ → K) {v i : ℕ}
    (hv : v < nDof.length) (hi : i < nDof.getD v 0) (h : ¬ IsConstrained ops v i) :
    app (freeTrip nDof ops) w (aoff nDof v + i) = w (freeCol nDof ops v i) := by
  have hF := (mem_freeLoc hc).2 ⟨hi, h⟩
  have hs := ss_mem _ (freeLoc_sorted nDof ops v) i hF
  rw [freeTrip_eq hc, app_flatMap, sum_map_range_single _ v _ hv]
  · unfold app
    rw [List.map_map, sum_map_range_single _ (ss (freeLoc nDof ops v) i)]
    · simp [List.getD_eq_getElem?_getD, hs.1, freeCol]
    · rw [← (freeLoc_length hc v).1]; exact hs.2
    · intro k hk hne
      rw [← (freeLoc_length hc v).1] at hk
      have hm : (freeLoc nDof ops v)[k] ≠ i := by
        intro e
        apply hne
        rw [← e, ss_getElem _ (freeLoc_sorted nDof ops v) k hk]
      simp [hk, hm]
  · intro a ha hne
    apply app_eq_zero
    intro t ht e
    obtain ⟨k, hk, rfl⟩ := List.mem_map.1 ht
    have hl := (freeLoc_length hc a).1
    have hk' : k < (freeLoc nDof ops a).length := by rw [hl]; exact List.mem_range.1 hk
    have hm : (freeLoc nDof ops a).getD k 0 ∈ freeLoc nDof ops a := by
      rw [List.getD_eq_getElem _ _ hk']; exact List.getElem_mem hk'
    have hm' := (mem_freeLoc hc).1 hm
    exact hne (off_inj (nDofOf nDof) (a := a) (b := v) hm'.1 hi e).1

/-- The rows of the triples of an operator are its constrained DOFs. -/
theorem opTrip_row (hc : Consistent nDof ops) {ii : ℕ} {op : Op K} (hop : op ∈ ops)
    {t : ℕ × ℕ × K} (ht : t ∈ opTrip nDof ops ii op) :
    ∃ i ∈ op.ameq, t.1 = aoff nDof op.rvar + i := by
  unfold opTrip at ht
  cases hcv : op.cvar with
  | none =>
    rw [hcv] at ht
    obtain ⟨t', ht', rfl⟩ := List.mem_map.1 ht
    have := (hc.reduction op hop hcv t' ht').1
    exact ⟨op.ameq.getD t'.1 0, by rw [List.getD_eq_getElem _ _ this]; exact List.getElem_mem _, rfl⟩
  | some c =>
    rw [hcv] at ht
    obtain ⟨t', ht', rfl⟩ := List.mem_map.1 ht
    exact ⟨t'.1, ((hc.tie op hop c hcv).2.2 t' ht').1, rfl⟩

theorem unique_op (hc : Consistent nDof ops) {ii jj : ℕ} {a b : Op K} (ha : ops[ii]? = some a)
    (hb : ops[jj]? = some b) {i : ℕ} (hv : a.rvar = b.rvar) (h1 : i ∈ a.ameq) (h2 : i ∈ b.ameq) :
    ii = jj := by
  obtain ⟨hi, rfl⟩ := List.getElem?_eq_some_iff.1 ha
  obtain ⟨hj, rfl⟩ := List.getElem?_eq_some_iff.1 hb
  have hp := List.pairwise_iff_getElem.1 hc.once
  rcases Nat.lt_trichotomy ii jj with h | h | h
  · exact absurd h2 (hp ii jj hi hj h hv i h1)
  · exact h
  · exact absurd h1 (hp jj ii hj hi h hv.symm i h2)

/-- In a row of a free DOF only the copying part contributes. -/
theorem expand_free (hc : Consistent nDof ops) (w : ℕ → K) {v i : ℕ}
    (hv : v < nDof.length) (hi : i < nDof.getD v 0) (h : ¬ IsConstrained ops v i) :
    expand nDof ops w (aoff nDof v + i) = w (freeCol nDof ops v i) := by
  unfold expand globalTrip
  rw [app_append, app_freeTrip_free hc w hv hi h, app_flatMap, sum_map_range_zero, zero_add]
  · have : globalVec nDof ops (aoff nDof v + i) = 0 := by
      apply List.sum_eq_zero
      intro x hx
      obtain ⟨op, hop, rfl⟩ := List.mem_map.1 hx
      unfold opVec
      cases op.rhs with
      | none => rfl
      | some b =>
        apply sum_map_range_zero
        intro k hk
        rw [if_neg]
        intro e
        rw [List.getD_eq_getElem _ _ hk] at e
        have hm := List.getElem_mem hk
        have := off_inj (nDofOf nDof) (a := op.rvar) (b := v) (hc.ameq_lt op hop _ hm) hi e
        exact h ⟨op, hop, this.1, this.2 ▸ hm⟩
    rw [this, add_zero]
  · intro ii hii
    have e : ops[ii]? = some ops[ii] := by simp [hii]
    rw [e]
    apply app_eq_zero
    intro t ht e
    obtain ⟨j, hj, e'⟩ := opTrip_row hc (List.getElem_mem hii) ht
    rw [e'] at e
    have := off_inj (nDofOf nDof) (a := ops[ii].rvar) (b := v)
      (hc.ameq_lt _ (List.getElem_mem hii) _ hj) hi e
    exact h ⟨_, List.getElem_mem hii, this.1, this.2 ▸ hj⟩

/-- In a row constrained by operator `ii` only that operator contributes. -/
theorem expand_con (hc : Consistent nDof ops) (w : ℕ → K) {ii k i : ℕ} {op : Op K}
    (hop : ops[ii]? = some op) (hk : op.ameq[k]? = some i) :
    expand nDof ops w (aoff nDof op.rvar + i)
      = app (opTrip nDof ops ii op) w (aoff nDof op.rvar + i) + op.rhsAt k := by
  obtain ⟨hii, e⟩ := List.getElem?_eq_some_iff.1 hop
  obtain ⟨hkl, ek⟩ := List.getElem?_eq_some_iff.1 hk
  have hopm : op ∈ ops := e ▸ List.getElem_mem hii
  have him : i ∈ op.ameq := ek ▸ List.getElem_mem hkl
  have hi := hc.ameq_lt op hopm i him
  unfold expand globalTrip
  rw [app_append, app_freeTrip_con hc w hi ⟨op, hopm, rfl, him⟩, add_zero, app_flatMap,
    sum_map_range_single _ ii _ hii]
  · rw [hop]
    congr 1
    have : globalVec nDof ops (aoff nDof op.rvar + i)
        = ((List.range ops.length).map fun j => match ops[j]? with
            | some o => opVec nDof o (aoff nDof op.rvar + i) | none => 0).sum := by
      unfold globalVec
      congr 1
      apply List.ext_getElem
      · simp
      · intro j h1 h2
        simp at h1
        simp [h1]
    rw [this, sum_map_range_single _ ii _ hii]
    · rw [hop]
      simp only [opVec, Op.rhsAt]
      cases hrh : op.rhs with
      | none => rfl
      | some b =>
        simp only
        rw [sum_map_range_single _ k _ hkl]
        · rw [if_pos]
          rw [List.getD_eq_getElem _ _ hkl, ek]
        · intro j hj hne
          rw [if_neg]
          intro e'
          rw [List.getD_eq_getElem _ _ hj] at e'
          apply hne
          have := (List.Nodup.getElem_inj_iff (hc.nodup op hopm) (hi := hj) (hj := hkl)).1
            (by rw [ek]; omega)
          exact this
    · intro j hj hne
      have ej : ops[j]? = some ops[j] := by simp [hj]
      rw [ej]
      unfold opVec
      cases hr : ops[j].rhs with
      | none => simp [hr]
      | some b =>
        simp only [hr]
        apply sum_map_range_zero
        intro m hm
        rw [if_neg]
        intro e'
        rw [List.getD_eq_getElem _ _ hm] at e'
        have hmm := List.getElem_mem hm
        have := off_inj (nDofOf nDof) (a := ops[j].rvar) (b := op.rvar)
          (hc.ameq_lt _ (List.getElem_mem hj) _ hmm) hi e'
        exact hne (unique_op hc ej hop this.1 hmm (this.2 ▸ him))
  · intro j hj hne
    have ej : ops[j]? = some ops[j] := by simp [hj]
    rw [ej]
    apply app_eq_zero
    intro t ht e'
    obtain ⟨m, hm, e''⟩ := opTrip_row hc (List.getElem_mem hj) ht
    rw [e''] at e'
    have := off_inj (nDofOf nDof) (a := ops[j].rvar) (b := op.rvar)
      (hc.ameq_lt _ (List.getElem_mem hj) _ hm) hi e'
    exact hne (unique_op hc ej hop this.1 hm (this.2 ▸ him))

/-- C72: a DOF of no condition is copied from its own column. -/
theorem C72_free_copied (hc : Consistent nDof ops) (w : ℕ → K) (v i : ℕ)
    (hv : v < nDof.length) (hi : i < nDof.getD v 0) (h : ¬ IsConstrained ops v i) :
    dofVal nDof (expand nDof ops w) v i = w (freeCol nDof ops v i) := by
  rw [dofVal_eq]; exact expand_free hc w hv hi h

/-- C72: the DOFs of a model-reduction condition are `M q + b` where `q` are the reduced
DOFs in the columns of that condition. -/
theorem C72_reduction_values (hc : Consistent nDof ops) (w : ℕ → K) (ii : ℕ) (op : Op K)
    (hop : ops[ii]? = some op) (hcv : op.cvar = none) (k i : ℕ) (hk : op.ameq[k]? = some i) :
    dofVal nDof (expand nDof ops w) op.rvar i
      = app op.mtx (fun c => w (newCol nDof ops op.rvar ii + c)) k + op.rhsAt k := by
  obtain ⟨hii, e⟩ := List.getElem?_eq_some_iff.1 hop
  obtain ⟨hkl, ek⟩ := List.getElem?_eq_some_iff.1 hk
  have hopm : op ∈ ops := e ▸ List.getElem_mem hii
  rw [dofVal_eq, expand_con hc w hop hk]
  congr 1
  unfold opTrip
  rw [hcv]
  apply app_map op.mtx (fun r => aoff nDof op.rvar + op.ameq.getD r 0)
    (fun c => newCol nDof ops op.rvar ii + c)
  · intro t ht
    have h1 := (hc.reduction op hopm hcv t ht).1
    rw [List.getD_eq_getElem _ _ h1, ← ek, Nat.add_left_cancel_iff]
    exact List.Nodup.getElem_inj_iff (hc.nodup op hopm)
  · intros; rfl

/-- C72: the DOFs of a tying condition are `M s + b` where `s` are the *resulting* values
of the DOFs of the other variable. -/
theorem C72_tie_values (hc : Consistent nDof ops) (w : ℕ → K) (op : Op K)
    (hopm : op ∈ ops) (c : ℕ) (hcv : op.cvar = some c) (k i : ℕ) (hk : op.ameq[k]? = some i) :
    dofVal nDof (expand nDof ops w) op.rvar i
      = app op.mtx (fun j => dofVal nDof (expand nDof ops w) c j) i + op.rhsAt k := by
  obtain ⟨ii, hii, e⟩ := List.mem_iff_getElem.1 hopm
  have hop : ops[ii]? = some op := by simp [hii, e]
  rw [dofVal_eq, expand_con hc w hop hk]
  congr 1
  unfold opTrip
  rw [hcv]
  apply app_map op.mtx (fun r => aoff nDof op.rvar + r)
    (fun j => lcoff nDof ops c + ss (freeLoc nDof ops c) j)
  · intro t ht; omega
  · intro t ht _
    have h := hc.tie op hopm c hcv
    have h3 := h.2.2 t ht
    have := C72_free_copied hc w c t.2.1 h.2.1 h3.2.1 h3.2.2
    rw [this]
    rfl

/-! ## Columns -/

theorem freeCol_lt (hc : Consistent nDof ops) {v i : ℕ} (hi : i < nDof.getD v 0)
    (h : ¬ IsConstrained ops v i) : ss (freeLoc nDof ops v) i < nFree nDof ops v := by
  rw [← (freeLoc_length hc v).1]
  exact (ss_mem _ (freeLoc_sorted nDof ops v) i ((mem_freeLoc hc).2 ⟨hi, h⟩)).2

theorem newCol_eq {ii : ℕ} {op : Op K} (hop : ops[ii]? = some op) :
    newCol nDof ops op.rvar ii = lcoff nDof ops op.rvar + nFree nDof ops op.rvar
      + off (newAt ops op.rvar) ii := by
  obtain ⟨hii, e⟩ := List.getElem?_eq_some_iff.1 hop
  rw [newCol, icol_eq ops op.rvar ii (by omega)]

theorem newAt_self {ii : ℕ} {op : Op K} (hop : ops[ii]? = some op) :
    newAt ops op.rvar ii = op.nNew := by simp [newAt, hop]

theorem newCol_lt {ii c : ℕ} {op : Op K} (hop : ops[ii]? = some op) (hcl : c < op.nNew) :
    off (newAt ops op.rvar) ii + c < nNewOf ops op.rvar := by
  obtain ⟨hii, e⟩ := List.getElem?_eq_some_iff.1 hop
  rw [nNewOf_eq]
  exact off_lt _ hii (by rw [newAt_self hop]; exact hcl)

/-- C72: every column belongs to a free DOF or to a new DOF of one of the conditions. -/
theorem C72_columns_cover (hc : Consistent nDof ops) (x : ℕ) (hx : x < nActiveTotal nDof ops) :
    (∃ v < nDof.length, ∃ i < nDof.getD v 0, ¬ IsConstrained ops v i ∧ x = freeCol nDof ops v i) ∨
    (∃ (ii : ℕ) (op : Op K) (c : ℕ), ops[ii]? = some op ∧ c < op.nNew ∧
      x = newCol nDof ops op.rvar ii + c) := by
  obtain ⟨v, hv, k, hk, rfl⟩ := off_surj _ _ _ hx
  rcases Nat.lt_or_ge k (nFree nDof ops v) with h | h
  · left
    have hl := (freeLoc_length hc v).1
    rw [← hl] at h
    have hm := (mem_freeLoc hc).1 (List.getElem_mem h)
    refine ⟨v, hv, _, hm.1, hm.2, ?_⟩
    rw [freeCol, ss_getElem _ (freeLoc_sorted nDof ops v) k h]
    rfl
  · right
    have hk' : k - nFree nDof ops v < nNewOf ops v := by unfold nActive at hk; omega
    rw [nNewOf_eq] at hk'
    obtain ⟨ii, hii, c, hcl, e⟩ := off_surj _ _ _ hk'
    have hop : ops[ii]? = some ops[ii] := by simp [hii]
    have hrv : ops[ii].rvar = v := by
      by_contra hne
      simp [newAt, hop, hne] at hcl
    refine ⟨ii, ops[ii], c, hop, ?_, ?_⟩
    · have := newAt_self hop
      rw [hrv] at this
      omega
    · rw [newCol_eq hop, hrv]
      unfold lcoff
      omega

/-- C72: the columns of different free DOFs are different. -/
theorem C72_free_columns_distinct (hc : Consistent nDof ops) (v v' i i' : ℕ)
    (hi : i < nDof.getD v 0) (hi' : i' < nDof.getD v' 0) (h : ¬ IsConstrained ops v i)
    (h' : ¬ IsConstrained ops v' i') (e : freeCol nDof ops v i = freeCol nDof ops v' i') :
    v = v' ∧ i = i' := by
  have l1 := freeCol_lt hc hi h
  have l2 := freeCol_lt hc hi' h'
  have := off_inj (nActive nDof ops) (a := v) (b := v') (by unfold nActive; omega)
    (by unfold nActive; omega) e
  obtain ⟨rfl, e2⟩ := this
  refine ⟨rfl, ?_⟩
  have m1 := (ss_mem _ (freeLoc_sorted nDof ops v) i ((mem_freeLoc hc).2 ⟨hi, h⟩)).1
  have m2 := (ss_mem _ (freeLoc_sorted nDof ops v) i' ((mem_freeLoc hc).2 ⟨hi', h'⟩)).1
  rw [e2, m2] at m1
  exact (Option.some.inj m1).symm

/-- C72: the columns of different new DOFs are different. -/
theorem C72_new_columns_distinct (ii ii' c c' : ℕ) (op op' : Op K)
    (hop : ops[ii]? = some op) (hop' : ops[ii']? = some op') (hcl : c < op.nNew)
    (hcl' : c' < op'.nNew)
    (e : newCol nDof ops op.rvar ii + c = newCol nDof ops op'.rvar ii' + c') :
    ii = ii' ∧ c = c' := by
  have l1 := newCol_lt hop hcl
  have l2 := newCol_lt hop' hcl'
  rw [newCol_eq hop, newCol_eq hop'] at e
  have h := off_inj (nActive nDof ops) (a := op.rvar) (b := op'.rvar)
    (i := nFree nDof ops op.rvar + (off (newAt ops op.rvar) ii + c))
    (j := nFree nDof ops op'.rvar + (off (newAt ops op'.rvar) ii' + c'))
    (by unfold nActive; omega) (by unfold nActive; omega)
    (by unfold lcoff at e; omega)
  have hr := h.1
  rw [← hr] at h
  refine off_inj (newAt ops op.rvar) (by rw [newAt_self hop]; exact hcl) ?_ (by omega)
  rw [hr, newAt_self hop']; exact hcl'

/-- C72: no column is shared by a free and a new DOF. -/
theorem C72_free_new_disjoint (hc : Consistent nDof ops) (v i ii c : ℕ) (op : Op K)
    (hi : i < nDof.getD v 0) (h : ¬ IsConstrained ops v i)
    (hop : ops[ii]? = some op) (hcl : c < op.nNew) :
    freeCol nDof ops v i ≠ newCol nDof ops op.rvar ii + c := by
  intro e
  have l1 := freeCol_lt hc hi h
  have l2 := newCol_lt hop hcl
  rw [newCol_eq hop] at e
  have h := off_inj (nActive nDof ops) (a := v) (b := op.rvar)
    (i := ss (freeLoc nDof ops v) i)
    (j := nFree nDof ops op.rvar + (off (newAt ops op.rvar) ii + c))
    (by unfold nActive; omega) (by unfold nActive; omega)
    (by unfold freeCol lcoff at e; omega)
  obtain ⟨h1, h2⟩ := h
  rw [h1] at l1 h2
  omega

end

section
variable [Ring K] {nDof : List ℕ} {ops : List (Op K)}

theorem holds_congr {u u' : ℕ → K} (hc : Consistent nDof ops)
    (h : ∀ r < nDof.sum, u r = u' r) (op : Op K) (hop : op ∈ ops) (hh : Holds nDof u op) :
    Holds nDof u' op := by
  have hs : ∀ v < nDof.length, ∀ i < nDof.getD v 0, dofVal nDof u v i = dofVal nDof u' v i := by
    intro v hv i hi
    rw [dofVal_eq, dofVal_eq]
    apply h
    have := off_lt (nDofOf nDof) hv hi
    have e := aoff_eq nDof nDof.length
    rw [List.take_length] at e
    rw [← e]
    exact this
  unfold Holds at hh ⊢
  cases hcv : op.cvar with
  | none =>
    rw [hcv] at hh
    obtain ⟨q, hq⟩ := hh
    refine ⟨q, fun k i hk => ?_⟩
    have him := List.mem_of_getElem? hk
    rw [← hs _ (hc.rvar_lt op hop) _ (hc.ameq_lt op hop i him)]
    exact hq k i hk
  | some c =>
    rw [hcv] at hh
    intro k i hk
    have him := List.mem_of_getElem? hk
    rw [← hs _ (hc.rvar_lt op hop) _ (hc.ameq_lt op hop i him), hh k i hk]
    congr 1
    apply app_congr
    intro t ht _
    have := hc.tie op hop c hcv
    exact hs c this.2.1 _ (this.2.2 t ht).2.1

/-- C72: the vectors of active DOFs representable by the reduced DOFs are exactly those
satisfying all the conditions. -/
theorem C72_range_is_constraint_set (hc : Consistent nDof ops) (u : ℕ → K) :
    (∃ w : ℕ → K, ∀ r < nDof.sum, u r = expand nDof ops w r) ↔ ∀ op ∈ ops, Holds nDof u op := by
  classical
  constructor
  · rintro ⟨w, hw⟩ op hop
    apply holds_congr hc (u := expand nDof ops w) (fun r hr => (hw r hr).symm) op hop
    obtain ⟨ii, hii, e⟩ := List.mem_iff_getElem.1 hop
    have hop' : ops[ii]? = some op := by simp [hii, e]
    unfold Holds
    cases hcv : op.cvar with
    | none =>
      exact ⟨_, fun k i hk => C72_reduction_values hc w ii op hop' hcv k i hk⟩
    | some c =>
      exact fun k i hk => C72_tie_values hc w op hop c hcv k i hk
  · intro hh
    have hq : ∀ op : Op K, ∃ q : ℕ → K, op ∈ ops → op.cvar = none →
        ∀ (k i : ℕ), op.ameq[k]? = some i →
          dofVal nDof u op.rvar i = app op.mtx q k + op.rhsAt k := by
      intro op
      by_cases hop : op ∈ ops ∧ op.cvar = none
      · have := hh op hop.1
        unfold Holds at this
        rw [hop.2] at this
        obtain ⟨q, hq⟩ := this
        exact ⟨q, fun _ _ => hq⟩
      · exact ⟨fun _ => 0, fun h1 h2 => absurd ⟨h1, h2⟩ hop⟩
    choose q hq using hq
    let w : ℕ → K := fun x =>
      if h : ∃ v i, i < nDof.getD v 0 ∧ ¬ IsConstrained ops v i ∧ x = freeCol nDof ops v i then
        dofVal nDof u h.choose h.choose_spec.choose
      else if h : ∃ (ii : ℕ) (op : Op K) (c : ℕ), ops[ii]? = some op ∧ c < op.nNew ∧
          x = newCol nDof ops op.rvar ii + c then
        q h.choose_spec.choose h.choose_spec.choose_spec.choose
      else 0
    have w1 : ∀ v i, i < nDof.getD v 0 → ¬ IsConstrained ops v i →
        w (freeCol nDof ops v i) = dofVal nDof u v i := by
      intro v i hi h
      have hex : ∃ v' i', i' < nDof.getD v' 0 ∧ ¬ IsConstrained ops v' i' ∧
          freeCol nDof ops v i = freeCol nDof ops v' i' := ⟨v, i, hi, h, rfl⟩
      simp only [w, dif_pos hex]
      have hs := hex.choose_spec.choose_spec
      have := C72_free_columns_distinct hc v _ i _ hi hs.1 h hs.2.1 hs.2.2
      exact (congrArg₂ (dofVal nDof u) this.1 this.2).symm
    have w2 : ∀ (ii : ℕ) (op : Op K) (c : ℕ), ops[ii]? = some op → c < op.nNew →
        w (newCol nDof ops op.rvar ii + c) = q op c := by
      intro ii op c hop hcl
      have hnf : ¬ ∃ v' i', i' < nDof.getD v' 0 ∧ ¬ IsConstrained ops v' i' ∧
          newCol nDof ops op.rvar ii + c = freeCol nDof ops v' i' := by
        rintro ⟨v', i', h1, h2, h3⟩
        exact C72_free_new_disjoint hc v' i' ii c op h1 h2 hop hcl h3.symm
      have hex : ∃ (ii' : ℕ) (op' : Op K) (c' : ℕ), ops[ii']? = some op' ∧ c' < op'.nNew ∧
          newCol nDof ops op.rvar ii + c = newCol nDof ops op'.rvar ii' + c' :=
        ⟨ii, op, c, hop, hcl, rfl⟩
      simp only [w, dif_neg hnf, dif_pos hex]
      have hs := hex.choose_spec.choose_spec.choose_spec
      have := C72_new_columns_distinct ii _ c _ op _ hop hs.1 hcl hs.2.1 hs.2.2
      have hopeq : hex.choose_spec.choose = op := by
        have h1 := (congrArg (fun z => ops[z]?) this.1).trans hs.1
        exact (Option.some.inj (hop.symm.trans h1)).symm
      exact congrArg₂ q hopeq this.2.symm
    refine ⟨w, ?_⟩
    have e := aoff_eq nDof nDof.length
    rw [List.take_length] at e
    have key : ∀ v < nDof.length, ∀ i < nDof.getD v 0,
        dofVal nDof u v i = dofVal nDof (expand nDof ops w) v i := by
      have keyf : ∀ v < nDof.length, ∀ i < nDof.getD v 0, ¬ IsConstrained ops v i →
          dofVal nDof u v i = dofVal nDof (expand nDof ops w) v i := by
        intro v hv i hi h
        rw [C72_free_copied hc w v i hv hi h, w1 v i hi h]
      intro v hv i hi
      by_cases h : IsConstrained ops v i
      · obtain ⟨op, hop, rfl, him⟩ := h
        obtain ⟨ii, hii, e⟩ := List.mem_iff_getElem.1 hop
        have hop' : ops[ii]? = some op := by simp [hii, e]
        obtain ⟨k, hk, ek⟩ := List.mem_iff_getElem.1 him
        have hk' : op.ameq[k]? = some i := by simp [hk, ek]
        cases hcv : op.cvar with
        | none =>
          rw [C72_reduction_values hc w ii op hop' hcv k i hk', hq op hop hcv k i hk']
          congr 1
          apply app_congr
          intro t ht _
          exact (w2 ii op _ hop' (hc.reduction op hop hcv t ht).2).symm
        | some c =>
          rw [C72_tie_values hc w op hop c hcv k i hk']
          have := hh op hop
          unfold Holds at this
          rw [hcv] at this
          rw [this k i hk']
          congr 1
          apply app_congr
          intro t ht _
          have ht' := hc.tie op hop c hcv
          have ht3 := ht'.2.2 t ht
          exact keyf c ht'.2.1 _ ht3.2.1 ht3.2.2
      · exact keyf v hv i hi h
    intro r hr
    rw [← e] at hr
    obtain ⟨v, hv, i, hi, rfl⟩ := off_surj _ _ _ hr
    have := key v hv i hi
    rw [dofVal_eq, dofVal_eq] at this
    exact this

/-- C72: when the matrices of the model-reduction operators have independent columns, the
reduced DOFs are determined by the active ones: no spurious zero column makes the reduced
system singular. -/
theorem C72_injective (hc : Consistent nDof ops)
    (hinj : ∀ op ∈ ops, op.cvar = none → ∀ q q' : ℕ → K,
      (∀ k < op.ameq.length, app op.mtx q k = app op.mtx q' k) → ∀ c < op.nNew, q c = q' c)
    (w w' : ℕ → K) (h : ∀ r < nDof.sum, expand nDof ops w r = expand nDof ops w' r)
    (x : ℕ) (hx : x < nActiveTotal nDof ops) : w x = w' x := by
  have e := aoff_eq nDof nDof.length
  rw [List.take_length] at e
  have hd : ∀ v < nDof.length, ∀ i < nDof.getD v 0,
      dofVal nDof (expand nDof ops w) v i = dofVal nDof (expand nDof ops w') v i := by
    intro v hv i hi
    rw [dofVal_eq, dofVal_eq]
    apply h
    rw [← e]
    exact off_lt (nDofOf nDof) hv hi
  rcases C72_columns_cover hc x hx with ⟨v, hv, i, hi, hf, rfl⟩ | ⟨ii, op, c, hop, hcl, rfl⟩
  · have := hd v hv i hi
    rwa [C72_free_copied hc w v i hv hi hf, C72_free_copied hc w' v i hv hi hf] at this
  · obtain ⟨hii, eo⟩ := List.getElem?_eq_some_iff.1 hop
    have hopm : op ∈ ops := eo ▸ List.getElem_mem hii
    cases hcv : op.cvar with
    | some c' => rw [(hc.tie op hopm c' hcv).1] at hcl; omega
    | none =>
      refine hinj op hopm hcv (fun c => w (newCol nDof ops op.rvar ii + c))
        (fun c => w' (newCol nDof ops op.rvar ii + c)) ?_ c hcl
      intro k hk
      have hk' : op.ameq[k]? = some op.ameq[k] := by simp [hk]
      have := hd op.rvar (hc.rvar_lt op hopm) op.ameq[k]
        (hc.ameq_lt op hopm _ (List.getElem_mem hk))
      rw [C72_reduction_values hc w ii op hop hcv k _ hk',
        C72_reduction_values hc w' ii op hop hcv k _ hk'] at this
      exact add_right_cancel this

end

end Verif.Lcbc
