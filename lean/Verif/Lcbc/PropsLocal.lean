import Verif.Lcbc.Local
import Verif.Lcbc.PropsRigid
import Mathlib.Algebra.Order.Group.Abs
import Mathlib.Tactic.FieldSimp
import Mathlib.Data.List.GetD
import Mathlib.Tactic.Positivity

set_option linter.unusedSectionVars false

namespace Verif.Lcbc

variable {K : Type*}

/-! ## No penetration -/

section
variable [Field K] [LinearOrder K] [IsStrictOrderedRing K]

theorem foldl_argmax {d : ℕ} (n : Fin (d + 1) → K) (l : List (Fin (d + 1))) (b : Fin (d + 1)) :
    |n b| ≤ |n (l.foldl (fun best i => if |n best| < |n i| then i else best) b)| ∧
    ∀ i ∈ l, |n i| ≤ |n (l.foldl (fun best i => if |n best| < |n i| then i else best) b)| := by
  induction l generalizing b with
  | nil => simp
  | cons a l ih =>
    rw [List.foldl_cons]
    have h := ih (if |n b| < |n a| then a else b)
    by_cases hlt : |n b| < |n a|
    · rw [if_pos hlt] at h ⊢
      refine ⟨hlt.le.trans h.1, ?_⟩
      intro i hi
      rcases List.mem_cons.1 hi with rfl | hi
      · exact h.1
      · exact h.2 i hi
    · rw [if_neg hlt] at h ⊢
      refine ⟨h.1, ?_⟩
      intro i hi
      rcases List.mem_cons.1 hi with rfl | hi
      · exact (not_lt.1 hlt).trans h.1
      · exact h.2 i hi

/-- C71: the eliminated component is one with the largest normal component. -/
theorem C71_noPen_pivot_max {d : ℕ} (n : Fin (d + 1) → K) (i : Fin (d + 1)) :
    |n i| ≤ |n (argmaxAbs n)| := (foldl_argmax n _ 0).2 i (List.mem_finRange i)

theorem pivot_ne_zero {d : ℕ} (n : Fin (d + 1) → K) (h : n ≠ 0) : n (argmaxAbs n) ≠ 0 := by
  intro h0
  apply h
  funext i
  have := C71_noPen_pivot_max n i
  rw [h0, abs_zero] at this
  exact abs_eq_zero.1 (le_antisymm this (abs_nonneg _))

theorem block_inj {D c c' a a' : ℕ} (ha : a < D) (ha' : a' < D) (h : D * c + a = D * c' + a') :
    c = c' ∧ a = a' := by
  have h1 : (D * c + a) / D = c := by
    rw [Nat.mul_add_div (by omega), Nat.div_eq_of_lt ha]; simp
  have h2 : (D * c' + a') / D = c' := by
    rw [Nat.mul_add_div (by omega), Nat.div_eq_of_lt ha']; simp
  have : c = c' := by rw [← h1, ← h2, h]
  subst this
  exact ⟨rfl, by omega⟩

/-- One group of triples, one for each node of `ic`. -/
theorem app_group {R : Type*} [Semiring R] {D : ℕ} (ic : List ℕ) (hnd : ic.Nodup) (a : ℕ)
    (ha : a < D) (f : ℕ → ℕ) (g : ℕ → R) (q : ℕ → R) (c j : ℕ) (hj : j < D) :
    app (ic.map fun c' => (D * c' + a, f c', g c')) q (D * c + j)
      = if c ∈ ic ∧ a = j then g c * q (f c) else 0 := by
  induction ic with
  | nil => simp [app]
  | cons x ic ih =>
    rw [List.nodup_cons] at hnd
    rw [List.map_cons, app_cons, ih hnd.2]
    by_cases hx : D * x + a = D * c + j
    · have := block_inj ha hj hx
      obtain ⟨rfl, rfl⟩ := this
      simp [hnd.1]
    · rw [if_neg hx, zero_add]
      by_cases hc : c ∈ ic ∧ a = j
      · rw [if_pos hc, if_pos ⟨List.mem_cons_of_mem _ hc.1, hc.2⟩]
      · rw [if_neg hc, if_neg]
        rintro ⟨h1, rfl⟩
        rcases List.mem_cons.1 h1 with rfl | h1
        · exact hx rfl
        · exact hc ⟨h1, rfl⟩

theorem others_nodup (d : ℕ) (p : Fin (d + 1)) : (others d p).Nodup :=
  (List.nodup_finRange _).filter _

theorem mem_others {d : ℕ} {p i : Fin (d + 1)} : i ∈ others d p ↔ i ≠ p := by simp [others]

theorem others_length (d : ℕ) (p : Fin (d + 1)) : (others d p).length = d := by
  have h1 : (others d p).toFinset = Finset.univ.erase p := by
    ext i; simp [others]
  have h2 := List.toFinset_card_of_nodup (others_nodup d p)
  rw [h1, Finset.card_erase_of_mem (Finset.mem_univ _), Finset.card_univ, Fintype.card_fin] at h2
  omega

theorem zipIdx_idxOf {α : Type*} [DecidableEq α] (l : List α) (h : l.Nodup) :
    l.zipIdx = l.map fun a => (a, l.idxOf a) := by
  apply List.ext_getElem
  · simp
  · intro k h1 h2
    simp at h1
    simp [h.idxOf_getElem k h1]

theorem sum_others {d : ℕ} (p : Fin (d + 1)) (f : Fin (d + 1) → K) :
    ((others d p).map f).sum = ∑ i ∈ Finset.univ.erase p, f i := by
  have h1 : (others d p).toFinset = Finset.univ.erase p := by
    ext i; simp [others]
  rw [← h1, List.sum_toFinset _ (others_nodup d p)]

/-- The reduced DOF of node `c` used for the component `i`. -/
def noPenCol {d : ℕ} (normals : List (Fin (d + 1) → K)) (c : ℕ) (i : Fin (d + 1)) : ℕ :=
  d * c + (others d (argmaxAbs (normals.getD c 0))).idxOf i

/-- The values given by the no-penetration operator. -/
theorem noPen_values {d : ℕ} (normals : List (Fin (d + 1) → K)) (q : ℕ → K) (c : ℕ)
    (hcl : c < normals.length) (j : Fin (d + 1)) :
    app (noPenTrips normals) q ((d + 1) * c + j.val)
      = if j = argmaxAbs (normals.getD c 0) then
          ∑ i ∈ Finset.univ.erase j, - normals.getD c 0 i / normals.getD c 0 j
            * q (noPenCol normals c i)
        else q (noPenCol normals c j) := by
  set p := argmaxAbs (normals.getD c 0) with hp
  unfold noPenTrips
  have hsum : ∀ F : Fin (d + 1) → K, (∀ i, i ≠ p → F i = 0) →
      ((List.finRange (d + 1)).map F).sum = F p := by
    intro F hF
    rw [← List.ofFn_eq_map, List.sum_ofFn]
    exact Finset.sum_eq_single p (fun i _ hi => hF i hi) (fun h => absurd (Finset.mem_univ _) h)
  rw [app_flatMap, hsum]
  · simp only
    rw [app_append, app_flatMap, app_flatMap, zipIdx_idxOf _ (others_nodup d p)]
    have hic : c ∈ (List.range normals.length).filter
        fun c => decide (argmaxAbs (normals.getD c 0) = p) := by
      simp [hcl, hp]
    have hnd : ((List.range normals.length).filter
        fun c => decide (argmaxAbs (normals.getD c 0) = p)).Nodup := List.nodup_range.filter _
    simp only [List.map_map, Function.comp_def]
    have e1 : ∀ a : Fin (d + 1),
        app (((List.range normals.length).filter
          fun c => decide (argmaxAbs (normals.getD c 0) = p)).map fun c' =>
            ((d + 1) * c' + p.val, d * c' + (others d p).idxOf a,
              - normals.getD c' 0 a / normals.getD c' 0 p)) q ((d + 1) * c + j.val)
        = if p = j then - normals.getD c 0 a / normals.getD c 0 p * q (noPenCol normals c a)
          else 0 := by
      intro a
      have := app_group _ hnd p.val p.isLt (fun c' => d * c' + (others d p).idxOf a)
        (fun c' => - normals.getD c' 0 a / normals.getD c' 0 p) q c j.val j.isLt
      rw [this]
      by_cases h : p = j
      · rw [if_pos ⟨hic, by rw [h]⟩, if_pos h]; rfl
      · rw [if_neg (fun h' => h (Fin.ext h'.2)), if_neg h]
    have e2 : ∀ a : Fin (d + 1),
        app (((List.range normals.length).filter
          fun c => decide (argmaxAbs (normals.getD c 0) = p)).map fun c' =>
            ((d + 1) * c' + a.val, d * c' + (others d p).idxOf a, (1 : K))) q
              ((d + 1) * c + j.val)
        = if a = j then q (noPenCol normals c a) else 0 := by
      intro a
      have := app_group _ hnd a.val a.isLt (fun c' => d * c' + (others d p).idxOf a)
        (fun _ => (1 : K)) q c j.val j.isLt
      rw [this]
      by_cases h : a = j
      · rw [if_pos ⟨hic, by rw [h]⟩, if_pos h, one_mul]; rfl
      · rw [if_neg (fun h' => h (Fin.ext h'.2)), if_neg h]
    simp only [e1, e2]
    rw [sum_others, sum_others]
    by_cases hj : j = p
    · rw [hj]
      simp only [if_true]
      have : ∑ i ∈ Finset.univ.erase p, (if i = p then q (noPenCol normals c i) else 0) = 0 := by
        apply Finset.sum_eq_zero
        intro i hi
        rw [if_neg (Finset.ne_of_mem_erase hi)]
      rw [this, add_zero]
    · rw [if_neg hj]
      have h1 : ∀ i, (if p = j then - normals.getD c 0 i / normals.getD c 0 p
          * q (noPenCol normals c i) else 0) = 0 := fun i => if_neg (fun h => hj h.symm)
      simp only [h1, Finset.sum_const_zero, zero_add]
      rw [Finset.sum_eq_single j]
      · simp
      · intro b _ hb; rw [if_neg hb]
      · intro h
        exact absurd (Finset.mem_erase.2 ⟨hj, Finset.mem_univ _⟩) h
  · intro i hi
    simp only
    rw [app_append, app_flatMap, app_flatMap]
    have hic : c ∉ (List.range normals.length).filter
        fun c => decide (argmaxAbs (normals.getD c 0) = i) := by
      intro h
      have := (List.mem_filter.1 h).2
      exact hi ((of_decide_eq_true this).symm.trans hp.symm)
    have hnd : ((List.range normals.length).filter
        fun c => decide (argmaxAbs (normals.getD c 0) = i)).Nodup := List.nodup_range.filter _
    rw [List.sum_eq_zero, List.sum_eq_zero, add_zero]
    · intro x hx
      obtain ⟨a, _, rfl⟩ := List.mem_map.1 hx
      have := app_group _ hnd a.1.val a.1.isLt (fun c' => d * c' + a.2)
        (fun _ => (1 : K)) q c j.val j.isLt
      rw [this, if_neg (fun h => hic h.1)]
    · intro x hx
      obtain ⟨a, _, rfl⟩ := List.mem_map.1 hx
      have := app_group _ hnd i.val i.isLt (fun c' => d * c' + a.2)
        (fun c' => - normals.getD c' 0 a.1 / normals.getD c' 0 i) q c j.val j.isLt
      rw [this, if_neg (fun h => hic h.1)]

/-- C71: for nonzero nodal normals the no-penetration operator represents exactly the
displacements with zero normal component in every node of the region. -/
theorem C71_noPen_range {d : ℕ} (normals : List (Fin (d + 1) → K)) (hn : ∀ n ∈ normals, n ≠ 0)
    (u : ℕ → Fin (d + 1) → K) :
    (∃ q : ℕ → K, ∀ c < normals.length, ∀ j : Fin (d + 1),
        u c j = app (noPenTrips normals) q ((d + 1) * c + j.val)) ↔
      ∀ (c : ℕ) (n : Fin (d + 1) → K), normals[c]? = some n → ∑ j, n j * u c j = 0 := by
  constructor
  · rintro ⟨q, hq⟩ c n hc
    obtain ⟨hcl, e⟩ := List.getElem?_eq_some_iff.1 hc
    have hg : normals.getD c 0 = n := by rw [List.getD_eq_getElem?_getD, hc]; rfl
    have hpn : n (argmaxAbs n) ≠ 0 := pivot_ne_zero n (hn n (e ▸ List.getElem_mem hcl))
    rw [← Finset.add_sum_erase _ _ (Finset.mem_univ (argmaxAbs n))]
    rw [hq c hcl, noPen_values normals q c hcl, hg, if_pos rfl, Finset.mul_sum,
      ← Finset.sum_add_distrib]
    apply Finset.sum_eq_zero
    intro i hi
    rw [hq c hcl i, noPen_values normals q c hcl, hg, if_neg (Finset.ne_of_mem_erase hi)]
    field_simp
    ring
  · intro h
    refine ⟨fun x => u (x / d)
      ((others d (argmaxAbs (normals.getD (x / d) 0))).getD (x % d) 0), ?_⟩
    have key : ∀ (c : ℕ) (i : Fin (d + 1)), i ≠ argmaxAbs (normals.getD c 0) →
        u (noPenCol normals c i / d) ((others d (argmaxAbs (normals.getD
          (noPenCol normals c i / d) 0))).getD (noPenCol normals c i % d) 0) = u c i := by
      intro c i hi
      have hm := mem_others.2 hi
      have hlt := List.idxOf_lt_length_of_mem hm
      have hlt' := hlt
      rw [others_length] at hlt'
      have e1 : noPenCol normals c i / d = c := by
        rw [noPenCol, Nat.mul_add_div (by omega), Nat.div_eq_of_lt hlt']; simp
      have e2 : noPenCol normals c i % d
          = (others d (argmaxAbs (normals.getD c 0))).idxOf i := by
        rw [noPenCol, Nat.mul_add_mod, Nat.mod_eq_of_lt hlt']
      rw [e1, e2, List.getD_eq_getElem _ _ hlt, List.getElem_idxOf]
    intro c hcl j
    rw [noPen_values normals _ c hcl]
    have hc : normals[c]? = some normals[c] := by simp [hcl]
    have hg : normals.getD c 0 = normals[c] := by rw [List.getD_eq_getElem?_getD, hc]; rfl
    by_cases hj : j = argmaxAbs (normals.getD c 0)
    · rw [if_pos hj]
      have hpn : normals.getD c 0 j ≠ 0 := by
        rw [hj]
        exact pivot_ne_zero _ (hn _ (hg ▸ List.getElem_mem hcl))
      have h0 := h c _ hc
      rw [← Finset.add_sum_erase _ _ (Finset.mem_univ j), ← hg] at h0
      have : ∀ i ∈ Finset.univ.erase j, - normals.getD c 0 i / normals.getD c 0 j
          * (u (noPenCol normals c i / d) ((others d (argmaxAbs (normals.getD
            (noPenCol normals c i / d) 0))).getD (noPenCol normals c i % d) 0))
          = - (normals.getD c 0 j)⁻¹ * (normals.getD c 0 i * u c i) := by
        intro i hi
        rw [key c i (by rw [← hj]; exact Finset.ne_of_mem_erase hi)]
        ring
      rw [Finset.sum_congr rfl this, ← Finset.mul_sum]
      have h1 : ∑ i ∈ Finset.univ.erase j, normals.getD c 0 i * u c i
          = - (normals.getD c 0 j * u c j) := by linear_combination h0
      rw [h1]
      field_simp
    · rw [if_neg hj]
      exact (key c j hj).symm

/-- C71: the reduced DOFs of the no-penetration operator are determined by the
displacements (no zero column). -/
theorem C71_noPen_injective {d : ℕ} (normals : List (Fin (d + 1) → K)) (q q' : ℕ → K)
    (h : ∀ c < normals.length, ∀ j : Fin (d + 1),
      app (noPenTrips normals) q ((d + 1) * c + j.val)
        = app (noPenTrips normals) q' ((d + 1) * c + j.val))
    (x : ℕ) (hx : x < normals.length * d) : q x = q' x := by
  have hd : 0 < d := by
    rcases Nat.eq_zero_or_pos d with h0 | h0
    · simp [h0] at hx
    · exact h0
  have hcl : x / d < normals.length := Nat.div_lt_of_lt_mul (by rw [Nat.mul_comm]; exact hx)
  have hk : x % d < (others d (argmaxAbs (normals.getD (x / d) 0))).length := by
    rw [others_length]; exact Nat.mod_lt _ hd
  have hm := List.getElem_mem hk
  have hne := mem_others.1 hm
  have := h (x / d) hcl (others d (argmaxAbs (normals.getD (x / d) 0)))[x % d]
  rw [noPen_values normals q _ hcl, noPen_values normals q' _ hcl, if_neg hne, if_neg hne] at this
  have e : noPenCol normals (x / d) (others d (argmaxAbs (normals.getD (x / d) 0)))[x % d] = x := by
    rw [noPenCol, (others_nodup d _).idxOf_getElem, Nat.div_add_mod]
  rwa [e] at this

end

/-! ## Directions and mean values -/

section
variable [Semiring K]

/-- C71: the normal (edge) direction operator: the displacement of node `c` is the new DOF
`w c` times the direction. -/
theorem C71_direction_values {dim : ℕ} (vectors : List (Fin dim → K)) (w : ℕ → K) (c : ℕ)
    (n : Fin dim → K) (hc : vectors[c]? = some n) (i : Fin dim) :
    app (directionTrips vectors) w (dim * c + i.val) = n i * w c := by
  obtain ⟨hcl, e⟩ := List.getElem?_eq_some_iff.1 hc
  unfold directionTrips
  have hg : vectors.getD c 0 = n := by rw [List.getD_eq_getElem?_getD, hc]; rfl
  rw [app_flatMap, sum_map_range_single _ c _ hcl]
  · rw [hg]
    unfold app
    rw [List.map_map, ← List.ofFn_eq_map, List.sum_ofFn, Finset.sum_eq_single i]
    · simp
    · intro b _ hb
      simp only [Function.comp]
      rw [if_neg]
      intro h
      exact hb (Fin.ext (by omega))
    · intro h; exact absurd (Finset.mem_univ _) h
  · intro c' _ hne
    apply app_eq_zero
    intro t ht h
    obtain ⟨b, _, rfl⟩ := List.mem_map.1 ht
    exact hne (block_inj b.isLt i.isLt h).1

/-- C71: the integral mean value operator makes all the DOFs of the region equal to the
single new DOF. -/
theorem C71_mean_values (nNod dpn : ℕ) (w : ℕ → K) (r : ℕ) (hr : r < nNod * dpn) :
    app (meanTrips nNod dpn) w r = w 0 := by
  unfold meanTrips app
  rw [List.map_map, sum_map_range_single _ r _ hr]
  · simp
  · intro j _ hj
    simp [hj]

/-! ## Tying operators -/

/-- C71: `shifted_periodic`/`match_dofs`: the condition holds exactly when every matched pair
of DOFs active on both sides satisfies `u_m = u_s + shift`; pairs with a side fixed by an
E(P)BC are ignored. -/
theorem C71_shifted_iff (nDof : List ℕ) (u : ℕ → K) (rvar cvar : ℕ) (meq seq : List ℤ)
    (shift : Option (List K)) (hlen : seq.length = meq.length)
    (hnd : ((bothActive meq seq).map fun k => (meq.getD k (-1)).toNat).Nodup) :
    Holds nDof u (shiftedOp rvar cvar meq seq shift) ↔
      ∀ (k m s : ℕ), meq[k]? = some (m : ℤ) → seq[k]? = some (s : ℤ) →
        dofVal nDof u rvar m = dofVal nDof u cvar s + ((shift.map fun b => b.getD k 0).getD 0) := by
  have key : ∀ (p k : ℕ) (w : ℕ → K), (bothActive meq seq)[p]? = some k →
      app (shiftedOp rvar cvar meq seq shift).mtx w (meq.getD k (-1)).toNat
        = w (seq.getD k (-1)).toNat ∧
      (shiftedOp rvar cvar meq seq shift).rhsAt p = (shift.map fun b => b.getD k 0).getD 0 := by
    intro p k w hp
    obtain ⟨hpl, e⟩ := List.getElem?_eq_some_iff.1 hp
    constructor
    · simp only [shiftedOp]
      rw [List.zip_map', List.map_map]
      have : ((bothActive meq seq).map ((fun p : ℕ × ℕ => (p.1, p.2, (1 : K))) ∘ fun k =>
          ((meq.getD k (-1)).toNat, (seq.getD k (-1)).toNat)))
          = (List.range (bothActive meq seq).length).map fun r =>
            ((meq.getD ((bothActive meq seq).getD r 0) (-1)).toNat,
              (seq.getD ((bothActive meq seq).getD r 0) (-1)).toNat, (1 : K)) := by
        apply List.ext_getElem
        · simp
        · intro r h1 h2
          simp at h1
          simp [h1]
      rw [this]
      unfold app
      rw [List.map_map, sum_map_range_single _ p _ hpl]
      · simp [List.getD_eq_getElem?_getD, hp]
      · intro r hr hne
        simp only [Function.comp]
        rw [if_neg]
        intro h
        rw [List.getD_eq_getElem _ _ hr] at h
        apply hne
        have h1 : r < ((bothActive meq seq).map fun k => (meq.getD k (-1)).toNat).length := by
          simpa using hr
        have h2 : p < ((bothActive meq seq).map fun k => (meq.getD k (-1)).toNat).length := by
          simpa using hpl
        apply (hnd.getElem_inj_iff (hi := h1) (hj := h2)).1
        rw [List.getElem_map, List.getElem_map, e]
        exact h
    · cases shift with
      | none => rfl
      | some b =>
        simp only [shiftedOp, Op.rhsAt, Option.map_some, Option.getD_some]
        rw [List.getD_eq_getElem?_getD, List.getElem?_map, hp]
        rfl
  have hmem : ∀ k, k ∈ bothActive meq seq ↔ k < meq.length ∧ 0 ≤ meq.getD k (-1) ∧
      0 ≤ seq.getD k (-1) := by
    intro k; simp [bothActive]
  unfold Holds
  simp only [show (shiftedOp rvar cvar meq seq shift).cvar = some cvar from rfl]
  constructor
  · intro h k m s hm hs
    have hk : k < meq.length := (List.getElem?_eq_some_iff.1 hm).1
    have hmg : meq.getD k (-1) = (m : ℤ) := by rw [List.getD_eq_getElem?_getD, hm]; rfl
    have hsg : seq.getD k (-1) = (s : ℤ) := by rw [List.getD_eq_getElem?_getD, hs]; rfl
    have hkm : k ∈ bothActive meq seq := by
      rw [hmem, hmg, hsg]; exact ⟨hk, by positivity, by positivity⟩
    obtain ⟨p, hpl, e⟩ := List.mem_iff_getElem.1 hkm
    have hp : (bothActive meq seq)[p]? = some k := by simp [hpl, e]
    have := h p m (by
      show ((bothActive meq seq).map fun k => (meq.getD k (-1)).toNat)[p]? = some m
      rw [List.getElem?_map, hp, Option.map_some, hmg]; simp)
    have hk2 := key p k (fun j => dofVal nDof u cvar j) hp
    rw [hmg, hsg] at hk2
    simp only [Int.toNat_natCast] at hk2
    rw [hk2.1, hk2.2] at this
    exact this
  · intro h p i hp
    change ((bothActive meq seq).map fun k => (meq.getD k (-1)).toNat)[p]? = some i at hp
    rw [List.getElem?_map] at hp
    obtain ⟨k, hk, rfl⟩ := Option.map_eq_some_iff.1 hp
    have hm := (hmem k).1 (List.mem_of_getElem? hk)
    have hk2 := key p k (fun j => dofVal nDof u cvar j) hk
    rw [hk2.1, hk2.2]
    apply h
    · rw [Int.toNat_of_nonneg hm.2.1, List.getD_eq_getElem _ _ hm.1]; simp [hm.1]
    · rw [Int.toNat_of_nonneg hm.2.2, List.getD_eq_getElem _ _ (by omega)]
      simp [hlen, hm.1]

/-- C71: `multi_node_combination`: DOF `d` of the dependent node `m` is the combination of the
DOFs `d` of its independent nodes with the given weights. -/
theorem C71_multi_values (nm dpn ncons : ℕ) (cons : ℕ → ℕ → K) (smap : ℕ → ℕ → ℕ)
    (meq seq : List ℕ) (hlen : meq.length = nm * dpn) (hnd : meq.Nodup) (w : ℕ → K)
    (m d i : ℕ) (hm : m < nm) (hd : d < dpn) (hi : meq[m * dpn + d]? = some i) :
    app (multiTrips nm dpn ncons cons smap meq seq) w i
      = ((List.range ncons).map fun j =>
          cons m j * w (seq.getD (smap m j * dpn + d) 0)).sum := by
  have hlt : ∀ m' < nm, ∀ d' < dpn, m' * dpn + d' < meq.length := by
    intro m' hm' d' hd'
    rw [hlen]
    calc m' * dpn + d' < m' * dpn + dpn := by omega
      _ = (m' + 1) * dpn := by ring
      _ ≤ nm * dpn := Nat.mul_le_mul_right _ hm'
  have hrow : ∀ m' < nm, ∀ d' < dpn, meq.getD (m' * dpn + d') 0 = i → m' = m ∧ d' = d := by
    intro m' hm' d' hd' h
    have h1 := hlt m' hm' d' hd'
    have h2 := hlt m hm d hd
    rw [List.getD_eq_getElem _ _ h1] at h
    have hi' : meq[m * dpn + d] = i := (List.getElem?_eq_some_iff.1 hi).2
    have := (hnd.getElem_inj_iff (hi := h1) (hj := h2)).1 (by rw [h, hi'])
    rw [Nat.mul_comm m', Nat.mul_comm m] at this
    exact block_inj hd' hd this
  unfold multiTrips
  rw [app_flatMap]
  congr 1
  apply List.map_congr_left
  intro j _
  rw [app_flatMap, sum_map_range_single _ m _ hm]
  · unfold app
    rw [List.map_map, sum_map_range_single _ d _ hd]
    · simp only [Function.comp]
      rw [if_pos]
      rw [List.getD_eq_getElem?_getD, hi]; rfl
    · intro d' hd' hne
      simp only [Function.comp]
      rw [if_neg]
      intro h
      exact hne (hrow m hm d' hd' h).2
  · intro m' hm' hne
    apply app_eq_zero
    intro t ht h
    obtain ⟨d', hd', rfl⟩ := List.mem_map.1 ht
    exact hne (hrow m' hm' d' (List.mem_range.1 hd') h).1

end

end Verif.Lcbc
