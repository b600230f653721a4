import Verif.Lcbc.PropsLocal

/-!
# The nodal combination operator and periodic DOFs in reduction operators

Model of `NodalLCOperator` (sfepy/discrete/fem/lcbc_operators.py:620-745) after SymPy has
solved the constraints of one node, and of the row bookkeeping after `treat_pbcs`.
-/

namespace Verif.Lcbc

variable {K : Type*}

/-- One item of the SymPy solution of the constraints in a node: the master symbol, the
linear monomials of its polynomial (symbol, coefficient) in the order of the symbols, and
the constant term.  An empty list of monomials is the `sm.Float` case (fixed master). -/
structure SolItem (K : Type*) where
  master : ℕ
  lin : List (ℕ × K)
  const : K

/-- `islaves`: the sorted union of the symbols present (lcbc_operators.py:687-711). -/
def islaves (dpn : ℕ) (sol : List (SolItem K)) : List ℕ :=
  (List.range dpn).filter fun i => sol.any fun e => e.lin.any fun m => m.1 = i

/-- `coefs` (lcbc_operators.py:698-704). -/
def SolItem.coefs (e : SolItem K) : List K := e.lin.map (·.2) ++ [e.const]

/-- The triples of node `im` (lcbc_operators.py:713-736), `nNew` new DOFs being used by the
preceding nodes.  `none`: IndexError in `coefs[ii]`. -/
def nodalTrips [Semiring K] (dpn im nNew : ℕ) (sol : List (SolItem K)) : Option (Trips K) :=
  let sl := islaves dpn sol
  if sol.any fun e => !e.lin.isEmpty && e.coefs.length < sl.length then none
  else some ((sol.flatMap fun e => if e.lin.isEmpty then [] else
      (List.range sl.length).map fun ii => (dpn * im + e.master, ii + nNew, e.coefs.getD ii 0)) ++
    (List.range sl.length).map fun ii => (dpn * im + sl.getD ii 0, ii + nNew, 1))

/-- `rhss[dpn * im + i]` (lcbc_operators.py:717): `coefs[-1]` for the masters. -/
def nodalRhs [Semiring K] (sol : List (SolItem K)) (i : ℕ) : K :=
  match sol.find? fun e => e.master = i with
  | some e => e.const
  | none => 0

/-! ## Properties -/

section
variable [Semiring K]

/-- C71: a DOF of the node that neither is solved for nor appears in the solution is forced to
be zero, whatever the reduced DOFs, although the constraints do not mention it. -/
theorem C71_nodal_unmentioned_zero (dpn im nNew : ℕ) (sol : List (SolItem K)) (T : Trips K)
    (hT : nodalTrips dpn im nNew sol = some T) (hm : ∀ e ∈ sol, e.master < dpn)
    (i : ℕ) (hi : i < dpn) (h1 : ∀ e ∈ sol, e.master ≠ i)
    (h2 : ∀ e ∈ sol, ∀ m ∈ e.lin, m.1 ≠ i) (q : ℕ → K) :
    app T q (dpn * im + i) + nodalRhs sol i = 0 := by
  have hrhs : nodalRhs sol i = 0 := by
    unfold nodalRhs
    rw [List.find?_eq_none.2]
    intro e he
    simpa using h1 e he
  rw [hrhs, add_zero]
  unfold nodalTrips at hT
  simp only at hT
  split at hT
  · simp at hT
  · obtain rfl := Option.some.inj hT
    apply app_eq_zero
    intro t ht e
    rcases List.mem_append.1 ht with ht | ht
    · obtain ⟨it, hit, ht⟩ := List.mem_flatMap.1 ht
      split at ht
      · simp at ht
      · obtain ⟨ii, _, rfl⟩ := List.mem_map.1 ht
        exact h1 it hit (block_inj (hm it hit) hi e).2
    · obtain ⟨ii, hii, rfl⟩ := List.mem_map.1 ht
      have hii' := List.mem_range.1 hii
      have hmem : (islaves dpn sol).getD ii 0 ∈ islaves dpn sol := by
        rw [List.getD_eq_getElem _ _ hii']; exact List.getElem_mem _
      obtain ⟨hl, hex⟩ := List.mem_filter.1 hmem
      have := (block_inj (List.mem_range.1 hl) hi e).2
      rw [this] at hex
      simp only [List.any_eq_true, decide_eq_true_eq] at hex
      obtain ⟨it, hit, m, hm', e'⟩ := hex
      exact h2 it hit m hm' e'

omit [Semiring K] in
theorem islaves_nodup (dpn : ℕ) (sol : List (SolItem K)) : (islaves dpn sol).Nodup :=
  List.nodup_range.filter _

/-- The contribution of the copying rows. -/
theorem app_copy (dpn im nNew : ℕ) (sl : List ℕ) (hnd : sl.Nodup) (q : ℕ → K) (i k : ℕ)
    (hk : sl[k]? = some i) :
    app ((List.range sl.length).map fun ii => (dpn * im + sl.getD ii 0, ii + nNew, (1 : K))) q
      (dpn * im + i) = q (k + nNew) := by
  obtain ⟨hkl, e⟩ := List.getElem?_eq_some_iff.1 hk
  unfold app
  rw [List.map_map, sum_map_range_single _ k _ hkl]
  · simp [List.getD_eq_getElem?_getD, hk]
  · intro j hj hne
    simp only [Function.comp]
    rw [if_neg]
    intro h
    rw [List.getD_eq_getElem _ _ hj] at h
    exact hne ((hnd.getElem_inj_iff (hi := hj) (hj := hkl)).1 (by rw [e]; omega))

/-- C71: a solution is handled properly when all its non-constant polynomials contain the same
symbols: the other DOFs are copied from the new DOFs and every master DOF gets the value of
its polynomial. -/
theorem C71_nodal_aligned (dpn im nNew : ℕ) (sol : List (SolItem K))
    (hm : ∀ e ∈ sol, e.master < dpn) (hmn : (sol.map (·.master)).Nodup)
    (hlin : ∀ e ∈ sol, e.lin ≠ [] → e.lin.map (·.1) = islaves dpn sol)
    (hdis : ∀ e ∈ sol, e.master ∉ islaves dpn sol) :
    ∃ T, nodalTrips dpn im nNew sol = some T ∧ ∀ q : ℕ → K,
      (∀ (k i : ℕ), (islaves dpn sol)[k]? = some i →
        app T q (dpn * im + i) + nodalRhs sol i = q (k + nNew)) ∧
      (∀ e ∈ sol, app T q (dpn * im + e.master) + nodalRhs sol e.master
        = (e.lin.map fun m => m.2 * app T q (dpn * im + m.1)).sum + e.const) := by
  have hlen : ∀ e ∈ sol, e.lin ≠ [] → e.lin.length = (islaves dpn sol).length := by
    intro e he h
    rw [← hlin e he h, List.length_map]
  have hcond : (sol.any fun e => !e.lin.isEmpty && decide (e.coefs.length < (islaves dpn sol).length))
      = false := by
    rw [List.any_eq_false]
    intro e he h
    simp only [Bool.and_eq_true, Bool.not_eq_true', decide_eq_true_eq] at h
    have hne : e.lin ≠ [] := by
      intro h0; rw [h0] at h; simp at h
    have := hlen e he hne
    simp [SolItem.coefs] at h
    omega
  refine ⟨_, by unfold nodalTrips; simp only [hcond]; rfl, ?_⟩
  intro q
  have hsl : ∀ i, i ∈ islaves dpn sol → i < dpn := fun i hi =>
    List.mem_range.1 (List.mem_filter.1 hi).1
  have rows1 : ∀ i, i < dpn → (∀ e ∈ sol, e.master ≠ i) →
      app (sol.flatMap fun e => if e.lin.isEmpty then [] else
        (List.range (islaves dpn sol).length).map fun ii =>
          (dpn * im + e.master, ii + nNew, e.coefs.getD ii 0)) q (dpn * im + i) = 0 := by
    intro i hi h
    apply app_eq_zero
    intro t ht e
    obtain ⟨it, hit, ht⟩ := List.mem_flatMap.1 ht
    split at ht
    · simp at ht
    · obtain ⟨ii, _, rfl⟩ := List.mem_map.1 ht
      exact h it hit (block_inj (hm it hit) hi e).2
  have slave : ∀ (k i : ℕ), (islaves dpn sol)[k]? = some i →
      app ((sol.flatMap fun e => if e.lin.isEmpty then [] else
        (List.range (islaves dpn sol).length).map fun ii =>
          (dpn * im + e.master, ii + nNew, e.coefs.getD ii 0)) ++
        (List.range (islaves dpn sol).length).map fun ii =>
          (dpn * im + (islaves dpn sol).getD ii 0, ii + nNew, (1 : K))) q (dpn * im + i)
        = q (k + nNew) := by
    intro k i hk
    have him := List.mem_of_getElem? hk
    rw [app_append, rows1 i (hsl i him) (fun e he h => hdis e he (h ▸ him)), zero_add,
      app_copy dpn im nNew _ (islaves_nodup dpn sol) q i k hk]
  refine ⟨?_, ?_⟩
  · intro k i hk
    have him := List.mem_of_getElem? hk
    have hrhs : nodalRhs sol i = 0 := by
      unfold nodalRhs
      rw [List.find?_eq_none.2]
      intro e he
      simp only [decide_eq_true_eq]
      intro h
      exact hdis e he (h ▸ him)
    rw [slave k i hk, hrhs, add_zero]
  · intro e he
    have hrhs : nodalRhs sol e.master = e.const := by
      unfold nodalRhs
      have hs : (sol.find? fun e' => decide (e'.master = e.master)).isSome := by
        rw [List.find?_isSome]; exact ⟨e, he, by simp⟩
      obtain ⟨e', he'⟩ := Option.isSome_iff_exists.1 hs
      rw [he']
      have h1 := List.mem_of_find?_eq_some he'
      have h2 : e'.master = e.master := by simpa using List.find?_some he'
      have : e' = e := List.inj_on_of_nodup_map hmn h1 he h2
      rw [this]
    rw [hrhs]
    congr 1
    have hcopy0 : app ((List.range (islaves dpn sol).length).map fun ii =>
        (dpn * im + (islaves dpn sol).getD ii 0, ii + nNew, (1 : K))) q (dpn * im + e.master)
        = 0 := by
      apply app_eq_zero
      intro t ht h
      obtain ⟨ii, hii, rfl⟩ := List.mem_map.1 ht
      have hii' := List.mem_range.1 hii
      have hmem : (islaves dpn sol).getD ii 0 ∈ islaves dpn sol := by
        rw [List.getD_eq_getElem _ _ hii']; exact List.getElem_mem _
      have := (block_inj (hsl _ hmem) (hm e he) h).2
      exact hdis e he (this ▸ hmem)
    have hmain : app (sol.flatMap fun e => if e.lin.isEmpty then [] else
        (List.range (islaves dpn sol).length).map fun ii =>
          (dpn * im + e.master, ii + nNew, e.coefs.getD ii 0)) q (dpn * im + e.master)
        = app (if e.lin.isEmpty then [] else
          (List.range (islaves dpn sol).length).map fun ii =>
            (dpn * im + e.master, ii + nNew, e.coefs.getD ii 0)) q (dpn * im + e.master) := by
      obtain ⟨p, hp, ep⟩ := List.mem_iff_getElem.1 he
      rw [app_flatMap]
      have : (sol.map fun x => app (if x.lin.isEmpty then [] else
          (List.range (islaves dpn sol).length).map fun ii =>
            (dpn * im + x.master, ii + nNew, x.coefs.getD ii 0)) q (dpn * im + e.master))
          = (List.range sol.length).map fun j => app (match sol[j]? with
              | none => []
              | some x => if x.lin.isEmpty then [] else
                (List.range (islaves dpn sol).length).map fun ii =>
                  (dpn * im + x.master, ii + nNew, x.coefs.getD ii 0)) q (dpn * im + e.master) := by
        apply List.ext_getElem
        · simp
        · intro j h1 h2
          simp at h1
          simp [h1]
      rw [this, sum_map_range_single _ p _ hp]
      · simp [hp, ep]
      · intro j hj hne
        apply app_eq_zero
        intro t ht h
        simp only [hj, List.getElem?_eq_getElem] at ht
        split at ht
        · simp at ht
        · obtain ⟨ii, _, rfl⟩ := List.mem_map.1 ht
          have h3 := (block_inj (hm _ (List.getElem_mem hj)) (hm e he) h).2
          have : sol[j] = e := List.inj_on_of_nodup_map hmn (List.getElem_mem hj) he h3
          apply hne
          have hn := List.Nodup.of_map _ hmn
          exact (hn.getElem_inj_iff (hi := hj) (hj := hp)).1 (by rw [this, ep])
    rw [app_append, hcopy0, add_zero, hmain]
    by_cases hl : e.lin = []
    · simp [hl, app]
    · have hie : e.lin.isEmpty = false := by simp [hl]
      rw [hie]
      simp only [Bool.false_eq_true, if_false]
      have hL := hlen e he hl
      have hfst := hlin e he hl
      have e1 : app ((List.range (islaves dpn sol).length).map fun ii =>
          (dpn * im + e.master, ii + nNew, e.coefs.getD ii 0)) q (dpn * im + e.master)
          = ((List.range e.lin.length).map fun ii => e.coefs.getD ii 0 * q (ii + nNew)).sum := by
        unfold app
        rw [List.map_map, hL]
        congr 1
        apply List.map_congr_left
        intro ii _
        simp
      rw [e1]
      congr 1
      apply List.ext_getElem
      · simp
      · intro ii h1 h2
        have hii : ii < e.lin.length := by simpa using h2
        simp only [List.getElem_map, List.getElem_range]
        have hsl' : (islaves dpn sol)[ii]? = some e.lin[ii].1 := by
          rw [← hfst, List.getElem?_map]; simp [hii]
        have hsv := slave ii _ hsl'
        rw [hie] at *
        rw [hsv]
        congr 1
        unfold SolItem.coefs
        rw [List.getD_eq_getElem?_getD, List.getElem?_append_left (by simpa using hii)]
        simp [hii]

end

/-! ## Periodic DOFs in reduction operators -/

/-- C71: `treat_pbcs` drops rows of the operator matrix but not the corresponding items of
`ameq`: when the first DOF of the region is periodic-dependent, the first remaining row, which
belongs to another DOF, is used for it. -/
theorem C71_pbc_rows_shifted (dofs master : List ℕ)
    (h0 : 0 ∈ master.map fun x => ss (dofs.mergeSort (· ≤ ·)) x) (k : ℕ)
    (hk : (treatKeep dofs master)[0]? = some k) : k ≠ 0 := by
  have := List.mem_of_getElem? hk
  unfold treatKeep at this
  have h2 := (List.mem_filter.1 this).2
  intro e
  subst e
  simp only [decide_not, Bool.not_eq_true', decide_eq_false_iff_not] at h2
  exact h2 h0

/-- C71: with the DOF names given in another order than that of the variable (`σ`), the
no-penetration operator asks for the wrong combination `Σ n_k u_{σ k} = 0`. -/
theorem C71_noPen_permuted_dofs [Field K] [LinearOrder K] [IsStrictOrderedRing K] {d : ℕ}
    (normals : List (Fin (d + 1) → K)) (hn : ∀ n ∈ normals, n ≠ 0)
    (σ : Fin (d + 1) → Fin (d + 1)) (u : ℕ → Fin (d + 1) → K) :
    (∃ q : ℕ → K, ∀ c < normals.length, ∀ k : Fin (d + 1),
        u c (σ k) = app (noPenTrips normals) q ((d + 1) * c + k.val)) ↔
      ∀ (c : ℕ) (n : Fin (d + 1) → K), normals[c]? = some n → ∑ k, n k * u c (σ k) = 0 :=
  C71_noPen_range normals hn (fun c k => u c (σ k))

end Verif.Lcbc
