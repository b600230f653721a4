import Verif.Par.Dict
import Mathlib.Data.List.Range
import Mathlib.Data.List.Count
import Mathlib.Algebra.BigOperators.Group.List.Basic
import Mathlib.Tactic.Ring
import Mathlib.Tactic.Linarith

/-!
# Mesh partitioning and interface facets

/repo/sfepy/parallel/parallel.py:35-112
-/

namespace Par

/-! ### `partition_mesh` without metis -/

/-- `n_cell_parts = n_el // n_parts + ((n_el % n_parts) > ii)`.
/repo/sfepy/parallel/parallel.py:62-63 -/
def cellCounts (n p : ℕ) : List ℕ :=
  (List.range p).map fun i : ℕ => n / p + if n % p > i then 1 else 0

/-- `offs = nm.cumsum(nm.r_[0, n_cell_parts])`.
/repo/sfepy/parallel/parallel.py:68 -/
def cumOffs (counts : List ℕ) : List ℕ :=
  (List.range (counts.length + 1)).map fun k : ℕ => (counts.take k).sum

/-- `nm.digitize(x, bins)` for increasing `bins`: the number of bins that are `≤ x`.
/repo/sfepy/parallel/parallel.py:69 -/
def digitize (bins : List ℕ) (x : ℕ) : ℕ := bins.countP (fun b => b ≤ x)

/-- The naive branch of `partition_mesh`: the list of the tasks of the cells; `none` when an
assertion fails. `n` is `mesh.n_el`, `p` is `n_parts`. The metis branch (an external library) is
not modelled: every other theorem holds for an arbitrary `cell_tasks`.
/repo/sfepy/parallel/parallel.py:61-73 -/
def partitionNaive (n p : ℕ) : Option (List ℕ) :=
  let counts := cellCounts n p
  if counts.sum ≠ n then none
  else if counts.any (fun c => c = 0) then none
  else
    let offs := cumOffs counts
    some ((List.range (offs.getLastD 0)).map fun x : ℕ => digitize offs x - 1)

/-! ### `get_inter_facets` -/

/-- The mesh data that the distribution uses. `fc f` are the cells of the facet `f` (the
facet-to-cell connectivity `cfc`), `econn c` the field nodes of the cell `c`, `fdofs f` the field
nodes of the facet `f` (as seen in the surface connectivity), `fverts f` the vertices of `f` and
`vcells v` the cells around the vertex `v`.
/repo/sfepy/parallel/parallel.py:81-88, 205-208, 222-224 -/
structure FEMesh where
  nCell : ℕ
  nFacet : ℕ
  nNod : ℕ
  econn : ℕ → List ℕ
  fc : ℕ → List ℕ
  fdofs : ℕ → List ℕ
  fverts : ℕ → List ℕ
  vcells : ℕ → List ℕ

/-- `if_inner`: the facets that are not surface facets (a surface facet has one cell).
/repo/sfepy/parallel/parallel.py:90-92 -/
def innerFacets (m : FEMesh) : List ℕ :=
  (List.range m.nFacet).filter fun f => decide ((m.fc f).length ≠ 1)

/-- The tasks of the first two cells of a facet, `ftasks[offsets[f]]`, `ftasks[offsets[f] + 1]`.
/repo/sfepy/parallel/parallel.py:87, 95-98 -/
def facetTasks (m : FEMesh) (ct : ℕ → ℕ) (f : ℕ) : ℕ × ℕ :=
  (ct ((m.fc f).getD 0 0), ct ((m.fc f).getD 1 0))

/-- `if_inter`: the inner facets with cells of two different tasks.
/repo/sfepy/parallel/parallel.py:95-96 -/
def interList (m : FEMesh) (ct : ℕ → ℕ) : List ℕ :=
  (innerFacets m).filter fun f => decide ((facetTasks m ct f).1 ≠ (facetTasks m ct f).2)

/-- One pass of the loop: the facet is appended for both orders of the two tasks.
/repo/sfepy/parallel/parallel.py:106-114 -/
def addFacet (d : Dict (Dict (List ℕ))) (f i0 i1 : ℕ) : Dict (Dict (List ℕ)) :=
  let d1 := dupd d i0 [] (fun nt => dupd nt i1 [] (fun fs => fs ++ [f]))
  dupd d1 i1 [] (fun nt => dupd nt i0 [] (fun fs => fs ++ [f]))

/-- `get_inter_facets(domain, cell_tasks)`.
/repo/sfepy/parallel/parallel.py:75-116 -/
def interFacets (m : FEMesh) (ct : ℕ → ℕ) : Dict (Dict (List ℕ)) :=
  (interList m ct).foldl
    (fun d f => addFacet d f (facetTasks m ct f).1 (facetTasks m ct f).2) []

/-- `inter_facets[i][j]`, empty when there is no such entry. -/
def facetsOf (d : Dict (Dict (List ℕ))) (i j : ℕ) : List ℕ :=
  (dget ((dget d i).getD []) j).getD []

/-! ### Lemmas -/

theorem cellCounts_take_sum (n p : ℕ) (k : ℕ) (hk : k ≤ p) :
    ((cellCounts n p).take k).sum = k * (n / p) + min k (n % p) := by
  induction k with
  | zero => simp
  | succ k ih =>
    have hk' : k < (cellCounts n p).length := by simp [cellCounts]; omega
    rw [List.sum_take_succ _ _ hk', ih (by omega)]
    simp only [cellCounts, List.getElem_map, List.getElem_range]
    have : (k + 1) * (n / p) = k * (n / p) + n / p := by ring
    split <;> omega

theorem cellCounts_sum (n p : ℕ) (hp : 0 < p) : (cellCounts n p).sum = n := by
  have h := cellCounts_take_sum n p p le_rfl
  rw [List.take_of_length_le (by simp [cellCounts])] at h
  rw [h, min_eq_right (Nat.mod_lt n hp).le]
  exact Nat.div_add_mod n p

theorem countP_range_step (O : ℕ → ℕ) (m t x : ℕ) (ht : t < m)
    (hle : ∀ k ≤ t, O k ≤ x) (hgt : ∀ k, t < k → k < m → x < O k) :
    ((List.range m).map O).countP (fun b => b ≤ x) = t + 1 := by
  have : m = (t + 1) + (m - (t + 1)) := by omega
  rw [this, List.range_add, List.map_append, List.countP_append]
  have h1 : ((List.range (t + 1)).map O).countP (fun b => b ≤ x) = t + 1 := by
    rw [List.countP_eq_length.2 (by
      intro a ha
      obtain ⟨k, hk, rfl⟩ := List.mem_map.1 ha
      have := List.mem_range.1 hk
      simpa using hle k (by omega))]
    simp
  have h2 : (((List.range (m - (t + 1))).map (fun j => t + 1 + j)).map O).countP
      (fun b => b ≤ x) = 0 := by
    rw [List.countP_eq_zero]
    intro a ha
    simp only [List.map_map, List.mem_map, List.mem_range, Function.comp] at ha
    obtain ⟨k, hk, rfl⟩ := ha
    have := hgt (t + 1 + k) (by omega) (by omega)
    simpa using this
  omega

theorem count_interval (n lo hi : ℕ) (h : lo ≤ hi) (hn : hi ≤ n) :
    (List.range n).countP (fun x => decide (lo ≤ x ∧ x < hi)) = hi - lo := by
  have e : n = lo + ((hi - lo) + (n - hi)) := by omega
  rw [e, List.range_add, List.range_add, List.map_append, List.countP_append, List.countP_append]
  have h1 : (List.range lo).countP (fun x => decide (lo ≤ x ∧ x < hi)) = 0 := by
    rw [List.countP_eq_zero]; intro a ha
    have := List.mem_range.1 ha
    simp; omega
  have h2 : ((List.range (hi - lo)).map (fun x => lo + x)).countP
      (fun x => decide (lo ≤ x ∧ x < hi)) = hi - lo := by
    rw [List.countP_eq_length.2 (by
      intro a ha
      obtain ⟨k, hk, rfl⟩ := List.mem_map.1 ha
      have := List.mem_range.1 hk
      simp; omega)]
    simp
  have h3 : (((List.range (n - hi)).map (fun x => hi - lo + x)).map (fun x => lo + x)).countP
      (fun x => decide (lo ≤ x ∧ x < hi)) = 0 := by
    rw [List.countP_eq_zero]; intro a ha
    simp only [List.map_map, List.mem_map, List.mem_range, Function.comp] at ha
    obtain ⟨k, hk, rfl⟩ := ha
    simp; omega
  omega

/-- The start of task `k` in the naive partitioning. -/
def partStart (n p k : ℕ) : ℕ := k * (n / p) + min k (n % p)

theorem partStart_mono (n p : ℕ) : Monotone (partStart n p) := by
  intro a b h
  unfold partStart
  have := Nat.mul_le_mul_right (n / p) h
  omega

theorem cumOffs_cellCounts (n p : ℕ) :
    cumOffs (cellCounts n p) = (List.range (p + 1)).map (partStart n p) := by
  unfold cumOffs
  have hl : (cellCounts n p).length = p := by simp [cellCounts]
  rw [hl]
  apply List.map_congr_left
  intro k hk
  exact cellCounts_take_sum n p k (by have := List.mem_range.1 hk; omega)

theorem digitize_eq (n p x t : ℕ) (ht : t < p)
    (h0 : partStart n p t ≤ x) (h1 : x < partStart n p (t + 1)) :
    digitize (cumOffs (cellCounts n p)) x - 1 = t := by
  rw [cumOffs_cellCounts, digitize,
    countP_range_step (partStart n p) (p + 1) t x (by omega)
      (fun k hk => (partStart_mono n p hk).trans h0)
      (fun k hk _ => h1.trans_le (partStart_mono n p hk))]
  omega

theorem partStart_last (n p : ℕ) (hp : 0 < p) : partStart n p p = n := by
  unfold partStart
  rw [min_eq_right (Nat.mod_lt n hp).le]
  exact Nat.div_add_mod n p

theorem exists_part (n p x : ℕ) (hp : 0 < p) (hx : x < n) :
    ∃ t, t < p ∧ partStart n p t ≤ x ∧ x < partStart n p (t + 1) := by
  have hlast := partStart_last n p hp
  have : ∀ k, k ≤ p → x < partStart n p k →
      ∃ t, t < k ∧ partStart n p t ≤ x ∧ x < partStart n p (t + 1) := by
    intro k
    induction k with
    | zero => intro _ h; simp [partStart] at h
    | succ k ih =>
      intro hk h
      by_cases hc : x < partStart n p k
      · obtain ⟨t, h1, h2⟩ := ih (by omega) hc
        exact ⟨t, by omega, h2⟩
      · exact ⟨k, by omega, by omega, h⟩
  exact this p le_rfl (by omega)

theorem partitionNaive_eq (n p : ℕ) (hp : 0 < p) (hle : p ≤ n) :
    partitionNaive n p =
      some ((List.range n).map fun x => digitize (cumOffs (cellCounts n p)) x - 1) := by
  have hs := cellCounts_sum n p hp
  have hq : 0 < n / p := Nat.div_pos hle hp
  have hany : (cellCounts n p).any (fun c => c = 0) = false := by
    rw [List.any_eq_false]
    intro c hc
    obtain ⟨i, _, rfl⟩ := List.mem_map.1 hc
    simp; omega
  have hlast : (cumOffs (cellCounts n p)).getLastD 0 = n := by
    rw [cumOffs_cellCounts, List.range_succ, List.map_append]
    simp [partStart_last n p hp]
  unfold partitionNaive
  simp only [hs, ne_eq, not_true, if_false, hany, Bool.false_eq_true, hlast]

/-! ### Interface facets -/

theorem facetsOf_dupd (d : Dict (Dict (List ℕ))) (a b f i j : ℕ) :
    facetsOf (dupd d a [] (fun nt => dupd nt b [] (fun fs => fs ++ [f]))) i j
      = if i = a ∧ j = b then facetsOf d i j ++ [f] else facetsOf d i j := by
  unfold facetsOf
  rw [dget_dupd]
  by_cases hi : i = a
  · subst hi
    simp only [if_true, Option.getD_some, dget_dupd, true_and]
    by_cases hj : j = b
    · subst hj; simp
    · simp [hj]
  · simp [hi]

theorem facetsOf_addFacet (d : Dict (Dict (List ℕ))) (f i0 i1 i j : ℕ) (h : i0 ≠ i1) :
    facetsOf (addFacet d f i0 i1) i j
      = facetsOf d i j ++ if (i = i0 ∧ j = i1) ∨ (i = i1 ∧ j = i0) then [f] else [] := by
  unfold addFacet
  rw [facetsOf_dupd, facetsOf_dupd]
  by_cases h1 : i = i1 ∧ j = i0
  · obtain ⟨rfl, rfl⟩ := h1
    have : ¬ (i = j ∧ j = i) := fun h' => h h'.2
    simp [this]
  · by_cases h2 : i = i0 ∧ j = i1
    · obtain ⟨rfl, rfl⟩ := h2
      simp [fun e : i = j => h e]
    · simp [h1, h2]

theorem facetsOf_foldl (T : ℕ → ℕ × ℕ) (l : List ℕ) (hne : ∀ f ∈ l, (T f).1 ≠ (T f).2)
    (d : Dict (Dict (List ℕ))) (i j : ℕ) :
    facetsOf (l.foldl (fun d f => addFacet d f (T f).1 (T f).2) d) i j
      = facetsOf d i j ++ l.filter (fun f =>
          decide ((i = (T f).1 ∧ j = (T f).2) ∨ (i = (T f).2 ∧ j = (T f).1))) := by
  induction l generalizing d with
  | nil => simp
  | cons f r ih =>
    rw [List.foldl_cons, ih (fun g hg => hne g (List.mem_cons_of_mem _ hg)),
      facetsOf_addFacet _ _ _ _ _ _ (hne f (List.mem_cons_self)), List.filter_cons]
    split <;> simp_all

theorem mem_interList {m : FEMesh} {ct : ℕ → ℕ} {f : ℕ} :
    f ∈ interList m ct ↔ f < m.nFacet ∧ (m.fc f).length ≠ 1 ∧
      (facetTasks m ct f).1 ≠ (facetTasks m ct f).2 := by
  simp only [interList, innerFacets, List.mem_filter, List.mem_range, decide_eq_true_eq, and_assoc]

theorem nodup_interFacets (m : FEMesh) (ct : ℕ → ℕ) :
    (dkeys (interFacets m ct)).Nodup ∧ ∀ p ∈ interFacets m ct, (dkeys p.2).Nodup := by
  have key : ∀ (d : Dict (Dict (List ℕ))) (a b f : ℕ),
      ((dkeys d).Nodup ∧ ∀ k v, dget d k = some v → (dkeys v).Nodup) →
      ((dkeys (dupd d a [] (fun nt => dupd nt b [] (fun fs => fs ++ [f])))).Nodup ∧
        ∀ k v, dget (dupd d a [] (fun nt => dupd nt b [] (fun fs => fs ++ [f]))) k = some v →
          (dkeys v).Nodup) := by
    intro d a b f h
    refine ⟨nodup_dkeys_dupd _ _ _ _ h.1, ?_⟩
    intro k v hv
    rw [dget_dupd] at hv
    by_cases hk : k = a
    · rw [if_pos hk] at hv
      have hv := (Option.some.inj hv)
      rw [← hv]
      apply nodup_dkeys_dupd
      rcases hd : dget d a with _ | w
      · simp [dkeys]
      · exact h.2 a w hd
    · rw [if_neg hk] at hv
      exact h.2 k v hv
  have main : ∀ (l : List ℕ) (d : Dict (Dict (List ℕ))),
      ((dkeys d).Nodup ∧ ∀ k v, dget d k = some v → (dkeys v).Nodup) →
      ((dkeys (l.foldl (fun d f => addFacet d f (facetTasks m ct f).1 (facetTasks m ct f).2) d)).Nodup
        ∧ ∀ k v, dget (l.foldl (fun d f => addFacet d f (facetTasks m ct f).1 (facetTasks m ct f).2) d)
            k = some v → (dkeys v).Nodup) := by
    intro l
    induction l with
    | nil => intro d h; exact h
    | cons f r ih =>
      intro d h
      exact ih _ (key _ _ _ _ (key _ _ _ _ h))
  have h := main (interList m ct) [] (by simp [dkeys, dget])
  exact ⟨h.1, fun p hp => h.2 p.1 p.2 ((dget_eq_some h.1).2 hp)⟩

/-- The keys are exactly the tasks that have an interface facet. -/
theorem mem_keys_interFacets (m : FEMesh) (ct : ℕ → ℕ) (i : ℕ) :
    i ∈ dkeys (interFacets m ct) ↔
      ∃ f ∈ interList m ct, i = (facetTasks m ct f).1 ∨ i = (facetTasks m ct f).2 := by
  have main : ∀ (l : List ℕ) (d : Dict (Dict (List ℕ))),
      i ∈ dkeys (l.foldl (fun d f => addFacet d f (facetTasks m ct f).1 (facetTasks m ct f).2) d) ↔
        i ∈ dkeys d ∨ ∃ f ∈ l, i = (facetTasks m ct f).1 ∨ i = (facetTasks m ct f).2 := by
    intro l
    induction l with
    | nil => intro d; simp
    | cons f r ih =>
      intro d
      rw [List.foldl_cons, ih]
      simp only [addFacet, mem_dkeys_dupd, List.mem_cons, exists_eq_or_imp]
      generalize (∃ f ∈ r, i = (facetTasks m ct f).1 ∨ i = (facetTasks m ct f).2) = P
      tauto
  have := main (interList m ct) []
  simpa [dkeys, interFacets] using this

/-- The keys of the inner dictionaries are the neighbouring tasks. -/
theorem mem_inner_keys (m : FEMesh) (ct : ℕ → ℕ) (i j : ℕ) :
    j ∈ dkeys ((dget (interFacets m ct) i).getD []) ↔ facetsOf (interFacets m ct) i j ≠ [] := by
  have key : ∀ (d : Dict (Dict (List ℕ))) (a b f : ℕ),
      (∀ i j, j ∈ dkeys ((dget d i).getD []) ↔ facetsOf d i j ≠ []) →
      ∀ i j, j ∈ dkeys ((dget (dupd d a [] (fun nt => dupd nt b [] (fun fs => fs ++ [f]))) i).getD [])
        ↔ facetsOf (dupd d a [] (fun nt => dupd nt b [] (fun fs => fs ++ [f]))) i j ≠ [] := by
    intro d a b f h i j
    rw [facetsOf_dupd, dget_dupd]
    by_cases hi : i = a
    · subst hi
      simp only [if_true, Option.getD_some, mem_dkeys_dupd, true_and, h]
      by_cases hj : j = b <;> simp [hj]
    · simp only [hi, if_false, false_and, h]
  have main : ∀ (l : List ℕ) (d : Dict (Dict (List ℕ))),
      (∀ i j, j ∈ dkeys ((dget d i).getD []) ↔ facetsOf d i j ≠ []) →
      ∀ i j, j ∈ dkeys ((dget (l.foldl (fun d f => addFacet d f (facetTasks m ct f).1
          (facetTasks m ct f).2) d) i).getD []) ↔
        facetsOf (l.foldl (fun d f => addFacet d f (facetTasks m ct f).1
          (facetTasks m ct f).2) d) i j ≠ [] := by
    intro l
    induction l with
    | nil => intro d h; exact h
    | cons f r ih =>
      intro d h
      exact ih _ (key _ _ _ _ (key _ _ _ _ h))
  exact main (interList m ct) [] (by simp [dkeys, dget, facetsOf]) i j

/-! ### Property theorems -/

/-- **C73.** Partitioning a mesh without metis into at most as many parts as there are cells gives
every cell exactly one valid task; the cells of the tasks are consecutive, no task is empty and the
numbers of cells of any two tasks differ by at most one. -/
theorem C73_partition_balanced (n p : ℕ) (hp : 0 < p) (hle : p ≤ n) :
    ∃ t, partitionNaive n p = some t ∧ t.length = n ∧ (∀ x ∈ t, x < p) ∧
      t.Pairwise (· ≤ ·) ∧ ∀ k, k < p → t.count k = n / p + (if k < n % p then 1 else 0) := by
  refine ⟨_, partitionNaive_eq n p hp hle, by simp, ?_, ?_, ?_⟩
  · intro y hy
    obtain ⟨x, hx, rfl⟩ := List.mem_map.1 hy
    obtain ⟨t, ht, h0, h1⟩ := exists_part n p x hp (List.mem_range.1 hx)
    rw [digitize_eq n p x t ht h0 h1]; exact ht
  · rw [List.pairwise_map]
    refine List.Pairwise.imp ?_ (List.pairwise_lt_range)
    intro a b hab
    have : digitize (cumOffs (cellCounts n p)) a ≤ digitize (cumOffs (cellCounts n p)) b := by
      unfold digitize
      apply List.countP_mono_left
      intro x _ hx
      simp only [decide_eq_true_eq] at hx ⊢
      omega
    omega
  · intro k hk
    have e : ∀ x ∈ List.range n,
        (digitize (cumOffs (cellCounts n p)) x - 1 = k) ↔
          (partStart n p k ≤ x ∧ x < partStart n p (k + 1)) := by
      intro x hx
      obtain ⟨t, ht, h0, h1⟩ := exists_part n p x hp (List.mem_range.1 hx)
      rw [digitize_eq n p x t ht h0 h1]
      constructor
      · rintro rfl; exact ⟨h0, h1⟩
      · rintro ⟨h2, h3⟩
        by_contra hne
        rcases Nat.lt_or_gt_of_ne hne with h | h
        · have := partStart_mono n p (show t + 1 ≤ k from h)
          omega
        · have := partStart_mono n p (show k + 1 ≤ t from h)
          omega
    rw [List.count, List.countP_map]
    have : (List.range n).countP ((fun x => x == k) ∘ fun x => digitize (cumOffs (cellCounts n p)) x - 1)
        = (List.range n).countP (fun x => decide (partStart n p k ≤ x ∧ x < partStart n p (k + 1))) := by
      apply List.countP_congr
      intro x hx
      simp only [Function.comp, beq_iff_eq, decide_eq_true_eq]
      exact e x hx
    rw [this, count_interval n _ _ (partStart_mono n p (by omega)) (by
      have := partStart_mono n p (show k + 1 ≤ p from hk)
      have := partStart_last n p hp
      omega)]
    unfold partStart
    have : (k + 1) * (n / p) = k * (n / p) + n / p := by ring
    rw [this]
    generalize n / p = q
    generalize k * q = kq
    generalize n % p = r
    split <;> omega

/-- **C73.** Asking for more parts than there are cells is refused. -/
theorem C73_partition_too_many (n p : ℕ) (h : n < p) : partitionNaive n p = none := by
  have hs := cellCounts_sum n p (by omega)
  have hany : (cellCounts n p).any (fun c => c = 0) = true := by
    rw [List.any_eq_true]
    refine ⟨0, List.mem_map.2 ⟨n, List.mem_range.2 h, ?_⟩, by simp⟩
    have h1 : n / p = 0 := Nat.div_eq_of_lt h
    have h2 : n % p = n := Nat.mod_eq_of_lt h
    simp [h1, h2]
  unfold partitionNaive
  simp only [hs, ne_eq, not_true, if_false, hany, if_true]

/-- `inter_facets[i][j]` as a filter of the list of interface facets. -/
theorem facetsOf_interFacets (m : FEMesh) (ct : ℕ → ℕ) (i j : ℕ) :
    facetsOf (interFacets m ct) i j = (interList m ct).filter (fun f => decide
      ((i = (facetTasks m ct f).1 ∧ j = (facetTasks m ct f).2) ∨
        (i = (facetTasks m ct f).2 ∧ j = (facetTasks m ct f).1))) := by
  unfold interFacets
  rw [facetsOf_foldl _ _ (fun f hf => (mem_interList.1 hf).2.2)]
  have h0 : facetsOf ([] : Dict (Dict (List ℕ))) i j = [] := by simp [facetsOf, dget]
  rw [h0, List.nil_append]

/-- **C73.** `inter_facets[i][j]` lists, in increasing order and each once, exactly the facets
between a cell of task `i` and a cell of task `j ≠ i`, whichever of the two cells comes first. -/
theorem C73_inter_facets (m : FEMesh) (ct : ℕ → ℕ)
    (hfc : ∀ f < m.nFacet, (m.fc f).length = 1 ∨ (m.fc f).length = 2) (i j : ℕ) :
    (facetsOf (interFacets m ct) i j).Pairwise (· < ·) ∧
    ∀ f, f ∈ facetsOf (interFacets m ct) i j ↔ f < m.nFacet ∧ i ≠ j ∧
      ∃ a b, m.fc f = [a, b] ∧ ((ct a = i ∧ ct b = j) ∨ (ct a = j ∧ ct b = i)) := by
  rw [facetsOf_interFacets]
  constructor
  · exact ((List.pairwise_lt_range.filter _).filter _).filter _
  intro f
  rw [List.mem_filter, mem_interList, decide_eq_true_iff]
  simp only [facetTasks]
  constructor
  · rintro ⟨⟨hf, h1, h2⟩, h3⟩
    rcases hfc f hf with h | h
    · exact absurd h h1
    · obtain ⟨a, b, hab⟩ := List.length_eq_two.1 h
      simp only [hab, List.getD_cons_zero, List.getD_cons_succ] at h2 h3
      refine ⟨hf, ?_, a, b, hab, ?_⟩
      · rcases h3 with ⟨rfl, rfl⟩ | ⟨rfl, rfl⟩
        · exact h2
        · exact fun e => h2 e.symm
      · rcases h3 with ⟨rfl, rfl⟩ | ⟨rfl, rfl⟩
        · exact Or.inl ⟨rfl, rfl⟩
        · exact Or.inr ⟨rfl, rfl⟩
  · rintro ⟨hf, hne, a, b, hab, h1⟩
    simp only [hab, List.getD_cons_zero, List.getD_cons_succ, List.length_cons, List.length_nil]
    rcases h1 with ⟨rfl, rfl⟩ | ⟨rfl, rfl⟩
    · exact ⟨⟨hf, by omega, hne⟩, Or.inl ⟨rfl, rfl⟩⟩
    · exact ⟨⟨hf, by omega, fun e => hne e.symm⟩, Or.inr ⟨rfl, rfl⟩⟩

end Par
