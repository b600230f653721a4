import Verif.Ls.Props
import Mathlib.Data.List.Nodup
import Mathlib.Algebra.Order.Ring.Rat

/-! # Claims about the symmetry test of the MUMPS solver (C116) and examples -/

namespace Verif.Ls

variable {K : Type} [Field K] [LinearOrder K]

/-! ### Sorting -/

theorem keyLe_trans (a b c : (ℕ × ℕ) × K) (h1 : keyLe a b) (h2 : keyLe b c) : keyLe a c := by
  simp only [keyLe, decide_eq_true_eq] at *
  omega

theorem keyLe_total (a b : (ℕ × ℕ) × K) : keyLe a b || keyLe b a := by
  simp only [keyLe, Bool.or_eq_true, decide_eq_true_eq]
  omega

/-- The sorted lists with the same distinct keys have equal sequences of keys. -/
theorem sorted_keys (a b : List ((ℕ × ℕ) × K)) (h : (a.map Prod.fst).Perm (b.map Prod.fst)) :
    (a.mergeSort keyLe).map Prod.fst = (b.mergeSort keyLe).map Prod.fst := by
  have hp : ∀ l : List ((ℕ × ℕ) × K), ((l.mergeSort keyLe).map Prod.fst).Pairwise
      (fun x y : ℕ × ℕ => x.1 < y.1 ∨ (x.1 = y.1 ∧ x.2 ≤ y.2)) := by
    intro l
    rw [List.pairwise_map]
    refine (List.pairwise_mergeSort (le := keyLe) keyLe_trans keyLe_total l).imp ?_
    intro x y hxy
    simpa [keyLe] using hxy
  refine List.Perm.eq_of_pairwise ?_ (hp a) (hp b) ?_
  · intro x y _ _ h1 h2
    ext <;> omega
  · exact ((List.mergeSort_perm a keyLe).map _).trans (h.trans ((List.mergeSort_perm b keyLe).map _).symm)

theorem zip_keys {A B : Type} : ∀ (u lo : List (A × B)), u.map Prod.fst = lo.map Prod.fst →
    (∀ p ∈ List.zip u lo, p.1.1 = p.2.1) ∧ ∀ a ∈ u, ∃ b, (a, b) ∈ List.zip u lo
  | [], lo, _ => by simp
  | a :: u, [], h => by simp at h
  | a :: u, b :: lo, h => by
    simp only [List.map_cons, List.cons.injEq] at h
    obtain ⟨h1, h2⟩ := zip_keys u lo h.2
    constructor
    · intro p hp
      rw [List.zip_cons_cons, List.mem_cons] at hp
      rcases hp with rfl | hp
      · exact h.1
      · exact h1 p hp
    · intro x hx
      rw [List.mem_cons] at hx
      rcases hx with rfl | hx
      · exact ⟨b, by simp⟩
      · obtain ⟨y, hy⟩ := h2 x hx
        exact ⟨y, by simp [hy]⟩

theorem zip_mem {A B : Type} (u lo : List (A × B)) (h : u.map Prod.fst = lo.map Prod.fst)
    (hn : (lo.map Prod.fst).Nodup) (a b : A × B) : (a, b) ∈ List.zip u lo ↔ a ∈ u ∧ b ∈ lo ∧ a.1 = b.1 := by
  obtain ⟨h1, h2⟩ := zip_keys u lo h
  constructor
  · intro hp
    exact ⟨(List.of_mem_zip hp).1, (List.of_mem_zip hp).2, h1 _ hp⟩
  · rintro ⟨ha, hb, hab⟩
    obtain ⟨b', hb'⟩ := h2 a ha
    have e := h1 _ hb'
    simp only at e
    have : b' = b := List.inj_on_of_nodup_map hn (List.of_mem_zip hb').2 hb (by rw [← e, hab])
    rwa [← this]

theorem mem_upper (l : List (Entry K)) (r c : ℕ) (v : K) :
    ((c, r), v) ∈ upperSorted l ↔ (r, c, v) ∈ l ∧ r < c := by
  simp only [upperSorted, List.mem_mergeSort, List.mem_map, List.mem_filter, decide_eq_true_eq, Prod.mk.injEq]
  constructor
  · rintro ⟨⟨r', c', v'⟩, ⟨h1, h2⟩, ⟨rfl, rfl⟩, rfl⟩
    exact ⟨h1, h2⟩
  · rintro ⟨h1, h2⟩
    exact ⟨(r, c, v), ⟨h1, h2⟩, ⟨rfl, rfl⟩, rfl⟩

theorem mem_lower (l : List (Entry K)) (r c : ℕ) (v : K) :
    ((r, c), v) ∈ lowerSorted l ↔ (r, c, v) ∈ l ∧ c < r := by
  simp only [lowerSorted, List.mem_mergeSort, List.mem_map, List.mem_filter, decide_eq_true_eq, Prod.mk.injEq]
  constructor
  · rintro ⟨⟨r', c', v'⟩, ⟨h1, h2⟩, ⟨rfl, rfl⟩, rfl⟩
    exact ⟨h1, h2⟩
  · rintro ⟨h1, h2⟩
    exact ⟨(r, c, v), ⟨h1, h2⟩, ⟨rfl, rfl⟩, rfl⟩

theorem upper_keys (l : List (Entry K)) (hn : (l.map fun e => (e.1, e.2.1)).Nodup) :
    (((l.filter fun e => decide (e.1 < e.2.1)).map fun e => ((e.2.1, e.1), e.2.2)).map Prod.fst).Nodup := by
  rw [List.map_map]
  have h1 : ((l.filter fun e => decide (e.1 < e.2.1)).map fun e => (e.1, e.2.1)).Nodup :=
    List.Nodup.sublist (List.Sublist.map _ List.filter_sublist) hn
  have : (fun e : Entry K => (e.2.1, e.1)) = Prod.swap ∘ fun e => (e.1, e.2.1) := rfl
  show (List.map (fun e : Entry K => (e.2.1, e.1)) _).Nodup
  rw [this, ← List.map_map]
  exact h1.map Prod.swap_injective

theorem lower_keys (l : List (Entry K)) (hn : (l.map fun e => (e.1, e.2.1)).Nodup) :
    (((l.filter fun e => decide (e.2.1 < e.1)).map fun e => ((e.1, e.2.1), e.2.2)).map Prod.fst).Nodup := by
  rw [List.map_map]
  exact List.Nodup.sublist (List.Sublist.map _ List.filter_sublist) hn

theorem foldl_max (d : K) (ds : List K) (m : K) (hm : m ∈ d :: ds) (hle : ∀ v ∈ d :: ds, v ≤ m) :
    ds.foldl max d = m := by
  have key : ∀ (ds : List K) (d : K), (d ≤ ds.foldl max d ∧ ∀ v ∈ ds, v ≤ ds.foldl max d) ∧ ds.foldl max d ∈ d :: ds := by
    intro ds
    induction ds with
    | nil => intro d; simp
    | cons x ds ih =>
      intro d
      obtain ⟨⟨h1, h2⟩, h3⟩ := ih (max d x)
      simp only [List.foldl_cons]
      refine ⟨⟨(le_max_left _ _).trans h1, fun v hv => ?_⟩, ?_⟩
      · rw [List.mem_cons] at hv
        rcases hv with rfl | hv
        · exact (le_max_right _ _).trans h1
        · exact h2 v hv
      · rw [List.mem_cons] at h3 ⊢
        rcases h3 with h3 | h3
        · rw [h3]
          rcases max_choice d x with h | h <;> simp [h]
        · right; simp [h3]
  obtain ⟨⟨h1, h2⟩, h3⟩ := key ds d
  apply le_antisymm (hle _ h3)
  rw [List.mem_cons] at hm
  rcases hm with rfl | hm
  · exact h1
  · exact h2 m hm

/-- **C116.** For a matrix without duplicate positions, with a symmetric sparsity pattern and with an off-diagonal item: the
test gives true exactly when the differences of the opposite items are small relatively to the maximum (not the maximum
of the absolute values) of the items above the diagonal, for the items in any order. -/
theorem C116_symmetric_pattern (tol : K) (l : List (Entry K)) (hn : (l.map fun e => (e.1, e.2.1)).Nodup)
    (hs : ∀ r c, (∃ v, (r, c, v) ∈ l) ↔ ∃ v, (c, r, v) ∈ l) (m : K) (hm0 : m ≠ 0)
    (hm : ∃ r c, r < c ∧ (r, c, m) ∈ l) (hmax : ∀ r c v, r < c → (r, c, v) ∈ l → v ≤ m) :
    ∃ b, cooIsSymmetric tol l = .ok b ∧
      (b = true ↔ ∀ r c v v', r < c → (r, c, v) ∈ l → (c, r, v') ∈ l → |v - v'| / |m| < tol) := by
  have hperm : (((l.filter fun e => decide (e.1 < e.2.1)).map fun e => ((e.2.1, e.1), e.2.2)).map Prod.fst).Perm
      (((l.filter fun e => decide (e.2.1 < e.1)).map fun e => ((e.1, e.2.1), e.2.2)).map Prod.fst) := by
    rw [List.perm_ext_iff_of_nodup (upper_keys l hn) (lower_keys l hn)]
    rintro ⟨c, r⟩
    simp only [List.map_map, List.mem_map, List.mem_filter, decide_eq_true_eq, Function.comp, Prod.mk.injEq, Prod.exists]
    constructor
    · rintro ⟨r', c', v, ⟨h1, h2⟩, rfl, rfl⟩
      obtain ⟨v', hv'⟩ := (hs _ _).mp ⟨v, h1⟩
      exact ⟨c', r', v', ⟨hv', h2⟩, rfl, rfl⟩
    · rintro ⟨c', r', v, ⟨h1, h2⟩, rfl, rfl⟩
      obtain ⟨v', hv'⟩ := (hs _ _).mp ⟨v, h1⟩
      exact ⟨r', c', v', ⟨hv', h2⟩, rfl, rfl⟩
  have hkeys : (upperSorted l).map Prod.fst = (lowerSorted l).map Prod.fst := sorted_keys _ _ hperm
  have hlo : ((lowerSorted l).map Prod.fst).Nodup :=
    (((List.mergeSort_perm _ keyLe).map Prod.fst).nodup_iff).mpr (lower_keys l hn)
  have hlen : (lowerSorted l).length = (upperSorted l).length := by
    have := congrArg List.length hkeys
    simpa using this.symm
  obtain ⟨r0, c0, hrc0, hm0l⟩ := hm
  have hmem : m ∈ (upperSorted l).map Prod.snd :=
    List.mem_map.mpr ⟨((c0, r0), m), (mem_upper l r0 c0 m).mpr ⟨hm0l, hrc0⟩, rfl⟩
  have hle : ∀ v ∈ (upperSorted l).map Prod.snd, v ≤ m := by
    intro v hv
    obtain ⟨⟨⟨c, r⟩, v'⟩, h1, rfl⟩ := List.mem_map.mp hv
    obtain ⟨h2, h3⟩ := (mem_upper l r c v').mp h1
    exact hmax r c v' h3 h2
  unfold cooIsSymmetric
  simp only [hlen, ne_eq, not_true_eq_false, if_false]
  cases hd : (upperSorted l).map Prod.snd with
  | nil => rw [hd] at hmem; simp at hmem
  | cons d ds =>
    simp only
    rw [hd] at hmem hle
    rw [foldl_max d ds m hmem hle]
    refine ⟨_, rfl, ?_⟩
    rw [Bool.not_eq_true', ← Bool.not_eq_true, List.any_eq_true]
    push Not
    have hz : List.zipWith (fun a b : (ℕ × ℕ) × K => tooBig tol |a.2 - b.2| m) (upperSorted l) (lowerSorted l) =
        (List.zip (upperSorted l) (lowerSorted l)).map fun p => tooBig tol |p.1.2 - p.2.2| m := by
      rw [List.zip, List.map_zipWith]
    rw [hz]
    constructor
    · intro h r c v v' hrc hv hv'
      have hz : (((c, r), v), ((c, r), v')) ∈ List.zip (upperSorted l) (lowerSorted l) :=
        (zip_mem _ _ hkeys hlo _ _).mpr ⟨(mem_upper l r c v).mpr ⟨hv, hrc⟩, (mem_lower l c r v').mpr ⟨hv', hrc⟩, rfl⟩
      have := h _ (List.mem_map.mpr ⟨_, hz, rfl⟩)
      simpa [tooBig, hm0] using this
    · intro h x hx
      obtain ⟨⟨⟨⟨c, r⟩, v⟩, ⟨⟨c', r'⟩, v'⟩⟩, hp, rfl⟩ := List.mem_map.mp hx
      obtain ⟨h1, h2, h3⟩ := (zip_mem _ _ hkeys hlo _ _).mp hp
      simp only [Prod.mk.injEq] at h3
      obtain ⟨rfl, rfl⟩ := h3
      obtain ⟨h4, h5⟩ := (mem_upper l r c v).mp h1
      obtain ⟨h6, _⟩ := (mem_lower l c r v').mp h2
      have := h r c v v' h5 h4 h6
      simpa [tooBig, hm0] using this

/-- **C116.** The finding: a matrix with no item outside of the diagonal raises an error. -/
theorem C116_diagonal (tol : K) (l : List (Entry K)) (h : ∀ e ∈ l, e.1 = e.2.1) :
    cooIsSymmetric tol l = .error .value := by
  have h1 : upperSorted l = [] := by
    unfold upperSorted
    rw [List.filter_eq_nil_iff.mpr (by intro e he; simp [h e he])]
    simp
  have h2 : lowerSorted l = [] := by
    unfold lowerSorted
    rw [List.filter_eq_nil_iff.mpr (by intro e he; simp [h e he])]
    simp
  simp [cooIsSymmetric, h1, h2]

/-- **C116.** The finding: the positions are not compared.  A matrix with one item above the diagonal and one item
of the same value below the diagonal is found symmetric, wherever they are. -/
theorem C116_positions_ignored [IsStrictOrderedRing K] (tol : K) (ht : 0 < tol) (r c r' c' : ℕ) (h : r < c) (h' : c' < r') (v : K) :
    cooIsSymmetric tol [(r, c, v), (r', c', v)] = .ok true := by
  have e1 : ¬ r' < c' := by omega
  have e2 : ¬ c < r := by omega
  have hb : tooBig tol 0 v = false := by
    unfold tooBig
    split_ifs <;> simp [ht]
  have h1 : upperSorted [(r, c, v), (r', c', v)] = [((c, r), v)] := by simp [upperSorted, h, e1]
  have h2 : lowerSorted [(r, c, v), (r', c', v)] = [((r', c'), v)] := by simp [lowerSorted, h', e2]
  simp [cooIsSymmetric, h1, h2, hb]

/-- **C116.** A matrix with different numbers of the items above and below the diagonal is not symmetric. -/
theorem C116_counts (tol : K) (l : List (Entry K))
    (h : (l.filter fun e => decide (e.1 < e.2.1)).length ≠ (l.filter fun e => decide (e.2.1 < e.1)).length) :
    cooIsSymmetric tol l = .ok false := by
  simp [cooIsSymmetric, upperSorted, lowerSorted, h.symm]

/-- **C116.** With `mumpspy` the symmetry flag of the solver is that of the first matrix after `clear()`, also for the matrices
set later. -/
theorem C116_flag_of_first (isSym : List (Entry K) → Bool) (m0 : List (Entry K)) (ms : List (List (Entry K)))
    (m : List (Entry K)) :
    (m0 :: (ms ++ [m])).foldl (mumpsSet isSym) none = some (isSym m0, m) := by
  have key : ∀ (ms : List (List (Entry K))) (x : List (Entry K)),
      ∃ y, ms.foldl (mumpsSet isSym) (some (isSym m0, x)) = some (isSym m0, y) := by
    intro ms
    induction ms with
    | nil => intro x; exact ⟨x, rfl⟩
    | cons a ms ih => intro x; exact ih a
  obtain ⟨y, hy⟩ := key ms m0
  simp only [List.foldl_cons, List.foldl_append, List.foldl_nil]
  rw [show mumpsSet isSym none m0 = some (isSym m0, m0) from rfl, hy]
  rfl

/-! ### Examples -/

/-- The hypotheses of `C116_symmetric_pattern` are met. -/
example : ∃ b, cooIsSymmetric (1 / 10 : ℚ) [(0, 1, 5), (1, 1, 7), (1, 0, 4)] = .ok b ∧ (b = true ↔
    ∀ r c v v', r < c → (r, c, v) ∈ [((0 : ℕ), (1 : ℕ), (5 : ℚ)), (1, 1, 7), (1, 0, 4)] →
      (c, r, v') ∈ [((0 : ℕ), (1 : ℕ), (5 : ℚ)), (1, 1, 7), (1, 0, 4)] → |v - v'| / |5| < 1 / 10) := by
  refine C116_symmetric_pattern _ _ (by decide) ?_ 5 (by norm_num) ⟨0, 1, by norm_num, by simp⟩ ?_
  · intro r c
    simp only [List.mem_cons, Prod.mk.injEq, List.not_mem_nil, or_false]
    constructor
    · rintro ⟨v, ⟨rfl, rfl, _⟩ | ⟨rfl, rfl, _⟩ | ⟨rfl, rfl, _⟩⟩
      exacts [⟨4, by simp⟩, ⟨7, by simp⟩, ⟨5, by simp⟩]
    · rintro ⟨v, ⟨rfl, rfl, _⟩ | ⟨rfl, rfl, _⟩ | ⟨rfl, rfl, _⟩⟩
      exacts [⟨4, by simp⟩, ⟨7, by simp⟩, ⟨5, by simp⟩]
  · intro r c v hrc h
    simp only [List.mem_cons, Prod.mk.injEq, List.not_mem_nil, or_false] at h
    rcases h with ⟨rfl, rfl, rfl⟩ | ⟨rfl, rfl, rfl⟩ | ⟨rfl, rfl, rfl⟩
    · exact le_refl _
    · omega
    · omega

/-- The matrix with the items 5 at (0, 1) and (2, 1) is found symmetric. -/
example : cooIsSymmetric (1 / 10 : ℚ) [(0, 1, 5), (2, 1, 5)] = .ok true :=
  C116_positions_ignored _ (by norm_num) 0 1 2 1 (by norm_num) (by norm_num) 5

/-- Two items above and one below. -/
example : cooIsSymmetric (1 / 10 : ℚ) [(0, 1, 5), (1, 0, 5), (0, 2, 3)] = .ok false := C116_counts _ _ (by decide)

/-- The identity matrix cannot be tested. -/
example : cooIsSymmetric (1 / 10 : ℚ) [(0, 0, 1), (1, 1, 1)] = .error .value := C116_diagonal _ _ (by simp)

/-- A history: two matrices, the first one modified in place and later replaced by another object. -/
example : runOps (stepDirect (id : ℕ → ℕ) (fun a (b : ℕ) => 100 * a + b)) (LState.new 0)
    [.call true true ⟨8, true, 5⟩ 1, .presolve true ⟨9, true, 6⟩, .call true true ⟨8, true, 5⟩ 2,
      .call true true ⟨8, true, 7⟩ 3, .clear, .call false true ⟨8, true, 7⟩ 4] =
    [some (.ok 501), none, some (.ok 502), some (.ok 703), none, some (.ok 704)] := by
  rw [C115_direct id Set.univ (Function.injective_id.injOn) 0 _ _ (by simp [LOp.useDigest]) (by simp [LOp.mtx])]
  rfl

/-- The same history of the Cholesky solver. -/
example : runOps (stepChol (id : ℕ → ℕ) (fun a (b : ℕ) => 100 * a + b)) (LState.new 0)
    [.call true true ⟨8, true, 5⟩ 1, .presolve true ⟨9, true, 6⟩, .call false true ⟨8, true, 5⟩ 2] =
    [some (.ok 501), none, some (.ok 502)] := by
  rw [C115_cholesky id Set.univ (Function.injective_id.injOn) 0 _ _ (by simp [LOp.useDigest]) (by simp [LOp.mtx])]
  rfl

/-- The stale factorization. -/
example : runOps (stepDirect (id : ℕ → ℕ) (fun a (b : ℕ) => 100 * a + b)) (LState.new 0)
    [.call true true ⟨8, true, 5⟩ 1, .call true true ⟨9, false, 6⟩ 2, .call true true ⟨8, true, 5⟩ 3] =
    [some (.ok 501), some (.ok 602), some (.ok 603)] := C115_stale id 0 _ _ _ rfl rfl 1 2 3

/-- Forced reuse in the multigrid solver. -/
example : runOps (fun s (c : ACall ℕ ℕ) => stepAmg (id : ℕ → ℕ) (fun a b => 100 * a + b) s c.1 c.2.1 c.2.2) (LState.new 0)
    [(true, ⟨8, true, 5⟩, 1), (true, ⟨9, true, 6⟩, 2), (false, ⟨9, true, 6⟩, 3), (true, ⟨8, true, 5⟩, 4)] =
    [some (.ok 501), some (.ok 502), some (.ok 603), some (.ok 604)] := by
  rw [C115_amg id Set.univ (Function.injective_id.injOn) 0 _ _ (by simp)]
  rfl

/-- The bytes of valid matrices. -/
example : Set.InjOn (hashBytes (fun i => [i]) fun d : ℕ => [d, d]) {m : Csr ℕ | m.Valid} :=
  C115_bytes_injective _ _ 1 2 (by simp) (by simp) (by simp) (fun a b h => by simpa using h)
    (fun a b h => by simpa using h)

/-- A valid matrix. -/
example : (⟨[0, 2, 3], [0, 1, 1], [4, 5, 6]⟩ : Csr ℕ).Valid := ⟨by simp, by decide, rfl, rfl⟩

/-- Without the digests. -/
example : runOps (stepDirect (id : ℕ → ℕ) (fun a (b : ℕ) => 100 * a + b)) (LState.new 0)
    [.clear, .call true false ⟨8, true, 5⟩ 1, .call true false ⟨9, true, 6⟩ 2] =
    [none, some (.ok 501), some (.ok 502)] := C115_no_digest id _ _ ⟨8, true, 5⟩ 1 [(⟨9, true, 6⟩, 2)]

/-- Mixing of both. -/
example : runOps (stepDirect (id : ℕ → ℕ) (fun a (b : ℕ) => 100 * a + b)) (LState.new 0)
    [.clear, .call true false ⟨8, true, 5⟩ 1, .clear, .call true true ⟨9, true, 6⟩ 2] =
    [none, some (.ok 501), none, some (.error .type)] := rfl

end Verif.Ls
