import Verif.Ls.Model
import Mathlib.Tactic.Linarith
import Mathlib.Tactic.Ring
import Mathlib.Data.Set.Function

/-! # Claims about the reuse of factorizations (C115) -/

namespace Verif.Ls

variable {M D R X : Type} [DecidableEq D]

/-! ### Specification -/

/-- The matrix of an operation, if any. -/
def LOp.mtx : LOp M R → Option (MtxObj M)
  | .clear => none
  | .presolve _ m => some m
  | .call _ _ m _ => some m

/-- Whether the operation uses the digests. -/
def LOp.useDigest : LOp M R → Bool
  | .clear => true
  | .presolve ud _ => ud
  | .call _ ud _ _ => ud

/-- What the user expects: each call returns the solution of the system with the matrix given to it. -/
def expected (sol : M → R → X) : LOp M R → Option (Out X)
  | .call _ _ m rhs => some (.ok (sol m.content rhs))
  | _ => none

/-- A valid content of a square matrix in the compressed row format: the row pointers do not decrease and end with the
number of items. -/
structure Csr.Valid {K : Type} (m : Csr K) : Prop where
  ne : m.indptr ≠ []
  mono : m.indptr.Pairwise (· ≤ ·)
  last : m.indptr.getLast ne = m.indices.length
  data : m.data.length = m.indices.length

/-! ### The bytes determine the matrix -/

theorem flatMap_length {A B : Type} (f : A → List B) (w : ℕ) (hw : ∀ a, (f a).length = w) (l : List A) :
    (l.flatMap f).length = l.length * w := by
  induction l with
  | nil => simp
  | cons a l ih => simp only [List.flatMap_cons, List.length_append, hw, ih, List.length_cons]; ring

/-- Equal prefixes of the bytes are equal prefixes of the items. -/
theorem flatMap_prefix {A B : Type} (f : A → List B) (w : ℕ) (hw : ∀ a, (f a).length = w) (hf : Function.Injective f) :
    ∀ (l l' : List A) (r r' : List B), l.length ≤ l'.length → l.flatMap f ++ r = l'.flatMap f ++ r' → l <+: l'
  | [], _, _, _, _, _ => List.nil_prefix
  | a :: l, [], _, _, h, _ => by simp at h
  | a :: l, a' :: l', r, r', h, he => by
    simp only [List.flatMap_cons, List.append_assoc] at he
    obtain ⟨h1, h2⟩ := List.append_inj he (by rw [hw, hw])
    rw [hf h1]
    exact List.prefix_cons_inj _ |>.mpr (flatMap_prefix f w hw hf l l' r r' (by simpa using h) h2)

theorem flatMap_inj {A B : Type} (f : A → List B) (w : ℕ) (hw : ∀ a, (f a).length = w) (hf : Function.Injective f)
    (l l' : List A) (hl : l.length = l'.length) (h : l.flatMap f = l'.flatMap f) : l = l' := by
  have := flatMap_prefix f w hw hf l l' [] [] hl.le (by rw [h])
  exact this.eq_of_length hl

theorem bytes_aux {K B : Type} (ei : ℕ → List B) (ed : K → List B) (w v : ℕ) (hw : ∀ a, (ei a).length = w)
    (hv : ∀ a, (ed a).length = v) (hw0 : 0 < w) (hi : Function.Injective ei) (hd : Function.Injective ed)
    (m m' : Csr K) (vm : m.Valid) (vm' : m'.Valid) (hle : m.indptr.length ≤ m'.indptr.length)
    (h : hashBytes ei ed m = hashBytes ei ed m') : m = m' := by
  have hlen := congrArg List.length h
  simp only [hashBytes, List.length_append, flatMap_length ei w hw, flatMap_length ed v hv, vm.data, vm'.data] at hlen
  simp only [hashBytes, List.append_assoc] at h
  have hp := flatMap_prefix ei w hw hi _ _ _ _ hle h
  -- the last row pointer of m is one of m'
  have hk : m.indices.length ≤ m'.indices.length := by
    rw [← vm.last, ← vm'.last]
    have hmem : m.indptr.getLast vm.ne ∈ m'.indptr := hp.subset (List.getLast_mem _)
    have := vm'.mono
    rw [← List.dropLast_append_getLast vm'.ne] at this hmem
    rw [List.pairwise_append] at this
    rcases List.mem_append.mp hmem with h1 | h1
    · exact this.2.2 _ h1 _ (by simp)
    · rw [List.mem_singleton] at h1; rw [h1]
  have hpl : m.indptr.length = m'.indptr.length := by
    have h1 : m.indices.length * w ≤ m'.indices.length * w := Nat.mul_le_mul_right _ hk
    have h2 : m.indices.length * v ≤ m'.indices.length * v := Nat.mul_le_mul_right _ hk
    have h3 : m'.indptr.length * w ≤ m.indptr.length * w := by omega
    exact le_antisymm hle (Nat.le_of_mul_le_mul_right h3 hw0)
  have hkl : m.indices.length = m'.indices.length := by
    rw [hpl] at hlen
    have h2 : m.indices.length * v ≤ m'.indices.length * v := Nat.mul_le_mul_right _ hk
    have h3 : m'.indices.length * w ≤ m.indices.length * w := by omega
    exact le_antisymm hk (Nat.le_of_mul_le_mul_right h3 hw0)
  obtain ⟨h1, h2⟩ := List.append_inj h (by rw [flatMap_length ei w hw, flatMap_length ei w hw, hpl])
  obtain ⟨h3, h4⟩ := List.append_inj h2 (by rw [flatMap_length ei w hw, flatMap_length ei w hw, hkl])
  cases m; cases m'
  simp only [Csr.mk.injEq]
  exact ⟨flatMap_inj ei w hw hi _ _ hpl h1, flatMap_inj ei w hw hi _ _ hkl h3,
    flatMap_inj ed v hv hd _ _ (by rw [vm.data, vm'.data]; exact hkl) h4⟩

/-- **C115.** The bytes hashed determine the matrix, also its order, although the three arrays are just concatenated: for any
item sizes, two valid contents with the same bytes are the same. -/
theorem C115_bytes_injective {K B : Type} (ei : ℕ → List B) (ed : K → List B) (w v : ℕ) (hw : ∀ a, (ei a).length = w)
    (hv : ∀ a, (ed a).length = v) (hw0 : 0 < w) (hi : Function.Injective ei) (hd : Function.Injective ed) :
    Set.InjOn (hashBytes ei ed) {m : Csr K | m.Valid} := by
  intro m vm m' vm' h
  rcases le_total m.indptr.length m'.indptr.length with hle | hle
  · exact bytes_aux ei ed w v hw hv hw0 hi hd m m' vm vm' hle h
  · exact (bytes_aux ei ed w v hw hv hw0 hi hd m' m vm' vm hle h.symm).symm

/-! ### The direct solvers -/

/-- The invariant of the histories with digests: the digest is that of the factorized matrix. -/
structure LState.Good (hash : M → D) (S : Set M) (s : LState M D) : Prop where
  dig : ∃ i d, s.digest = some (i, d)
  fact : ∀ a, s.fact = some a → a ∈ S ∧ ∃ i, s.digest = some (i, hash a)

theorem presolve_good (hash : M → D) (S : Set M) (hS : Set.InjOn hash S) (s : LState M D) (hs : s.Good hash S)
    (m : MtxObj M) (hm : m.csr = true) (hmS : m.content ∈ S) :
    ∃ s', s.presolve hash true m = .ok s' ∧ s'.fact = some m.content ∧ s'.Good hash S := by
  obtain ⟨i, d, hd⟩ := hs.dig
  unfold LState.presolve isNewMatrix
  simp only [hm, hd, if_true, Bool.not_true, Bool.false_eq_true, if_false]
  by_cases h : m.id = i ∧ hash m.content = d
  · simp only [h, and_self, if_true, Bool.false_or]
    cases hf : s.fact with
    | none =>
      simp only [Option.isNone_none, if_true]
      exact ⟨_, rfl, rfl, ⟨_, _, rfl⟩, fun a ha => by
        simp only [Option.some.injEq] at ha; subst ha; exact ⟨hmS, _, by rw [h.2]⟩⟩
    | some a =>
      simp only [Option.isNone_some, Bool.false_eq_true, if_false]
      obtain ⟨haS, j, hj⟩ := hs.fact a hf
      rw [hd] at hj
      simp only [Option.some.injEq, Prod.mk.injEq] at hj
      have : m.content = a := hS hmS haS (by rw [h.2, hj.2])
      exact ⟨s, rfl, by rw [hf, this], hs⟩
  · simp only [h, if_false, Bool.true_or, if_true]
    exact ⟨_, rfl, rfl, ⟨_, _, rfl⟩, fun a ha => by
      simp only [Option.some.injEq] at ha; subst ha; exact ⟨hmS, _, rfl⟩⟩

theorem clear_good (hash : M → D) (S : Set M) (s : LState M D) (hs : s.Good hash S) : s.clear.Good hash S :=
  ⟨hs.dig, fun a ha => by simp [LState.clear] at ha⟩

theorem new_good (hash : M → D) (S : Set M) (empty : D) : (LState.new empty : LState M D).Good hash S :=
  ⟨⟨_, _, rfl⟩, fun a ha => by simp [LState.new] at ha⟩

theorem run_good {O : Type} (hash : M → D) (S : Set M) (step : LState M D → O → LState M D × Option (Out X))
    (ex : O → Option (Out X)) (ops : List O) (P : O → Prop) (hP : ∀ o ∈ ops, P o)
    (hstep : ∀ s, s.Good hash S → ∀ o, P o → (step s o).2 = ex o ∧ (step s o).1.Good hash S) :
    ∀ s, s.Good hash S → runOps step s ops = ops.map ex := by
  induction ops with
  | nil => intro s _; rfl
  | cons o ops ih =>
    intro s hs
    obtain ⟨h1, h2⟩ := hstep s hs o (hP o (by simp))
    simp only [runOps, List.map_cons, h1]
    rw [ih (fun o ho => hP o (by simp [ho])) _ h2]

/-- **C115.** With the digests, each call of a direct solver in any history of calls, with or without presolving, of
`presolve()` and of `clear()`, returns the solution of the system with the matrix given to it, when all the matrices are
instances of `csr_array`; also when the matrices are modified in place or allocated at addresses of deleted ones. -/
theorem C115_direct (hash : M → D) (S : Set M) (hS : Set.InjOn hash S) (empty : D) (sol : M → R → X)
    (ops : List (LOp M R)) (hd : ∀ o ∈ ops, o.useDigest = true)
    (hm : ∀ o ∈ ops, ∀ m, o.mtx = some m → m.csr = true ∧ m.content ∈ S) :
    runOps (stepDirect hash sol) (LState.new empty) ops = ops.map (expected sol) := by
  refine run_good hash S _ _ ops (fun o => o.useDigest = true ∧ ∀ m, o.mtx = some m → m.csr = true ∧ m.content ∈ S)
    (fun o ho => ⟨hd o ho, hm o ho⟩) ?_ _ (new_good _ _ _)
  rintro s hs (_ | ⟨ud, m⟩ | ⟨up, ud, m, rhs⟩) ⟨h1, h2⟩
  · exact ⟨rfl, clear_good _ _ _ hs⟩
  · obtain ⟨h3, h4⟩ := h2 m rfl
    simp only [LOp.useDigest] at h1; subst h1
    obtain ⟨s', e, hf, hg⟩ := presolve_good hash S hS s hs m h3 h4
    simp only [stepDirect, e]
    exact ⟨rfl, hg⟩
  · obtain ⟨h3, h4⟩ := h2 m rfl
    simp only [LOp.useDigest] at h1; subst h1
    cases up with
    | true =>
      obtain ⟨s', e, hf, hg⟩ := presolve_good hash S hS s hs m h3 h4
      simp only [stepDirect, e, if_true, hf, Option.map_some, expected]
      exact ⟨trivial, hg⟩
    | false => exact ⟨rfl, clear_good _ _ _ hs⟩

/-- **C115.** The same for the Cholesky and MUMPS solvers. -/
theorem C115_cholesky (hash : M → D) (S : Set M) (hS : Set.InjOn hash S) (empty : D) (sol : M → R → X)
    (ops : List (LOp M R)) (hd : ∀ o ∈ ops, o.useDigest = true)
    (hm : ∀ o ∈ ops, ∀ m, o.mtx = some m → m.csr = true ∧ m.content ∈ S) :
    runOps (stepChol hash sol) (LState.new empty) ops = ops.map (expected sol) := by
  refine run_good hash S _ _ ops (fun o => o.useDigest = true ∧ ∀ m, o.mtx = some m → m.csr = true ∧ m.content ∈ S)
    (fun o ho => ⟨hd o ho, hm o ho⟩) ?_ _ (new_good _ _ _)
  rintro s hs (_ | ⟨ud, m⟩ | ⟨up, ud, m, rhs⟩) ⟨h1, h2⟩
  · exact ⟨rfl, clear_good _ _ _ hs⟩
  · obtain ⟨h3, h4⟩ := h2 m rfl
    simp only [LOp.useDigest] at h1; subst h1
    obtain ⟨s', e, hf, hg⟩ := presolve_good hash S hS s hs m h3 h4
    simp only [stepChol, e]
    exact ⟨rfl, hg⟩
  · obtain ⟨h3, h4⟩ := h2 m rfl
    simp only [LOp.useDigest] at h1; subst h1
    have hs0 : (if up then s else s.clear).Good hash S := by
      cases up
      · exact clear_good _ _ _ hs
      · exact hs
    obtain ⟨s', e, hf, hg⟩ := presolve_good hash S hS _ hs0 m h3 h4
    simp only [stepChol, e, hf, Option.map_some, expected]
    exact ⟨trivial, hg⟩

/-- **C115.** A call with presolving, the digests and a matrix that is not a `csr_array` factorizes the matrix each time:
it returns the right solution in any state. -/
theorem C115_other_format (hash : M → D) (sol : M → R → X) (s : LState M D) (m : MtxObj M) (hm : m.csr = false) (rhs : R)
    (up : Bool) : (stepDirect hash sol s (.call up true m rhs)).2 = expected sol (.call up true m rhs) := by
  cases up
  · rfl
  · simp [stepDirect, LState.presolve, isNewMatrix, hm, expected]

/-- **C115.** The finding: such a factorization does not change the digest, so that a following call with the `csr_array` matrix
used before it returns the solution of the system with the other matrix. -/
theorem C115_stale (hash : M → D) (empty : D) (sol : M → R → X) (a b : MtxObj M) (ha : a.csr = true)
    (hb : b.csr = false) (r1 r2 r3 : R) :
    runOps (stepDirect hash sol) (LState.new empty) [.call true true a r1, .call true true b r2, .call true true a r3] =
      [some (.ok (sol a.content r1)), some (.ok (sol b.content r2)), some (.ok (sol b.content r3))] := by
  simp only [runOps, stepDirect, LState.presolve, isNewMatrix, LState.new, ha, hb, if_true, Bool.not_true,
    Bool.false_eq_true, if_false, Option.isNone_none, Bool.or_true, Bool.not_false, Bool.true_or]
  split_ifs <;> simp_all

/-- **C115.** Without the digests the matrix factorized first after `clear()` is used in all the calls with presolving,
whatever matrices they are given. -/
theorem C115_no_digest (hash : M → D) (sol : M → R → X) (s : LState M D) (m0 : MtxObj M) (r0 : R)
    (calls : List (MtxObj M × R)) :
    runOps (stepDirect hash sol) s (.clear :: .call true false m0 r0 :: calls.map fun c => .call true false c.1 c.2) =
      none :: some (.ok (sol m0.content r0)) :: calls.map fun c => some (.ok (sol m0.content c.2)) := by
  have key : ∀ (calls : List (MtxObj M × R)) (s : LState M D), s.fact = some m0.content →
      runOps (stepDirect hash sol) s (calls.map fun c => .call true false c.1 c.2) =
        calls.map fun c => some (.ok (sol m0.content c.2)) := by
    intro calls
    induction calls with
    | nil => intros; rfl
    | cons c calls ih =>
      intro s hs
      have e : stepDirect hash sol s (.call true false c.1 c.2) = (s, some (.ok (sol m0.content c.2))) := by
        simp [stepDirect, LState.presolve, hs]
      simp only [List.map_cons, runOps, e, ih s hs]
  have e : stepDirect hash sol s.clear (.call true false m0 r0) =
      ({ fact := some m0.content, digest := none }, some (.ok (sol m0.content r0))) := by
    simp [stepDirect, LState.presolve, LState.clear]
  have e0 : stepDirect hash sol s (.clear : LOp M R) = (s.clear, none) := rfl
  simp only [runOps, e0, e, key calls ⟨some m0.content, none⟩ rfl]

/-- **C115.** The finding: once a matrix is factorized without the digests, every later call with presolving, the digests
and a `csr_array` matrix raises a `TypeError`, whatever is done in between, `clear()` included. -/
theorem C115_mixed_fails (hash : M → D) (sol : M → R → X) (s : LState M D) (m0 : MtxObj M) (r0 : R)
    (ops : List (LOp M R)) (m : MtxObj M) (hm : m.csr = true) (rhs : R) :
    (runOps (stepDirect hash sol) s (.clear :: .call true false m0 r0 :: (ops ++ [.call true true m rhs]))).getLast? =
      some (some (.error .type)) := by
  have hstep : ∀ (s : LState M D), s.digest = none → ∀ o : LOp M R, (stepDirect hash sol s o).1.digest = none := by
    intro s hs o
    rcases o with _ | ⟨ud, m⟩ | ⟨up, ud, m, rhs⟩
    · exact hs
    · cases ud <;> rcases hc : m.csr <;> rcases hf : s.fact <;>
        simp [stepDirect, LState.presolve, isNewMatrix, hs, hc, hf]
    · cases up
      · exact hs
      · cases ud <;> rcases hc : m.csr <;> rcases hf : s.fact <;>
          simp [stepDirect, LState.presolve, isNewMatrix, hs, hc, hf]
  have key : ∀ (ops : List (LOp M R)) (s : LState M D), s.digest = none →
      (runOps (stepDirect hash sol) s (ops ++ [.call true true m rhs])).getLast? = some (some (.error .type)) := by
    intro ops
    induction ops with
    | nil =>
      intro s hs
      simp [runOps, stepDirect, LState.presolve, isNewMatrix, hs, hm]
    | cons o ops ih =>
      intro s hs
      have h := ih _ (hstep s hs o)
      simp only [List.cons_append, runOps]
      rw [List.getLast?_cons, h]
      rfl
  have e : stepDirect hash sol s.clear (.call true false m0 r0) =
      ({ fact := some m0.content, digest := none }, some (.ok (sol m0.content r0))) := by
    simp [stepDirect, LState.presolve, LState.clear]
  have e0 : stepDirect hash sol s (.clear : LOp M R) = (s.clear, none) := rfl
  simp only [runOps, e0, e]
  have h := key ops ⟨some m0.content, none⟩ rfl
  rw [List.getLast?_cons, List.getLast?_cons, h]
  rfl

/-! ### The algebraic multigrid solver -/

/-- A call of the multigrid solver: forced reuse, the matrix, the right-hand side. -/
abbrev ACall (M R : Type) := Bool × MtxObj M × R

/-- The matrix of the set-up used by the last of the calls: that of the last call that was not forced, or that of the first
call. -/
def setupOf : List (ACall M R) → Option M
  | [] => none
  | c :: cs => some (cs.foldl (fun a c => if c.1 then a else c.2.1.content) c.2.1.content)

/-- **C115.** The multigrid solver: in any history of calls with `csr_array` matrices, a call that does not force the reuse
gives the solution of the system with the set-up of its matrix, a call that forces it uses the set-up of the last call that
did not, or of the first call. -/
theorem C115_amg (hash : M → D) (S : Set M) (hS : Set.InjOn hash S) (empty : D) (sol : M → R → X)
    (calls : List (ACall M R)) (hm : ∀ c ∈ calls, c.2.1.csr = true ∧ c.2.1.content ∈ S ∧ c.2.1.id ≠ 0) :
    runOps (fun s (c : ACall M R) => stepAmg hash sol s c.1 c.2.1 c.2.2) (LState.new empty) calls =
      (List.range calls.length).map fun n => (setupOf (calls.take (n + 1))).bind fun a =>
        calls[n]?.map fun c => .ok (sol a c.2.2) := by
  -- the invariant
  have key : ∀ (calls : List (ACall M R)), (∀ c ∈ calls, c.2.1.csr = true ∧ c.2.1.content ∈ S ∧ c.2.1.id ≠ 0) →
      ∀ (s : LState M D) (a : M), s.fact = some a → a ∈ S →
      (∃ i d, s.digest = some (i, d) ∧ (i = 0 ∨ d = hash a)) →
      runOps (fun s (c : ACall M R) => stepAmg hash sol s c.1 c.2.1 c.2.2) s calls =
        (List.range calls.length).map fun n => calls[n]?.map fun c => .ok (sol
          ((calls.take (n + 1)).foldl (fun a c => if c.1 then a else c.2.1.content) a) c.2.2) := by
    intro calls
    induction calls with
    | nil => intros; rfl
    | cons c calls ih =>
      rintro hm s a hf haS ⟨i, d, hd, hid⟩
      obtain ⟨fr, m, rhs⟩ := c
      obtain ⟨h1, h2, h3⟩ := hm (fr, m, rhs) (by simp)
      simp only at h1 h2 h3
      have hstep : ∃ s', stepAmg hash sol s fr m rhs = (s', some (.ok (sol (if fr then a else m.content) rhs))) ∧
          s'.fact = some (if fr then a else m.content) ∧
          ∃ i d, s'.digest = some (i, d) ∧ (i = 0 ∨ d = hash (if fr then a else m.content)) := by
        cases fr with
        | true =>
          refine ⟨s, ?_, by simpa using hf, i, d, hd, by simpa using hid⟩
          simp [stepAmg, isNewMatrix, h1, hf]
        | false =>
          by_cases h : m.id = i ∧ hash m.content = d
          · have hda : d = hash a := hid.resolve_left (by rw [← h.1]; exact h3)
            have ha : m.content = a := hS h2 haS (by rw [h.2, hda])
            refine ⟨s, ?_, by simp [hf, ha], i, d, hd, Or.inr (by simp [ha, hda])⟩
            simp only [stepAmg, isNewMatrix, h1, hf, hd, h, and_self, if_true, Bool.not_true, Bool.false_eq_true, if_false,
              Option.isNone_some, Bool.or_false, ← ha, Option.map_some]
          · refine ⟨⟨some m.content, some (m.id, hash m.content)⟩, ?_, by simp, m.id, hash m.content, rfl, by simp⟩
            simp [stepAmg, isNewMatrix, h1, hd, h]
      obtain ⟨s', e, hf', hi'⟩ := hstep
      simp only [runOps, e, List.length_cons]
      rw [ih (fun c hc => hm c (by simp [hc])) s' _ hf' (by split_ifs <;> assumption) hi',
        List.range_succ_eq_map, List.map_cons, List.map_map]
      congr 1
  cases calls with
  | nil => rfl
  | cons c calls =>
    obtain ⟨fr, m, rhs⟩ := c
    obtain ⟨h1, h2, h3⟩ := hm (fr, m, rhs) (by simp)
    simp only at h1 h2 h3
    have hstep : ∃ s', stepAmg hash sol (LState.new empty) fr m rhs = (s', some (.ok (sol m.content rhs))) ∧
        s'.fact = some m.content ∧ ∃ i d, s'.digest = some (i, d) ∧ (i = 0 ∨ d = hash m.content) := by
      cases fr with
      | true => exact ⟨⟨some m.content, some (0, empty)⟩, by simp [stepAmg, isNewMatrix, h1, LState.new], rfl, 0, empty, rfl,
          Or.inl rfl⟩
      | false => exact ⟨⟨some m.content, some (m.id, hash m.content)⟩, by simp [stepAmg, isNewMatrix, h1, h3, LState.new],
          rfl, _, _, rfl, Or.inr rfl⟩
    obtain ⟨s', e, hf', hi'⟩ := hstep
    simp only [runOps, e, List.length_cons]
    rw [key calls (fun c hc => hm c (by simp [hc])) s' _ hf' h2 hi', List.range_succ_eq_map, List.map_cons, List.map_map]
    congr 1

end Verif.Ls
