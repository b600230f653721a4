/-
C97: the quadratic eigenvalue problem solver (sfepy/solvers/qeigen.py).
-/
import Mathlib.LinearAlgebra.Matrix.SchurComplement
import Mathlib.Data.Matrix.Block
import Mathlib.LinearAlgebra.Matrix.NonsingularInverse
import Mathlib.LinearAlgebra.Matrix.Permutation

namespace Verif.Solver.Qevp

open Matrix

variable {F : Type} [Field F] {n : ℕ}

/-! ## Model -/

/-- A block matrix. -/
abbrev Blk (F : Type) (n : ℕ) := Matrix (Fin n ⊕ Fin n) (Fin n ⊕ Fin n) F

/-- The matrices of the companion linearization, sfepy/solvers/qeigen.py:74-80. -/
def companion (M D K : Matrix (Fin n) (Fin n) F) : Blk F n × Blk F n :=
  let eye : Matrix (Fin n) (Fin n) F := -1
  (fromBlocks D K eye 0, fromBlocks (-M) 0 0 eye)

/-- The factor in the original numbering, sfepy/solvers/qeigen.py:85-89: `mtx_p[i, perm[i]] = 1`,
`mtx_l = mtx_p.T @ factor.L()`. -/
def unpermute (perm : Equiv.Perm (Fin n)) (L' : Matrix (Fin n) (Fin n) F) : Matrix (Fin n) (Fin n) F :=
  (Matrix.of fun i j => if j = perm i then (1 : F) else 0)ᵀ * L'

/-- The matrices of the Cholesky linearization, sfepy/solvers/qeigen.py:94-99. -/
def choleskyLin (L D K : Matrix (Fin n) (Fin n) F) : Blk F n × Blk F n :=
  (fromBlocks (-K) 0 0 1, fromBlocks D L Lᵀ 0)

/-- What the methods need. -/
inductive Method (F : Type) (n : ℕ) where
  | companion
  | cholesky (perm : Equiv.Perm (Fin n)) (L' : Matrix (Fin n) (Fin n) F)

/-- The linearized pair, sfepy/solvers/qeigen.py:74-102. -/
def linearize (method : Method F n) (M D K : Matrix (Fin n) (Fin n) F) : Blk F n × Blk F n :=
  match method with
  | .companion => companion M D K
  | .cholesky perm L' => choleskyLin (unpermute perm L') D K

/-- `LQuadraticEVPSolver.__call__` with eigenvectors, sfepy/solvers/qeigen.py:62-147: `solver A B` are the pairs
returned by the configured solver for `(A - w B) x = 0`; `none` stands for the infinite `1.0 / 0.0`. -/
noncomputable def call [DecidableEq F] (method : Method F n) (inverted : Bool)
    (solver : Blk F n → Blk F n → List (F × (Fin n ⊕ Fin n → F))) (M D K : Matrix (Fin n) (Fin n) F) :
    List (Option F × (Fin n → F)) :=
  let ab := linearize method M D K
  if inverted then
    (solver ab.2 ab.1).map fun p => (if p.1 = 0 then none else some (1 / p.1), fun i => p.2 (.inl i))
  else
    (solver ab.1 ab.2).map fun p => (some p.1, fun i => p.2 (.inl i))

/-! ## Specification -/

/-- The matrix of the quadratic problem. -/
def quad (M D K : Matrix (Fin n) (Fin n) F) (w : F) : Matrix (Fin n) (Fin n) F := w ^ 2 • M + w • D + K

/-- The configured solver returns eigenpairs of the generalized linear problem. -/
def IsEigSolver (solver : Blk F n → Blk F n → List (F × (Fin n ⊕ Fin n → F))) : Prop :=
  ∀ A B, ∀ p ∈ solver A B, A *ᵥ p.2 = p.1 • B *ᵥ p.2 ∧ p.2 ≠ 0

/-- The factorization by CHOLMOD of the permuted matrix. -/
def IsCholesky (perm : Equiv.Perm (Fin n)) (L' M : Matrix (Fin n) (Fin n) F) : Prop :=
  ∀ i j, (L' * L'ᵀ) i j = M (perm i) (perm j)

/-- The assumption on the method. -/
def Method.Valid (method : Method F n) (M : Matrix (Fin n) (Fin n) F) : Prop :=
  match method with
  | .companion => True
  | .cholesky perm L' => IsCholesky perm L' M

/-! ## Proofs -/

theorem unpermute_apply (perm : Equiv.Perm (Fin n)) (L' : Matrix (Fin n) (Fin n) F) (i j : Fin n) :
    unpermute perm L' (perm i) j = L' i j := by
  unfold unpermute
  rw [Matrix.mul_apply, Finset.sum_eq_single i]
  · simp
  · intro k _ hk
    rw [Matrix.transpose_apply, Matrix.of_apply, if_neg (fun h => hk (perm.injective h).symm), zero_mul]
  · intro h; exact absurd (Finset.mem_univ _) h

/-- **C97.**  The factor with the permutation undone factorizes the mass matrix itself. -/
theorem C97_cholesky_factor (perm : Equiv.Perm (Fin n)) (L' M : Matrix (Fin n) (Fin n) F)
    (h : IsCholesky perm L' M) : unpermute perm L' * (unpermute perm L')ᵀ = M := by
  ext i j
  obtain ⟨i, rfl⟩ := perm.surjective i
  obtain ⟨j, rfl⟩ := perm.surjective j
  rw [← h i j, Matrix.mul_apply, Matrix.mul_apply]
  refine Finset.sum_congr rfl fun k _ => ?_
  rw [Matrix.transpose_apply, unpermute_apply, unpermute_apply, Matrix.transpose_apply]

/-- The companion pencil. -/
theorem companion_iff (M D K : Matrix (Fin n) (Fin n) F) (w : F) (v : Fin n ⊕ Fin n → F) :
    (companion M D K).1 *ᵥ v = w • (companion M D K).2 *ᵥ v ↔
      (fun i => v (.inl i)) = w • (fun i => v (.inr i)) ∧ quad M D K w *ᵥ (fun i => v (.inr i)) = 0 := by
  set y : Fin n → F := fun i => v (.inl i) with hy
  set x : Fin n → F := fun i => v (.inr i) with hx
  have hv : v = Sum.elim y x := by
    funext i; cases i <;> rfl
  rw [hv]
  simp only [companion, fromBlocks_mulVec, Sum.elim_comp_inl, Sum.elim_comp_inr, Matrix.zero_mulVec, add_zero,
    zero_add, Matrix.neg_mulVec, Matrix.one_mulVec]
  have hsplit : ∀ a b c d : Fin n → F, (Sum.elim a b = w • Sum.elim c d) ↔ a = w • c ∧ b = w • d := by
    intro a b c d
    constructor
    · intro h
      exact ⟨funext fun i => congrFun h (.inl i), funext fun i => congrFun h (.inr i)⟩
    · rintro ⟨rfl, rfl⟩
      funext i; cases i <;> rfl
  rw [hsplit]
  have h2 : -y = w • -x ↔ y = w • x := by rw [smul_neg, neg_inj]
  rw [h2, and_comm]
  refine and_congr_right fun h => ?_
  rw [h]
  simp only [quad, Matrix.add_mulVec, Matrix.smul_mulVec, Matrix.mulVec_smul, smul_neg, smul_smul, ← pow_two]
  rw [eq_neg_iff_add_eq_zero]
  constructor
  · intro e; rw [← e]; abel
  · intro e; rw [← e]; abel

/-- The Cholesky pencil. -/
theorem cholesky_iff (L D K : Matrix (Fin n) (Fin n) F) (w : F) (v : Fin n ⊕ Fin n → F) :
    (choleskyLin L D K).1 *ᵥ v = w • (choleskyLin L D K).2 *ᵥ v ↔
      (fun i => v (.inr i)) = w • Lᵀ *ᵥ (fun i => v (.inl i)) ∧
        quad (L * Lᵀ) D K w *ᵥ (fun i => v (.inl i)) = 0 := by
  set x : Fin n → F := fun i => v (.inl i) with hx
  set y : Fin n → F := fun i => v (.inr i) with hy
  have hv : v = Sum.elim x y := by
    funext i; cases i <;> rfl
  rw [hv]
  simp only [choleskyLin, fromBlocks_mulVec, Sum.elim_comp_inl, Sum.elim_comp_inr, Matrix.zero_mulVec, add_zero,
    zero_add, Matrix.neg_mulVec, Matrix.one_mulVec]
  have hsplit : ∀ a b c d : Fin n → F, (Sum.elim a b = w • Sum.elim c d) ↔ a = w • c ∧ b = w • d := by
    intro a b c d
    constructor
    · intro h
      exact ⟨funext fun i => congrFun h (.inl i), funext fun i => congrFun h (.inr i)⟩
    · rintro ⟨rfl, rfl⟩
      funext i; cases i <;> rfl
  rw [hsplit, and_comm]
  refine and_congr_right fun h => ?_
  rw [h]
  simp only [quad, Matrix.add_mulVec, Matrix.smul_mulVec, Matrix.mulVec_smul, smul_add, smul_smul, ← pow_two,
    ← Matrix.mulVec_mulVec]
  rw [neg_eq_iff_add_eq_zero]
  constructor
  · intro e; rw [← e]; abel
  · intro e; rw [← e]; abel

/-- **C97.**  With the companion linearization in the normal mode every returned pair solves the quadratic
problem; the returned vector is the eigenvalue times an eigenvector, so it is zero exactly for the zero
eigenvalue.  -/
theorem C97_companion [DecidableEq F] (solver : Blk F n → Blk F n → List (F × (Fin n ⊕ Fin n → F)))
    (hs : IsEigSolver solver) (M D K : Matrix (Fin n) (Fin n) F) (e : Option F) (x : Fin n → F)
    (h : (e, x) ∈ call .companion false solver M D K) :
    ∃ w z, e = some w ∧ z ≠ 0 ∧ quad M D K w *ᵥ z = 0 ∧ x = w • z ∧
      quad M D K w *ᵥ x = 0 ∧ (x = 0 ↔ w = 0) := by
  simp only [call, linearize, Bool.false_eq_true, if_false, List.mem_map] at h
  obtain ⟨p, hp, he⟩ := h
  obtain ⟨h1, h2⟩ := hs _ _ p hp
  rw [companion_iff] at h1
  cases he
  have hz : (fun i => p.2 (.inr i)) ≠ 0 := by
    intro h0
    apply h2
    rw [h0, smul_zero] at h1
    funext i
    cases i with
    | inl i => exact congrFun h1.1 i
    | inr i => exact congrFun h0 i
  refine ⟨p.1, fun i => p.2 (.inr i), rfl, hz, h1.2, h1.1, ?_, ?_⟩
  · rw [h1.1, Matrix.mulVec_smul, h1.2, smul_zero]
  · rw [h1.1, smul_eq_zero, or_iff_left hz]

/-- **C97.**  With the Cholesky linearization in the normal mode every returned pair is an eigenvalue and a
nonzero eigenvector of the quadratic problem. -/
theorem C97_cholesky [DecidableEq F] (perm : Equiv.Perm (Fin n)) (L' : Matrix (Fin n) (Fin n) F)
    (solver : Blk F n → Blk F n → List (F × (Fin n ⊕ Fin n → F)))
    (hs : IsEigSolver solver) (M D K : Matrix (Fin n) (Fin n) F) (hM : IsCholesky perm L' M) (e : Option F)
    (x : Fin n → F) (h : (e, x) ∈ call (.cholesky perm L') false solver M D K) :
    ∃ w, e = some w ∧ x ≠ 0 ∧ quad M D K w *ᵥ x = 0 := by
  simp only [call, linearize, Bool.false_eq_true, if_false, List.mem_map] at h
  obtain ⟨p, hp, he⟩ := h
  obtain ⟨h1, h2⟩ := hs _ _ p hp
  rw [cholesky_iff, C97_cholesky_factor perm L' M hM] at h1
  cases he
  refine ⟨p.1, rfl, fun h0 => h2 ?_, h1.2⟩
  rw [h0, Matrix.mulVec_zero, smul_zero] at h1
  funext i
  cases i with
  | inl i => exact congrFun h0 i
  | inr i => exact congrFun h1.1 i

/-- **C97.**  In the inverted mode every returned pair with a finite eigenvalue solves the quadratic problem,
the vector is not zero and the eigenvalue is not zero; an infinite eigenvalue is returned exactly with the
vectors of the kernel of the second matrix, so never if the mass matrix is regular. -/
theorem C97_inverted [DecidableEq F] (method : Method F n)
    (solver : Blk F n → Blk F n → List (F × (Fin n ⊕ Fin n → F)))
    (hs : IsEigSolver solver) (M D K : Matrix (Fin n) (Fin n) F) (hM : method.Valid M) (e : Option F)
    (x : Fin n → F) (h : (e, x) ∈ call method true solver M D K) :
    (∀ w, e = some w → w ≠ 0 ∧ x ≠ 0 ∧ quad M D K w *ᵥ x = 0) ∧ (M.det ≠ 0 → e ≠ none) := by
  simp only [call, if_true, List.mem_map] at h
  obtain ⟨p, hp, he⟩ := h
  obtain ⟨h1, h2⟩ := hs _ _ p hp
  have hflip : p.1 ≠ 0 → (linearize method M D K).1 *ᵥ p.2 = (1 / p.1) • (linearize method M D K).2 *ᵥ p.2 := by
    intro h0
    rw [h1, smul_smul, one_div, inv_mul_cancel₀ h0, one_smul]
  constructor
  · intro w hw
    by_cases h0 : p.1 = 0
    · rw [if_pos h0] at he; cases he; cases hw
    · rw [if_neg h0] at he
      cases he
      cases hw
      have h3 := hflip h0
      have hw0 : 1 / p.1 ≠ 0 := one_div_ne_zero h0
      refine ⟨hw0, ?_⟩
      cases method with
      | companion =>
        simp only [linearize] at h3
        rw [companion_iff] at h3
        have hz : (fun i => p.2 (.inr i)) ≠ 0 := by
          intro hz
          apply h2
          rw [hz, smul_zero] at h3
          funext i
          cases i with
          | inl i => exact congrFun h3.1 i
          | inr i => exact congrFun hz i
        rw [h3.1]
        exact ⟨smul_ne_zero hw0 hz, by rw [Matrix.mulVec_smul, h3.2, smul_zero]⟩
      | cholesky perm L' =>
        simp only [linearize] at h3
        rw [cholesky_iff, C97_cholesky_factor perm L' M hM] at h3
        refine ⟨fun hz => h2 ?_, h3.2⟩
        rw [hz, Matrix.mulVec_zero, smul_zero] at h3
        funext i
        cases i with
        | inl i => exact congrFun hz i
        | inr i => exact congrFun h3.1 i
  · intro hdet hnone
    by_cases h0 : p.1 = 0
    · rw [h0, zero_smul] at h1
      apply h2
      have hker : ∀ (A : Matrix (Fin n) (Fin n) F) (u : Fin n → F), A.det ≠ 0 → A *ᵥ u = 0 → u = 0 := by
        intro A u hA hu
        exact Matrix.eq_zero_of_mulVec_eq_zero hA hu
      set y : Fin n → F := fun i => p.2 (.inl i) with hy
      set z : Fin n → F := fun i => p.2 (.inr i) with hz
      have hv : p.2 = Sum.elim y z := by
        funext i; cases i <;> rfl
      have hzero : ∀ a b : Fin n → F, Sum.elim a b = 0 → a = 0 ∧ b = 0 := by
        intro a b hab
        exact ⟨funext fun i => congrFun hab (.inl i), funext fun i => congrFun hab (.inr i)⟩
      have hyz : y = 0 ∧ z = 0 := by
        cases method with
        | companion =>
          rw [hv] at h1
          simp only [linearize, companion, fromBlocks_mulVec, Sum.elim_comp_inl, Sum.elim_comp_inr,
            Matrix.zero_mulVec, add_zero, zero_add, Matrix.neg_mulVec, Matrix.one_mulVec] at h1
          obtain ⟨e1, e2⟩ := hzero _ _ h1
          exact ⟨hker M y hdet (neg_eq_zero.1 e1), neg_eq_zero.1 e2⟩
        | cholesky perm L' =>
          have hLL := C97_cholesky_factor perm L' M hM
          have hLd : (unpermute perm L').det ≠ 0 := by
            intro hL
            apply hdet
            rw [← hLL, Matrix.det_mul, hL, zero_mul]
          rw [hv] at h1
          simp only [linearize, choleskyLin, fromBlocks_mulVec, Sum.elim_comp_inl, Sum.elim_comp_inr,
            Matrix.zero_mulVec, add_zero] at h1
          obtain ⟨e1, e2⟩ := hzero _ _ h1
          have hy0 := hker _ y (by rw [Matrix.det_transpose]; exact hLd) e2
          rw [hy0, Matrix.mulVec_zero, zero_add] at e1
          exact ⟨hy0, hker _ z hLd e1⟩
      rw [hv, hyz.1, hyz.2]
      funext i; cases i <;> rfl
    · rw [if_neg h0] at he; cases he; cases hnone

/-- **C97.**  Nothing is lost: every eigenpair of the quadratic problem gives an eigenpair of the linearized one,
whose first half is the eigenvector (Cholesky) or its multiple by the eigenvalue (companion). -/
theorem C97_complete (method : Method F n) (M D K : Matrix (Fin n) (Fin n) F) (hM : method.Valid M) (w : F)
    (x : Fin n → F) (hx : x ≠ 0) (h : quad M D K w *ᵥ x = 0) :
    ∃ v : Fin n ⊕ Fin n → F, v ≠ 0 ∧
      (linearize method M D K).1 *ᵥ v = w • (linearize method M D K).2 *ᵥ v ∧
      (fun i => v (.inl i)) = match method with
        | .companion => w • x
        | .cholesky _ _ => x := by
  cases method with
  | companion =>
    refine ⟨Sum.elim (w • x) x, fun h0 => hx (funext fun i => congrFun h0 (.inr i)), ?_, rfl⟩
    simp only [linearize]
    rw [companion_iff]
    exact ⟨rfl, h⟩
  | cholesky perm L' =>
    refine ⟨Sum.elim x (w • (unpermute perm L')ᵀ *ᵥ x), fun h0 => hx (funext fun i => congrFun h0 (.inl i)),
      ?_, rfl⟩
    simp only [linearize]
    rw [cholesky_iff, C97_cholesky_factor perm L' M hM]
    exact ⟨rfl, h⟩

/-- **C97.**  The eigenvalues have the same algebraic multiplicities: the determinants of the pencils are, up to
a sign, the determinant of the quadratic problem. -/
theorem C97_determinant (M D K : Matrix (Fin n) (Fin n) F) (w : F) :
    ((companion M D K).1 - w • (companion M D K).2).det = (quad M D K w).det ∧
    ∀ perm L', IsCholesky perm L' M →
      ((linearize (.cholesky perm L') M D K).1 - w • (linearize (.cholesky perm L') M D K).2).det =
        (-1) ^ n * (quad M D K w).det := by
  constructor
  · have e1 : (companion M D K).1 - w • (companion M D K).2 =
        fromBlocks (D + w • M) K (-1) (w • (1 : Matrix (Fin n) (Fin n) F)) := by
      simp only [companion, sub_eq_add_neg, fromBlocks_smul, fromBlocks_neg, fromBlocks_add, smul_neg, neg_neg,
        smul_zero, neg_zero, add_zero, zero_add]
    have hup : (fromBlocks (1 : Matrix (Fin n) (Fin n) F) (-1) 0 (1 : Matrix (Fin n) (Fin n) F)).det = 1 := by
      rw [Matrix.det_fromBlocks_zero₂₁, Matrix.det_one, one_mul]
    have hlow : (fromBlocks (1 : Matrix (Fin n) (Fin n) F) 0 1 (1 : Matrix (Fin n) (Fin n) F)).det = 1 := by
      rw [Matrix.det_fromBlocks_zero₁₂, Matrix.det_one, one_mul]
    have hw1 : (fromBlocks (1 : Matrix (Fin n) (Fin n) F) (w • 1) 0 (1 : Matrix (Fin n) (Fin n) F)).det = 1 := by
      rw [Matrix.det_fromBlocks_zero₂₁, Matrix.det_one, one_mul]
    have hJ : (fromBlocks (w • (1 : Matrix (Fin n) (Fin n) F)) (-1 : Matrix (Fin n) (Fin n) F) (1 : Matrix (Fin n) (Fin n) F) 0).det = 1 := by
      have : fromBlocks (w • (1 : Matrix (Fin n) (Fin n) F)) (-1 : Matrix (Fin n) (Fin n) F) (1 : Matrix (Fin n) (Fin n) F) 0 =
          fromBlocks (1 : Matrix (Fin n) (Fin n) F) (w • 1) 0 1 *
          (fromBlocks (1 : Matrix (Fin n) (Fin n) F) (-1) 0 1 * (fromBlocks (1 : Matrix (Fin n) (Fin n) F) 0 1 1 *
            fromBlocks (1 : Matrix (Fin n) (Fin n) F) (-1) 0 1)) := by
        simp [fromBlocks_multiply]
      rw [this, Matrix.det_mul, Matrix.det_mul, Matrix.det_mul, hup, hlow, hw1]
      simp
    have e2 : fromBlocks (D + w • M) K (-1) (w • (1 : Matrix (Fin n) (Fin n) F)) *
        fromBlocks (w • (1 : Matrix (Fin n) (Fin n) F)) (-1 : Matrix (Fin n) (Fin n) F) (1 : Matrix (Fin n) (Fin n) F) 0 =
        fromBlocks (quad M D K w) (-(D + w • M)) 0 1 := by
      simp only [fromBlocks_multiply, quad]
      congr 1
      · simp [smul_add, smul_smul, pow_two]; abel
      · simp
      · simp
      · simp
    have h := congrArg Matrix.det e2
    rw [Matrix.det_mul, hJ, mul_one, Matrix.det_fromBlocks_zero₂₁, Matrix.det_one, mul_one] at h
    rw [e1, h]
  · intro perm L' hM
    have hLL := C97_cholesky_factor perm L' M hM
    set L := unpermute perm L' with hL
    have e1 : (linearize (.cholesky perm L') M D K).1 - w • (linearize (.cholesky perm L') M D K).2 =
        fromBlocks (-K - w • D) (-(w • L)) (-(w • Lᵀ)) 1 := by
      simp only [linearize, choleskyLin, sub_eq_add_neg, fromBlocks_smul, fromBlocks_neg, fromBlocks_add, smul_zero,
        neg_zero, add_zero, zero_add, ← hL]
    rw [e1, Matrix.det_fromBlocks_one₂₂]
    have e2 : -K - w • D - -(w • L) * -(w • Lᵀ) = -quad M D K w := by
      rw [neg_mul_neg, Matrix.smul_mul, Matrix.mul_smul, hLL, smul_smul, quad, pow_two]
      abel
    rw [e2, Matrix.det_neg, Fintype.card_fin]

/-! ## Examples -/

/-- C97: a problem with a zero eigenvalue: the companion method gives the zero vector for it. -/
example : ∃ solver : Blk ℚ 1 → Blk ℚ 1 → List (ℚ × (Fin 1 ⊕ Fin 1 → ℚ)), IsEigSolver solver ∧
    call .companion false solver 1 1 0 = [(some 0, 0)] ∧ quad (1 : Matrix (Fin 1) (Fin 1) ℚ) 1 0 0 *ᵥ ![1] = 0 := by
  classical
  refine ⟨fun A B => if A = (companion (1 : Matrix (Fin 1) (Fin 1) ℚ) 1 0).1 ∧
    B = (companion (1 : Matrix (Fin 1) (Fin 1) ℚ) 1 0).2 then [(0, Sum.elim 0 1)] else [], ?_, ?_, ?_⟩
  · intro A B p hp
    dsimp only at hp
    by_cases h : A = (companion (1 : Matrix (Fin 1) (Fin 1) ℚ) 1 0).1 ∧
        B = (companion (1 : Matrix (Fin 1) (Fin 1) ℚ) 1 0).2
    · rw [if_pos h, List.mem_singleton] at hp
      subst hp
      obtain ⟨rfl, rfl⟩ := h
      rw [companion_iff]
      refine ⟨⟨?_, ?_⟩, fun h0 => ?_⟩
      · funext i; simp
      · funext i; simp [quad]
      · have := congrFun h0 (.inr 0)
        simp at this
    · rw [if_neg h] at hp; simp at hp
  · simp [call, linearize]
    rfl
  · funext i; simp [quad]

/-- C97: a permuted factorization. -/
example : IsCholesky (Equiv.swap 0 1) (!![2, 0; 1, 3] : Matrix (Fin 2) (Fin 2) ℚ) !![10, 2; 2, 4] := by
  intro i j
  fin_cases i <;> fin_cases j <;> simp [Matrix.mul_apply, Fin.sum_univ_two] <;> norm_num

/-- C97: an overdamped problem with the eigenvalues -1 and -2. -/
example : quad (1 : Matrix (Fin 1) (Fin 1) ℚ) ((3 : ℚ) • 1) ((2 : ℚ) • 1) (-2) *ᵥ ![1] = 0 := by
  funext i
  fin_cases i
  norm_num [quad, Matrix.mulVec, dotProduct]

end Verif.Solver.Qevp
