/-
C64: hyperelastic terms, continued: moved meshes, the undeformed state, rotations, the caches.
-/
import Verif.Term.PropsHyper2
import Verif.Term.PropsRefmap

namespace Verif.Term

open Finset Matrix Filter Topology

variable {d : ℕ}

/-! ### The mapping of the moved mesh -/

/-- The mapping data of C60 in the form the kernels take. -/
noncomputable def MapData.toMapping {dim : ℕ} (m : MapData ℝ dim) (nQP nEP : ℕ) (bf : Fld ℝ) (normal : ℕ → Lev ℝ) : Mapping ℝ where
  dim := dim
  nQP := nQP
  nEP := nEP
  bf := bf
  bfGM := fun c q i k => if h : i < dim then m.bfg c q ⟨i, h⟩ k else 0
  det := fun c q _ _ => m.det c q
  normal := normal
  volume := fun c _ _ _ => m.volume c

/-- The gradients as the kernels get them: zero out of the dimension. -/
noncomputable def padRows {dim : ℕ} (g : Fin dim → ℕ → ℝ) (i k : ℕ) : ℝ := if h : i < dim then g ⟨i, h⟩ k else 0

theorem padRows_val {dim : ℕ} (g : Fin dim → ℕ → ℝ) (i : Fin dim) (k : ℕ) : padRows g i k = g i k := by
  rw [padRows, dif_pos i.2]

/-- The Jacobian matrix of the mapping of the moved cell. -/
theorem mtxRM_moved {dim nEP : ℕ} (hd : dim = 1 ∨ dim = 2 ∨ dim = 3) (X : ℕ → Fin dim → ℝ) (bfg : Fin dim → ℕ → ℝ)
    (hdet : (mtxRM nEP bfg X).det ≠ 0) (state : ℕ → ℝ) (conn : ℕ → ℕ) :
    mtxRM nEP bfg (fun n k => X n k + state (dim * conn n + k)) = mtxRM nEP bfg X *
      (defGrad dim nEP (padRows (mulInv ((invsFast dim (mtxRM nEP bfg X) (mtxRM nEP bfg X).det).getD 0) bfg))
        (locDofs dim nEP state conn))ᵀ := by
  have hinv := (invsFast_spec hd _ hdet).2
  set A := mtxRM nEP bfg X with hA
  set I := ((invsFast dim A A.det).getD 0) with hI
  let N : Matrix (Fin dim) (Fin dim) ℝ := fun j k => ∑ n ∈ range nEP, bfg j n * state (dim * conn n + k)
  have eF : (defGrad dim nEP (padRows (mulInv I bfg)) (locDofs dim nEP state conn))ᵀ = 1 + I * N := by
    rw [defGrad, transpose_add, transpose_one]
    congr 1
    ext i k
    rw [Matrix.transpose_apply, gradMat, fgrad, Matrix.mul_apply]
    simp only [N, mul_sum]
    rw [sum_comm]
    refine sum_congr rfl fun n hn => ?_
    obtain ⟨e1, e2⟩ := divmod_block (a := (k : ℕ)) (mem_range.1 hn)
    rw [locDofs, e1, e2, padRows_val]
    simp only [mulInv, sum_mul]
    refine sum_congr rfl fun j _ => ?_
    rw [mul_assoc]
  rw [eF, Matrix.mul_add, Matrix.mul_one, ← Matrix.mul_assoc, hinv, Matrix.one_mul]
  ext j k
  rw [Matrix.add_apply]
  simp only [hA, N, mtxRM]
  rw [← sum_add_distrib]
  refine sum_congr rfl fun n _ => by ring

/-- If the mesh is moved by the displacements and the mappings are isoparametric, the mapping data of the two meshes
satisfy `Moved`: the hypothesis of the theorems on the updated Lagrangian formulation. -/
theorem C64_moved {dim nEl nQP nEP : ℕ} (X : ℕ → ℕ → Fin dim → ℝ) (bfg : ℕ → Fin dim → ℕ → ℝ) (weights : ℕ → ℝ)
    (state : ℕ → ℝ) (conn : ℕ → ℕ → ℕ) (m m' : MapData ℝ dim) (bf : Fld ℝ) (normal : ℕ → Lev ℝ)
    (h : evalMapping dim nEl nQP nEP X (fun _ => bfg) weights 1 (fun _ => bfg) = .ok m)
    (h' : evalMapping dim nEl nQP nEP (fun c n k => X c n k + state (dim * conn c n + k)) (fun _ => bfg) weights 1
      (fun _ => bfg) = .ok m') (c : ℕ) (hc : c < nEl) :
    Moved (m.toMapping nQP nEP bf normal) (m'.toMapping nQP nEP bf normal).bfGM (m'.toMapping nQP nEP bf normal).det
      state conn c := by
  obtain ⟨hd, hpos, hm, -, hb⟩ := evalMapping_ok h
  obtain ⟨-, hpos', hm', -, hb'⟩ := evalMapping_ok h'
  have hF : ∀ q, cellF (m.toMapping nQP nEP bf normal) state conn c q =
      defGrad dim nEP (padRows (mulInv ((invsFast dim (mtxRM nEP (bfg q) (X c)) (mtxRM nEP (bfg q) (X c)).det).getD 0)
        (bfg q))) (locDofs dim nEP state (conn c)) := by
    intro q
    have : (m.toMapping nQP nEP bf normal).G c q = padRows (mulInv ((invsFast dim (mtxRM nEP (bfg q) (X c))
        (mtxRM nEP (bfg q) (X c)).det).getD 0) (bfg q)) := by
      have e := hb c q
      rw [← e]
      rfl
    rw [cellF, this]
    rfl
  constructor
  · intro q hq (j : Fin dim) k hk
    rw [hF q]
    have e := mtxRM_moved hd (X c) (bfg q) (hpos c hc q hq).ne' state (conn c)
    have hinv := (invsFast_spec hd _ (hpos c hc q hq).ne').1
    have hinv' := (invsFast_spec hd _ (hpos' c hc q hq).ne').2
    have eb := hb c q
    have eb' := hb' c q
    beta_reduce at hinv hinv' eb eb'
    set A := mtxRM nEP (bfg q) (X c) with hA
    set A' := mtxRM nEP (bfg q) (fun n k => X c n k + state (dim * conn c n + k)) with hA'
    set I := ((invsFast dim A A.det).getD 0) with hI
    set I' := ((invsFast dim A' A'.det).getD 0) with hI'
    set F := defGrad dim nEP (padRows (mulInv I (bfg q))) (locDofs dim nEP state (conn c)) with hFd
    have e2 : I = Fᵀ * I' := by
      have : I * (A' * I') = Fᵀ * I' := by
        rw [e, ← Matrix.mul_assoc, ← Matrix.mul_assoc I A, hinv, Matrix.one_mul]
      rw [← this, hinv', Matrix.mul_one]
    have l1 : (m.toMapping nQP nEP bf normal).bfGM c q j k = ∑ l, I j l * bfg q l k := by
      change padRows (m.bfg c q) j k = _
      rw [padRows_val, eb]
      rfl
    have l2 : ∀ i : Fin dim, (m'.toMapping nQP nEP bf normal).bfGM c q i k = ∑ l, I' i l * bfg q l k := by
      intro i
      change padRows (m'.bfg c q) i k = _
      rw [padRows_val, eb']
      rfl
    have : ∑ l, (Fᵀ * I') j l * bfg q l k = ∑ i : Fin dim, F i j * ∑ l, I' i l * bfg q l k := by
      simp only [Matrix.mul_apply, sum_mul, mul_sum, Matrix.transpose_apply]
      rw [sum_comm]
      refine sum_congr rfl fun i _ => sum_congr rfl fun l _ => by rw [mul_assoc]
    rw [l1]
    refine (congrArg (fun M : Matrix (Fin dim) (Fin dim) ℝ => ∑ l, M j l * bfg q l k) e2).trans (this.trans ?_)
    exact sum_congr rfl fun i _ => by rw [l2 i]
  · intro q hq
    rw [hF q]
    have e := mtxRM_moved hd (X c) (bfg q) (hpos c hc q hq).ne' state (conn c)
    change m'.det c q = _ * m.det c q
    rw [hm, hm']
    beta_reduce
    rw [e, det_mul, det_transpose]
    change _ = Matrix.det (n := Fin dim) _ * _
    ring

/-! ### The undeformed state -/

theorem cellF_zero (vg : Mapping ℝ) (conn : ℕ → ℕ → ℕ) (c q : ℕ) : cellF vg (fun _ => 0) conn c q = 1 := by
  have : gradMat vg.dim vg.nEP (vg.G c q) (locDofs vg.dim vg.nEP (fun _ => 0) (conn c)) = 0 := by
    ext a i
    simp [gradMat, fgrad, locDofs]
  rw [cellF, defGrad, this, add_zero]

theorem notWarped_zero (vg : Mapping ℝ) (nEl : ℕ) (conn : ℕ → ℕ → ℕ) : NotWarped vg nEl (fun _ => 0) conn := by
  intro c _ q _
  rw [cellF_zero, det_one]
  norm_num

theorem invar1_one (hd : 2 ≤ d ∧ d ≤ 3) : invar1 (1 : Matrix (Fin d) (Fin d) ℝ) = 3 := by
  obtain ⟨h1, h2⟩ := hd
  interval_cases d <;> norm_num [invar1, thirdStretch]

theorem invar2_one (hd : 2 ≤ d ∧ d ≤ 3) : invar2 (1 : Matrix (Fin d) (Fin d) ℝ) = 3 := by
  rw [invar2, invar1_one hd, Matrix.one_mul]
  obtain ⟨h1, h2⟩ := hd
  interval_cases d <;> norm_num [thirdStretch]

theorem rightCG_one : rightCG (1 : Matrix (Fin d) (Fin d) ℝ) = 1 := by simp [rightCG]

theorem residual_zero {sf : StressFn} {tf : TanFn} {vg : Mapping ℝ}
    {W : (ℕ → ℕ → ℝ) → Matrix (Fin vg.dim) (Fin vg.dim) ℝ → ℝ}
    {pk : (ℕ → ℕ → ℝ) → Matrix (Fin vg.dim) (Fin vg.dim) ℝ → Matrix (Fin vg.dim) (Fin vg.dim) ℝ}
    {dpk : (ℕ → ℕ → ℝ) → Matrix (Fin vg.dim) (Fin vg.dim) ℝ → Matrix (Fin vg.dim) (Fin vg.dim) ℝ →
      Matrix (Fin vg.dim) (Fin vg.dim) ℝ} (law : HyperLaw vg.dim sf tf (fun _ _ => True) W pk dpk)
    (hd : 1 ≤ vg.dim ∧ vg.dim ≤ 3) (mat : Fld ℝ) (nEl : ℕ) (conn : ℕ → ℕ → ℕ) (c : ℕ) (hc : c < nEl)
    (h0 : ∀ mat, pk mat 1 = 0) :
    ∃ b, heResidual false sf mat nEl vg vg (fun _ => 0) conn c = some b ∧ ∀ r < vg.dim * vg.nEP, b r 0 = 0 := by
  obtain ⟨b, hb, hv⟩ := residual_form law hd
    (admissible_of vg mat nEl _ conn c hc (notWarped_zero vg nEl conn) _ fun _ _ => trivial)
  refine ⟨b, hb, fun r hr => ?_⟩
  refine lin_unique (b' := fun _ _ => 0) (fun v => ?_) r hr
  rw [hv]
  simp [integ, lin, cellF_zero, h0]

/-- In the undeformed state, in 2D and 3D, the residuals of the neo-Hookean, Mooney-Rivlin and bulk penalty terms are
zero. -/
theorem C64_rest (vg : Mapping ℝ) (hd : 2 ≤ vg.dim ∧ vg.dim ≤ 3) (mat : Fld ℝ) (nEl : ℕ) (conn : ℕ → ℕ → ℕ) (c : ℕ)
    (hc : c < nEl) :
    (∃ b, heResidual false stressNeoTL mat nEl vg vg (fun _ => 0) conn c = some b ∧ ∀ r < vg.dim * vg.nEP, b r 0 = 0) ∧
    (∃ b, heResidual false stressMRTL mat nEl vg vg (fun _ => 0) conn c = some b ∧ ∀ r < vg.dim * vg.nEP, b r 0 = 0) ∧
    (∃ b, heResidual false stressBulkTL mat nEl vg vg (fun _ => 0) conn c = some b ∧
      ∀ r < vg.dim * vg.nEP, b r 0 = 0) := by
  have hd' : 1 ≤ vg.dim ∧ vg.dim ≤ 3 := ⟨by omega, hd.2⟩
  refine ⟨residual_zero (lawNeo hd') hd' mat nEl conn c hc fun mat => ?_,
    residual_zero (lawMR hd') hd' mat nEl conn c hc fun mat => ?_,
    residual_zero (lawBulk hd') hd' mat nEl conn c hc fun mat => ?_⟩
  · simp [pkNeo, rightCG_one, invar1_one hd]
  · simp only [pkMR, rightCG_one, invar1_one hd, invar2_one hd, inv_one]
    ext i j
    simp only [Matrix.smul_apply, Matrix.sub_apply, smul_eq_mul, Matrix.zero_apply]
    ring
  · simp [pkBulk]

end Verif.Term
