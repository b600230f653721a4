/-
Lemmas on the hyperelastic kernels: the weak forms of `dw_he_rtm`.
-/
import Verif.Term.LemHyper

namespace Verif.Term

open Finset Matrix Filter Topology

variable {d : ℕ}

theorem sumLevO_some (nQP : ℕ) (a : ℕ → Option (ℕ → ℕ → ℝ)) (f : ℕ → ℕ → ℕ → ℝ) (w : ℕ → ℝ)
    (h : ∀ q, a q = some (f q)) : sumLevO nQP a w = some fun r s => ∑ q ∈ range nQP, f q r s * w q := by
  unfold sumLevO
  rw [if_pos fun q _ => by rw [h q]; rfl]
  simp only [h, Option.getD_some]

theorem bil_sumLevO (n m nQP : ℕ) (v u : ℕ → ℝ) (f : ℕ → ℕ → ℕ → ℝ) (w : ℕ → ℝ) :
    bil n m v (fun r s => ∑ q ∈ range nQP, f q r s * w q) u = integ nQP w fun q => bil n m v (f q) u :=
  bil_sumLev n m nQP v u f w

theorem lin_sumLevO (n nQP : ℕ) (v : ℕ → ℝ) (f : ℕ → ℕ → ℕ → ℝ) (w : ℕ → ℝ) :
    lin n v (fun r s => ∑ q ∈ range nQP, f q r s * w q) = integ nQP w fun q => lin n v (f q) :=
  lin_sumLev n nQP v f w

theorem addBlock_apply {n : ℕ} (c a b r s : ℕ) (hr : r < n) (hs : s < n) (out ik : ℕ → ℕ → ℝ) :
    addBlock n (c * n) out ik (n * a + r) (n * b + s) =
      out (n * a + r) (n * b + s) + if a = c ∧ b = c then ik r s else 0 := by
  unfold addBlock
  have iff1 : ∀ x y, y < n → ((c * n ≤ n * x + y ∧ n * x + y < c * n + n) ↔ x = c) := by
    intro x y hy
    constructor
    · rintro ⟨h1, h2⟩
      have h3 : x < c + 1 := by
        by_contra hc
        have : n * (c + 1) ≤ n * x := Nat.mul_le_mul_left n (by omega)
        nlinarith
      have h4 : c < x + 1 := by
        by_contra hc
        have : n * (x + 1) ≤ n * c := Nat.mul_le_mul_left n (by omega)
        nlinarith
      omega
    · rintro rfl
      rw [Nat.mul_comm x n]
      omega
  simp only [iff1 a r hr, iff1 b s hs]
  split_ifs with h
  · obtain ⟨rfl, rfl⟩ := h
    congr 2 <;> (rw [Nat.mul_comm b n]; omega)
  · simp

theorem addDiag_apply (hd : 1 ≤ d ∧ d ≤ 3) {n : ℕ} (out ik : ℕ → ℕ → ℝ) (a b r s : ℕ) (ha : a < d) (hb : b < d) (hr : r < n)
    (hs : s < n) : addDiag d n out ik (n * a + r) (n * b + s) =
      out (n * a + r) (n * b + s) + if a = b then ik r s else 0 := by
  have e0 := fun o : ℕ → ℕ → ℝ => addBlock_apply 0 a b r s hr hs o ik
  have e1 := fun o : ℕ → ℕ → ℝ => addBlock_apply 1 a b r s hr hs o ik
  have e2 := fun o : ℕ → ℕ → ℝ => addBlock_apply 2 a b r s hr hs o ik
  rw [Nat.zero_mul] at e0
  rw [Nat.one_mul] at e1
  obtain ⟨h1, h2⟩ := hd
  unfold addDiag
  interval_cases d <;> norm_num [e0, e1, e2] <;> interval_cases a <;> interval_cases b <;> simp

theorem bil_addDiag (hd : 1 ≤ d ∧ d ≤ 3) (n : ℕ) (out ik : ℕ → ℕ → ℝ) (v u : ℕ → ℝ) :
    bil (d * n) (d * n) v (addDiag d n out ik) u = bil (d * n) (d * n) v out u +
      ∑ a ∈ range d, ∑ r ∈ range n, ∑ s ∈ range n, v (n * a + r) * ik r s * u (n * a + s) := by
  unfold bil
  simp only [sum_blocks]
  rw [← sum_add_distrib]
  refine sum_congr rfl fun a ha => ?_
  rw [← sum_add_distrib]
  refine sum_congr rfl fun r hr => ?_
  have : ∀ b ∈ range d, ∑ s ∈ range n, v (n * a + r) * addDiag d n out ik (n * a + r) (n * b + s) * u (n * b + s) =
      ∑ s ∈ range n, v (n * a + r) * out (n * a + r) (n * b + s) * u (n * b + s) +
        if a = b then ∑ s ∈ range n, v (n * a + r) * ik r s * u (n * a + s) else 0 := by
    intro b hb
    split_ifs with hab
    · subst hab
      rw [← sum_add_distrib]
      refine sum_congr rfl fun s hs => ?_
      rw [addDiag_apply hd out ik a a r s (mem_range.1 ha) (mem_range.1 hb) (mem_range.1 hr) (mem_range.1 hs), if_pos rfl]
      ring
    · rw [add_zero]
      refine sum_congr rfl fun s hs => ?_
      rw [addDiag_apply hd out ik a b r s (mem_range.1 ha) (mem_range.1 hb) (mem_range.1 hr) (mem_range.1 hs), if_neg hab,
        add_zero]
  rw [sum_congr rfl this, sum_add_distrib, sum_ite_eq, if_pos ha]

/-- The geometric part: `∑ S_ij ∂_i v_a ∂_j u_a`. -/
noncomputable def geomForm (d nEP : ℕ) (tau : ℕ → ℝ) (g : ℕ → ℕ → ℝ) (v u : ℕ → ℝ) : ℝ :=
  ∑ i ∈ range d, ∑ j ∈ range d, tau (voigt d i j) * ∑ a ∈ range d, fgrad nEP g v i a * fgrad nEP g u j a

theorem ktsc_sum (n nQP : ℕ) (tau : ℕ → ℕ → ℝ) (g : ℕ → ℕ → ℕ → ℝ) (k : ℕ → ℕ → ℕ → ℝ) (w : ℕ → ℝ)
    (hk : ∀ q r s, k q r s = ∑ i ∈ range d, ∑ j ∈ range d, tau q (voigt d i j) * g q i r * g q j s) (v u : ℕ → ℝ) :
    ∑ a ∈ range d, ∑ r ∈ range n, ∑ s ∈ range n, v (n * a + r) * (∑ q ∈ range nQP, k q r s * w q) * u (n * a + s) =
      integ nQP w fun q => geomForm d n (tau q) (g q) v u := by
  have h1 : ∀ q, geomForm d n (tau q) (g q) v u =
      ∑ a ∈ range d, ∑ r ∈ range n, ∑ s ∈ range n, v (n * a + r) * k q r s * u (n * a + s) := by
    intro q
    unfold geomForm
    symm
    calc _ = ∑ a ∈ range d, ∑ r ∈ range n, ∑ s ∈ range n, ∑ i ∈ range d, ∑ j ∈ range d,
          v (n * a + r) * (tau q (voigt d i j) * g q i r * g q j s) * u (n * a + s) := by
            simp only [hk, mul_sum, sum_mul]
      _ = ∑ a ∈ range d, ∑ i ∈ range d, ∑ j ∈ range d, ∑ r ∈ range n, ∑ s ∈ range n,
          v (n * a + r) * (tau q (voigt d i j) * g q i r * g q j s) * u (n * a + s) := by
            refine sum_congr rfl fun a _ => ?_
            rw [sum_congr rfl fun r _ => sum_comm, sum_comm]
            refine sum_congr rfl fun i _ => ?_
            rw [sum_congr rfl fun r _ => sum_comm, sum_comm]
      _ = _ := by
            rw [sum_comm]
            refine sum_congr rfl fun i _ => ?_
            rw [sum_comm]
            refine sum_congr rfl fun j _ => ?_
            rw [mul_sum]
            refine sum_congr rfl fun a _ => ?_
            unfold fgrad
            rw [sum_mul_sum, mul_sum]
            refine sum_congr rfl fun r _ => ?_
            rw [mul_sum]
            refine sum_congr rfl fun s _ => by ring
  simp only [integ, h1, mul_sum, sum_mul]
  rw [sum_comm (s := range nQP)]
  refine sum_congr rfl fun a _ => ?_
  rw [sum_comm (s := range nQP)]
  refine sum_congr rfl fun r _ => ?_
  rw [sum_comm (s := range nQP)]
  refine sum_congr rfl fun s _ => ?_
  refine sum_congr rfl fun q _ => by ring

/-- The weak form of the vector in the total Lagrangian formulation. -/
theorem heRtmVector_tl (hd : 1 ≤ d ∧ d ≤ 3) (nEP nQP : ℕ) (g : ℕ → ℕ → ℕ → ℝ) (det : ℕ → ℝ) (stress : ℕ → ℕ → ℝ)
    (mtxF : ℕ → ℕ → ℕ → ℝ) (detF : ℕ → ℝ) :
    ∃ b, heRtmVector false d nEP nQP g det stress mtxF detF = some b ∧ ∀ v, lin (d * nEP) v b =
      integ nQP det fun q => ∑ i ∈ range d, ∑ j ∈ range d, stress q (voigt d i j) * pull d nEP (mtxF q) (g q) v i j := by
  choose b hb hb' using fun q => buildOpB_sum hd nEP (mtxF q) (g q)
  refine ⟨fun r _ => ∑ q ∈ range nQP, (∑ k ∈ range (symOf d), b q k r * stress q k) * det q, ?_, fun v => ?_⟩
  · unfold heRtmVector
    rw [if_neg (by simp), sumLevO_some nQP _ (fun q r _ => ∑ k ∈ range (symOf d), b q k r * stress q k) det]
    intro q
    rw [hb q]
    rfl
  · rw [lin_sumLevO]
    refine integ_congr (fun _ _ => rfl) fun q _ => ?_
    rw [← hb' q]
    unfold lin
    simp only [mul_sum]
    rw [sum_comm]
    refine sum_congr rfl fun s _ => sum_congr rfl fun c _ => by ring

/-- The weak form of the matrix in the total Lagrangian formulation. -/
theorem heRtmMatrix_tl (hd : 1 ≤ d ∧ d ≤ 3) (nEP nQP : ℕ) (g : ℕ → ℕ → ℕ → ℝ) (det : ℕ → ℝ) (stress : ℕ → ℕ → ℝ)
    (tan mtxF : ℕ → ℕ → ℕ → ℝ) (detF : ℕ → ℝ) :
    ∃ A, heRtmMatrix false d nEP nQP g det stress tan mtxF detF = some A ∧ ∀ v u, bil (d * nEP) (d * nEP) v A u =
      integ nQP det fun q =>
        (∑ i ∈ range d, ∑ j ∈ range d, (∑ k ∈ range d, ∑ l ∈ range d,
          tan q (voigt d i j) (voigt d k l) * pull d nEP (mtxF q) (g q) u k l) * pull d nEP (mtxF q) (g q) v i j)
        + geomForm d nEP (stress q) (g q) v u := by
  choose b hb hb' using fun q => buildOpB_sum hd nEP (mtxF q) (g q)
  choose k hk hk' using fun q => buildOpKtsC_sum hd (stress q) (g q)
  refine ⟨addDiag d nEP (fun r s => ∑ q ∈ range nQP,
      (∑ m ∈ range (symOf d), (∑ p ∈ range (symOf d), b q p r * tan q p m) * b q m s) * det q)
      (fun r s => ∑ q ∈ range nQP, k q r s * det q), ?_, fun v u => ?_⟩
  · unfold heRtmMatrix
    simp only [Bool.false_eq_true, if_false]
    rw [sumLevO_some nQP _ (fun q r s => ∑ m ∈ range (symOf d), (∑ p ∈ range (symOf d), b q p r * tan q p m) * b q m s) det
      (fun q => by rw [hb q]; rfl), sumLevO_some nQP _ k det hk]
    rfl
  · rw [bil_addDiag hd, ktsc_sum nEP nQP stress g k det hk', bil_sumLevO]
    unfold integ
    rw [← sum_add_distrib]
    refine sum_congr rfl fun q _ => ?_
    rw [← mul_add]
    congr 2
    rw [← hb' q (fun r => ∑ k ∈ range d, ∑ l ∈ range d, tan q r (voigt d k l) * pull d nEP (mtxF q) (g q) u k l) v]
    simp only [← hb' q]
    unfold bil
    simp only [mul_sum, sum_mul]
    calc _ = ∑ r ∈ range (d * nEP), ∑ m ∈ range (symOf d), ∑ p ∈ range (symOf d), ∑ s ∈ range (d * nEP),
          v r * (b q p r * tan q p m * b q m s) * u s := by
            refine sum_congr rfl fun r _ => ?_
            rw [sum_comm]
            refine sum_congr rfl fun m _ => ?_
            rw [sum_comm]
      _ = ∑ p ∈ range (symOf d), ∑ r ∈ range (d * nEP), ∑ m ∈ range (symOf d), ∑ s ∈ range (d * nEP),
          v r * (b q p r * tan q p m * b q m s) * u s := by
            rw [sum_congr rfl fun r _ => sum_comm, sum_comm]
      _ = _ := by
            refine sum_congr rfl fun p _ => sum_congr rfl fun r _ => sum_congr rfl fun m _ => sum_congr rfl fun s _ => by
              ring

/-- The weak form of the vector in the updated Lagrangian formulation. -/
theorem heRtmVector_ul (hd : 1 ≤ d ∧ d ≤ 3) (nEP nQP : ℕ) (g : ℕ → ℕ → ℕ → ℝ) (det : ℕ → ℝ) (stress : ℕ → ℕ → ℝ)
    (mtxF : ℕ → ℕ → ℕ → ℝ) (detF : ℕ → ℝ) :
    ∃ b, heRtmVector true d nEP nQP g det stress mtxF detF = some b ∧ ∀ v, lin (d * nEP) v b =
      integ nQP (fun q => det q / detF q) fun q =>
        ∑ i ∈ range d, ∑ a ∈ range d, stress q (voigt d i a) * fgrad nEP (g q) v i a := by
  obtain ⟨o, ho, ho'⟩ := actOpGTM3_block hd nEP g (fun q r _ => stress q r)
  refine ⟨sumLev nQP o fun q => det q / detF q, ?_, fun v => ?_⟩
  · unfold heRtmVector
    rw [if_pos rfl, ho]
    rfl
  · rw [lin_sumLev]
    refine integ_congr (fun _ _ => rfl) fun q _ => ?_
    rw [lin_of_block (g := g q) (s := fun i a => stress q (voigt d i a)) fun a ha k hk => ho' q 0 a ha k hk]
    refine sum_congr rfl fun i _ => sum_congr rfl fun a _ => by ring

/-- The weak form of the matrix in the updated Lagrangian formulation. -/
theorem heRtmMatrix_ul (hd : 1 ≤ d ∧ d ≤ 3) (nEP nQP : ℕ) (g : ℕ → ℕ → ℕ → ℝ) (det : ℕ → ℝ) (stress : ℕ → ℕ → ℝ)
    (tan mtxF : ℕ → ℕ → ℕ → ℝ) (detF : ℕ → ℝ) :
    ∃ A, heRtmMatrix true d nEP nQP g det stress tan mtxF detF = some A ∧ ∀ v u, bil (d * nEP) (d * nEP) v A u =
      integ nQP (fun q => det q / detF q) fun q =>
        (∑ i ∈ range d, ∑ a ∈ range d, (∑ m ∈ range d, ∑ b ∈ range d,
          tan q (voigt d i a) (voigt d m b) * fgrad nEP (g q) u m b) * fgrad nEP (g q) v i a)
        + geomForm d nEP (stress q) (g q) v u := by
  obtain ⟨o, ho, ho'⟩ := actOpGTM3_block hd nEP g tan
  obtain ⟨o2, ho2, ho2'⟩ := actOpGRM3_block hd nEP o g
  choose k hk hk' using fun q => buildOpKtsC_sum hd (stress q) (g q)
  refine ⟨addDiag d nEP (fun r s => ∑ q ∈ range nQP, o2 q r s * (det q / detF q))
      (fun r s => ∑ q ∈ range nQP, k q r s * (det q / detF q)), ?_, fun v u => ?_⟩
  · unfold heRtmMatrix
    simp only [if_true, ho, ho2, Option.bind_eq_bind, Option.bind_some]
    rw [sumLevO_some nQP _ o2 _ (fun q => rfl), sumLevO_some nQP _ k _ hk]
    rfl
  · rw [bil_addDiag hd, ktsc_sum nEP nQP stress g k _ hk', bil_sumLevO]
    unfold integ
    rw [← sum_add_distrib]
    refine sum_congr rfl fun q _ => ?_
    rw [← mul_add]
    congr 2
    beta_reduce
    rw [bil_of_block (g := g q) (g' := g q) (S := fun i a m b => tan q (voigt d i a) (voigt d m b))]
    · refine sum_congr rfl fun i _ => sum_congr rfl fun a _ => ?_
      rw [sum_mul]
      refine sum_congr rfl fun m _ => ?_
      rw [sum_mul]
      refine sum_congr rfl fun b _ => by ring
    · intro a ha r hr b hb s hs
      rw [ho2' q _ b hb s hs, sum_comm]
      refine sum_congr rfl fun m _ => ?_
      rw [ho' q _ a ha r hr, mul_sum]
      refine sum_congr rfl fun i _ => by ring

end Verif.Term
