/-
C62 (continued): shape derivatives and wave terms.
-/
import Verif.Term.PropsElastic2

namespace Verif.Term

open Finset

variable {K : Type} [Field K]

/-! ### Shape derivative -/

theorem sdFull_eq {dim : ℕ} (hd : dim = 2 ∨ dim = 3) (D : Lev K) (q a b c d : ℕ) (ha : a < dim) (hb : b < dim)
    (hc : c < dim) (hdd : d < dim) :
    sdFull dim D q (dim * a + b) (dim * c + d) = D q (voigt dim a b) (voigt dim c d) := by
  have key : ∀ a b, a < dim → b < dim → (dtab dim)[dim * a + b]?.getD 0 = voigt dim a b := by
    rcases hd with rfl | rfl <;> intro a b ha hb <;> interval_cases a <;> interval_cases b <;> rfl
  unfold sdFull
  rw [key a b ha hb, key c d hc hdd]

theorem sdGw_eq {dim : ℕ} (hd : dim = 2 ∨ dim = 3) (df gw : Lev K) (q J l k : ℕ) (hl : l < dim) (hk : k < dim) :
    sdGw dim df gw q J (dim * l + k) = ∑ m ∈ range dim, df q J (dim * k + m) * gw q m l := by
  rcases hd with rfl | rfl <;> interval_cases l <;> interval_cases k <;> simp [sdGw, sum_range_succ]

theorem sdDiv_eq {dim : ℕ} (hd : dim = 2 ∨ dim = 3) (gw : Lev K) (q : ℕ) :
    sdDiv dim gw q = ∑ m ∈ range dim, gw q m m := by
  rcases hd with rfl | rfl <;> simp [sdDiv, sum_range_succ]

/-- `ev_sd_lin_elastic`: `∫ Ď_ijkl ∂v_i/∂x_j ∂u_k/∂x_l`, with
`Ď_ijkl = D_ijkl ∇·W - D_ijkm ∂W_l/∂x_m - D_imkl ∂W_j/∂x_m`, for a tensor with the major symmetry. (The documentation
has the strains `e_ij(v) e_kl(u)` in the place of the gradients, although `Ď` is not symmetric in `ij` and `kl`.) -/
theorem C62_sd (vg : Mapping K) (hd : vg.dim = 2 ∨ vg.dim = 3) (coef : K) (D : Fld K) (sv su sw : ℕ → K)
    (conn connw : ℕ → ℕ → ℕ) (wg : Mapping K) (c : ℕ)
    (hD : ∀ q < vg.nQP, ∀ r s, D.at c q r s = D.at c q s r) :
    dSdLinElastic vg coef (dqGrad vg.dim vg sv conn) (dqGrad vg.dim vg su conn) (dqGrad vg.dim wg sw connw) D c 0 0 =
      integ vg.nQP (vg.w c) fun q => coef *
        let D4 := fun i j k l => D.at c q (voigt vg.dim i j) (voigt vg.dim k l)
        let W := fun m l => fgrad wg.nEP (wg.G c q) (locDofs vg.dim wg.nEP sw (connw c)) m l
        let gv := fgrad vg.nEP (vg.G c q) (locDofs vg.dim vg.nEP sv (conn c))
        let gu := fgrad vg.nEP (vg.G c q) (locDofs vg.dim vg.nEP su (conn c))
        ∑ j ∈ range vg.dim, ∑ i ∈ range vg.dim, ∑ l ∈ range vg.dim, ∑ k ∈ range vg.dim,
          (D4 i j k l * (∑ m ∈ range vg.dim, W m m) - (∑ m ∈ range vg.dim, D4 i j k m * W m l) -
            ∑ m ∈ range vg.dim, D4 i m k l * W m j) * gv j i * gu l k := by
  unfold dSdLinElastic mulC
  rw [← integ_mul, mul_comm]
  congr 1
  unfold sumLev integ
  refine sum_congr rfl fun q hq => ?_
  rw [mul_comm]
  congr 1
  have hq := mem_range.1 hq
  have hv : ∀ (st : ℕ → K) (p a : ℕ), a < vg.dim → pretend vg.dim 1 (dqGrad vg.dim vg st conn c) q (vg.dim * p + a) 0 =
      fgrad vg.nEP (vg.G c q) (locDofs vg.dim vg.nEP st (conn c)) p a := by
    intro st p a ha
    obtain ⟨d1, d2⟩ := divmod_block (a := p) ha
    unfold pretend
    rw [one_mul, add_zero, d1, d2, dqGrad_eq]
  simp only [mulAB, mulATB]
  rw [sum_blocks]
  have key : ∀ r ∈ range vg.dim, ∀ b ∈ range vg.dim, ∀ p ∈ range vg.dim, ∀ a ∈ range vg.dim,
      sdFull vg.dim (D.x1 c) q (vg.dim * p + a) (vg.dim * r + b) * sdDiv vg.dim (dqGrad vg.dim wg sw connw c) q -
        sdGw vg.dim (sdFull vg.dim (D.x1 c)) (dqGrad vg.dim wg sw connw c) q (vg.dim * p + a) (vg.dim * r + b) -
        sdGw vg.dim (sdFull vg.dim (D.x1 c)) (dqGrad vg.dim wg sw connw c) q (vg.dim * r + b) (vg.dim * p + a) =
      D.at c q (voigt vg.dim a p) (voigt vg.dim b r) *
          (∑ m ∈ range vg.dim, fgrad wg.nEP (wg.G c q) (locDofs vg.dim wg.nEP sw (connw c)) m m) -
        (∑ m ∈ range vg.dim, D.at c q (voigt vg.dim a p) (voigt vg.dim b m) *
          fgrad wg.nEP (wg.G c q) (locDofs vg.dim wg.nEP sw (connw c)) m r) -
        ∑ m ∈ range vg.dim, D.at c q (voigt vg.dim a m) (voigt vg.dim b r) *
          fgrad wg.nEP (wg.G c q) (locDofs vg.dim wg.nEP sw (connw c)) m p := by
    intro r hr b hb p hp a ha
    rw [mem_range] at hr hb hp ha
    rw [sdFull_eq hd _ q p a r b hp ha hr hb, sdDiv_eq hd, sdGw_eq hd _ _ q _ r b hr hb, sdGw_eq hd _ _ q _ p a hp ha]
    congr 1
    · congr 1
      · congr 1
        · rw [Fld.x1_apply, voigt_comm vg.dim p a, voigt_comm vg.dim r b]
        · exact sum_congr rfl fun m _ => dqGrad_eq ..
      · refine sum_congr rfl fun m hm => ?_
        rw [sdFull_eq hd _ q p a b m hp ha hb (mem_range.1 hm), Fld.x1_apply, voigt_comm vg.dim p a, dqGrad_eq]
    · refine sum_congr rfl fun m hm => ?_
      rw [sdFull_eq hd _ q r b a m hr hb ha (mem_range.1 hm), Fld.x1_apply, voigt_comm vg.dim r b, hD q hq, dqGrad_eq]
  have step : ∀ r ∈ range vg.dim, ∀ b ∈ range vg.dim,
      (∑ k ∈ range (vg.dim * vg.dim), pretend vg.dim 1 (dqGrad vg.dim vg sv conn c) q k 0 *
        (sdFull vg.dim (D.x1 c) q k (vg.dim * r + b) * sdDiv vg.dim (dqGrad vg.dim wg sw connw c) q -
        sdGw vg.dim (sdFull vg.dim (D.x1 c)) (dqGrad vg.dim wg sw connw c) q k (vg.dim * r + b) -
        sdGw vg.dim (sdFull vg.dim (D.x1 c)) (dqGrad vg.dim wg sw connw c) q (vg.dim * r + b) k)) *
        pretend vg.dim 1 (dqGrad vg.dim vg su conn c) q (vg.dim * r + b) 0 =
      ∑ p ∈ range vg.dim, ∑ a ∈ range vg.dim, (D.at c q (voigt vg.dim a p) (voigt vg.dim b r) *
          (∑ m ∈ range vg.dim, fgrad wg.nEP (wg.G c q) (locDofs vg.dim wg.nEP sw (connw c)) m m) -
        (∑ m ∈ range vg.dim, D.at c q (voigt vg.dim a p) (voigt vg.dim b m) *
          fgrad wg.nEP (wg.G c q) (locDofs vg.dim wg.nEP sw (connw c)) m r) -
        ∑ m ∈ range vg.dim, D.at c q (voigt vg.dim a m) (voigt vg.dim b r) *
          fgrad wg.nEP (wg.G c q) (locDofs vg.dim wg.nEP sw (connw c)) m p) *
        fgrad vg.nEP (vg.G c q) (locDofs vg.dim vg.nEP sv (conn c)) p a *
        fgrad vg.nEP (vg.G c q) (locDofs vg.dim vg.nEP su (conn c)) r b := by
    intro r hr b hb
    rw [sum_blocks, hv su r b (mem_range.1 hb), sum_mul]
    refine sum_congr rfl fun p hp => ?_
    rw [sum_mul]
    refine sum_congr rfl fun a ha => ?_
    rw [key r hr b hb p hp a ha, hv sv p a (mem_range.1 ha)]
    ring
  rw [sum_congr rfl fun r hr => sum_congr rfl fun b hb => step r hr b hb]
  rw [sum_congr rfl fun k _ => sum_comm]
  rw [sum_comm]
  refine sum_congr rfl fun p _ => ?_
  rw [sum_congr rfl fun k _ => sum_comm]
  rw [sum_comm]

/-! ### Wave terms -/

/-- `op` gives the components of the tensor `X(u)` with doubled shear components. -/
def Contracts (geo : Mapping K) (op : Lev K) (X : ℕ → (ℕ → K) → ℕ → ℕ → K) : Prop :=
  ∀ q (u f : ℕ → K), ∑ r ∈ range (symOf geo.dim), f r * ∑ s ∈ range (geo.dim * geo.nEP), op q r s * u s =
    ∑ i ∈ range geo.dim, ∑ j ∈ range geo.dim, f (voigt geo.dim i j) * X q u i j

theorem wave_contracts (geo : Mapping K) (hd : geo.dim = 2 ∨ geo.dim = 3) (κ : ℕ → K) (c : ℕ) :
    Contracts geo (waveStrainOp geo.dim geo.nEP κ (geo.bf.x1 c))
      fun q u i j => κ i * fval geo.nEP (geo.phi c q) u j := by
  intro q u f
  have hs : ∀ r, ∑ s ∈ range (geo.dim * geo.nEP), waveStrainOp geo.dim geo.nEP κ (geo.bf.x1 c) q r s * u s =
      ∑ k ∈ range geo.dim, (if geo.dim = 2 then (fun r k => match r, k with
        | 0, 0 => κ 0
        | 1, 1 => κ 1
        | 2, 0 => κ 1
        | 2, 1 => κ 0
        | _, _ => 0 : ℕ → ℕ → K)
      else fun r k => match r, k with
        | 0, 0 => κ 0
        | 1, 1 => κ 1
        | 2, 2 => κ 2
        | 3, 0 => κ 1
        | 3, 1 => κ 0
        | 4, 0 => κ 2
        | 4, 2 => κ 0
        | 5, 1 => κ 2
        | 5, 2 => κ 1
        | _, _ => 0) r k * fval geo.nEP (geo.phi c q) u k := by
    intro r
    unfold waveStrainOp
    simp only [sum_mul]
    rw [sum_comm]
    refine sum_congr rfl fun k hk => ?_
    rw [sum_blocks, sum_eq_single_of_mem k hk]
    · unfold fval
      rw [mul_sum]
      refine sum_congr rfl fun l hl => ?_
      obtain ⟨d1, d2⟩ := divmod_block (a := k) (mem_range.1 hl)
      rw [d1, d2, if_pos rfl, Fld.x1_apply]
      exact mul_assoc _ _ _
    · intro b _ hb
      refine sum_eq_zero fun l hl => ?_
      obtain ⟨d1, d2⟩ := divmod_block (a := b) (mem_range.1 hl)
      rw [d1, if_neg hb, mul_zero, zero_mul]
  simp only [hs]
  rcases hd with h | h <;> rw [h] <;> simp [symOf, sum_range_succ, voigt] <;> ring

theorem cauchy_contracts (geo : Mapping K) (hd : geo.dim = 2 ∨ geo.dim = 3) (c : ℕ) :
    Contracts geo (cauchyStrainOp geo.dim geo.nEP (geo.bfGM c)) fun q u i j => fgrad geo.nEP (geo.G c q) u i j := by
  intro q u f
  have hs : ∀ r, ∑ s ∈ range (geo.dim * geo.nEP), cauchyStrainOp geo.dim geo.nEP (geo.bfGM c) q r s * u s =
      ∑ a ∈ range geo.dim, ∑ k ∈ range geo.nEP,
        cauchyStrainOp geo.dim geo.nEP (geo.bfGM c) q r (geo.nEP * a + k) * u (geo.nEP * a + k) := by
    intro r
    rw [sum_blocks]
  have hz : ∀ r a, ∑ k ∈ range geo.nEP, cauchyStrainOp geo.dim geo.nEP (geo.bfGM c) q r (geo.nEP * a + k) *
      u (geo.nEP * a + k) = if geo.dim = 2 then (match r, a with
        | 0, 0 => fgrad geo.nEP (geo.G c q) u 0 a
        | 1, 1 => fgrad geo.nEP (geo.G c q) u 1 a
        | 2, 0 => fgrad geo.nEP (geo.G c q) u 1 a
        | 2, 1 => fgrad geo.nEP (geo.G c q) u 0 a
        | _, _ => 0)
      else match r, a with
        | 0, 0 => fgrad geo.nEP (geo.G c q) u 0 a
        | 1, 1 => fgrad geo.nEP (geo.G c q) u 1 a
        | 2, 2 => fgrad geo.nEP (geo.G c q) u 2 a
        | 3, 0 => fgrad geo.nEP (geo.G c q) u 1 a
        | 3, 1 => fgrad geo.nEP (geo.G c q) u 0 a
        | 4, 0 => fgrad geo.nEP (geo.G c q) u 2 a
        | 4, 2 => fgrad geo.nEP (geo.G c q) u 0 a
        | 5, 1 => fgrad geo.nEP (geo.G c q) u 2 a
        | 5, 2 => fgrad geo.nEP (geo.G c q) u 1 a
        | _, _ => 0 := by
    intro r a
    have e : ∀ k ∈ range geo.nEP, cauchyStrainOp geo.dim geo.nEP (geo.bfGM c) q r (geo.nEP * a + k) *
        u (geo.nEP * a + k) = (if geo.dim = 2 then (match r, a with
          | 0, 0 => geo.bfGM c q 0 k
          | 1, 1 => geo.bfGM c q 1 k
          | 2, 0 => geo.bfGM c q 1 k
          | 2, 1 => geo.bfGM c q 0 k
          | _, _ => 0)
        else match r, a with
          | 0, 0 => geo.bfGM c q 0 k
          | 1, 1 => geo.bfGM c q 1 k
          | 2, 2 => geo.bfGM c q 2 k
          | 3, 0 => geo.bfGM c q 1 k
          | 3, 1 => geo.bfGM c q 0 k
          | 4, 0 => geo.bfGM c q 2 k
          | 4, 2 => geo.bfGM c q 0 k
          | 5, 1 => geo.bfGM c q 2 k
          | 5, 2 => geo.bfGM c q 1 k
          | _, _ => 0) * u (geo.nEP * a + k) := by
      intro k hk
      obtain ⟨d1, d2⟩ := divmod_block (a := a) (mem_range.1 hk)
      unfold cauchyStrainOp
      simp only [d1, d2]
      rfl
    rw [sum_congr rfl e]
    by_cases h : geo.dim = 2
    · simp only [if_pos h]
      split <;> simp [fgrad, Mapping.G]
    · simp only [if_neg h]
      split <;> simp [fgrad, Mapping.G]
  simp only [hs, hz]
  rcases hd with h | h <;> rw [h] <;> simp [symOf, sum_range_succ, voigt] <;> ring

theorem dwWave_form (geo : Mapping K) (D : Fld K) (a b : ℕ → Lev K) (c : ℕ) (X Y : ℕ → (ℕ → K) → ℕ → ℕ → K)
    (hX : Contracts geo (a c) X) (hY : Contracts geo (b c) Y) (u0 : ℕ → K) :
    let B := fun q v u => ∑ i ∈ range geo.dim, ∑ j ∈ range geo.dim, ∑ m ∈ range geo.dim, ∑ l ∈ range geo.dim,
      D.at c q (voigt geo.dim i j) (voigt geo.dim m l) * X q v i j * Y q u m l
    IsForm (geo.dim * geo.nEP) (geo.dim * geo.nEP) geo.nQP (geo.w c) (dwWave geo D a b none c) B ∧
      IsLin (geo.dim * geo.nEP) geo.nQP (geo.w c) (dwWave geo D a b (some u0) c) fun q v => B q v u0 := by
  intro B
  have inner : ∀ q r u, ∑ t ∈ range (symOf geo.dim), D.x1 c q r t * ∑ s ∈ range (geo.dim * geo.nEP), b c q t s * u s =
      ∑ m ∈ range geo.dim, ∑ l ∈ range geo.dim, D.at c q r (voigt geo.dim m l) * Y q u m l := by
    intro q r u
    simp only [Fld.x1_apply]
    exact hY q u fun t => D.at c q r t
  have outer : ∀ q v u, ∑ r ∈ range (symOf geo.dim), (∑ s ∈ range (geo.dim * geo.nEP), v s * a c q r s) *
      (∑ m ∈ range geo.dim, ∑ l ∈ range geo.dim, D.at c q r (voigt geo.dim m l) * Y q u m l) = B q v u := by
    intro q v u
    have h := hX q v fun r => ∑ m ∈ range geo.dim, ∑ l ∈ range geo.dim, D.at c q r (voigt geo.dim m l) * Y q u m l
    refine Eq.trans (sum_congr rfl fun r _ => ?_) (h.trans ?_)
    · rw [mul_comm]
      congr 1
      exact sum_congr rfl fun s _ => mul_comm _ _
    · refine sum_congr rfl fun i _ => sum_congr rfl fun j _ => ?_
      rw [sum_mul]
      refine sum_congr rfl fun m _ => ?_
      rw [sum_mul]
      refine sum_congr rfl fun l _ => by ring
  refine ⟨fun v u => ?_, fun v => ?_⟩
  · unfold dwWave
    rw [bil_sumLev]
    refine integ_congr (fun _ _ => rfl) fun q _ => ?_
    rw [bil_mulATB, ← outer]
    refine sum_congr rfl fun r _ => ?_
    congr 1
    rw [← inner]
    unfold mulAB
    simp only [sum_mul, mul_sum]
    rw [sum_comm]
    refine sum_congr rfl fun t _ => sum_congr rfl fun s _ => by ring
  · unfold dwWave
    rw [lin_sumLev]
    refine integ_congr (fun _ _ => rfl) fun q _ => ?_
    rw [lin_mulATB]
    show _ = B q v u0
    rw [← outer]
    refine sum_congr rfl fun r _ => ?_
    congr 1
    rw [← inner]
    rfl

/-- `dw_elastic_wave`: `∫ D_ijkl g_ij(v) g_kl(u)`; `dw_elastic_wave_cauchy`: `∫ D_ijkl g_ij(v) e_kl(u)` and
`∫ D_ijkl e_ij(v) g_kl(u)`; matrices and residuals. (In the second mode of `dw_elastic_wave_cauchy` the documented form
is `∫ D_ijkl g_ij(u) e_kl(v)`, the same one for a tensor with the major symmetry.) -/
theorem C62_wave (h2 : (2 : K) ≠ 0) (geo : Mapping K) (hd : geo.dim = 2 ∨ geo.dim = 3) (D : Fld K) (κ : ℕ → K) (c : ℕ)
    (u0 : ℕ → K) :
    let g := fun c => waveStrainOp geo.dim geo.nEP κ (geo.bf.x1 c)
    let e := fun c => cauchyStrainOp geo.dim geo.nEP (geo.bfGM c)
    let gt := fun q u => waveStrain geo.nEP (geo.phi c q) κ u
    let et := fun q u => strain geo.nEP (geo.G c q) u
    ∀ a ∈ [(g, gt), (e, et)], ∀ b ∈ [(g, gt), (e, et)],
      IsForm (geo.dim * geo.nEP) (geo.dim * geo.nEP) geo.nQP (geo.w c) (dwWave geo D a.1 b.1 none c)
          (fun q v u => tensorForm geo.dim (D.at c q) (a.2 q v) (b.2 q u)) ∧
        IsLin (geo.dim * geo.nEP) geo.nQP (geo.w c) (dwWave geo D a.1 b.1 (some u0) c)
          fun q v => tensorForm geo.dim (D.at c q) (a.2 q v) (b.2 q u0) := by
  intro g e gt et
  have hg := wave_contracts geo hd κ c
  have he := cauchy_contracts geo hd c
  have gen : ∀ a b X Y, Contracts geo (a c) X → Contracts geo (b c) Y →
      IsForm (geo.dim * geo.nEP) (geo.dim * geo.nEP) geo.nQP (geo.w c) (dwWave geo D a b none c)
          (fun q v u => tensorForm geo.dim (D.at c q) (fun i j => (X q v j i + X q v i j) / 2)
            fun i j => (Y q u j i + Y q u i j) / 2) ∧
        IsLin (geo.dim * geo.nEP) geo.nQP (geo.w c) (dwWave geo D a b (some u0) c)
          fun q v => tensorForm geo.dim (D.at c q) (fun i j => (X q v j i + X q v i j) / 2)
            fun i j => (Y q u0 j i + Y q u0 i j) / 2 := by
    intro a b X Y hX hY
    have h := dwWave_form geo D a b c X Y hX hY u0
    simp only [tensorForm_grad h2] at h
    exact h
  have e1 : ∀ q u, (fun i j => (κ j * fval geo.nEP (geo.phi c q) u i + κ i * fval geo.nEP (geo.phi c q) u j) / 2) =
      gt q u := by
    intro q u
    funext i j
    show _ = waveStrain _ _ _ _ _ _
    unfold waveStrain
    rw [mul_comm (κ j)]
  intro a ha b hb
  simp only [List.mem_cons, List.not_mem_nil, or_false] at ha hb
  rcases ha with rfl | rfl <;> rcases hb with rfl | rfl
  · have := gen g g _ _ hg hg
    simp only [e1] at this
    exact this
  · have := gen g e _ _ hg he
    simp only [e1] at this
    exact this
  · have := gen e g _ _ he hg
    simp only [e1] at this
    exact this
  · exact gen e e _ _ he he

end Verif.Term
