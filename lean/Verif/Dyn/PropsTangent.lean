/-
C48 and C45 (packing): the tangent matrices of the elastodynamics solvers are the derivatives of the
residual functions given to the nonlinear solver, and the packing of the DOF vectors.
-/
import Verif.Dyn.PropsSchemes
import Mathlib.Analysis.Normed.Module.Basic
import Mathlib.Analysis.Calculus.FDeriv.CompCLM

namespace Verif.Dyn

open Verif.Time

/-! ### Tangent matrices -/

section
variable {V E : Type} [NormedAddCommGroup V] [NormedSpace ℝ V] [NormedAddCommGroup E]
  [NormedSpace ℝ E]

/-- The documented assumption "block-diagonal matrix in u, v, a": at the times `tm`, `t` the blocks
of the residual depend on their own block of the unknowns only, and `get_matrices` returns their
derivatives. -/
structure BlockDiagonal (P : Prob ℝ V) (tm t : ℝ) (Fu Fv Fa : V → V) (DS DC DM : V → V →L[ℝ] V) :
    Prop where
  res : ∀ s, P.res tm t s = ⟨Fu s.u, Fv s.v, Fa s.a⟩
  du : ∀ u, HasFDerivAt Fu (DS u) u
  dv : ∀ v, HasFDerivAt Fv (DC v) v
  da : ∀ a, HasFDerivAt Fa (DM a) a
  mats : ∀ s, P.mats tm t s = ⟨(DM s.a).toLinearMap, (DC s.v).toLinearMap, (DS s.u).toLinearMap⟩

/-- `n.grad` is the derivative of `n.f` everywhere. -/
def ExactTangent {W : Type} [NormedAddCommGroup W] [NormedSpace ℝ W] (n : Nlst ℝ W) : Prop :=
  ∀ x, ∃ L : W →L[ℝ] W, L.toLinearMap = n.grad x ∧ HasFDerivAt n.f L x

/-- Derivative of an affine function. -/
theorem hasFDerivAt_affine (c0 : V) (c : ℝ) (x : V) :
    HasFDerivAt (fun y : V => c0 + c • y) (c • ContinuousLinearMap.id ℝ V) x :=
  ((hasFDerivAt_id x).const_smul c).const_add c0

theorem total_deriv {P : Prob ℝ V} {tm t : ℝ} {Fu Fv Fa : V → V} {DS DC DM : V → V →L[ℝ] V}
    (h : BlockDiagonal P tm t Fu Fv Fa DS DC DM) (fu fv fa : V → V) (cu cv ca : ℝ)
    (hu : ∃ c0, fu = fun y => c0 + cu • y) (hv : ∃ c0, fv = fun y => c0 + cv • y)
    (ha : ∃ c0, fa = fun y => c0 + ca • y) (x : V) :
    ∃ L : V →L[ℝ] V,
      L.toLinearMap = ca • (P.mats tm t ⟨fu x, fv x, fa x⟩).M
        + cv • (P.mats tm t ⟨fu x, fv x, fa x⟩).C + cu • (P.mats tm t ⟨fu x, fv x, fa x⟩).S ∧
      HasFDerivAt (fun y => (P.res tm t ⟨fu y, fv y, fa y⟩).total) L x := by
  obtain ⟨u0, rfl⟩ := hu
  obtain ⟨v0, rfl⟩ := hv
  obtain ⟨a0, rfl⟩ := ha
  refine ⟨ca • DM (a0 + ca • x) + cv • DC (v0 + cv • x) + cu • DS (u0 + cu • x), ?_, ?_⟩
  · rw [h.mats]
    rfl
  · simp only [h.res, St.total]
    have e1 := (h.du _).comp x (hasFDerivAt_affine u0 cu x)
    have e2 := (h.dv _).comp x (hasFDerivAt_affine v0 cv x)
    have e3 := (h.da _).comp x (hasFDerivAt_affine a0 ca x)
    have e := (e1.add e2).add e3
    have hL : (DS (u0 + cu • x)).comp (cu • ContinuousLinearMap.id ℝ V)
        + (DC (v0 + cv • x)).comp (cv • ContinuousLinearMap.id ℝ V)
        + (DM (a0 + ca • x)).comp (ca • ContinuousLinearMap.id ℝ V)
        = ca • DM (a0 + ca • x) + cv • DC (v0 + cv • x) + cu • DS (u0 + cu • x) := by
      ext y
      simp only [_root_.add_apply, ContinuousLinearMap.comp_apply,
        _root_.smul_apply, ContinuousLinearMap.id_apply, map_smul]
      abel
    rw [hL] at e
    exact e

/-- Newmark: `M + gamma dt C + beta dt² K`. -/
theorem C48_newmark_tangent {P : Prob ℝ V} {tm t : ℝ} {Fu Fv Fa : V → V}
    {DS DC DM : V → V →L[ℝ] V} (h : BlockDiagonal P tm t Fu Fv Fa DS DC DM)
    (dt gamma beta : ℝ) (s : St V) : ExactTangent (nmNlst P tm t dt gamma beta s) := by
  intro x
  obtain ⟨L, h1, h2⟩ := total_deriv h (fun y => nmU beta dt s.u s.v s.a y)
    (fun y => nmV gamma dt s.v s.a y) (fun y => y) (beta * dt ^ 2) (gamma * dt) 1
    ⟨_, rfl⟩ ⟨_, rfl⟩ ⟨0, by funext y; simp⟩ x
  refine ⟨L, ?_, h2⟩
  rw [h1]
  simp only [nmNlst, one_smul]

/-- Central difference: `M + dt/2 C`. -/
theorem C48_central_difference_tangent {P : Prob ℝ V} {tm t : ℝ} {Fu Fv Fa : V → V}
    {DS DC DM : V → V →L[ℝ] V} (h : BlockDiagonal P tm t Fu Fv Fa DS DC DM)
    (dt : ℝ) (s : St V) : ExactTangent (cdNlst P tm t dt s) := by
  have e := nmNlst_central P tm t dt s
  rw [← e]
  exact C48_newmark_tangent h _ _ _ _

/-- Velocity-Verlet: `M`. -/
theorem C48_verlet_tangent {P : Prob ℝ V} {tm t : ℝ} {Fu Fv Fa : V → V}
    {DS DC DM : V → V →L[ℝ] V} (h : BlockDiagonal P tm t Fu Fv Fa DS DC DM)
    (dt : ℝ) (s : St V) : ExactTangent (vvNlst P tm t dt s) := by
  intro x
  obtain ⟨L, h1, h2⟩ := total_deriv h (fun _ => vvU dt s) (fun _ => vvVm dt s) (fun y => y) 0 0 1
    ⟨vvU dt s, by funext y; simp⟩ ⟨vvVm dt s, by funext y; simp⟩ ⟨0, by funext y; simp⟩ x
  refine ⟨L, ?_, h2⟩
  rw [h1]
  simp only [vvNlst, one_smul, zero_smul, add_zero]

/-- Generalized alpha: `(1 - alpha_m) M + (1 - alpha_f) gamma dt C + (1 - alpha_f) beta dt² K`. -/
theorem C48_generalized_alpha_tangent {P : Prob ℝ V} {tm t : ℝ} {Fu Fv Fa : V → V}
    {DS DC DM : V → V →L[ℝ] V} (h : BlockDiagonal P tm t Fu Fv Fa DS DC DM)
    (dt : ℝ) (p : GaPars ℝ) (s : St V) : ExactTangent (gaNlst P tm t dt p s) := by
  intro x
  obtain ⟨L, h1, h2⟩ := total_deriv h (fun y => (gaMid p dt s y).u) (fun y => (gaMid p dt s y).v)
    (fun y => (gaMid p dt s y).a) ((1 - p.af) * p.beta * dt ^ 2) ((1 - p.af) * p.gamma * dt)
    (1 - p.am)
    ⟨(gaMid p dt s 0).u, by funext y; simp only [gaMid, gaU]; module⟩
    ⟨(gaMid p dt s 0).v, by funext y; simp only [gaMid, gaV]; module⟩
    ⟨(gaMid p dt s 0).a, by funext y; simp only [gaMid]; module⟩ x
  refine ⟨L, ?_, h2⟩
  rw [h1]
  rfl

/-- Bathe, first sub-step: `(4/dt)² M + (4/dt) C + K`. -/
theorem C48_bathe_tangent1 {P : Prob ℝ V} {tm t : ℝ} {Fu Fv Fa : V → V}
    {DS DC DM : V → V →L[ℝ] V} (h : BlockDiagonal P tm t Fu Fv Fa DS DC DM)
    (dt : ℝ) (s : St V) : ExactTangent (baNlst1 P tm t dt s) := by
  intro x
  obtain ⟨L, h1, h2⟩ := total_deriv h (fun y => y) (fun y => baV1 dt s y)
    (fun y => baA1 dt s (baV1 dt s y)) 1 (4 / dt) (4 / dt * (4 / dt))
    ⟨0, by funext y; simp⟩
    ⟨baV1 dt s 0, by funext y; simp only [baV1]; module⟩
    ⟨baA1 dt s (baV1 dt s 0), by funext y; simp only [baA1, baV1]; module⟩ x
  refine ⟨L, ?_, h2⟩
  rw [h1]
  simp only [baNlst1, baNlst, one_smul]

/-- Bathe, second sub-step: `(3/dt)² M + (3/dt) C + K`. -/
theorem C48_bathe_tangent2 {P : Prob ℝ V} {tm t : ℝ} {Fu Fv Fa : V → V}
    {DS DC DM : V → V →L[ℝ] V} (h : BlockDiagonal P tm t Fu Fv Fa DS DC DM)
    (dt : ℝ) (u0 u1 v0 v1 : V) : ExactTangent (baNlst2 P tm t dt u0 u1 v0 v1) := by
  intro x
  obtain ⟨L, h1, h2⟩ := total_deriv h (fun y => y) (fun y => ba3 dt u0 u1 y)
    (fun y => ba3 dt v0 v1 (ba3 dt u0 u1 y)) 1 (3 * (1 / dt)) (3 * (1 / dt) * (3 * (1 / dt)))
    ⟨0, by funext y; simp⟩
    ⟨ba3 dt u0 u1 0, by funext y; simp only [ba3]; module⟩
    ⟨ba3 dt v0 v1 (ba3 dt u0 u1 0), by funext y; simp only [ba3]; module⟩ x
  refine ⟨L, ?_, h2⟩
  rw [h1]
  simp only [baNlst2, baNlst, one_smul]

/-- The assumption for problems with extra variables: the displacement and extra variable rows
depend on the displacements and the extra variables only, with the derivative `DS`. -/
structure BlockDiagonalE (P : ProbE ℝ V E) (tm t : ℝ) (Fue : V × E → V × E) (Fv Fa : V → V)
    (DS : V × E → V × E →L[ℝ] V × E) (DC DM : V → V →L[ℝ] V) : Prop where
  res : ∀ s, P.res tm t s = ⟨(Fue (s.u, s.e)).1, (Fue (s.u, s.e)).2, Fv s.v, Fa s.a⟩
  due : ∀ x, HasFDerivAt Fue (DS x) x
  dv : ∀ v, HasFDerivAt Fv (DC v) v
  da : ∀ a, HasFDerivAt Fa (DM a) a
  mats : ∀ s, P.mats tm t s =
    ⟨(DM s.a).toLinearMap, (DC s.v).toLinearMap, (DS (s.u, s.e)).toLinearMap⟩

/-- Newmark with extra variables: the derivative with respect to the accelerations and the extra
variables. -/
theorem C48_newmark_tangent_extra {P : ProbE ℝ V E} {tm t : ℝ} {Fue : V × E → V × E}
    {Fv Fa : V → V} {DS : V × E → V × E →L[ℝ] V × E} {DC DM : V → V →L[ℝ] V}
    (h : BlockDiagonalE P tm t Fue Fv Fa DS DC DM) (dt gamma beta : ℝ) (s : StE V E) :
    ExactTangent (nmNlstE P tm t dt gamma beta s) := by
  intro x
  have hfst : HasFDerivAt (fun y : V × E => y.1) (ContinuousLinearMap.fst ℝ V E) x :=
    hasFDerivAt_fst
  have hsnd : HasFDerivAt (fun y : V × E => y.2) (ContinuousLinearMap.snd ℝ V E) x :=
    hasFDerivAt_snd
  have hu : HasFDerivAt (fun y : V × E => nmU beta dt s.u s.v s.a y.1)
      ((beta * dt ^ 2) • ContinuousLinearMap.fst ℝ V E) x :=
    (hfst.const_smul (beta * dt ^ 2)).const_add _
  have hv : HasFDerivAt (fun y : V × E => nmV gamma dt s.v s.a y.1)
      ((gamma * dt) • ContinuousLinearMap.fst ℝ V E) x :=
    (hfst.const_smul (gamma * dt)).const_add _
  have h1 := (h.due _).comp x (hu.prodMk hsnd)
  have h2 := (h.dv _).comp x hv
  have h3 := (h.da _).comp x hfst
  have h1a := h1.fst
  have h1b := h1.snd
  have hall := ((h1a.add h2).add h3).prodMk h1b
  have hf : (nmNlstE P tm t dt gamma beta s).f = fun x : V × E =>
      ((((fun x : V × E => ((Fue ∘ fun x : V × E => (nmU beta dt s.u s.v s.a x.1, x.2)) x).1) +
              Fv ∘ fun y : V × E => nmV gamma dt s.v s.a y.1) + Fa ∘ fun y : V × E => y.1) x,
        ((Fue ∘ fun x : V × E => (nmU beta dt s.u s.v s.a x.1, x.2)) x).2) := by
    funext y
    simp only [nmNlstE, h.res]
    rfl
  rw [← hf] at hall
  refine ⟨_, ?_, hall⟩
  · apply LinearMap.ext
    intro y
    simp only [nmNlstE, h.mats]
    have key : (DS (nmU beta dt s.u s.v s.a x.1, x.2)) ((beta * dt ^ 2) • y.1, y.2)
        = (((DS (nmU beta dt s.u s.v s.a x.1, x.2)) ((beta * dt ^ 2) • y.1, y.2)).1,
          ((DS (nmU beta dt s.u s.v s.a x.1, x.2)) ((beta * dt ^ 2) • y.1, y.2)).2) := rfl
    apply Prod.ext
    · simp [add_comm, add_left_comm, add_assoc]
    · simp

end

/-! ### DOF packing -/

/-- Under the layout assertions, for a full vector that ends with the accelerations, `unpack` cuts
the vector into consecutive blocks: packing them again gives the vector. -/
theorem C45_pack_unpack {α : Type} (p : Packing) (extra : Bool) (hok : p.ok extra = true)
    (hu : p.iu.1 + p.nU = p.iu.2) (h1 : p.iu.2 ≤ p.iv.1) (h2 : p.iv.1 ≤ p.iv.2)
    (h3 : p.ia.1 ≤ p.ia.2) (l : List α) (hl : l.length = p.ia.2) :
    let r := p.unpack l
    packBlocks [r.1, r.2.1, r.2.2.1, r.2.2.2] = l ∧
      (extra = false → packBlocks [r.1, r.2.2.1, r.2.2.2] = l) := by
  simp only [Packing.ok, decide_eq_true_eq] at hok
  obtain ⟨ha, hb, hc⟩ := hok
  have h0 : p.iu.1 = 0 := by omega
  have hcut : ∀ (a b : Nat), a ≤ b → slice l a b ++ l.drop b = l.drop a := by
    intro a b hab
    simp only [slice]
    conv_rhs => rw [← List.take_append_drop (b - a) (l.drop a)]
    rw [List.drop_drop, show a + (b - a) = b by omega]
  have e4 : slice l p.ia.1 p.ia.2 = l.drop p.iv.2 := by
    rw [hb]
    have := hcut p.iv.2 p.ia.2 (by omega)
    rw [List.drop_eq_nil_of_le (by omega), List.append_nil] at this
    exact this
  refine ⟨?_, ?_⟩
  · simp only [Packing.unpack, packBlocks, List.flatten_cons, List.flatten_nil, List.append_nil]
    rw [e4, hcut _ _ h2, hcut _ _ h1, hcut _ _ (by omega), h0]
    rfl
  · intro he
    have hvu : p.iv.1 = p.iu.2 := by
      rcases hc with hc | hc
      · simp [he] at hc
      · exact hc
    simp only [Packing.unpack, packBlocks, List.flatten_cons, List.flatten_nil, List.append_nil]
    rw [e4, hcut _ _ h2, hvu, hcut _ _ (by omega), h0]
    rfl

/-- Conversely, unpacking a packed vector gives the blocks back, for blocks of the right lengths,
also in the mode `'nls'` used for the unknowns of the Newmark step. -/
theorem C45_unpack_pack {α : Type} (p : Packing) (extra : Bool) (hok : p.ok extra = true)
    (hu : p.iu.1 + p.nU = p.iu.2) (h1 : p.iu.2 ≤ p.iv.1) (h2 : p.iv.1 ≤ p.iv.2)
    (h3 : p.ia.1 ≤ p.ia.2) (u e v a : List α) (lu : u.length = p.nU)
    (le : e.length = p.iv.1 - p.iu.2) (lv : v.length = p.iv.2 - p.iv.1)
    (la : a.length = p.ia.2 - p.ia.1) :
    p.unpack (packBlocks [u, e, v, a]) = (u, e, v, a) ∧
      p.unpackNls (packBlocks [u, e]) = (u, e) := by
  simp only [Packing.ok, decide_eq_true_eq] at hok
  obtain ⟨ha, hb, hc⟩ := hok
  have h0 : p.iu.1 = 0 := by omega
  have hmid : ∀ (x y z : List α) (i j : Nat), x.length = i → y.length = j - i → i ≤ j →
      slice (x ++ (y ++ z)) i j = y := by
    intro x y z i j hx hy hij
    simp only [slice]
    rw [← hx, List.drop_left, hx, ← hy, List.take_left]
  have b1 : ∀ z : List α, slice (u ++ z) p.iu.1 p.iu.2 = u := fun z => by
    have := hmid [] u z p.iu.1 p.iu.2 (by simp [h0]) (by omega) (by omega)
    simpa using this
  have b2 : ∀ z : List α, slice (u ++ (e ++ z)) p.iu.2 p.iv.1 = e := fun z =>
    hmid u e z _ _ (by omega) le h1
  have b3 : slice (u ++ (e ++ (v ++ a))) p.iv.1 p.iv.2 = v := by
    have := hmid (u ++ e) v a p.iv.1 p.iv.2 (by simp; omega) lv h2
    simpa using this
  have b4 : slice (u ++ (e ++ (v ++ a))) p.ia.1 p.ia.2 = a := by
    have := hmid (u ++ (e ++ v)) a [] p.ia.1 p.ia.2 (by simp; omega) la h3
    simpa using this
  refine ⟨?_, ?_⟩
  · simp only [Packing.unpack, packBlocks, List.flatten_cons, List.flatten_nil, List.append_nil,
      b1, b2, b3, b4]
  · have b2' := b2 []
    simp only [List.append_nil] at b2'
    simp only [Packing.unpackNls, packBlocks, List.flatten_cons, List.flatten_nil, List.append_nil,
      b1, b2']

example : (⟨(0, 2), (3, 5), (5, 7), 2⟩ : Packing).ok true = true ∧
    (⟨(0, 2), (3, 5), (5, 7), 2⟩ : Packing).unpack [1, 2, 3, 4, 5, 6, 7] =
      ([1, 2], [3], [4, 5], [6, 7]) := ⟨rfl, rfl⟩

end Verif.Dyn
