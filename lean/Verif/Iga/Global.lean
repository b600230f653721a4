import Verif.Iga.Eval

/-!
# The evaluated basis is the global NURBS basis
-/

namespace Iga

variable {K : Type*} [Field K] [LinearOrder K] [IsStrictOrderedRing K]

/-- A direction of the patch with an element in it and a reference coordinate. -/
structure Loc (K : Type*) where
  d : Dir K
  e : ℕ
  ξ : K

/-- The parametric coordinate of the reference point. -/
def Loc.x (q : Loc K) : K :=
  knotFn q.d.knots (q.d.span q.e)
    + q.ξ * (knotFn q.d.knots (q.d.span q.e + 1) - knotFn q.d.knots (q.d.span q.e))

/-- The extraction operator of the element, as `cs[ii][ic[ii]]` (sfepy/discrete/iga/iga.py:792). -/
def Loc.op (q : Loc K) : Op K := (computeBezierExtraction1d q.d.knots q.d.p).getD q.e eye

/-- The admissible points: an existing element, a point of its half-open interval, a clamped knot
vector. -/
structure Loc.Ok (q : Loc K) : Prop where
  clamped : Clamped q.d.knots q.d.p
  elem : q.e < q.d.nEl
  lo : 0 ≤ q.ξ
  hi : q.ξ < 1

/-- The B-splines of the direction in the parametric coordinate (Cox – de Boor). -/
def Loc.bsp (q : Loc K) (A : ℕ) : K := bspline (knotFn q.d.knots) A q.d.p q.x

/-- What the code evaluates in the direction. -/
def Loc.basis (q : Loc K) : Basis1d K := evalBasis1d q.d.p q.op q.ξ

/-- The global NURBS basis function with the multi-index `A` in the parametric point: the weighted
product of B-splines divided by the sum over **all** functions of the patch. -/
def nurbs (qs : List (Loc K)) (weights : ℕ → K) (A : List ℕ) : K :=
  weights (ravel (qs.map fun q => q.d.nFun) A) * prodAt (qs.map Loc.bsp) A
    / ((tp (qs.map fun q => q.d.nFun)).map fun B =>
        weights (ravel (qs.map fun q => q.d.nFun) B) * prodAt (qs.map Loc.bsp) B).sum

/-- The global multi-index of the local function `l` of the element. -/
def globIdx : List (Loc K) → List ℕ → List ℕ
  | q :: qs, l :: ls => q.d.glob q.e l :: globIdx qs ls
  | _, _ => []

theorem Loc.Ok.span_mem {q : Loc K} (h : q.Ok) : q.d.span q.e ∈ spans q.d.knots q.d.p := by
  unfold Dir.span
  rw [List.getD_eq_getElem _ _ h.elem]
  exact List.getElem_mem _

theorem Loc.Ok.facts {q : Loc K} (h : q.Ok) :
    q.d.p ≤ q.d.span q.e ∧ q.d.span q.e + q.d.p + 2 ≤ q.d.knots.length ∧
      knotFn q.d.knots (q.d.span q.e) < knotFn q.d.knots (q.d.span q.e + 1) :=
  mem_spans h.span_mem

theorem Loc.Ok.in_span {q : Loc K} (h : q.Ok) :
    knotFn q.d.knots (q.d.span q.e) ≤ q.x ∧ q.x < knotFn q.d.knots (q.d.span q.e + 1) := by
  obtain ⟨-, -, h3⟩ := h.facts
  have h0 := h.lo
  have h1 := h.hi
  unfold Loc.x
  constructor
  · have := mul_nonneg h0 (sub_nonneg.2 h3.le); linarith
  · have := mul_lt_mul_of_pos_right h1 (sub_pos.2 h3); linarith

theorem forall₂_get {α β : Type*} {R : α → β → Prop} {l : List α} {l' : List β}
    (h : List.Forall₂ R l l') (e : ℕ) (he : e < l.length) (a : α) (b : β) : R (l.getD e a) (l'.getD e b) := by
  induction h generalizing e with
  | nil => simp at he
  | cons hr _ ih =>
    cases e with
    | zero => exact hr
    | succ e => simpa using ih e (by simpa using he)

/-- The evaluated 1D basis function `l` of the element is the global B-spline. -/
theorem Loc.Ok.basis_eq {q : Loc K} (h : q.Ok) (l : ℕ) (hl : l < q.d.p + 1) :
    q.basis.N l = q.bsp (q.d.glob q.e l) := by
  obtain ⟨h1, h2, h3⟩ := h.facts
  obtain ⟨i1, i2⟩ := h.in_span
  have F := forall₂_get (C76_bezier_extraction q.d.knots q.d.p h.clamped) q.e h.elem 0 eye
  have E := F q.x i1 i2 l (by omega)
  unfold Loc.bsp Dir.glob
  change bspline (knotFn q.d.knots) (q.d.span q.e - q.d.p + l) q.d.p q.x = _ at E
  rw [E]
  unfold Loc.basis evalBasis1d
  simp only
  apply Finset.sum_congr rfl
  intro k _
  have hne : knotFn q.d.knots (q.d.span q.e + 1) - knotFn q.d.knots (q.d.span q.e) ≠ 0 :=
    (sub_pos.2 h3).ne'
  have hξ : (q.x - knotFn q.d.knots (q.d.span q.e))
      / (knotFn q.d.knots (q.d.span q.e + 1) - knotFn q.d.knots (q.d.span q.e)) = q.ξ := by
    unfold Loc.x; field_simp; ring
  change q.op l k * _ = q.op l k * bern q.d.p k ((q.x - knotFn q.d.knots (q.d.span q.e))
    / (knotFn q.d.knots (q.d.span q.e + 1) - knotFn q.d.knots (q.d.span q.e)))
  rw [hξ, C76_bernstein_values q.ξ q.d.p k]
  try rfl

/-- The other B-splines vanish in the point. -/
theorem Loc.Ok.bsp_zero {q : Loc K} (h : q.Ok) (A : ℕ)
    (hA : A < q.d.span q.e - q.d.p ∨ q.d.span q.e < A) : q.bsp A = 0 := by
  obtain ⟨i1, i2⟩ := h.in_span
  obtain ⟨h1, -, -⟩ := h.facts
  have hm := knotFn_mono h.clamped.sorted
  unfold Loc.bsp
  apply bspline_support hm
  rcases hA with hA | hA
  · right; exact (hm (by omega)).trans i1
  · left; exact i2.trans_le (hm (by omega))

/-- The local functions cover everything that does not vanish. -/
theorem sum_local (qs : List (Loc K)) (h : ∀ q ∈ qs, q.Ok) (F : List ℕ → K) :
    ((tp (qs.map fun q => q.d.nFun)).map fun B => F B * prodAt (qs.map Loc.bsp) B).sum
      = ((tp (qs.map fun q => q.d.p + 1)).map fun l =>
          F (globIdx qs l) * prodAt (qs.map fun q => q.basis.N) l).sum := by
  induction qs generalizing F with
  | nil => simp [tp, prodAt, globIdx]
  | cons q qs ih =>
    have hq := h q (List.mem_cons_self ..)
    have ih' := ih fun q hq => h q (List.mem_cons_of_mem _ hq)
    obtain ⟨h1, h2, -⟩ := hq.facts
    simp only [List.map_cons]
    rw [sum_tp_cons, sum_tp_cons]
    simp only [prodAt]
    have e1 : ∀ i, ((tp (qs.map fun q => q.d.nFun)).map fun is =>
          F (i :: is) * (q.bsp i * prodAt (qs.map Loc.bsp) is)).sum
        = q.bsp i * ((tp (qs.map fun q => q.d.p + 1)).map fun l =>
          F (i :: globIdx qs l) * prodAt (qs.map fun q => q.basis.N) l).sum := by
      intro i
      rw [← ih' fun B => F (i :: B), ← List.sum_map_mul_left]
      congr 1
      refine List.map_congr_left fun B _ => ?_
      ring
    rw [Finset.sum_congr rfl fun i _ => e1 i]
    -- keep the window
    have hsub : Finset.Ico (q.d.span q.e - q.d.p) (q.d.span q.e + 1) ⊆ Finset.range q.d.nFun := by
      intro i hi
      rw [Finset.mem_Ico] at hi
      rw [Finset.mem_range]
      unfold Dir.nFun
      omega
    rw [← Finset.sum_subset hsub fun i _ hi => by
      rw [hq.bsp_zero i (by rw [Finset.mem_Ico] at hi; omega), zero_mul]]
    rw [Finset.sum_Ico_eq_sum_range, show q.d.span q.e + 1 - (q.d.span q.e - q.d.p) = q.d.p + 1 by omega]
    refine Finset.sum_congr rfl fun l hl => ?_
    have hl' := Finset.mem_range.1 hl
    rw [← List.sum_map_mul_left]
    congr 1
    refine List.map_congr_left fun ls _ => ?_
    rw [hq.basis_eq l hl']
    simp only [globIdx, Dir.glob]
    ring

theorem prodAt_local (qs : List (Loc K)) (h : ∀ q ∈ qs, q.Ok) (l : List ℕ)
    (hl : Valid (qs.map fun q => q.d.p + 1) l) :
    prodAt (qs.map fun q => q.basis.N) l = prodAt (qs.map Loc.bsp) (globIdx qs l) := by
  induction qs generalizing l with
  | nil => cases l <;> rfl
  | cons q qs ih =>
    cases l with
    | nil => simp [Valid] at hl
    | cons l ls =>
      simp only [List.map_cons, Valid, List.forall₂_cons] at hl
      simp only [List.map_cons, prodAt, globIdx]
      rw [(h q (List.mem_cons_self ..)).basis_eq l hl.1,
        ih (fun q hq => h q (List.mem_cons_of_mem _ hq)) ls hl.2]

theorem globIdx_eq (qs : List (Loc K)) (l : List ℕ) :
    List.zipWith (fun (g : ℕ → ℕ) i => g i)
      (List.zipWith Dir.glob (qs.map Loc.d) (qs.map Loc.e)) l = globIdx qs l := by
  induction qs generalizing l with
  | nil => cases l <;> rfl
  | cons q qs ih =>
    cases l with
    | nil => rfl
    | cons l ls => simp only [List.map_cons, List.zipWith_cons_cons, globIdx, ih]

/-- The row of the element in the connectivity of the patch (`conn[ie]`, sfepy/discrete/iga/iga.py:773). -/
def elemRow (qs : List (Loc K)) : List ℕ :=
  (createConn (qs.map fun q => q.d.nEl) (qs.map fun q => q.d.knots) (qs.map fun q => q.d.p)).getD
    (ravel (qs.map fun q => q.d.nEl) (qs.map Loc.e)) []

theorem elemRow_get (qs : List (Loc K)) (h : ∀ q ∈ qs, q.Ok) (l : List ℕ)
    (hl : Valid (qs.map fun q => q.d.p + 1) l) :
    (elemRow qs).getD (ravel (qs.map fun q => q.d.p + 1) l) 0
      = ravel (qs.map fun q => q.d.nFun) (globIdx qs l) := by
  have key := C77_connectivity_nd (qs.map Loc.d) (by
      intro d hd
      obtain ⟨q, hq, rfl⟩ := List.mem_map.1 hd
      exact (h q hq).clamped) (qs.map Loc.e) l
    (by
      rw [List.map_map]
      unfold Valid
      rw [List.forall₂_map_left_iff, List.forall₂_map_right_iff, List.forall₂_same]
      exact fun q hq => (h q hq).elem)
    (by rw [List.map_map]; exact hl)
  simp only [List.map_map, Function.comp_def, globIdx_eq] at key
  exact key

/-- **C77.** End to end, in any number of dimensions and for every clamped knot vectors, degrees,
weights, element and reference point: with the extraction operators and the connectivity computed from
the knots, the value that the evaluation gives for the local function `l` of the element is the value of
the global NURBS basis function with the index from the connectivity in the corresponding parametric
point, i.e. the weighted product of Cox – de Boor B-splines over the sum over all functions of the
patch. -/
theorem C77_element_basis_is_global (qs : List (Loc K)) (h : ∀ q ∈ qs, q.Ok) (weights : ℕ → K)
    (l : List ℕ) (hl : Valid (qs.map fun q => q.d.p + 1) l) :
    (evalR (qs.map Loc.basis) (fun a => weights ((elemRow qs).getD a 0))).getD
        (ravel (qs.map fun q => q.d.p + 1) l) 0
      = nurbs qs weights (globIdx qs l) := by
  have hsh : shape (qs.map Loc.basis) = qs.map fun q => q.d.p + 1 := by
    unfold shape; rw [List.map_map]; rfl
  have hN : (qs.map Loc.basis).map Basis1d.N = qs.map fun q => q.basis.N := by rw [List.map_map]; rfl
  have g := evalR_get (qs.map Loc.basis) (fun a => weights ((elemRow qs).getD a 0)) l
    (by rw [hsh]; exact hl)
  rw [hsh] at g
  rw [List.getD_eq_getElem?_getD, g, Option.getD_some]
  unfold nurbs denom
  rw [sum_local qs h, hsh, hN, elemRow_get qs h l hl, prodAt_local qs h l hl, mul_comm]
  congr 2
  refine List.map_congr_left fun m hm => ?_
  simp only
  rw [elemRow_get qs h m (mem_tp.1 hm), mul_comm]

/-- The global index is inside of the patch, and the functions that are not in the row of the element
vanish in the point. -/
theorem C77_other_functions_vanish (qs : List (Loc K)) (h : ∀ q ∈ qs, q.Ok) (weights : ℕ → K)
    (A : List ℕ) (hA : Valid (qs.map fun q => q.d.nFun) A)
    (hn : ∀ l, Valid (qs.map fun q => q.d.p + 1) l → globIdx qs l ≠ A) : nurbs qs weights A = 0 := by
  have key : prodAt (qs.map Loc.bsp) A = 0 := by
    induction qs generalizing A with
    | nil =>
      cases A with
      | nil => exact absurd rfl (hn [] List.Forall₂.nil)
      | cons a A => simp [Valid] at hA
    | cons q qs ih =>
      cases A with
      | nil => simp [Valid] at hA
      | cons a A =>
        simp only [List.map_cons, Valid, List.forall₂_cons] at hA
        simp only [List.map_cons, prodAt]
        have hq := h q (List.mem_cons_self ..)
        by_cases hz : a < q.d.span q.e - q.d.p ∨ q.d.span q.e < a
        · rw [hq.bsp_zero a hz, zero_mul]
        · rw [ih (fun q hq => h q (List.mem_cons_of_mem _ hq)) A hA.2, mul_zero]
          intro l hl e
          obtain ⟨h1, -, -⟩ := hq.facts
          apply hn ((a - (q.d.span q.e - q.d.p)) :: l)
          · simp only [List.map_cons, Valid, List.forall₂_cons]
            exact ⟨by omega, hl⟩
          · simp only [globIdx, e, Dir.glob]
            rw [show q.d.span q.e - q.d.p + (a - (q.d.span q.e - q.d.p)) = a by omega]
  unfold nurbs
  rw [key]; simp

end Iga
