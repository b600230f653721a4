import Verif.Ml.Tensor

/-! # Examples for C86 - C89: the hypotheses of the theorems are met, and what the findings mean -/

namespace Ml

/-! ### The concrete data: one linear triangle, one or two quadrature points -/

/-- The sizes of the axes of a built expression, as a computation. -/
def sizesOK {K : Type*} [Field K] (size : Char → ℕ) (env : Env K) (nAdd : ℕ) (b : B) : Bool :=
  (List.range nAdd).all fun (k : ℕ) => (List.range (b.names k).length).all fun (io : ℕ) =>
    match opShape env ((b.names k).getD io (.det 0)) with
    | none => true
    | some sh => decide (((b.subs k).getD io []).map size = sh)

theorem sizesOK_agree {K : Type*} [Field K] {size : Char → ℕ} {env : Env K} {nAdd : ℕ} {b : B}
    (h : sizesOK size env nAdd b = true) : SizesAgree size env nAdd b := by
  intro k hk io hio sh hsh
  unfold sizesOK at h
  rw [List.all_eq_true] at h
  have h1 := h k (List.mem_range.mpr hk)
  rw [List.all_eq_true] at h1
  have h2 := h1 io (List.mem_range.mpr hio)
  rw [hsh] at h2
  exact of_decide_eq_true h2

/-- The reference triangle with `n` quadrature points of the weights `1 / (2 n)`; the variables are linear with `d`
components, the gradients constant, the basis functions `1/3`, or `1/2, 1/4, 1/4` in the point 1. -/
def tri {K : Type*} [Field K] (n d : ℕ) : Env K where
  dim := 2
  nCell := 1
  nQp := n
  nn := fun _ => 3
  nc := fun _ => d
  det := fun _ _ _ => 1 / (2 * n)
  vol := fun _ _ => 1 / 2
  bf := fun _ _ q m => if q = 0 then 1 / 3 else if m = 0 then 1 / 2 else 1 / 4
  bfg := fun _ _ _ j m => if m = 0 then -1 else if m = j + 1 then 1 else 0
  dofs := fun a _ k m => ((a + 1 : ℕ) : K) + 2 * k + (m * m : ℕ)
  mat := fun _ _ q idx => 1 + q + (idx.getD 0 0 : ℕ) + 10 * (idx.getD 1 0 : ℕ)

/-- The sizes of the axes: 3 nodes, 2 components and coordinates, the symmetric storage of length 3. -/
def triSize (n : ℕ) (l : Char) : ℕ :=
  if l = 'c' then 1 else if l = 'q' then n else if l ∈ nodeLetters then 3 else if l ∈ ['I', 'K'] then 3 else 2

/-- `de_convect` with the test variable 0 and the velocity 1. -/
def exConvect : List Arg := convectArgs .virtual 0 1 2

/-- The subscripts of the residual: the basis of `v`, the identity, the gradient basis and DOFs, the basis and DOFs. -/
example : (build false 1 none .weak exConvect).map (fun b => (b.subs 0, b.out 0)) =
    some ([['c', 'q'], ['q', 'd'], ['i', 'r'], ['c', 'q', 'j', 'e'], ['c', 'i', 'e'], ['q', 'f'], ['c', 'j', 'f']],
      ['c', 'r', 'd']) := by
  decide

/-- The two expressions of the matrix. -/
example : (build false (nAddOf (some 1) exConvect) (some 1) .weak exConvect).map
      (fun b => (nAddOf (some 1) exConvect, b.names 0, b.out 0, b.names 1, b.out 1)) =
    some (2, [.det 0, .bf 0 false, .eye 0, .bfg 1, .eye 1, .bf 1 false, .dofs 1], ['c', 'r', 'd', 's', 'e'],
      [.det 0, .bf 0 false, .eye 0, .bfg 1, .dofs 1, .bf 1 false, .eye 1], ['c', 'r', 'd', 't', 'f']) := by
  decide

/-- The built expression (the empty one on failure). -/
def blt (nAdd : ℕ) (diff : Option ℕ) (mode : Mode) (args : List Arg) : B :=
  (build false nAdd diff mode args).getD B.init

/-! ### C86 -/

/-- The hypotheses of `C86_residual` hold for the convective term, and the values are not trivial. -/
example : build false 1 none .weak exConvect = some (blt 1 none .weak exConvect) ∧ WF 2 exConvect ∧
    SizesAgree (triSize 2) (tri (K := ℚ) 2 2) 1 (blt 1 none .weak exConvect) ∧
    evalTerm (triSize 2) (tri (K := ℚ) 2 2) 1 (blt 1 none .weak exConvect) [0, 1, 2] = 2137 / 576 :=
  ⟨rfl, convect_wf 2 .virtual 0 1 2 (by decide) (by decide), sizesOK_agree (by decide +kernel), by decide +kernel⟩

theorem exConvect_good : Good 2 (some 1) (nAddOf (some 1) exConvect) exConvect where
  wf := convect_wf 2 .virtual 0 1 2 (by decide) (by decide)
  matFirst := .inr (by decide)
  count := rfl
  plain := .inr (by decide)

/-- The hypotheses of `C86_tangent` hold with two occurrences of the velocity. -/
example : build false 2 (some 1) .weak exConvect = some (blt 2 (some 1) .weak exConvect) ∧
    Good 2 (some 1) (nAddOf (some 1) exConvect) exConvect ∧
    SizesAgree (triSize 2) (tri (K := ℚ) 2 2) 2 (blt 2 (some 1) .weak exConvect) ∧
    occurrences 1 exConvect = [1, 2] ∧
    evalTerm (triSize 2) (tri (K := ℚ) 2 2) 2 (blt 2 (some 1) .weak exConvect) [0, 1, 2, 1, 1] = 131 / 192 :=
  ⟨rfl, exConvect_good, sizesOK_agree (by decide +kernel), by decide, by decide +kernel⟩

/-- The element average is the integral over the volume; the values in the points. -/
example : evalTerm (triSize 2) (tri (K := ℚ) 2 2) 1 (blt 1 none .weak (divMArgs .state 5 1 2)) [0] = 15 / 4 ∧
    evalTerm (triSize 2) (tri (K := ℚ) 2 2) 1 (blt 1 none .elAvg (divMArgs .state 5 1 2)) [0] = 15 / 2 ∧
    evalTerm (triSize 2) (tri (K := ℚ) 2 2) 1 (blt 1 none .qp (divMArgs .state 5 1 2)) [0, 0] = 5 ∧
    evalTerm (triSize 2) (tri (K := ℚ) 2 2) 1 (blt 1 none .qp (divMArgs .state 5 1 2)) [0, 1] = 10 := by
  decide +kernel

/-- The finding: with one argument the letter `q` occurs once and becomes a free letter, in the `qp` mode it is then in
the output twice (an error of the library). -/
example : (blt 1 none .qp (divArgs .state 1 2)).out 0 = ['c', 'q', 'q'] := by decide

/-- The finding: in the element average mode with a virtual variable the volume is not used. -/
example : (blt 1 none .elAvg (divMArgs .virtual 5 1 2)).names 0 = (blt 1 none .weak (divMArgs .virtual 5 1 2)).names 0 := by
  decide

/-- A variable differentiated twice inside of modifiers. -/
def exModTwice : List Arg := [modArg .state 1 2 ['I', ':', 'j'] .s, modArg .state 1 2 ['I', ':', 'l'] .s]

/-- The finding: the other copy has the plain DOFs, with the letter of the symmetric storage, and no symmetrization;
the subscripts of the expressions have an additional free axis (and the axis `I` has the sizes 3 and 2: an error). -/
example : (blt 2 (some 1) .weak exModTwice).names 0 = [.det 1, .bfg 1, .psg 1, .bfg 1, .dofs 1] ∧
    (blt 2 (some 1) .weak exModTwice).out 0 = ['c', 'r', 'd', 'l'] ∧
    ¬ (Good 2 (some 1) 2 exModTwice) ∧
    sizesOK (triSize 2) (tri (K := ℚ) 2 2) 2 (blt 2 (some 1) .weak exModTwice) = false :=
  ⟨by decide, by decide, fun h => by simpa [exModTwice, modArg] using h.plain, by decide +kernel⟩

/-- A material with a fixed component after a variable occurring twice. -/
def exMatLate : List Arg := [vArg .state 1 2 ['i'], vArg .state 1 2 ['j'], mArg 5 ['i', 'j', '1']]

/-- The finding: the list of the components is longer than the list of the operands and the components of the material
are not at its position: the operand number 5 is the material, the components are at the position 7. -/
example : ((blt 2 (some 1) .weak exMatLate).names 0)[5]? = some (.mat 5) ∧
    ((blt 2 (some 1) .weak exMatLate).comps 0)[5]? = some [] ∧
    ((blt 2 (some 1) .weak exMatLate).comps 0)[7]? = some [none, none, some 1] := by
  decide

/-! ### C87 -/

/-- The hypotheses of `C87_derivative` hold for the convective term. -/
example : HasDerivAt
    (fun t => evalTerm (triSize 2) (moved (tri (K := ℝ) 2 2) 1 (fun _ k _ => if k < 2 then 1 else 0) t) 1
      (blt 1 none .weak exConvect) [0, 1, 2])
    (∑ j ∈ Finset.range 2, ∑ m ∈ Finset.range 3,
      evalTerm (triSize 2) (tri (K := ℝ) 2 2) 2 (blt 2 (some 1) .weak exConvect) [0, 1, 2, j, m] *
        (if j < 2 then 1 else 0)) 0 := by
  have h := C87_derivative (fe := false) (mode := .weak) (args := exConvect) (b₀ := blt 1 none .weak exConvect)
    (b₁ := blt 2 (some 1) .weak exConvect) (env := tri (K := ℝ) 2 2) (size := triSize 2) (d := 1) (ncd := 2) rfl rfl
    exConvect_good (sizesOK_agree (by decide)) (sizesOK_agree (by decide)) (by simp) 0 0 1 2 []
    (by decide) (by decide) (by decide) (by decide) (fun _ k _ => if k < 2 then 1 else 0)
    (fun k n hk => if_neg (by omega))
  exact h

/-! ### C88 -/

/-- A permutation of the layout letters. -/
def exLayout : List Char := ['d', 'q', 'g', 'v', 'c', '0']

example : exLayout.Perm layoutLetters := by decide

example : MatAxes exConvect ∧ MatAxes exMatLate := by
  constructor <;> intro a ha <;> revert a <;> decide

/-- The operands are really transposed, and the loops really run. -/
example : (applyLayout exLayout (named (tri (K := ℚ) 2 2) (blt 1 none .weak exConvect) 0)).map
      (fun ops => ops.map Operand.sub) =
    some [['q', 'c'], ['d', 'q'], ['i', 'r'], ['e', 'q', 'j', 'c'], ['e', 'i', 'c'], ['f', 'q'], ['f', 'j', 'c']] := by
  decide

example : evalLayout exLayout (triSize 2) (tri (K := ℚ) 2 2) 1 (blt 1 none .weak exConvect) [0, 1, 2] =
      some (2137 / 576) ∧
    evalLoopC exLayout (triSize 2) (tri (K := ℚ) 2 2) 1 (blt 1 none .weak exConvect) 0 [1, 2] = some (2137 / 576) ∧
    evalLoopQ exLayout (triSize 2) (tri (K := ℚ) 2 2) 1 (blt 1 none .weak exConvect) [0, 1, 2] =
      some (2137 / 576) := by
  decide +kernel

/-- The finding: in the element average mode a layout not beginning with `cq` gives an error: the inverse volumes are
taken for a material with `1 - 2` axes. -/
example : evalLayout ['q', 'c', 'g', 'v', 'd', '0'] (triSize 2) (tri (K := ℚ) 2 2) 1
      (blt 1 none .elAvg (divMArgs .state 5 1 2)) [0] = none ∧
    evalLayout layoutLetters (triSize 2) (tri (K := ℚ) 2 2) 1
      (blt 1 none .elAvg (divMArgs .state 5 1 2)) [0] = some (15 / 2) := by
  decide +kernel

/-- The finding: the loop over the points in the `qp` mode gives the sum over the points. -/
example : evalLoopQ layoutLetters (triSize 2) (tri (K := ℚ) 2 2) 1 (blt 1 none .qp (divMArgs .state 5 1 2)) [0] =
    some 15 := by
  decide +kernel

/-! ### C89 -/

/-- The elastic term, in the symmetric storage. -/
example : build false 1 none .weak (elasticArgs .virtual 5 0 1 2) = some (blt 1 none .weak (elasticArgs .virtual 5 0 1 2)) ∧
    SizesAgree (triSize 2) (tri (K := ℚ) 2 2) 1 (blt 1 none .weak (elasticArgs .virtual 5 0 1 2)) ∧
    evalTerm (triSize 2) (tri (K := ℚ) 2 2) 1 (blt 1 none .weak (elasticArgs .virtual 5 0 1 2)) [0, 1, 2] = 165 / 2 :=
  ⟨rfl, sizesOK_agree (by decide +kernel), by decide +kernel⟩

end Ml
