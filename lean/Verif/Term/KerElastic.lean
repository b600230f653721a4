/-
A model of the kernels of elasticity terms: sfepy/terms/extmods/form_sdcc.c, terms_elastic.c and the Python parts of
sfepy/terms/terms_elastic.py.

In the gradient arrays (`dq_grad`) the rows are the directions, the columns the components. A symmetric tensor is
stored as a column. `none` is the error of a `switch`.
-/
import Verif.Term.KerScalar

namespace Verif.Term

open Finset

variable {K : Type} [Field K]

/-! ### sfepy/terms/extmods/form_sdcc.c -/

/-- `form_sdcc_strainCauchy_VS` (sfepy/terms/extmods/form_sdcc.c:14-65). -/
def strainVS (dim : ℕ) (dg : Lev K) : Option (Lev K) :=
  match dim with
  | 1 => some fun l _ _ => dg l 0 0
  | 2 => some fun l r _ => match r with
    | 0 => dg l 0 0
    | 1 => dg l 1 1
    | _ => dg l 0 1 + dg l 1 0
  | 3 => some fun l r _ => match r with
    | 0 => dg l 0 0
    | 1 => dg l 1 1
    | 2 => dg l 2 2
    | 3 => dg l 0 1 + dg l 1 0
    | 4 => dg l 0 2 + dg l 2 0
    | _ => dg l 1 2 + dg l 2 1
  | _ => none

/-- `form_sdcc_actOpGT_VS3` (sfepy/terms/extmods/form_sdcc.c:81-148). -/
def actOpGTVS3 (dim nEP : ℕ) (gc vec : Lev K) : Option (Lev K) :=
  match dim with
  | 3 => some fun l r _ =>
    let iep := r % nEP
    match r / nEP with
    | 0 => gc l 0 iep * vec l 0 0 + gc l 1 iep * vec l 3 0 + gc l 2 iep * vec l 4 0
    | 1 => gc l 0 iep * vec l 3 0 + gc l 1 iep * vec l 1 0 + gc l 2 iep * vec l 5 0
    | _ => gc l 0 iep * vec l 4 0 + gc l 1 iep * vec l 5 0 + gc l 2 iep * vec l 2 0
  | 2 => some fun l r _ =>
    let iep := r % nEP
    match r / nEP with
    | 0 => gc l 0 iep * vec l 0 0 + gc l 1 iep * vec l 2 0
    | _ => gc l 0 iep * vec l 2 0 + gc l 1 iep * vec l 1 0
  | 1 => some fun l r _ => gc l 0 (r % nEP) * vec l 0 0
  | _ => none

/-- `form_sdcc_actOpGT_M3` (sfepy/terms/extmods/form_sdcc.c:163-239). -/
def actOpGTM3 (dim nEP : ℕ) (gc mtx : Lev K) : Option (Lev K) :=
  match dim with
  | 3 => some fun l r ii =>
    let iep := r % nEP
    match r / nEP with
    | 0 => gc l 0 iep * mtx l 0 ii + gc l 1 iep * mtx l 3 ii + gc l 2 iep * mtx l 4 ii
    | 1 => gc l 0 iep * mtx l 3 ii + gc l 1 iep * mtx l 1 ii + gc l 2 iep * mtx l 5 ii
    | _ => gc l 0 iep * mtx l 4 ii + gc l 1 iep * mtx l 5 ii + gc l 2 iep * mtx l 2 ii
  | 2 => some fun l r ii =>
    let iep := r % nEP
    match r / nEP with
    | 0 => gc l 0 iep * mtx l 0 ii + gc l 1 iep * mtx l 2 ii
    | _ => gc l 0 iep * mtx l 2 ii + gc l 1 iep * mtx l 1 ii
  | 1 => some fun l r ii => gc l 0 (r % nEP) * mtx l 0 ii
  | _ => none

/-- `form_sdcc_actOpG_RM3` (sfepy/terms/extmods/form_sdcc.c:254-330). -/
def actOpGRM3 (dim nEP : ℕ) (mtx gc : Lev K) : Option (Lev K) :=
  match dim with
  | 3 => some fun l ii s =>
    let iep := s % nEP
    match s / nEP with
    | 0 => gc l 0 iep * mtx l ii 0 + gc l 1 iep * mtx l ii 3 + gc l 2 iep * mtx l ii 4
    | 1 => gc l 0 iep * mtx l ii 3 + gc l 1 iep * mtx l ii 1 + gc l 2 iep * mtx l ii 5
    | _ => gc l 0 iep * mtx l ii 4 + gc l 1 iep * mtx l ii 5 + gc l 2 iep * mtx l ii 2
  | 2 => some fun l ii s =>
    let iep := s % nEP
    match s / nEP with
    | 0 => gc l 0 iep * mtx l ii 0 + gc l 1 iep * mtx l ii 2
    | _ => gc l 0 iep * mtx l ii 2 + gc l 1 iep * mtx l ii 1
  | 1 => some fun l ii s => gc l 0 (s % nEP) * mtx l ii 0
  | _ => none

/-- `build_nonsym_grad` (sfepy/terms/extmods/form_sdcc.c:334-408): the pointers `pout1`, `pout2`, `pout3` start at the
row 0 and column 0, the row `dim` and column `nEP`, the row `2 * dim` and column `2 * nEP`; they go over `dim` rows. -/
def nonsymGradOp (dim nEP : ℕ) (gc : Lev K) : Option (Lev K) :=
  match dim with
  | 1 => some fun l r s => if r < 1 ∧ s < nEP then gc l r s else 0
  | 2 => some fun l r s =>
    if r < 2 ∧ s < nEP then gc l r s
    else if (2 ≤ r ∧ r < 4) ∧ (nEP ≤ s ∧ s < 2 * nEP) then gc l (r - 2) (s - nEP)
    else 0
  | 3 => some fun l r s =>
    if r < 3 ∧ s < nEP then gc l r s
    else if (3 ≤ r ∧ r < 6) ∧ (nEP ≤ s ∧ s < 2 * nEP) then gc l (r - 3) (s - nEP)
    else if (6 ≤ r ∧ r < 9) ∧ (2 * nEP ≤ s ∧ s < 3 * nEP) then gc l (r - 6) (s - 2 * nEP)
    else 0
  | _ => none

/-! ### sfepy/terms/extmods/terms_elastic.c -/

/-- The number of components of a symmetric tensor, `(dim + 1) * dim / 2` (sfepy/terms/extmods/terms_elastic.c:119). -/
def symOf (dim : ℕ) : ℕ := (dim + 1) * dim / 2

/-- `mat_le_stress` (sfepy/terms/extmods/terms_elastic.c:17-99) in a quadrature point; nothing is written for other
sizes than 6 and 3. -/
def matLeStress (sym : ℕ) (strain : ℕ → K) (lam mu : K) : Option (ℕ → K) :=
  let l2m := 2 * mu + lam
  if sym = 6 then some fun r => match r with
    | 0 => l2m * strain 0 + lam * (strain 1 + strain 2)
    | 1 => l2m * strain 1 + lam * (strain 0 + strain 2)
    | 2 => l2m * strain 2 + lam * (strain 0 + strain 1)
    | 3 => mu * strain 3
    | 4 => mu * strain 4
    | _ => mu * strain 5
  else if sym = 3 then some fun r => match r with
    | 0 => l2m * strain 0 + lam * strain 1
    | 1 => l2m * strain 1 + lam * strain 0
    | _ => mu * strain 2
  else none

/-- `dw_lin_elastic` (sfepy/terms/extmods/terms_elastic.c:108-170). -/
def dwLinElastic (vg : Mapping K) (coef : K) (strain : ℕ → Lev K) (mtxD : Fld K) (isDiff : Bool) (c : ℕ) :
    Option (ℕ → ℕ → K) :=
  if isDiff then do
    let gtd ← actOpGTM3 vg.dim vg.nEP (vg.bfGM c) (mtxD.x1 c)
    let gtdg ← actOpGRM3 vg.dim vg.nEP gtd (vg.bfGM c)
    some (mulC (sumLev vg.nQP gtdg (ptr (vg.det c))) coef)
  else do
    let stress := mulAB (symOf vg.dim) (mtxD.x1 c) (strain c)
    let res ← actOpGTVS3 vg.dim vg.nEP (vg.bfGM c) stress
    some (mulC (sumLev vg.nQP res (ptr (vg.det c))) coef)

/-- `d_lin_elastic` (sfepy/terms/extmods/terms_elastic.c:178-212). -/
def dLinElastic (vg : Mapping K) (coef : K) (strainV strainU : ℕ → Lev K) (mtxD : Fld K) (c : ℕ) : ℕ → ℕ → K :=
  let std := mulATB mtxD.nRow (strainV c) (mtxD.x1 c)
  let stds := mulAB mtxD.nRow std (strainU c)
  mulC (sumLev vg.nQP stds (ptr (vg.det c))) coef

/-- The tables `dtab_2d`, `dtab_3d` (sfepy/terms/extmods/terms_elastic.c:224). -/
def dtab (dim : ℕ) : List ℕ := if dim = 2 then [0, 2, 2, 1] else [0, 3, 4, 3, 1, 5, 4, 5, 2]

/-- The full matrix `mtxDf` before the last loop of `d_sd_lin_elastic`
(sfepy/terms/extmods/terms_elastic.c:257-262, 278-288), for 2 and 3 dimensions. -/
def sdFull (dim : ℕ) (mtxD : Lev K) : Lev K := fun q j i => mtxD q ((dtab dim)[j]?.getD 0) ((dtab dim)[i]?.getD 0)

/-- `dgw` (sfepy/terms/extmods/terms_elastic.c:263-266, 289-297; the assignments are listed by the index here): `pw2[dim * l + k]` is the sum over `m` of
`pDf[dim * k + m] * pw[dim * m + l]`, for 2 and 3 dimensions. -/
def sdGw (dim : ℕ) (df gw : Lev K) : Lev K := fun q j i =>
  let row2 : ℕ → K := fun i => match i with
    | 0 => df q j 0 * gw q 0 0 + df q j 1 * gw q 1 0
    | 1 => df q j 2 * gw q 0 0 + df q j 3 * gw q 1 0
    | 2 => df q j 0 * gw q 0 1 + df q j 1 * gw q 1 1
    | _ => df q j 2 * gw q 0 1 + df q j 3 * gw q 1 1
  let row3 : ℕ → K := fun i => match i with
    | 0 => df q j 0 * gw q 0 0 + df q j 1 * gw q 1 0 + df q j 2 * gw q 2 0
    | 1 => df q j 3 * gw q 0 0 + df q j 4 * gw q 1 0 + df q j 5 * gw q 2 0
    | 2 => df q j 6 * gw q 0 0 + df q j 7 * gw q 1 0 + df q j 8 * gw q 2 0
    | 3 => df q j 0 * gw q 0 1 + df q j 1 * gw q 1 1 + df q j 2 * gw q 2 1
    | 4 => df q j 3 * gw q 0 1 + df q j 4 * gw q 1 1 + df q j 5 * gw q 2 1
    | 5 => df q j 6 * gw q 0 1 + df q j 7 * gw q 1 1 + df q j 8 * gw q 2 1
    | 6 => df q j 0 * gw q 0 2 + df q j 1 * gw q 1 2 + df q j 2 * gw q 2 2
    | 7 => df q j 3 * gw q 0 2 + df q j 4 * gw q 1 2 + df q j 5 * gw q 2 2
    | _ => df q j 6 * gw q 0 2 + df q j 7 * gw q 1 2 + df q j 8 * gw q 2 2
  if dim = 2 then row2 i else row3 i

/-- `divw` (sfepy/terms/extmods/terms_elastic.c:256, 277). -/
def sdDiv (dim : ℕ) (gw : Lev K) (q : ℕ) : K :=
  if dim = 2 then gw q 0 0 + gw q 1 1 else gw q 0 0 + gw q 1 1 + gw q 2 2

/-- `d_sd_lin_elastic` (sfepy/terms/extmods/terms_elastic.c:216-336), for 2 and 3 dimensions. -/
def dSdLinElastic (vg : Mapping K) (coef : K) (gradV gradU gradW : ℕ → Lev K) (mtxD : Fld K) (c : ℕ) : ℕ → ℕ → K :=
  let dim2 := vg.dim * vg.dim
  let gradv := pretend vg.dim 1 (gradV c)
  let gradu := pretend vg.dim 1 (gradU c)
  let df := sdFull vg.dim (mtxD.x1 c)
  let dgw := sdGw vg.dim df (gradW c)
  let df : Lev K := fun q i j => df q i j * sdDiv vg.dim (gradW c) q - dgw q i j - dgw q j i
  let std := mulATB dim2 gradv df
  let stds := mulAB dim2 std gradu
  mulC (sumLev vg.nQP stds (ptr (vg.det c))) coef

/-- `dw_lin_prestress` (sfepy/terms/extmods/terms_elastic.c:340-375). -/
def dwLinPrestress (vg : Mapping K) (stress : Fld K) (c : ℕ) : Option (ℕ → ℕ → K) :=
  if stress.nRow = vg.dim * vg.dim ∧ vg.dim ≠ 1 then do
    let ng ← nonsymGradOp vg.dim vg.nEP (vg.bfGM c)
    some (sumLev vg.nQP (mulATB (vg.dim * vg.dim) ng (stress.x1 c)) (ptr (vg.det c)))
  else do
    let res ← actOpGTVS3 vg.dim vg.nEP (vg.bfGM c) (stress.x1 c)
    some (sumLev vg.nQP res (ptr (vg.det c)))

/-- `dw_lin_strain_fib` (sfepy/terms/extmods/terms_elastic.c:379-411). -/
def dwLinStrainFib (vg : Mapping K) (mtxD mat : Fld K) (c : ℕ) : Option (ℕ → ℕ → K) := do
  let aux1 ← actOpGTM3 vg.dim vg.nEP (vg.bfGM c) (mtxD.x1 c)
  let aux2 := mulAB (symOf vg.dim) aux1 (mat.x1 c)
  some (sumLev vg.nQP aux2 (ptr (vg.det c)))

/-- `de_cauchy_strain` (sfepy/terms/extmods/terms_elastic.c:419-439). -/
def deCauchyStrain (vg : Mapping K) (strain : ℕ → Lev K) (mode c : ℕ) : ℕ → ℕ → K :=
  let out := sumLev vg.nQP (strain c) (ptr (vg.det c))
  if mode = 1 then mulC out (1 / vg.volume c 0 0 0) else out

/-- `de_cauchy_stress` (sfepy/terms/extmods/terms_elastic.c:447-479). -/
def deCauchyStress (vg : Mapping K) (strain : ℕ → Lev K) (mtxD : Fld K) (mode c : ℕ) : ℕ → ℕ → K :=
  let stress := mulAB (symOf vg.dim) (mtxD.x1 c) (strain c)
  let out := sumLev vg.nQP stress (ptr (vg.det c))
  if mode = 1 then mulC out (1 / vg.volume c 0 0 0) else out

/-- `dq_cauchy_strain` (sfepy/terms/extmods/terms_elastic.c:487-519). -/
def dqCauchyStrain (vg : Mapping K) (state : ℕ → K) (conn : ℕ → ℕ → ℕ) (c : ℕ) : Option (Lev K) :=
  let st := extractNBN vg.dim state (conn c)
  let disG := mulABn1 vg.nEP (vg.bfGM c) st
  strainVS vg.dim disG

/-- `dw_nonsym_elastic` (sfepy/terms/extmods/terms_elastic.c:523-583). -/
def dwNonsymElastic (vg : Mapping K) (grad : ℕ → Lev K) (mtxD : Fld K) (isDiff : Bool) (c : ℕ) :
    Option (ℕ → ℕ → K) := do
  let d2 := vg.dim * vg.dim
  let ng ← nonsymGradOp vg.dim vg.nEP (vg.bfGM c)
  if isDiff then
    let gtd := mulATB d2 ng (mtxD.x1 c)
    let gtdg := mulAB d2 gtd ng
    some (sumLev vg.nQP gtdg (ptr (vg.det c)))
  else
    let stress := mulAB d2 (mtxD.x1 c) (grad c)
    let res := mulATB d2 ng stress
    some (sumLev vg.nQP res (ptr (vg.det c)))

/-! ### sfepy/terms/terms_elastic.py -/

/-- The gradients transposed and reshaped to a column (sfepy/terms/terms_elastic.py:629-631, 316-318). -/
def gradColumn (dim : ℕ) (grad : ℕ → Lev K) : ℕ → Lev K := fun c q r _ => grad c q (r % dim) (r / dim)

/-- `LinearPrestressTerm.get_fargs`: the matrix reshaped to a column (sfepy/terms/terms_elastic.py:305-309). -/
def stressColumn (dim : ℕ) (f : Fld K) : Fld K :=
  if f.nRow = f.nCol ∧ f.nCol = dim ∧ dim ≠ 1 then ⟨f.nCell, dim * dim, 1, fun c q r _ => f.val c q (r / dim) (r % dim)⟩
  else f

/-- `LinearPrestressTerm.d_lin_prestress` (sfepy/terms/terms_elastic.py:334-343) with the integration (mode 0). -/
def dLinPrestress (vg : Mapping K) (strain : ℕ → Lev K) (mat : Fld K) (c : ℕ) : ℕ → ℕ → K :=
  sumLev vg.nQP (mulATB mat.nRow (mat.x1 c) (strain c)) (ptr (vg.det c))

/-- `iter_sym(dim)` (sfepy/homogenization/utils.py:40-45): the pairs of indices in the order of the symmetric
storage. -/
def iterSym (dim : ℕ) : List (ℕ × ℕ) :=
  (List.range dim).map (fun (ii : ℕ) => (ii, ii)) ++
    (List.range dim).flatMap fun (ir : ℕ) => (List.range (dim - (ir + 1))).map fun (k : ℕ) => (ir, ir + 1 + k)

/-- `LinearStrainFiberTerm.get_fargs`: `omega` (sfepy/terms/terms_elastic.py:378-380); both materials have the same
number of cells. -/
def fibOmega (mat2 : Fld K) : Fld K :=
  ⟨mat2.nCell, (iterSym mat2.nRow).length, 1, fun c q r _ =>
    match (iterSym mat2.nRow)[r]? with
    | some (ir, ic) => mat2.val c q ir 0 * mat2.val c q ic 0
    | none => 0⟩

/-- `_build_wave_strain_op` (sfepy/terms/terms_elastic.py:667-686) of `expand_basis(bf, dim)`
(sfepy/discrete/variables.py:156-168): the matrix `nmat` times the basis of a vector field. -/
def waveStrainOp (dim nEP : ℕ) (n : ℕ → K) (bf : Lev K) : Lev K :=
  let nmat : ℕ → ℕ → K :=
    if dim = 2 then fun r k => match r, k with
      | 0, 0 => n 0
      | 1, 1 => n 1
      | 2, 0 => n 1
      | 2, 1 => n 0
      | _, _ => 0
    else fun r k => match r, k with
      | 0, 0 => n 0
      | 1, 1 => n 1
      | 2, 2 => n 2
      | 3, 0 => n 1
      | 3, 1 => n 0
      | 4, 0 => n 2
      | 4, 2 => n 0
      | 5, 1 => n 2
      | 5, 2 => n 1
      | _, _ => 0
  let ebf : Lev K := fun q k s => if s / nEP = k then bf q 0 (s % nEP) else 0
  fun q r s => ∑ k ∈ range dim, nmat r k * ebf q k s

/-- `_build_cauchy_strain_op` (sfepy/terms/terms_elastic.py:690-709): blocks of rows of gradients. -/
def cauchyStrainOp (dim nEP : ℕ) (g : Lev K) : Lev K := fun q r s =>
  let k := s % nEP
  if dim = 2 then match r, s / nEP with
    | 0, 0 => g q 0 k
    | 1, 1 => g q 1 k
    | 2, 0 => g q 1 k
    | 2, 1 => g q 0 k
    | _, _ => 0
  else match r, s / nEP with
    | 0, 0 => g q 0 k
    | 1, 1 => g q 1 k
    | 2, 2 => g q 2 k
    | 3, 0 => g q 1 k
    | 3, 1 => g q 0 k
    | 4, 0 => g q 2 k
    | 4, 2 => g q 0 k
    | 5, 1 => g q 2 k
    | 5, 2 => g q 1 k
    | _, _ => 0

/-- `ElasticWaveTerm` (sfepy/terms/terms_elastic.py:736-769) and `ElasticWaveCauchyTerm`
(sfepy/terms/terms_elastic.py:806-854): `A^T D B` integrated, `A` and `B` being operators on the degrees of freedom;
for the residual `B` is applied to the values first. The degrees of freedom of a cell are ordered by components
(`create_adof_conn`, C05). -/
def dwWave (geo : Mapping K) (mat : Fld K) (a b : ℕ → Lev K) (vals : Option (ℕ → K)) (c : ℕ) : ℕ → ℕ → K :=
  let n := geo.dim * geo.nEP
  let sym := symOf geo.dim
  match vals with
  | some u =>
    let aux : Lev K := fun q r _ => ∑ s ∈ range n, b c q r s * u s
    sumLev geo.nQP (mulATB sym (a c) (mulAB sym (mat.x1 c) aux)) (ptr (geo.det c))
  | none => sumLev geo.nQP (mulATB sym (a c) (mulAB sym (mat.x1 c) (b c))) (ptr (geo.det c))

end Verif.Term
