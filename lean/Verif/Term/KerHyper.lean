/-
A model of the kernels of hyperelastic terms: sfepy/terms/extmods/terms_hyperelastic.c, the operations with small
tensors in sfepy/discrete/common/extmods/geommech.c, and the Python parts in sfepy/terms/terms_hyperelastic_base.py,
terms_hyperelastic_tl.py and terms_hyperelastic_ul.py.

A small matrix of a quadrature point is a function of the row and the column: `j[dim * r + c]` is `j r c`. Numbers are
real: `exp` and `log` are the functions of real numbers, rounding is not modelled. `none` is the error of a `switch` or
an exception. The number of components of a symmetric tensor is always the one of the dimension, so the functions that
get it back (`sym2dim`, `get_trace`) take the dimension.
-/
import Verif.Term.KerElastic
import Mathlib.Analysis.SpecialFunctions.Log.Basic
import Mathlib.Analysis.SpecialFunctions.Pow.Real

namespace Verif.Term

open Finset

/-! ### sfepy/discrete/common/extmods/geommech.c -/

/-- `eps` of `geme_invert3x3` (sfepy/discrete/common/extmods/geommech.c:18). -/
noncomputable def gemeEps : ℝ := 1e-55

/-- `if (fabs(idet) < eps) det = 0.0; else det = 1.0 / idet;`
(sfepy/discrete/common/extmods/geommech.c:29-33, 38-42, 59-63). -/
noncomputable def gemeRecip (idet : ℝ) : ℝ := if |idet| < gemeEps then 0 else 1 / idet

/-- `geme_invert3x3` (sfepy/discrete/common/extmods/geommech.c:14-74) in one level. -/
noncomputable def gemeInvert (dim : ℕ) (j : ℕ → ℕ → ℝ) : Option (ℕ → ℕ → ℝ) :=
  match dim with
  | 1 => some fun _ _ => 1 * gemeRecip (j 0 0)
  | 2 =>
    let det := gemeRecip (j 0 0 * j 1 1 - j 0 1 * j 1 0)
    some fun r c => match r, c with
      | 0, 0 => j 1 1 * det
      | 0, _ => -j 0 1 * det
      | _, 0 => -j 1 0 * det
      | _, _ => j 0 0 * det
  | 3 =>
    let jI : ℕ → ℕ → ℝ := fun r c => match r, c with
      | 0, 0 => j 1 1 * j 2 2 - j 2 1 * j 1 2
      | 0, 1 => -(j 0 1 * j 2 2 - j 0 2 * j 2 1)
      | 0, _ => j 0 1 * j 1 2 - j 0 2 * j 1 1
      | 1, 0 => -(j 1 0 * j 2 2 - j 1 2 * j 2 0)
      | 1, 1 => j 0 0 * j 2 2 - j 0 2 * j 2 0
      | 1, _ => -(j 0 0 * j 1 2 - j 0 2 * j 1 0)
      | _, 0 => j 1 0 * j 2 1 - j 1 1 * j 2 0
      | _, 1 => -(j 0 0 * j 2 1 - j 0 1 * j 2 0)
      | _, _ => j 0 0 * j 1 1 - j 0 1 * j 1 0
    let det := gemeRecip (j 0 0 * jI 0 0 + j 0 1 * jI 1 0 + j 0 2 * jI 2 0)
    some fun r c => jI r c * det
  | _ => none

/-- `geme_tensor2vectorS3` (sfepy/discrete/common/extmods/geommech.c:142-176) in one level. -/
def tensor2vec (dim : ℕ) (m : ℕ → ℕ → ℝ) : Option (ℕ → ℝ) :=
  match dim with
  | 1 => some fun _ => m 0 0
  | 2 => some fun r => match r with
    | 0 => m 0 0
    | 1 => m 1 1
    | _ => m 0 1
  | 3 => some fun r => match r with
    | 0 => m 0 0
    | 1 => m 1 1
    | 2 => m 2 2
    | 3 => m 0 1
    | 4 => m 0 2
    | _ => m 1 2
  | _ => none

/-- `geme_det3x3` (sfepy/discrete/common/extmods/geommech.c:183-209) in one level. -/
def gemeDet (dim : ℕ) (j : ℕ → ℕ → ℝ) : Option ℝ :=
  match dim with
  | 1 => some (j 0 0)
  | 2 => some (j 0 0 * j 1 1 - j 0 1 * j 1 0)
  | 3 => some (j 0 0 * j 1 1 * j 2 2 + j 1 0 * j 2 1 * j 0 2 + j 0 1 * j 1 2 * j 2 0
      - j 0 2 * j 1 1 * j 2 0 - j 1 2 * j 2 1 * j 0 0 - j 0 1 * j 1 0 * j 2 2)
  | _ => none

/-- `geme_invar1` (sfepy/discrete/common/extmods/geommech.c:243-265) in one level. -/
def gemeInvar1 (dim : ℕ) (j : ℕ → ℕ → ℝ) : Option ℝ :=
  match dim with
  | 1 => some (j 0 0)
  | 2 => some (1 + j 0 0 + j 1 1)
  | 3 => some (j 0 0 + j 1 1 + j 2 2)
  | _ => none

/-- `geme_invar2` (sfepy/discrete/common/extmods/geommech.c:270-296) in one level. -/
def gemeInvar2 (dim : ℕ) (j : ℕ → ℕ → ℝ) : Option ℝ :=
  match dim with
  | 1 => some 0
  | 2 => some (j 0 0 * j 1 1 + j 0 0 + j 1 1 - j 0 1 * j 0 1)
  | 3 => some (j 0 0 * j 1 1 + j 0 0 * j 2 2 + j 1 1 * j 2 2 - j 0 1 * j 0 1 - j 0 2 * j 0 2 - j 1 2 * j 1 2)
  | _ => none

/-- `t2i1D`, `t2i2D`, `t2i3D` (sfepy/discrete/common/extmods/geommech.c:447, 453, 458). -/
def t2i (dim r : ℕ) : ℕ :=
  match dim with
  | 3 => [0, 1, 2, 0, 0, 1].getD r 0
  | 2 => [0, 1, 0].getD r 0
  | _ => 0

/-- `t2j1D`, `t2j2D`, `t2j3D` (sfepy/discrete/common/extmods/geommech.c:448, 454, 459). -/
def t2j (dim r : ℕ) : ℕ :=
  match dim with
  | 3 => [0, 1, 2, 1, 2, 2].getD r 0
  | 2 => [0, 1, 1].getD r 0
  | _ => 0

/-- `t4s1D`, `t4s2D`, `t4s3D` (sfepy/discrete/common/extmods/geommech.c:449-451, 455-456, 460). -/
def t4s (dim k : ℕ) : ℕ :=
  match dim with
  | 3 => [0, 3, 4, 3, 1, 5, 4, 5, 2].getD k 0
  | 2 => [0, 2, 2, 1].getD k 0
  | _ => 0

/-- `geme_mulT2ST2S_T4S_ikjl` (sfepy/discrete/common/extmods/geommech.c:469-516) in one level. -/
def mulT2ikjl (dim : ℕ) (t21 t22 : ℕ → ℝ) (ir ic : ℕ) : ℝ :=
  t21 (t4s dim (dim * t2i dim ir + t2i dim ic)) * t22 (t4s dim (dim * t2j dim ir + t2j dim ic))

/-- `geme_mulT2ST2S_T4S_iljk` (sfepy/discrete/common/extmods/geommech.c:525-572) in one level. -/
def mulT2iljk (dim : ℕ) (t21 t22 : ℕ → ℝ) (ir ic : ℕ) : ℝ :=
  t21 (t4s dim (dim * t2i dim ir + t2j dim ic)) * t22 (t4s dim (dim * t2j dim ir + t2i dim ic))

/-- `geme_mulT2S_AA` (sfepy/discrete/common/extmods/geommech.c:577-615) in one level; the cases 1, 3, 6 of the number of
components are the dimensions 1, 2, 3. -/
def mulT2SAA (dim : ℕ) (a : ℕ → ℝ) (r : ℕ) : ℝ :=
  match dim with
  | 1 => a 0 * a 0
  | 2 => match r with
    | 0 => a 0 * a 0 + a 2 * a 2
    | 1 => a 2 * a 2 + a 1 * a 1
    | _ => a 2 * a 0 + a 1 * a 2
  | _ => match r with
    | 0 => a 0 * a 0 + a 5 * a 5 + a 4 * a 4
    | 1 => a 5 * a 5 + a 1 * a 1 + a 3 * a 3
    | 2 => a 4 * a 4 + a 3 * a 3 + a 2 * a 2
    | 3 => a 4 * a 5 + a 1 * a 3 + a 2 * a 3
    | 4 => a 0 * a 4 + a 5 * a 3 + a 4 * a 2
    | _ => a 0 * a 5 + a 5 * a 1 + a 4 * a 3

/-! ### sfepy/terms/extmods/terms_hyperelastic.c -/

/-- `get_trace` (sfepy/terms/extmods/terms_hyperelastic.c:9-26). -/
def getTrace (dim r : ℕ) : ℝ :=
  match dim with
  | 1 => [1].getD r 0
  | 2 => [1, 1, 0].getD r 0
  | _ => [1, 1, 1, 0, 0, 0].getD r 0

/-- `form_tlcc_strainGreen_VS` (sfepy/terms/extmods/terms_hyperelastic.c:38-82) in one level. -/
noncomputable def strainGreen (dim : ℕ) (pf : ℕ → ℕ → ℝ) (ii : ℕ) : ℝ :=
  let s := ∑ ik ∈ range dim, pf ik (t2i dim ii) * pf ik (t2j dim ii)
  (if ii < dim then s - 1 else s) * 0.5

/-- `form_tlcc_buildOpB_VS3` (sfepy/terms/extmods/terms_hyperelastic.c:95-215): in the columns `nEP * a`, ..., there is
the row `a` of the deformation gradient (`pd[dim * a + i]`). -/
def buildOpB (dim nEP : ℕ) (pd pg : ℕ → ℕ → ℝ) : Option (ℕ → ℕ → ℝ) :=
  match dim with
  | 3 => some fun r s =>
    let a := s / nEP
    let iep := s % nEP
    match r with
    | 0 => pd a 0 * pg 0 iep
    | 1 => pd a 1 * pg 1 iep
    | 2 => pd a 2 * pg 2 iep
    | 3 => pd a 1 * pg 0 iep + pd a 0 * pg 1 iep
    | 4 => pd a 2 * pg 0 iep + pd a 0 * pg 2 iep
    | _ => pd a 2 * pg 1 iep + pd a 1 * pg 2 iep
  | 2 => some fun r s =>
    let a := s / nEP
    let iep := s % nEP
    match r with
    | 0 => pd a 0 * pg 0 iep
    | 1 => pd a 1 * pg 1 iep
    | _ => pd a 1 * pg 0 iep + pd a 0 * pg 1 iep
  | 1 => some fun _ s => pd (s / nEP) 0 * pg 0 (s % nEP)
  | _ => none

/-- `form_tlcc_buildOpKtsC_VS3` (sfepy/terms/extmods/terms_hyperelastic.c:224-301) in one level. -/
def buildOpKtsC (dim : ℕ) (tau : ℕ → ℝ) (pg : ℕ → ℕ → ℝ) : Option (ℕ → ℕ → ℝ) :=
  match dim with
  | 3 => some fun ir ic =>
    tau 0 * pg 0 ir * pg 0 ic + tau 3 * pg 1 ir * pg 0 ic + tau 4 * pg 2 ir * pg 0 ic
    + tau 3 * pg 0 ir * pg 1 ic + tau 1 * pg 1 ir * pg 1 ic + tau 5 * pg 2 ir * pg 1 ic
    + tau 4 * pg 0 ir * pg 2 ic + tau 5 * pg 1 ir * pg 2 ic + tau 2 * pg 2 ir * pg 2 ic
  | 2 => some fun ir ic =>
    tau 0 * pg 0 ir * pg 0 ic + tau 2 * pg 1 ir * pg 0 ic + tau 2 * pg 0 ir * pg 1 ic + tau 1 * pg 1 ir * pg 1 ic
  | 1 => some fun ir ic => tau 0 * pg 0 ir * pg 0 ic
  | _ => none

/-- The family data in a quadrature point (sfepy/terms/terms_hyperelastic_base.py:17-29): `mtx_f`, `det_f`, `sym_c` or
`sym_b`, `tr_c` or `tr_b`, `in2_c` or `in2_b`, `sym_inv_c`, `green_strain`. -/
structure FamData where
  mtxF : ℕ → ℕ → ℝ
  detF : ℝ
  symC : ℕ → ℝ
  trC : ℝ
  in2C : ℝ
  symInvC : ℕ → ℝ
  green : ℕ → ℝ

/-- The deformation gradient of `dq_finite_strain` (sfepy/terms/extmods/terms_hyperelastic.c:341-348): `st` are the values
in the nodes of the cell (a row for a node), `g` is `bfGM`. `fmf_mulATBT_1n` and then ones are added to the diagonal. -/
def defGradQp (nEP : ℕ) (g st : ℕ → ℕ → ℝ) (a i : ℕ) : ℝ :=
  (∑ k ∈ range nEP, st k a * g i k) + if a = i then 1 else 0

/-- `dq_finite_strain` (sfepy/terms/extmods/terms_hyperelastic.c:306-377) in a quadrature point; `ul` is `mode_ul`. The
inverse is not computed in the updated Lagrangian formulation (`vecInvCS` is 0, line 400). -/
noncomputable def finStrainQp (ul : Bool) (dim nEP : ℕ) (g st : ℕ → ℕ → ℝ) : Option FamData := do
  let mtxF := defGradQp nEP g st
  let detF ← gemeDet dim mtxF
  let mtx1 : ℕ → ℕ → ℝ :=
    if ul then fun i j => ∑ k ∈ range dim, mtxF i k * mtxF j k
    else fun i j => ∑ k ∈ range dim, mtxF k i * mtxF k j
  let vecCS ← tensor2vec dim mtx1
  let trC ← gemeInvar1 dim mtx1
  let in2C ← gemeInvar2 dim mtx1
  let mtx2 ← gemeInvert dim mtx1
  let vecInvCS ← tensor2vec dim mtx2
  some { mtxF := mtxF, detF := detF, symC := vecCS, trC := trC, in2C := in2C,
         symInvC := if ul then fun _ => 0 else vecInvCS, green := strainGreen dim mtxF }

/-- `dq_finite_strain` for the quadrature point `q` of the cell `c`: `ele_extractNodalValuesNBN` gives the values in the
nodes (sfepy/terms/extmods/terms_hyperelastic.c:327-370). -/
noncomputable def dqFinStrain (ul : Bool) (vg : Mapping ℝ) (state : ℕ → ℝ) (conn : ℕ → ℕ → ℕ) (c q : ℕ) :
    Option FamData :=
  finStrainQp ul vg.dim vg.nEP (vg.bfGM c q) (extractNBN vg.dim state (conn c) 0)

/-- The family data before `dq_finite_strain` writes them: zeros (sfepy/terms/terms_hyperelastic_base.py:47). -/
def FamData.zero : FamData := ⟨fun _ _ => 0, 0, fun _ => 0, 0, 0, fun _ => 0, fun _ => 0⟩

/-- `HyperElasticFamilyData.__call__()` (sfepy/terms/terms_hyperelastic_base.py:51-112) without the cache: the data of all
the `nEl` cells, `none` is `ValueError('warp violation!')` or the error of a `switch`. -/
noncomputable def familyData (ul : Bool) (nEl : ℕ) (vg : Mapping ℝ) (state : ℕ → ℝ) (conn : ℕ → ℕ → ℕ) :
    Option (ℕ → ℕ → FamData) :=
  open Classical in
  if ∃ c < nEl, ∃ q < vg.nQP, ∀ fd, dqFinStrain ul vg state conn c q = some fd → fd.detF < 0 then none
  else some fun c q => (dqFinStrain ul vg state conn c q).getD FamData.zero

/-- `fmfr_addA_blockNC( out, blk, r0, r0 )` with a block of `n` rows and columns
(sfepy/discrete/common/extmods/fmfield.c:1201-1224). -/
def addBlock (n r0 : ℕ) (out blk : ℕ → ℕ → ℝ) (r s : ℕ) : ℝ :=
  if (r0 ≤ r ∧ r < r0 + n) ∧ (r0 ≤ s ∧ s < r0 + n) then out r s + blk (r - r0) (s - r0) else out r s

/-- The sum over the levels with the weights (`fmf_sumLevelsMulF`), if the operator of each level is defined. -/
def sumLevO (nQP : ℕ) (a : ℕ → Option (ℕ → ℕ → ℝ)) (w : ℕ → ℝ) : Option (ℕ → ℕ → ℝ) :=
  if ∀ q < nQP, (a q).isSome then some fun r s => ∑ q ∈ range nQP, ((a q).getD 0) r s * w q else none

/-- `fmfr_addA_blockNC( out, iktsc, ... )` for each component (sfepy/terms/extmods/terms_hyperelastic.c:513-517). -/
def addDiag (dim nEP : ℕ) (out ik : ℕ → ℕ → ℝ) : ℕ → ℕ → ℝ :=
  let o1 := addBlock nEP 0 out ik
  let o2 := if dim > 1 then addBlock nEP nEP o1 ik else o1
  if dim > 2 then addBlock nEP (2 * nEP) o2 ik else o2

/-- `dw_he_rtm` with `isDiff` (sfepy/terms/extmods/terms_hyperelastic.c:472-520) of one cell: `g q` is `bfGM`, `det q`
the determinants, `stress q`, `tan q`, `mtxF q`, `detF q` the data in the quadrature points; `sym` components of a
symmetric tensor. -/
noncomputable def heRtmMatrix (ul : Bool) (dim nEP nQP : ℕ) (g : ℕ → ℕ → ℕ → ℝ) (det : ℕ → ℝ) (stress : ℕ → ℕ → ℝ)
    (tan mtxF : ℕ → ℕ → ℕ → ℝ) (detF : ℕ → ℝ) : Option (ℕ → ℕ → ℝ) := do
  let aux : ℕ → ℝ := if ul then fun q => det q / detF q else det
  let btdb : ℕ → Option (ℕ → ℕ → ℝ) := fun q =>
    if ul then do
      let btd ← actOpGTM3 dim nEP g tan
      let o ← actOpGRM3 dim nEP btd g
      some (o q)
    else do
      let b ← buildOpB dim nEP (mtxF q) (g q)
      let btd : ℕ → ℕ → ℝ := fun r s => ∑ k ∈ range (symOf dim), b k r * tan q k s
      some fun r s => ∑ k ∈ range (symOf dim), btd r k * b k s
  let out ← sumLevO nQP btdb aux
  let iktsc ← sumLevO nQP (fun q => buildOpKtsC dim (stress q) (g q)) aux
  some (addDiag dim nEP out iktsc)

/-- `dw_he_rtm` without `isDiff` (sfepy/terms/extmods/terms_hyperelastic.c:521-551) of one cell. -/
noncomputable def heRtmVector (ul : Bool) (dim nEP nQP : ℕ) (g : ℕ → ℕ → ℕ → ℝ) (det : ℕ → ℝ) (stress : ℕ → ℕ → ℝ)
    (mtxF : ℕ → ℕ → ℕ → ℝ) (detF : ℕ → ℝ) : Option (ℕ → ℕ → ℝ) :=
  if ul then do
    let o ← actOpGTM3 dim nEP g (fun q r _ => stress q r)
    some (sumLev nQP o fun q => det q / detF q)
  else
    sumLevO nQP (fun q => do
      let b ← buildOpB dim nEP (mtxF q) (g q)
      some fun r _ => ∑ k ∈ range (symOf dim), b k r * stress q k) det

/-- A function computing the stress in a quadrature point: the material parameters, the dimension, the family data. -/
abbrev StressFn := (ℕ → ℕ → ℝ) → ℕ → FamData → ℕ → ℝ

/-- A function computing the tangent modulus in a quadrature point. -/
abbrev TanFn := (ℕ → ℕ → ℝ) → ℕ → FamData → ℕ → ℕ → ℝ

/-- `detF23 = exp( -2.0/3.0 * log( pdetF[iqp] ) )` (sfepy/terms/extmods/terms_hyperelastic.c:744, 757, 821, 870). -/
noncomputable def detF23 (j : ℝ) : ℝ := Real.exp (-2.0 / 3.0 * Real.log j)

/-- `dq_tl_he_stress_bulk`: `dq_he_stress_bulk` in the total Lagrangian formulation
(sfepy/terms/extmods/terms_hyperelastic.c:647-658). -/
noncomputable def stressBulkTL : StressFn := fun mat _ fd r => mat 0 0 * fd.detF * (fd.detF - 1) * fd.symInvC r

/-- `dq_ul_he_stress_bulk` (sfepy/terms/extmods/terms_hyperelastic.c:636-645). -/
noncomputable def stressBulkUL : StressFn := fun mat dim fd r => mat 0 0 * fd.detF * (fd.detF - 1) * getTrace dim r

/-- `dq_tl_he_stress_bulk_active` (sfepy/terms/extmods/terms_hyperelastic.c:688-716). -/
noncomputable def stressActiveTL : StressFn := fun mat _ fd r => mat 0 0 * fd.detF * fd.symInvC r

/-- `dq_tl_he_stress_neohook` (sfepy/terms/extmods/terms_hyperelastic.c:754-769). -/
noncomputable def stressNeoTL : StressFn := fun mat dim fd r =>
  mat 0 0 * detF23 fd.detF * (getTrace dim r - fd.trC / 3 * fd.symInvC r)

/-- `dq_ul_he_stress_neohook` (sfepy/terms/extmods/terms_hyperelastic.c:741-753). -/
noncomputable def stressNeoUL : StressFn := fun mat dim fd r =>
  mat 0 0 * detF23 fd.detF * (fd.symC r - fd.trC / 3 * getTrace dim r)

/-- `dq_tl_he_stress_mooney_rivlin` (sfepy/terms/extmods/terms_hyperelastic.c:795-835). -/
noncomputable def stressMRTL : StressFn := fun mat dim fd r =>
  mat 0 0 * detF23 fd.detF * detF23 fd.detF
    * (fd.trC * getTrace dim r - fd.symC r - 2.0 / 3.0 * fd.in2C * fd.symInvC r)

/-- `dq_ul_he_stress_mooney_rivlin` (sfepy/terms/extmods/terms_hyperelastic.c:845-886). -/
noncomputable def stressMRUL : StressFn := fun mat dim fd r =>
  mat 0 0 * detF23 fd.detF * detF23 fd.detF
    * (fd.trC * fd.symC r - mulT2SAA dim fd.symC r - 2.0 / 3.0 * fd.in2C * getTrace dim r)

/-- `dq_tl_stress_bulk_pressure` (sfepy/terms/extmods/terms_hyperelastic.c:1372-1382); the pressure is `mat 0 0`. -/
noncomputable def stressPressureTL : StressFn := fun mat _ fd r => -(mat 0 0) * fd.detF * fd.symInvC r

/-- `dq_ul_stress_bulk_pressure` (sfepy/terms/extmods/terms_hyperelastic.c:1363-1371). -/
noncomputable def stressPressureUL : StressFn := fun mat dim fd r => -(mat 0 0) * fd.detF * getTrace dim r

/-- `dq_tl_he_tan_mod_bulk` (sfepy/terms/extmods/terms_hyperelastic.c:895-945). -/
noncomputable def tanBulkTL : TanFn := fun mat dim fd ir ic =>
  let cbulk21 := mat 0 0 * fd.detF * (fd.detF - 1)
  let cbulk22 := mat 0 0 * fd.detF * fd.detF
  (cbulk21 + cbulk22) * fd.symInvC ir * fd.symInvC ic
    - cbulk21 * (mulT2ikjl dim fd.symInvC fd.symInvC ir ic + mulT2iljk dim fd.symInvC fd.symInvC ir ic)

/-- `dq_ul_he_tan_mod_bulk` (sfepy/terms/extmods/terms_hyperelastic.c:949-999). -/
noncomputable def tanBulkUL : TanFn := fun mat dim fd ir ic =>
  let cbulk21 := mat 0 0 * fd.detF * (fd.detF - 1)
  let cbulk22 := mat 0 0 * fd.detF * fd.detF
  (cbulk21 + cbulk22) * getTrace dim ir * getTrace dim ic
    - cbulk21 * (mulT2ikjl dim (getTrace dim) (getTrace dim) ir ic + mulT2iljk dim (getTrace dim) (getTrace dim) ir ic)

/-- `dq_tl_he_tan_mod_bulk_active` (sfepy/terms/extmods/terms_hyperelastic.c:1004-1051). -/
noncomputable def tanActiveTL : TanFn := fun mat dim fd ir ic =>
  let cmat := mat 0 0 * fd.detF
  cmat * fd.symInvC ir * fd.symInvC ic
    - cmat * (mulT2ikjl dim fd.symInvC fd.symInvC ir ic + mulT2iljk dim fd.symInvC fd.symInvC ir ic)

/-- `dq_tl_he_tan_mod_neohook` (sfepy/terms/extmods/terms_hyperelastic.c:1057-1114). -/
noncomputable def tanNeoTL : TanFn := fun mat dim fd ir ic =>
  let cc := mat 0 0 * detF23 fd.detF
  let c1 := 2.0 / 9.0 * cc * fd.trC
  let c2 := -2.0 / 3.0 * cc
  let c3 := cc / 3.0 * fd.trC
  c1 * fd.symInvC ir * fd.symInvC ic
    + c2 * (fd.symInvC ir * getTrace dim ic + fd.symInvC ic * getTrace dim ir)
    + c3 * (mulT2ikjl dim fd.symInvC fd.symInvC ir ic + mulT2iljk dim fd.symInvC fd.symInvC ir ic)

/-- `dq_ul_he_tan_mod_neohook` (sfepy/terms/extmods/terms_hyperelastic.c:1118-1178). -/
noncomputable def tanNeoUL : TanFn := fun mat dim fd ir ic =>
  let cc := mat 0 0 * detF23 fd.detF
  let c1 := 2.0 / 9.0 * cc * fd.trC
  let c2 := -2.0 / 3.0 * cc
  let c3 := cc / 3.0 * fd.trC
  c1 * getTrace dim ir * getTrace dim ic
    + c2 * (fd.symC ir * getTrace dim ic + fd.symC ic * getTrace dim ir)
    + c3 * (mulT2ikjl dim (getTrace dim) (getTrace dim) ir ic + mulT2iljk dim (getTrace dim) (getTrace dim) ir ic)

/-- `dq_tl_he_tan_mod_mooney_rivlin` (sfepy/terms/extmods/terms_hyperelastic.c:1182-1258): `2.0 * c5` is added to the
diagonal in the rows less than the dimension, `c5` in the other rows. -/
noncomputable def tanMRTL : TanFn := fun mat dim fd ir ic =>
  let d43 := detF23 fd.detF * detF23 fd.detF
  let c1 := 8.0 / 9.0 * mat 0 0 * d43 * fd.in2C
  let c2 := -4.0 / 3.0 * mat 0 0 * d43 * fd.trC
  let c3 := 2.0 / 3.0 * mat 0 0 * d43 * fd.in2C
  let c4 := 2.0 * mat 0 0 * d43
  let c5 := -(mat 0 0) * d43
  let c6 := 4.0 / 3.0 * mat 0 0 * d43
  c1 * fd.symInvC ir * fd.symInvC ic
    + c2 * (fd.symInvC ir * getTrace dim ic + fd.symInvC ic * getTrace dim ir)
    + c3 * (mulT2ikjl dim fd.symInvC fd.symInvC ir ic + mulT2iljk dim fd.symInvC fd.symInvC ir ic)
    + c4 * (getTrace dim ir * getTrace dim ic)
    + c6 * (fd.symC ir * fd.symInvC ic + fd.symC ic * fd.symInvC ir)
    + (if ir = ic then (if ir < dim then 2.0 * c5 else c5) else 0)

/-- `dq_ul_he_tan_mod_mooney_rivlin` (sfepy/terms/extmods/terms_hyperelastic.c:1261-1342). -/
noncomputable def tanMRUL : TanFn := fun mat dim fd ir ic =>
  let d43 := detF23 fd.detF * detF23 fd.detF
  let F1 := 16.0 / 9.0 * mat 0 0 * d43 * fd.in2C
  let F2 := -8.0 / 3.0 * mat 0 0 * d43 * fd.trC
  let F3 := 4.0 / 3.0 * mat 0 0 * d43 * fd.in2C
  let F4 := 4.0 * mat 0 0 * d43
  let F5 := -2.0 * mat 0 0 * d43
  let F6 := 8.0 / 3.0 * mat 0 0 * d43
  F1 * getTrace dim ir * getTrace dim ic
    + F2 * (fd.symC ir * getTrace dim ic + getTrace dim ir * fd.symC ic)
    + F3 * (mulT2ikjl dim (getTrace dim) (getTrace dim) ir ic + mulT2iljk dim (getTrace dim) (getTrace dim) ir ic)
    + F4 * fd.symC ir * fd.symC ic
    + F5 * (mulT2ikjl dim fd.symC fd.symC ir ic + mulT2iljk dim fd.symC fd.symC ir ic)
    + F6 * (mulT2SAA dim fd.symC ir * getTrace dim ic + mulT2SAA dim fd.symC ic * getTrace dim ir)

/-- `dq_tl_tan_mod_bulk_pressure_u` (sfepy/terms/extmods/terms_hyperelastic.c:1408-1456). -/
noncomputable def tanPressureTL : TanFn := fun mat dim fd ir ic =>
  let cc := fd.detF * mat 0 0
  (-cc) * fd.symInvC ir * fd.symInvC ic
    + cc * (mulT2ikjl dim fd.symInvC fd.symInvC ir ic + mulT2iljk dim fd.symInvC fd.symInvC ir ic)

/-- `dq_ul_tan_mod_bulk_pressure_u` (sfepy/terms/extmods/terms_hyperelastic.c:1460-1509). -/
noncomputable def tanPressureUL : TanFn := fun mat dim fd ir ic =>
  let cc := fd.detF * mat 0 0
  (-cc) * getTrace dim ir * getTrace dim ic
    + cc * (mulT2ikjl dim (getTrace dim) (getTrace dim) ir ic + mulT2iljk dim (getTrace dim) (getTrace dim) ir ic)

/-! ### sfepy/terms/terms_hyperelastic_tl.py -/

/-- `mat[:, :, :, dim:] *= 2`, `nm.einsum('ijkl,ijl...->ijk...', mat, sym_e)`: the stress of
`SaintVenantKirchhoffTLTerm` (sfepy/terms/terms_hyperelastic_tl.py:504-510) for an array `mat` that is not used again. -/
noncomputable def stressSVK : StressFn := fun mat dim fd k =>
  ∑ l ∈ range (symOf dim), (if dim ≤ l then mat k l * 2 else mat k l) * fd.green l

/-- `mat[:, :, dim:, :] *= 2`: the tangent modulus of `SaintVenantKirchhoffTLTerm`
(sfepy/terms/terms_hyperelastic_tl.py:512-517) for an array `mat` that is not used again. -/
noncomputable def tanSVK : TanFn := fun mat dim _ k l => if dim ≤ k then mat k l * 2 else mat k l

/-- `_pow` (sfepy/terms/terms_hyperelastic_tl.py:115-118). -/
noncomputable def yeohPow (x p : ℝ) : ℝ :=
  let xs := if x ≤ 0 then 1 else x
  if x > 0 ∨ p ≥ 0 then xs ^ p else 1

/-- `c_inv` from `c_inv_v` (sfepy/terms/terms_hyperelastic_tl.py:128-134, 204-210). -/
def yeohC (v : ℕ → ℝ) (i j : ℕ) : ℝ := v (t4s 3 (3 * i + j))

/-- `nm.eye(3)` (sfepy/terms/terms_hyperelastic_tl.py:136, 212). -/
def yeohEye (i j : ℕ) : ℝ := if i = j then 1 else 0

/-- `coef` (sfepy/terms/terms_hyperelastic_tl.py:156-164, 272-280): the parameters `K_1`, `K_2`, `K_3`, `m`, `p`, `q`;
with two parameters they are `K_1` and `m`. -/
noncomputable def yeohCoef (nCol : ℕ) (mat : ℕ → ℕ → ℝ) (k : ℕ) : ℝ :=
  if nCol = 2 then [mat 0 0, 0, 0, mat 0 1, 1, 1].getD k 0 else mat 0 k

/-- `GenYeohTLTerm._get_stress_yeoh()` (sfepy/terms/terms_hyperelastic_tl.py:91-149) with
`stress_function()` (sfepy/terms/terms_hyperelastic_tl.py:151-174). -/
noncomputable def stressYeoh (nCol : ℕ) : StressFn := fun mat _ fd r =>
  let co := yeohCoef nCol mat
  let i1 := fd.trC
  let i3 := fd.detF ^ 2
  let bracket := i3 ^ (-1 / 3 : ℝ) * i1 - 3
  let term := co 3 * co 0 * yeohPow bracket (co 3 - 1) + co 4 * co 1 * yeohPow bracket (co 4 - 1)
    + co 5 * co 2 * yeohPow bracket (co 5 - 1)
  let fact := 2 * i3 ^ (-1 / 3 : ℝ) * term
  fact * (yeohEye (t2i 3 r) (t2j 3 r) - i1 / 3 * yeohC fd.symInvC (t2i 3 r) (t2j 3 r))

/-- `_get_bracket_pow(ex)[0]` (sfepy/terms/terms_hyperelastic_tl.py:182-194). -/
noncomputable def yeohB1 (bracket ex : ℝ) : ℝ := if bracket > 0 ∨ ex ≥ 1 then bracket ^ (ex - 1) else 1

/-- `_get_bracket_pow(ex)[1]` (sfepy/terms/terms_hyperelastic_tl.py:182-194). -/
noncomputable def yeohB2 (bracket ex : ℝ) : ℝ := if bracket > 0 ∨ ex ≥ 2 then bracket ^ (ex - 2) else 0

/-- One of the three parts of `term` in `GenYeohTLTerm._get_tan_mod_yeoh()`
(sfepy/terms/terms_hyperelastic_tl.py:220-233, 235-248, 250-264). -/
noncomputable def yeohPart (m K1 bracket i1 i3 : ℝ) (ci : ℕ → ℕ → ℝ) (ii jj kk ll : ℕ) : ℝ :=
  let i3m13 := i3 ^ (-1 / 3 : ℝ)
  let i3m23 := i3 ^ (-2 / 3 : ℝ)
  let b1 := yeohB1 bracket m
  let b2 := yeohB2 bracket m
  m * K1 * (3 * (m - 1) * b2 * i3m23 * yeohEye ii jj * yeohEye kk ll
    - ((m - 1) * b2 * i1 * i3m23 + b1 * i3m13) * (yeohEye ii jj * ci kk ll + ci ii jj * yeohEye kk ll)
    + ((m - 1) * b2 * (i1 * i1) * i3m23 + b1 * i3m13 * i1) / 3 * ci ii jj * ci kk ll
    + 0.5 * b1 * i3m13 * i1 * (ci ii kk * ci jj ll + ci ii ll * ci jj kk))

/-- `GenYeohTLTerm._get_tan_mod_yeoh()` (sfepy/terms/terms_hyperelastic_tl.py:176-267) with `tan_mod_function()`
(sfepy/terms/terms_hyperelastic_tl.py:269-290). `idx` is the same order of components as in `t2i`, `t2j`. -/
noncomputable def tanYeoh (nCol : ℕ) : TanFn := fun mat _ fd r s =>
  let co := yeohCoef nCol mat
  let i1 := fd.trC
  let i3 := fd.detF ^ 2
  let bracket := i3 ^ (-1 / 3 : ℝ) * i1 - 3
  let ci := yeohC fd.symInvC
  let part := fun m K1 => yeohPart m K1 bracket i1 i3 ci (t2i 3 r) (t2j 3 r) (t2i 3 s) (t2j 3 s)
  4.0 / 3.0 * (part (co 3) (co 0) + part (co 4) (co 1) + part (co 5) (co 2))

/-! ### sfepy/terms/terms_hyperelastic_base.py -/

/-- `HyperElasticBase.get_fargs()` in the mode 'weak' without `diff_var`, then `dw_he_rtm()`, for the cell `c`
(sfepy/terms/terms_hyperelastic_base.py:190-219): the stress and the residual. `vg0` is the mapping of
`HyperElasticFamilyData` (`get_saved=True`: the initial configuration), `vg` the one of the term; `mat` is accessed
by `FMF_PtrCellX1`. -/
noncomputable def heResidual (ul : Bool) (sf : StressFn) (mat : Fld ℝ) (nEl : ℕ) (vg0 vg : Mapping ℝ) (state : ℕ → ℝ)
    (conn : ℕ → ℕ → ℕ) (c : ℕ) : Option (ℕ → ℕ → ℝ) := do
  let f ← familyData ul nEl vg0 state conn
  let fd := f c
  heRtmVector ul vg.dim vg.nEP vg.nQP (vg.bfGM c) (ptr (vg.det c)) (fun q => sf (mat.x1 c q) vg.dim (fd q))
    (fun q => (fd q).mtxF) fun q => (fd q).detF

/-- The same with `diff_var` (sfepy/terms/terms_hyperelastic_base.py:208-219) and the given stress. -/
noncomputable def heMatrixWith (ul : Bool) (stress : ℕ → ℕ → ℝ) (tf : TanFn) (mat : Fld ℝ) (nEl : ℕ)
    (vg0 vg : Mapping ℝ) (state : ℕ → ℝ) (conn : ℕ → ℕ → ℕ) (c : ℕ) : Option (ℕ → ℕ → ℝ) := do
  let f ← familyData ul nEl vg0 state conn
  let fd := f c
  heRtmMatrix ul vg.dim vg.nEP vg.nQP (vg.bfGM c) (ptr (vg.det c)) stress
    (fun q => tf (mat.x1 c q) vg.dim (fd q)) (fun q => (fd q).mtxF) fun q => (fd q).detF

/-- The stress of a state (`compute_stress()`, sfepy/terms/terms_hyperelastic_base.py:162-171). -/
noncomputable def heStress (ul : Bool) (sf : StressFn) (mat : Fld ℝ) (nEl : ℕ) (vg0 : Mapping ℝ) (state : ℕ → ℝ)
    (conn : ℕ → ℕ → ℕ) (c : ℕ) : Option (ℕ → ℕ → ℝ) := do
  let f ← familyData ul nEl vg0 state conn
  let fd := f c
  some fun q => sf (mat.x1 c q) vg0.dim (fd q)

/-- The matrix when no stress is cached: the stress is computed (sfepy/terms/terms_hyperelastic_base.py:210-211). -/
noncomputable def heMatrix (ul : Bool) (sf : StressFn) (tf : TanFn) (mat : Fld ℝ) (nEl : ℕ) (vg0 vg : Mapping ℝ)
    (state : ℕ → ℝ) (conn : ℕ → ℕ → ℕ) (c : ℕ) : Option (ℕ → ℕ → ℝ) := do
  let stress ← heStress ul sf mat nEl vg0 state conn c
  heMatrixWith ul stress tf mat nEl vg0 vg state conn c

/-- The stress used by an evaluation in the mode 'weak' and the new `stress_cache`
(sfepy/terms/terms_hyperelastic_base.py:202-215); `diff` is `diff_var is not None`, `computed` the stress of the current
state. -/
def stressUse {S : Type} (cache : Option S) (diff : Bool) (computed : S) : S × Option S :=
  if diff then (cache.getD computed, cache) else (computed, some computed)

/-- The stresses used in a sequence of evaluations of one term: the states and whether the matrix is evaluated. -/
def stressRun {σ S : Type} (compute : σ → S) : Option S → List (σ × Bool) → List S
  | _, [] => []
  | cache, (u, diff) :: rest =>
    let (s, cache') := stressUse cache diff (compute u)
    s :: stressRun compute cache' rest

/-- `HyperElasticFamilyData.__call__()` with the cache of one key (sfepy/terms/terms_hyperelastic_base.py:60-112): the
data are put to the cache before the warp check. `data` are the data of the current state, `warped` says whether there
is a negative volume ratio. The result is `none` for `ValueError('warp violation!')`. -/
def famCall {D : Type} (cache : Option D) (data : D) (warped : Bool) : Option D × Option D :=
  match cache with
  | some d => (some d, cache)
  | none => (if warped then none else some data, some data)

/-- `tile_mat` (sfepy/terms/terms.py:377-381) and `mat[:, :, :, dim:] *= 2` in `stress_function()` of
`SaintVenantKirchhoffTLTerm` (sfepy/terms/terms_hyperelastic_tl.py:504-510): the array the stress is computed with and
the argument after the call (a tiled array is a copy). -/
noncomputable def svkStressMat (dim nEl : ℕ) (mat : Fld ℝ) : Fld ℝ × Fld ℝ :=
  let scaled : Fld ℝ := { mat with val := fun c q k l => if dim ≤ l then mat.val c q k l * 2 else mat.val c q k l }
  if mat.nCell = 1 ∧ nEl > 1 then (scaled, mat) else (scaled, scaled)

/-- `stress_function()` of `SaintVenantKirchhoffTLTerm` with the array given by `svkStressMat`. -/
noncomputable def svkStress (dim nEl : ℕ) (mat : Fld ℝ) (fd : ℕ → ℕ → FamData) (c q k : ℕ) : ℝ :=
  ∑ l ∈ range (symOf dim), (svkStressMat dim nEl mat).1.x1 c q k l * (fd c q).green l

end Verif.Term
