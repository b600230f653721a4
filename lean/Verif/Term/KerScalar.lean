/-
A model of the kernels of scalar terms and of the evaluation of variables in quadrature points:
sfepy/terms/extmods/terms_basic.c, terms_diffusion.c, parts of terms_dot.c, terms_volume.c, terms_electric.c.

A kernel is a function of the cell; `none` is the error of a `switch`. The dimensions `nQP`, `nEP`, `dim` of an
array are those of the mapping it belongs to.
-/
import Verif.Term.Fm

namespace Verif.Term

open Finset

variable {K : Type} [Field K]

/-! ### Values in quadrature points -/

/-- `dq_state_in_qp` (sfepy/terms/extmods/terms_basic.c:10-41) with `nRow` components; `state` starts at the
offset. -/
def dqState (nRow nEP : ℕ) (bf : Fld K) (state : ℕ → K) (conn : ℕ → ℕ → ℕ) (c : ℕ) : Lev K :=
  let st := extractDBD nRow state (conn c)
  bfAct nEP (bf.x1 c) st

/-- `dq_grad` (sfepy/terms/extmods/terms_basic.c:45-69); `nCol` is the number of components. -/
def dqGrad (nCol : ℕ) (vg : Mapping K) (state : ℕ → K) (conn : ℕ → ℕ → ℕ) (c : ℕ) : Lev K :=
  let st := extractNBN nCol state (conn c)
  mulABn1 vg.nEP (vg.bfGM c) st

/-- `dq_div_vector` (sfepy/terms/extmods/terms_basic.c:77-111). The gradients are taken as a row, the values
as a column of the same data. -/
def dqDiv (vg : Mapping K) (state : ℕ → K) (conn : ℕ → ℕ → ℕ) (c : ℕ) : Lev K :=
  let st := extractDBD vg.dim state (conn c)
  let stv := pretend vg.nEP 1 st
  let gcl := pretend vg.nEP (vg.nEP * vg.dim) (vg.bfGM c)
  mulABn1 (vg.nEP * vg.dim) gcl stv

/-- `d_volume_surface` (sfepy/terms/extmods/terms_basic.c:115-152); `coors` are the coordinates of mesh nodes. -/
def dVolumeSurface (sg : Mapping K) (coors : ℕ → K) (conn : ℕ → ℕ → ℕ) (c : ℕ) : ℕ → ℕ → K :=
  let lcoor := extractNBN sg.dim coors (conn c)
  let aux := mulABn1 sg.nEP (sg.bf.x1 c) lcoor
  let aux2 := mulAB sg.dim aux (sg.normal c)
  mulC (sumLev sg.nQP aux2 (ptr (sg.det c))) (1 / sg.dim)

/-- `di_surface_moment` (sfepy/terms/extmods/terms_basic.c:157-192). -/
def diSurfaceMoment (sg : Mapping K) (coors : ℕ → K) (conn : ℕ → ℕ → ℕ) (c : ℕ) : ℕ → ℕ → K :=
  let lcoor := extractNBN sg.dim coors (conn c)
  let aux := mulABn1 sg.nEP (sg.bf.x1 c) lcoor
  let aux2 := mulAB 1 (sg.normal c) aux
  sumLev sg.nQP aux2 (ptr (sg.det c))

/-! ### Diffusion -/

/-- `laplace_build_gtg` (sfepy/terms/extmods/terms_diffusion.c:11-75). -/
def laplaceGtg (dim : ℕ) (g : Lev K) : Option (Lev K) :=
  match dim with
  | 3 => some fun l i j => g l 0 i * g l 0 j + g l 1 i * g l 1 j + g l 2 i * g l 2 j
  | 2 => some fun l i j => g l 0 i * g l 0 j + g l 1 i * g l 1 j
  | 1 => some fun l i j => g l 0 i * g l 0 j
  | _ => none

/-- `laplace_act_gt_m` (sfepy/terms/extmods/terms_diffusion.c:184-252). -/
def laplaceActGtM (dim : ℕ) (g mtx : Lev K) : Option (Lev K) :=
  match dim with
  | 3 => some fun l i j => g l 0 i * mtx l 0 j + g l 1 i * mtx l 1 j + g l 2 i * mtx l 2 j
  | 2 => some fun l i j => g l 0 i * mtx l 0 j + g l 1 i * mtx l 1 j
  | 1 => some fun l i j => g l 0 i * mtx l 0 j
  | _ => none

/-- `dw_laplace` (sfepy/terms/extmods/terms_diffusion.c:261-304). -/
def dwLaplace (vg : Mapping K) (coef : Fld K) (grad : ℕ → Lev K) (isDiff : Bool) (c : ℕ) : Option (ℕ → ℕ → K) :=
  if isDiff then
    (laplaceGtg vg.dim (vg.bfGM c)).map fun gtg =>
      sumLev vg.nQP (mulF gtg (ptr (coef.x1 c))) (ptr (vg.det c))
  else
    (laplaceActGtM vg.dim (vg.bfGM c) (grad c)).map fun gtgu =>
      sumLev vg.nQP (mulF gtgu (ptr (coef.x1 c))) (ptr (vg.det c))

/-- `d_laplace` (sfepy/terms/extmods/terms_diffusion.c:308-339). -/
def dLaplace (vg : Mapping K) (coef : Fld K) (gradP1 gradP2 : ℕ → Lev K) (c : ℕ) : ℕ → ℕ → K :=
  let dgp2 := mulF (gradP2 c) (ptr (coef.x1 c))
  let gp1tdgp2 := mulATB vg.dim (gradP1 c) dgp2
  sumLev vg.nQP gp1tdgp2 (ptr (vg.det c))

/-- `dw_diffusion` (sfepy/terms/extmods/terms_diffusion.c:347-395). -/
def dwDiffusion (vg : Mapping K) (mtxD : Fld K) (grad : ℕ → Lev K) (isDiff : Bool) (c : ℕ) : ℕ → ℕ → K :=
  if isDiff then
    let gtd := mulATB vg.dim (vg.bfGM c) (mtxD.x1 c)
    let gtdg := mulAB vg.dim gtd (vg.bfGM c)
    sumLev vg.nQP gtdg (ptr (vg.det c))
  else
    let dgp := mulAB vg.dim (mtxD.x1 c) (grad c)
    let gtdgp := mulATB vg.dim (vg.bfGM c) dgp
    sumLev vg.nQP gtdgp (ptr (vg.det c))

/-- `d_diffusion` (sfepy/terms/extmods/terms_diffusion.c:404-435). -/
def dDiffusion (vg : Mapping K) (mtxD : Fld K) (gradP1 gradP2 : ℕ → Lev K) (c : ℕ) : ℕ → ℕ → K :=
  let dgp2 := mulAB vg.dim (mtxD.x1 c) (gradP2 c)
  let gp1tdgp2 := mulATB vg.dim (gradP1 c) dgp2
  sumLev vg.nQP gp1tdgp2 (ptr (vg.det c))

/-- `d_sd_diffusion` (sfepy/terms/extmods/terms_diffusion.c:439-496). -/
def dSdDiffusion (vg : Mapping K) (gradQ gradP gradW divW : ℕ → Lev K) (mtxD : Fld K) (c : ℕ) : ℕ → ℕ → K :=
  let aux2 := mulAB vg.dim (mtxD.x1 c) (gradP c)
  let aux3 := mulATB vg.dim (gradQ c) aux2
  let out0 := mulAB 1 (divW c) aux3
  let aux4 := mulATB vg.dim (gradW c) aux2
  let aux3 := mulATB vg.dim (gradQ c) aux4
  let out0 := subAB out0 aux3
  let aux2 := mulAB vg.dim (gradW c) (gradP c)
  let aux4 := mulAB vg.dim (mtxD.x1 c) aux2
  let aux3 := mulATB vg.dim (gradQ c) aux4
  let out0 := subAB out0 aux3
  sumLev vg.nQP out0 (ptr (vg.det c))

/-- `dw_diffusion_r` (sfepy/terms/extmods/terms_diffusion.c:504-529). -/
def dwDiffusionR (vg : Mapping K) (mtxD : Fld K) (c : ℕ) : ℕ → ℕ → K :=
  sumLev vg.nQP (mulATB vg.dim (vg.bfGM c) (mtxD.x1 c)) (ptr (vg.det c))

/-- `d_surface_flux` (sfepy/terms/extmods/terms_diffusion.c:533-568). -/
def dSurfaceFlux (sg : Mapping K) (mtxD : Fld K) (grad : ℕ → Lev K) (mode c : ℕ) : ℕ → ℕ → K :=
  let dgp := mulAB sg.dim (mtxD.x1 c) (grad c)
  let ntdgp := mulATB sg.dim (sg.normal c) dgp
  let out := sumLev sg.nQP ntdgp (ptr (sg.det c))
  if mode = 1 then mulC out (1 / sg.volume c 0 0 0) else out

/-- `dw_surface_flux` (sfepy/terms/extmods/terms_diffusion.c:572-624): `face c` is `fis[ii*nFP+1]`, the local
face, `bf` has a cell for each local face. -/
def dwSurfaceFlux (sg : Mapping K) (mat : Fld K) (bf : ℕ → Lev K) (face : ℕ → ℕ) (grad : ℕ → Lev K) (isDiff : Bool)
    (c : ℕ) : ℕ → ℕ → K :=
  let ntk := mulATB sg.dim (sg.normal c) (mat.x1 c)
  let ntkg := mulAB sg.dim ntk (if isDiff then sg.bfGM c else grad c)
  let outQp := mulATB 1 (bf (face c)) ntkg
  sumLev sg.nQP outQp (ptr (sg.det c))

/-- `dw_convect_v_grad_s` (sfepy/terms/extmods/terms_diffusion.c:628-698). There is no `FMF_SetCell` of
`vvg->det`: the determinants are those of the cell `cur` the pointer was left at by the last kernel that used
the mapping (the cell 0 when there was none, sfepy/discrete/common/extmods/cmapping.pyx:12-13). -/
def dwConvectVGradS (cur : ℕ) (vvg svg : Mapping K) (valV gradS : ℕ → Lev K) (isDiff c : ℕ) : ℕ → ℕ → K :=
  let aux :=
    if isDiff = 0 then mulATB vvg.dim (valV c) (gradS c)
    else if isDiff = 1 then mulATB vvg.dim (valV c) (svg.bfGM c)
    else bfRact vvg.nEP (vvg.bf.x1 c) (mulATC (gradS c) 1)
  let outQp := mulATB 1 (svg.bf.x1 c) aux
  sumLev vvg.nQP outQp (ptr (vvg.det cur))

/-! ### Products and sources -/

/-- `dw_volume_dot_scalar` (sfepy/terms/extmods/terms_dot.c:202-251). -/
def dwDotScalar (rvg cvg : Mapping K) (coef : Fld K) (valQp : ℕ → Lev K) (isDiff : Bool) (c : ℕ) : ℕ → ℕ → K :=
  if isDiff then
    let ftf := mulATB 1 (rvg.bf.x1 c) (cvg.bf.x1 c)
    let cftf := mulF ftf (ptr (coef.x1 c))
    sumLev rvg.nQP cftf (ptr (rvg.det c))
  else
    let ftfp := bfActt rvg.nEP (rvg.bf.x1 c) (valQp c)
    sumLev rvg.nQP (mulF ftfp (ptr (coef.x1 c))) (ptr (rvg.det c))

/-- `dw_volume_dot_vector` (sfepy/terms/extmods/terms_dot.c:117-194). -/
def dwDotVector (rvg cvg : Mapping K) (coef : Fld K) (valQp : ℕ → Lev K) (isDiff : Bool) (c : ℕ) : ℕ → ℕ → K :=
  if isDiff then
    let ftf :=
      if coef.nCol = 1 then
        let ftf1 := mulATB 1 (rvg.bf.x1 c) (cvg.bf.x1 c)
        mulF (buildFTF rvg.dim rvg.nEP cvg.nEP ftf1) (ptr (coef.x1 c))
      else
        let cf := bfRact cvg.nEP (cvg.bf.x1 c) (coef.x1 c)
        bfActt rvg.nEP (rvg.bf.x1 c) cf
    sumLev rvg.nQP ftf (ptr (rvg.det c))
  else
    let ftfu :=
      if coef.nCol = 1 then mulF (bfActt rvg.nEP (rvg.bf.x1 c) (valQp c)) (ptr (coef.x1 c))
      else bfActt rvg.nEP (rvg.bf.x1 c) (mulAB rvg.dim (coef.x1 c) (valQp c))
    sumLev rvg.nQP ftfu (ptr (rvg.det c))

/-- `DotProductTerm.d_dot` (sfepy/terms/terms_dot.py:64-89) followed by `integrate` of the mapping
(sfepy/discrete/common/mappings.py:31-41); `n1`, `n2` are the numbers of components of the two arguments,
`none` for `mat` is a missing material. Not modelled: the broadcasting of `mat * dot_sequences(...)` for different
`n1`, `n2`, where the shapes do not match (`none`). -/
def dDot (geo : Mapping K) (mat : Option (Fld K)) (n1 n2 : ℕ) (val1 val2 : ℕ → Lev K) (c : ℕ) : Option (ℕ → ℕ → K) :=
  let integrate := fun vec => some (sumLev geo.nQP vec (ptr (geo.det c)))
  match mat with
  | none =>
    if n1 > 1 then
      if n2 = 1 then integrate (mulAB 1 (mulATB n1 (val1 c) (geo.normal c)) (val2 c))
      else if n1 = n2 then integrate (mulATB n1 (val1 c) (val2 c)) else none
    else if n2 = 1 then integrate fun q i j => val1 c q i j * val2 c q i j
    else none
  | some mat =>
    if n1 ≠ n2 then none
    else if mat.nCol = 1 then
      if n1 > 1 then integrate (mulF (mulATB n1 (val1 c) (val2 c)) (ptr (mat.x1 c)))
      else integrate fun q i j => mat.x1 c q 0 0 * val1 c q i j * val2 c q i j
    else integrate (mulATB n1 (val1 c) (mulAB n1 (mat.x1 c) (val2 c)))

/-- `dw_v_dot_grad_s_vw` (sfepy/terms/extmods/terms_dot.c:261-325). -/
def dwVDotGradSVw (vvg svg : Mapping K) (coef : Fld K) (grad : ℕ → Lev K) (isDiff : Bool) (c : ℕ) : ℕ → ℕ → K :=
  let ftg :=
    if isDiff then
      if coef.nCol = 1 then mulF (bfActt vvg.nEP (vvg.bf.x1 c) (svg.bfGM c)) (ptr (coef.x1 c))
      else bfActt vvg.nEP (vvg.bf.x1 c) (mulAB vvg.dim (coef.x1 c) (svg.bfGM c))
    else
      if coef.nCol = 1 then mulF (bfActtC1 vvg.nEP (vvg.bf.x1 c) (grad c)) (ptr (coef.x1 c))
      else bfActt vvg.nEP (vvg.bf.x1 c) (mulAB vvg.dim (coef.x1 c) (grad c))
  sumLev vvg.nQP ftg (ptr (vvg.det c))

/-- `dw_v_dot_grad_s_sw` (sfepy/terms/extmods/terms_dot.c:329-402). -/
def dwVDotGradSSw (vvg svg : Mapping K) (coef : Fld K) (valQp : ℕ → Lev K) (isDiff : Bool) (c : ℕ) : ℕ → ℕ → K :=
  let gtf :=
    if isDiff then
      if coef.nCol = 1 then mulF (bfRact vvg.nEP (vvg.bf.x1 c) (mulATC (svg.bfGM c) 1)) (ptr (coef.x1 c))
      else mulATB vvg.dim (svg.bfGM c) (bfRact vvg.nEP (vvg.bf.x1 c) (mulATC (coef.x1 c) 1))
    else
      if coef.nCol = 1 then mulF (mulATB vvg.dim (svg.bfGM c) (valQp c)) (ptr (coef.x1 c))
      else mulATB vvg.dim (svg.bfGM c) (mulATB vvg.dim (coef.x1 c) (valQp c))
  sumLev vvg.nQP gtf (ptr (vvg.det c))

/-- `dw_surface_v_dot_n_s` (sfepy/terms/extmods/terms_dot.c:6-55). -/
def dwVDotNS (rsg csg : Mapping K) (coef : Fld K) (valQp : ℕ → Lev K) (isDiff : Bool) (c : ℕ) : ℕ → ℕ → K :=
  let aux1 := bfActt rsg.nEP (rsg.bf.x1 c) (rsg.normal c)
  let aux2 := mulAB 1 aux1 (if isDiff then csg.bf.x1 c else valQp c)
  sumLev rsg.nQP (mulF aux2 (ptr (coef.x1 c))) (ptr (rsg.det c))

/-- `dw_surface_s_v_dot_n` (sfepy/terms/extmods/terms_dot.c:59-109). -/
def dwSVDotN (rsg csg : Mapping K) (coef : Fld K) (valQp : ℕ → Lev K) (isDiff : Bool) (c : ℕ) : ℕ → ℕ → K :=
  let aux2 :=
    if isDiff then mulATBT 1 (rsg.bf.x1 c) (bfActt csg.nEP (csg.bf.x1 c) (rsg.normal c))
    else mulATB 1 (rsg.bf.x1 c) (mulATB rsg.dim (rsg.normal c) (valQp c))
  sumLev rsg.nQP (mulF aux2 (ptr (coef.x1 c))) (ptr (rsg.det c))

/-- `dw_volume_lvf` (sfepy/terms/extmods/terms_volume.c:13-39). -/
def dwVolumeLvf (vg : Mapping K) (force : Fld K) (c : ℕ) : ℕ → ℕ → K :=
  sumLev vg.nQP (bfActtC1 vg.nEP (vg.bf.x1 c) (force.x1 c)) (ptr (vg.det c))

/-- `dw_electric_source` (sfepy/terms/extmods/terms_electric.c:7-40): multiplied by `coef->val[0]`. -/
def dwElectricSource (vg : Mapping K) (coef : Fld K) (grad : ℕ → Lev K) (c : ℕ) : ℕ → ℕ → K :=
  let gp2 := mulATB vg.dim (grad c) (grad c)
  let bftgp2 := mulATB 1 (vg.bf.x1 c) gp2
  mulC (sumLev vg.nQP bftgp2 (ptr (vg.det c))) (coef.x1 c 0 0 0)

/-- `mulAB_integrate` (sfepy/terms/extmods/terms_op.c:6-46) with the sizes `nRow`, `nCol` of `A`. -/
def mulABIntegrate (vg : Mapping K) (a b : Fld K) (mode c : ℕ) : Option (ℕ → ℕ → K) :=
  let r := fun aux => some (sumLev vg.nQP aux (ptr (vg.det c)))
  if mode = 0 then r (mulATB a.nRow (a.x1 c) (b.x1 c))
  else if mode = 1 then r (mulAB a.nCol (a.x1 c) (b.x1 c))
  else if mode = 2 then r (mulABT a.nCol (a.x1 c) (b.x1 c))
  else if mode = 3 then r (mulATBT a.nRow (a.x1 c) (b.x1 c))
  else none

end Verif.Term
