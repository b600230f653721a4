/-
A model of the kernels of flow, coupling and traction terms: sfepy/terms/extmods/terms_navier_stokes.c, terms_biot.c,
terms_piezo.c, terms_surface.c and of the Python parts passing data to them.
-/
import Verif.Term.KerElastic

namespace Verif.Term

open Finset

variable {K : Type} [Field K]

/-! ### sfepy/terms/extmods/terms_navier_stokes.c -/

/-- `grad.transpose((0, 1, 3, 2))` (sfepy/terms/terms_navier_stokes.py:112): the rows are the components. -/
def gradT (grad : ℕ → Lev K) : ℕ → Lev K := fun c q a i => grad c q i a

/-- A block with the upper left corner at the offset `o`, in an array with `nCol` columns, of the size `n` times `m`:
the position of the element `(r, s)` in it. -/
def blockAt (o nCol n m r s : ℕ) : Option (ℕ × ℕ) :=
  let f := nCol * r + s
  if o ≤ f ∧ (f - o) / nCol < n ∧ (f - o) % nCol < m then some ((f - o) / nCol, (f - o) % nCol) else none

/-- `divgrad_build_gtg` (sfepy/terms/extmods/terms_navier_stokes.c:16-108): the blocks start at the offsets
`0`, `(nCol + 1) * nEPv`, `2 * (nCol + 1) * nEPv`, `nCol = dim * nEPs`. (The blocks overlap only for different
`nEPv`, `nEPs`, where the order of writing is not modelled.) -/
def divgradGtg (dim nEPv nEPs : ℕ) (gv gs : Lev K) : Option (Lev K) :=
  let nCol := dim * nEPs
  let o := (nCol + 1) * nEPv
  match dim with
  | 3 => some fun l r s =>
    let v := fun ir ic => gv l 0 ir * gs l 0 ic + gv l 1 ir * gs l 1 ic + gv l 2 ir * gs l 2 ic
    match blockAt 0 nCol nEPv nEPs r s, blockAt o nCol nEPv nEPs r s, blockAt (o + o) nCol nEPv nEPs r s with
    | some p, _, _ => v p.1 p.2
    | none, some p, _ => v p.1 p.2
    | none, none, some p => v p.1 p.2
    | none, none, none => 0
  | 2 => some fun l r s =>
    let v := fun ir ic => gv l 0 ir * gs l 0 ic + gv l 1 ir * gs l 1 ic
    match blockAt 0 nCol nEPv nEPs r s, blockAt o nCol nEPv nEPs r s with
    | some p, _ => v p.1 p.2
    | none, some p => v p.1 p.2
    | none, none => 0
  | 1 => some fun l r s => gv l 0 r * gs l 0 s
  | _ => none

/-- `divgrad_act_gt_m` (sfepy/terms/extmods/terms_navier_stokes.c:239-327). -/
def divgradActGtM (dim nEP : ℕ) (gc mtx : Lev K) : Option (Lev K) :=
  match dim with
  | 3 => some fun l r ii =>
    let iep := r % nEP
    match r / nEP with
    | 0 => gc l 0 iep * mtx l 0 ii + gc l 1 iep * mtx l 1 ii + gc l 2 iep * mtx l 2 ii
    | 1 => gc l 0 iep * mtx l 3 ii + gc l 1 iep * mtx l 4 ii + gc l 2 iep * mtx l 5 ii
    | _ => gc l 0 iep * mtx l 6 ii + gc l 1 iep * mtx l 7 ii + gc l 2 iep * mtx l 8 ii
  | 2 => some fun l r ii =>
    let iep := r % nEP
    match r / nEP with
    | 0 => gc l 0 iep * mtx l 0 ii + gc l 1 iep * mtx l 1 ii
    | _ => gc l 0 iep * mtx l 2 ii + gc l 1 iep * mtx l 3 ii
  | 1 => some fun l r ii => gc l 0 (r % nEP) * mtx l 0 ii
  | _ => none

/-- `term_ns_asm_div_grad` (sfepy/terms/extmods/terms_navier_stokes.c:577-624). -/
def dwDivGrad (vgv vgs : Mapping K) (visc : Fld K) (grad : ℕ → Lev K) (isDiff : Bool) (c : ℕ) : Option (ℕ → ℕ → K) :=
  if isDiff then
    (divgradGtg vgv.dim vgv.nEP vgs.nEP (vgv.bfGM c) (vgs.bfGM c)).map fun gtg =>
      sumLev vgv.nQP (mulF gtg (ptr (visc.x1 c))) (ptr (vgv.det c))
  else
    (divgradActGtM vgv.dim vgv.nEP (vgv.bfGM c) (grad c)).map fun gtgu =>
      sumLev vgv.nQP (mulF gtgu (ptr (visc.x1 c))) (ptr (vgv.det c))

/-- `DivGradTerm.d_div_grad` (sfepy/terms/terms_navier_stokes.py:31-45) in the evaluation mode 0: the gradients
reshaped to columns. -/
def dDivGrad (vg : Mapping K) (mat : Fld K) (grad1 grad2 : ℕ → Lev K) (c : ℕ) : ℕ → ℕ → K :=
  let g1 := pretend vg.dim 1 (grad1 c)
  let g2 := pretend vg.dim 1 (grad2 c)
  sumLev vg.nQP (mulF (mulATB (vg.dim * vg.dim) g1 g2) (ptr (mat.x1 c))) (ptr (vg.det c))

/-- `convect_build_vtg` (sfepy/terms/extmods/terms_navier_stokes.c:497-566): `pout2`, `pout3` start at the rows 1, 2
and the columns `nEP`, `2 * nEP`; the array is filled by zeros by its allocation. -/
def convectVtg (dim nEP : ℕ) (gc fv : Lev K) : Option (Lev K) :=
  match dim with
  | 3 => some fun l r s =>
    let v := fun iep => gc l 0 iep * fv l 0 0 + gc l 1 iep * fv l 1 0 + gc l 2 iep * fv l 2 0
    if r = 0 ∧ s < nEP then v s
    else if r = 1 ∧ nEP ≤ s ∧ s < 2 * nEP then v (s - nEP)
    else if r = 2 ∧ 2 * nEP ≤ s ∧ s < 3 * nEP then v (s - 2 * nEP)
    else 0
  | 2 => some fun l r s =>
    let v := fun iep => gc l 0 iep * fv l 0 0 + gc l 1 iep * fv l 1 0
    if r = 0 ∧ s < nEP then v s
    else if r = 1 ∧ nEP ≤ s ∧ s < 2 * nEP then v (s - nEP)
    else 0
  | 1 => some fun l r s => if r = 0 ∧ s < nEP then gc l 0 s * fv l 0 0 else 0
  | _ => none

/-- `term_ns_asm_convect` (sfepy/terms/extmods/terms_navier_stokes.c:633-692); the rows of `grad` are components. -/
def dwConvect (vg : Mapping K) (grad state : ℕ → Lev K) (isDiff : Bool) (c : ℕ) : Option (ℕ → ℕ → K) :=
  if isDiff then
    let guf := bfRact vg.nEP (vg.bf.x1 c) (grad c)
    let ftguf := bfActt vg.nEP (vg.bf.x1 c) guf
    (convectVtg vg.dim vg.nEP (vg.bfGM c) (state c)).map fun utg =>
      let ftutg := bfActt vg.nEP (vg.bf.x1 c) utg
      sumLev vg.nQP (addAB ftguf ftutg) (ptr (vg.det c))
  else
    let gufu := mulAB vg.dim (grad c) (state c)
    some (sumLev vg.nQP (bfActt vg.nEP (vg.bf.x1 c) gufu) (ptr (vg.det c)))

/-- `dw_lin_convect` (sfepy/terms/extmods/terms_navier_stokes.c:703-756) for `isDiff` 0, 1. -/
def dwLinConvect (vg : Mapping K) (grad : ℕ → Lev K) (stateB : Fld K) (isDiff : Bool) (c : ℕ) : Option (ℕ → ℕ → K) :=
  if isDiff then
    (convectVtg vg.dim vg.nEP (vg.bfGM c) (stateB.x1 c)).map fun btg =>
      sumLev vg.nQP (bfActt vg.nEP (vg.bf.x1 c) btg) (ptr (vg.det c))
  else
    let gufb := mulAB vg.dim (grad c) (stateB.x1 c)
    some (sumLev vg.nQP (bfActt vg.nEP (vg.bf.x1 c) gufb) (ptr (vg.det c)))

/-- `dw_lin_convect` in the `qp` mode (sfepy/terms/extmods/terms_navier_stokes.c:743). -/
def dqLinConvect (vg : Mapping K) (grad : ℕ → Lev K) (stateB : Fld K) (c : ℕ) : Lev K :=
  mulAB vg.dim (grad c) (stateB.x1 c)

/-- `dw_div` (sfepy/terms/extmods/terms_navier_stokes.c:764-813): the gradients are taken as a row. -/
def dwDiv (svg vvg : Mapping K) (coef : Fld K) (div : ℕ → Lev K) (isDiff : Bool) (c : ℕ) : ℕ → ℕ → K :=
  let gcl := pretend vvg.nEP (vvg.nEP * vvg.dim) (vvg.bfGM c)
  let ftg := mulATB 1 (svg.bf.x1 c) (if isDiff then gcl else div c)
  sumLev vvg.nQP (mulF ftg (ptr (coef.x1 c))) (ptr (vvg.det c))

/-- `dw_grad` (sfepy/terms/extmods/terms_navier_stokes.c:821-870). -/
def dwGrad (svg vvg : Mapping K) (coef : Fld K) (state : ℕ → Lev K) (isDiff : Bool) (c : ℕ) : ℕ → ℕ → K :=
  let gcl := pretend vvg.nEP (vvg.nEP * vvg.dim) (vvg.bfGM c)
  let gtf := mulATB 1 gcl (if isDiff then svg.bf.x1 c else state c)
  sumLev vvg.nQP (mulF gtf (ptr (coef.x1 c))) (ptr (vvg.det c))

/-- `StokesTerm.d_eval` (sfepy/terms/terms_navier_stokes.py:252-258). -/
def dStokes (vvg : Mapping K) (coef : Fld K) (val div : ℕ → Lev K) (c : ℕ) : ℕ → ℕ → K :=
  sumLev vvg.nQP (fun q i j => coef.x1 c q 0 0 * val c q i j * div c q i j) (ptr (vvg.det c))

/-- `dw_st_grad_div` (sfepy/terms/extmods/terms_navier_stokes.c:1089-1137). -/
def dwStGradDiv (vg : Mapping K) (coef : Fld K) (div : ℕ → Lev K) (isDiff : Bool) (c : ℕ) : ℕ → ℕ → K :=
  let gcl := pretend vg.nEP (vg.nEP * vg.dim) (vg.bfGM c)
  let gtg := mulATB 1 gcl (if isDiff then gcl else div c)
  sumLev vg.nQP (mulF gtg (ptr (coef.x1 c))) (ptr (vg.det c))

/-- `dw_st_pspg_c` (sfepy/terms/extmods/terms_navier_stokes.c:878-945). -/
def dwStPspgC (vgp vgu : Mapping K) (stateB : ℕ → Lev K) (stateU : ℕ → K) (coef : Fld K) (conn : ℕ → ℕ → ℕ)
    (isDiff : Bool) (c : ℕ) : Option (ℕ → ℕ → K) :=
  (convectVtg vgu.dim vgu.nEP (vgu.bfGM c) (stateB c)).map fun btg =>
    let stuv := pretend vgu.nEP 1 (extractDBD vgu.dim stateU (conn c))
    let btgu := if isDiff then btg else mulABn1 (vgu.nEP * vgu.dim) btg stuv
    sumLev vgu.nQP (mulF (mulATB vgu.dim (vgp.bfGM c) btgu) (ptr (coef.x1 c))) (ptr (vgu.det c))

/-- `dw_st_supg_p` (sfepy/terms/extmods/terms_navier_stokes.c:954-1008). -/
def dwStSupgP (vgu vgp : Mapping K) (stateB gradP : ℕ → Lev K) (coef : Fld K) (isDiff : Bool) (c : ℕ) :
    Option (ℕ → ℕ → K) :=
  (convectVtg vgu.dim vgu.nEP (vgu.bfGM c) (stateB c)).map fun btg =>
    sumLev vgu.nQP (mulF (mulATB vgu.dim btg (if isDiff then vgp.bfGM c else gradP c)) (ptr (coef.x1 c)))
      (ptr (vgu.det c))

/-- `dw_st_supg_c` (sfepy/terms/extmods/terms_navier_stokes.c:1017-1081). -/
def dwStSupgC (vg : Mapping K) (stateB : ℕ → Lev K) (stateU : ℕ → K) (coef : Fld K) (conn : ℕ → ℕ → ℕ)
    (isDiff : Bool) (c : ℕ) : Option (ℕ → ℕ → K) :=
  (convectVtg vg.dim vg.nEP (vg.bfGM c) (stateB c)).map fun btg =>
    let stuv := pretend vg.nEP 1 (extractDBD vg.dim stateU (conn c))
    let btgu := if isDiff then btg else mulABn1 (vg.nEP * vg.dim) btg stuv
    sumLev vg.nQP (mulF (mulATB vg.dim btg btgu) (ptr (coef.x1 c))) (ptr (vg.det c))

/-! ### sfepy/terms/extmods/terms_biot.c -/

/-- The values `op_nonsym_biot` (sfepy/terms/extmods/terms_biot.c:7-63) writes to the position `s` of its output, a
row or a column; `vec` is a column. Nothing is written in 1D. -/
def opNonsymBiot (dim nEP : ℕ) (vec gc : Lev K) : Option (ℕ → ℕ → K) :=
  match dim with
  | 3 => some fun l s =>
    let iep := s % nEP
    match s / nEP with
    | 0 => gc l 0 iep * vec l 0 0 + gc l 1 iep * vec l 3 0 + gc l 2 iep * vec l 6 0
    | 1 => gc l 0 iep * vec l 1 0 + gc l 1 iep * vec l 4 0 + gc l 2 iep * vec l 7 0
    | _ => gc l 0 iep * vec l 2 0 + gc l 1 iep * vec l 5 0 + gc l 2 iep * vec l 8 0
  | 2 => some fun l s =>
    let iep := s % nEP
    match s / nEP with
    | 0 => gc l 0 iep * vec l 0 0 + gc l 1 iep * vec l 2 0
    | _ => gc l 0 iep * vec l 1 0 + gc l 1 iep * vec l 3 0
  | _ => none

/-- `BiotTerm.get_fargs`: a square matrix is transposed and reshaped to a column
(sfepy/terms/terms_biot.py:54-59). -/
def biotMat (f : Fld K) : Fld K :=
  if f.nRow = f.nCol ∧ f.nCol > 1 then
    ⟨f.nCell, f.nRow * f.nRow, 1, fun c q r _ => f.val c q (r % f.nRow) (r / f.nRow)⟩
  else f

/-- `BiotTerm.get_fargs`: the gradient reshaped to a column (sfepy/terms/terms_biot.py:76-78, 96-98). -/
def biotGrad (dim : ℕ) (grad : ℕ → Lev K) : ℕ → Lev K := fun c => pretend dim 1 (grad c)

/-- `dw_biot_grad` (sfepy/terms/extmods/terms_biot.c:72-140). -/
def dwBiotGrad (svg vvg : Mapping K) (coef : K) (pressure : ℕ → Lev K) (mtxD : Fld K) (isDiff : Bool) (c : ℕ) :
    Option (ℕ → ℕ → K) :=
  let sym := symOf vvg.dim
  if isDiff then do
    let gtd : Lev K ←
      if mtxD.nRow = sym then actOpGTM3 vvg.dim vvg.nEP (vvg.bfGM c) (mtxD.x1 c)
      else (opNonsymBiot vvg.dim vvg.nEP (mtxD.x1 c) (vvg.bfGM c)).map fun f l r _ => f l r
    let gtdf := mulAB 1 gtd (svg.bf.x1 c)
    some (mulC (sumLev vvg.nQP gtdf (ptr (vvg.det c))) coef)
  else do
    let dfp := mulAB 1 (mtxD.x1 c) (pressure c)
    let gtdfp : Lev K ←
      if mtxD.nRow = sym then actOpGTVS3 vvg.dim vvg.nEP (vvg.bfGM c) dfp
      else (opNonsymBiot vvg.dim vvg.nEP dfp (vvg.bfGM c)).map fun f l r _ => f l r
    some (mulC (sumLev vvg.nQP gtdfp (ptr (vvg.det c))) coef)

/-- `dw_biot_div` (sfepy/terms/extmods/terms_biot.c:149-217). -/
def dwBiotDiv (svg vvg : Mapping K) (coef : K) (strain : ℕ → Lev K) (mtxD : Fld K) (isDiff : Bool) (c : ℕ) :
    Option (ℕ → ℕ → K) :=
  let sym := symOf vvg.dim
  if isDiff then do
    let dtg : Lev K ←
      if mtxD.nRow = sym then actOpGRM3 vvg.dim vvg.nEP (pretend 1 sym (mtxD.x1 c)) (vvg.bfGM c)
      else (opNonsymBiot vvg.dim vvg.nEP (mtxD.x1 c) (vvg.bfGM c)).map fun f l _ s => f l s
    let ftdtg := mulATB 1 (svg.bf.x1 c) dtg
    some (mulC (sumLev vvg.nQP ftdtg (ptr (vvg.det c))) coef)
  else
    let dtgu := mulATB mtxD.nRow (mtxD.x1 c) (strain c)
    let ftdtgu := mulATB 1 (svg.bf.x1 c) dtgu
    some (mulC (sumLev vvg.nQP ftdtgu (ptr (vvg.det c))) coef)

/-- `d_biot_div` (sfepy/terms/extmods/terms_biot.c:225-259). -/
def dBiotDiv (vg : Mapping K) (coef : K) (state strain : ℕ → Lev K) (mtxD : Fld K) (c : ℕ) : ℕ → ℕ → K :=
  let dtgu := mulATB mtxD.nRow (mtxD.x1 c) (strain c)
  let pftdtgu := mulATB 1 (state c) dtgu
  mulC (sumLev vg.nQP pftdtgu (ptr (vg.det c))) coef

/-! ### sfepy/terms/extmods/terms_piezo.c -/

/-- `dw_piezo_coupling` (sfepy/terms/extmods/terms_piezo.c:7-81); `vg` is the mapping of the displacement, its
gradients are used for the potential, too. -/
def dwPiezo (vg : Mapping K) (strain chargeGrad : ℕ → Lev K) (mtxG : Fld K) (mode c : ℕ) : Option (ℕ → ℕ → K) :=
  if mode = 0 then do
    let gtgp := mulATB vg.dim (mtxG.x1 c) (chargeGrad c)
    let gtgtgp ← actOpGTVS3 vg.dim vg.nEP (vg.bfGM c) gtgp
    some (sumLev vg.nQP gtgtgp (ptr (vg.det c)))
  else if mode = 2 then
    let ge := mulAB (symOf vg.dim) (mtxG.x1 c) (strain c)
    let gctge := mulATB vg.dim (vg.bfGM c) ge
    some (sumLev vg.nQP gctge (ptr (vg.det c)))
  else do
    let gg ← actOpGRM3 vg.dim vg.nEP (mtxG.x1 c) (vg.bfGM c)
    let gctgg := mulATB vg.dim (vg.bfGM c) gg
    if mode = 1 then some (sumLevT vg.nQP gctgg (ptr (vg.det c)))
    else some (sumLev vg.nQP gctgg (ptr (vg.det c)))

/-- `d_piezo_coupling` (sfepy/terms/extmods/terms_piezo.c:85-115). -/
def dPiezo (vg : Mapping K) (strain chargeGrad : ℕ → Lev K) (mtxG : Fld K) (c : ℕ) : ℕ → ℕ → K :=
  let ge := mulAB (symOf vg.dim) (mtxG.x1 c) (strain c)
  let gptge := mulATB vg.dim (chargeGrad c) ge
  sumLev vg.nQP gptge (ptr (vg.det c))

/-! ### sfepy/terms/extmods/terms_surface.c -/

/-- The table `_is` of `geme_mulAVSB3` (sfepy/discrete/common/extmods/geommech.c:401-403). -/
def avsTab : List ℕ := [0, 0, 0, 0, 0, 0, 0, 0, 0, 0, 2, 2, 1, 0, 0, 0, 0, 0, 0, 3, 4, 3, 1, 5, 4, 5, 2]

/-- `geme_mulAVSB3` (sfepy/discrete/common/extmods/geommech.c:398-440). -/
def mulAVSB3 (dim : ℕ) (vs inp : Lev K) : Lev K := fun l ir ic =>
  ∑ ii ∈ range dim, vs l (avsTab[9 * (dim - 1) + (dim * ir + ii)]?.getD 0) 0 * inp l ii ic

/-- `dw_surface_ltr` (sfepy/terms/extmods/terms_surface.c:12-97); `none` for no material, which is an array
without rows. -/
def dwSurfaceLtr (sg : Mapping K) (traction : Option (Fld K)) (c : ℕ) : Option (ℕ → ℕ → K) :=
  let r := fun x => some (sumLev sg.nQP (bfActt sg.nEP (sg.bf.x1 c) x) (ptr (sg.det c)))
  match traction with
  | none => r (sg.normal c)
  | some t =>
    if t.nRow = 1 then r (mulAB 1 (sg.normal c) (t.x1 c))
    else if t.nRow = sg.dim then r (t.x1 c)
    else if t.nRow = symOf sg.dim then r (mulAVSB3 sg.dim (t.x1 c) (sg.normal c))
    else none

/-- `LinearTractionTerm.d_fun` (sfepy/terms/terms_surface.py:44-68). -/
def dSurfaceLtr (sg : Mapping K) (traction : Option (Fld K)) (val : ℕ → Lev K) (c : ℕ) : Option (ℕ → ℕ → K) :=
  let r := fun x => some (sumLev sg.nQP (mulATB sg.dim (val c) x) (ptr (sg.det c)))
  match traction with
  | none => r (sg.normal c)
  | some t =>
    if t.nRow = 1 then r (mulF (sg.normal c) (ptr (t.x1 c)))
    else if t.nRow = sg.dim ∧ t.nCol = 1 then r (t.x1 c)
    else if t.nRow = sg.dim ∧ t.nCol = sg.dim then r (mulATB sg.dim (t.x1 c) (sg.normal c))
    else if t.nRow = symOf sg.dim then r (mulAVSB3 sg.dim (t.x1 c) (sg.normal c))
    else none

end Verif.Term
