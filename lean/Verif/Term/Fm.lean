/-
A model of the arrays of the term kernels (`FMField`, sfepy/discrete/common/extmods/fmfield.c) and of the
operations with basis functions (sfepy/discrete/common/extmods/geommech.c).

The array of one cell is a function of the level (quadrature point), the row and the column; sizes are passed
explicitly where a loop needs them. An element outside of the sizes is never read by the modelled code, as the
checks of `DEBUG_FMF` would find (they are switched off by default). `float64` are elements of a field.
-/
import Mathlib.Algebra.BigOperators.Group.Finset.Basic
import Mathlib.Algebra.Field.Basic
import Mathlib.Algebra.BigOperators.Ring.Finset

namespace Verif.Term

open Finset

/-- The data of one cell of an `FMField` (sfepy/discrete/common/extmods/fmfield.h:21-34): level, row, column. -/
abbrev Lev (K : Type) := ℕ → ℕ → ℕ → K

/-- An `FMField` (sfepy/discrete/common/extmods/fmfield.h:21-34) with the data of each cell. -/
structure Fld (K : Type) where
  nCell : ℕ
  nRow : ℕ
  nCol : ℕ
  val : ℕ → Lev K

/-- `FMF_SetCellX1` (sfepy/discrete/common/extmods/fmfield.h:49-51): the data of the `n`-th cell, a single
cell is shared. -/
def Fld.x1 {K : Type} (f : Fld K) (n : ℕ) : Lev K := if f.nCell > 1 then f.val n else f.val 0

/-- The mapping data the kernels take (`Mapping` in sfepy/discrete/common/extmods/refmaps.h:11-25): `bf`
is accessed by `FMF_SetCellX1`, the other arrays by `FMF_SetCell`. -/
structure Mapping (K : Type) where
  dim : ℕ
  nQP : ℕ
  nEP : ℕ
  bf : Fld K
  bfGM : ℕ → Lev K
  det : ℕ → Lev K
  normal : ℕ → Lev K
  volume : ℕ → Lev K

section

variable {K : Type} [Field K]

/-- `fmf_mulAB_nn` (sfepy/discrete/common/extmods/fmfield.c:506-539); `n` is the number of columns of `a`. -/
def mulAB (n : ℕ) (a b : Lev K) : Lev K := fun l i j => ∑ k ∈ range n, a l i k * b l k j

/-- `fmf_mulAB_n1` (sfepy/discrete/common/extmods/fmfield.c:552-585). -/
def mulABn1 (n : ℕ) (a b : Lev K) : Lev K := fun l i j => ∑ k ∈ range n, a l i k * b 0 k j

/-- `fmf_mulATB_nn` (sfepy/discrete/common/extmods/fmfield.c:638-671); `n` is the number of rows of `a`. -/
def mulATB (n : ℕ) (a b : Lev K) : Lev K := fun l i j => ∑ k ∈ range n, a l k i * b l k j

/-- `fmf_mulABT_nn` (sfepy/discrete/common/extmods/fmfield.c:725-758); `n` is the number of columns of `a`. -/
def mulABT (n : ℕ) (a b : Lev K) : Lev K := fun l i j => ∑ k ∈ range n, a l i k * b l j k

/-- `fmf_mulATBT_nn` (sfepy/discrete/common/extmods/fmfield.c:769-802); `n` is the number of rows of `a`. -/
def mulATBT (n : ℕ) (a b : Lev K) : Lev K := fun l i j => ∑ k ∈ range n, a l k i * b l j k

/-- `fmf_mulATC` (sfepy/discrete/common/extmods/fmfield.c:393-421). -/
def mulATC (a : Lev K) (val : K) : Lev K := fun l i j => a l j i * val

/-- `fmf_mulAF` and `fmf_mul` (sfepy/discrete/common/extmods/fmfield.c:432-453, 341-354). -/
def mulF (a : Lev K) (val : ℕ → K) : Lev K := fun l i j => a l i j * val l

/-- `fmf_addAB_nn` (sfepy/discrete/common/extmods/fmfield.c:860-886). -/
def addAB (a b : Lev K) : Lev K := fun l i j => a l i j + b l i j

/-- `fmf_subAB_nn` (sfepy/discrete/common/extmods/fmfield.c:896-915). -/
def subAB (a b : Lev K) : Lev K := fun l i j => a l i j - b l i j

/-- `fmf_sumLevelsMulF` (sfepy/discrete/common/extmods/fmfield.c:1274-1296); `n` is the number of levels. -/
def sumLev (n : ℕ) (a : Lev K) (val : ℕ → K) : ℕ → ℕ → K := fun i j => ∑ l ∈ range n, a l i j * val l

/-- `fmf_sumLevelsTMulF` (sfepy/discrete/common/extmods/fmfield.c:1306-1334). -/
def sumLevT (n : ℕ) (a : Lev K) (val : ℕ → K) : ℕ → ℕ → K := fun i j => ∑ l ∈ range n, a l j i * val l

/-- `fmf_mulC` and `fmfc_mulC` (sfepy/discrete/common/extmods/fmfield.c:306-315, 323-332) of one level. -/
def mulC (a : ℕ → ℕ → K) (val : K) : ℕ → ℕ → K := fun i j => a i j * val

/-- The values an `float64 *val` pointer to an array with one row and one column gives for the levels. -/
def ptr (a : Lev K) : ℕ → K := fun l => a l 0 0

/-- `bf_act` (sfepy/discrete/common/extmods/geommech.c:695-727); `inp` has one level, `nEP` columns. -/
def bfAct (nEP : ℕ) (bf inp : Lev K) : Lev K := fun l i _ => ∑ r ∈ range nEP, bf l 0 r * inp 0 i r

/-- `bf_ract` (sfepy/discrete/common/extmods/geommech.c:737-774): the columns `nEP * c`, ... of the output are
the products of the column `c` and the basis functions. -/
def bfRact (nEP : ℕ) (bf inp : Lev K) : Lev K := fun l i j => inp l i (j / nEP) * bf l 0 (j % nEP)

/-- `bf_actt` (sfepy/discrete/common/extmods/geommech.c:785-822): the rows `nEP * r`, ... of the output are the
products of the basis functions and the row `r`. -/
def bfActt (nEP : ℕ) (bf inp : Lev K) : Lev K := fun l i j => bf l 0 (i % nEP) * inp l (i / nEP) j

/-- `bf_actt_c1` (sfepy/discrete/common/extmods/geommech.c:832-864); `inp` has one column. -/
def bfActtC1 (nEP : ℕ) (bf inp : Lev K) : Lev K := fun l i _ => bf l 0 (i % nEP) * inp l (i / nEP) 0

/-- `bf_buildFTF` (sfepy/discrete/common/extmods/geommech.c:872-902): `dim = ftf->nRow / nEPR`; the block
`(0, 0)`, then for more components the blocks `(1, 1)`, `(2, 2)`. -/
def buildFTF (dim nEPR nEPC : ℕ) (ftf1 : Lev K) : Lev K := fun l i j =>
  if i < nEPR ∧ j < nEPC then ftf1 l i j
  else if dim ≠ 1 ∧ (nEPR ≤ i ∧ i < 2 * nEPR) ∧ (nEPC ≤ j ∧ j < 2 * nEPC) then ftf1 l (i - nEPR) (j - nEPC)
  else if dim ≠ 1 ∧ dim ≠ 2 ∧ (2 * nEPR ≤ i ∧ i < 3 * nEPR) ∧ (2 * nEPC ≤ j ∧ j < 3 * nEPC) then
    ftf1 l (i - 2 * nEPR) (j - 2 * nEPC)
  else 0

/-- `ele_extractNodalValuesNBN` (sfepy/discrete/common/extmods/geommech.c:934-946) with `n` columns of the
output: the values of a cell, the rows are the nodes. `inp` is `in->val`. -/
def extractNBN (n : ℕ) (inp : ℕ → K) (conn : ℕ → ℕ) : Lev K := fun _ k i => inp (n * conn k + i)

/-- `ele_extractNodalValuesDBD` (sfepy/discrete/common/extmods/geommech.c:962-974) with `n` rows of the output:
the rows are the components. -/
def extractDBD (n : ℕ) (inp : ℕ → K) (conn : ℕ → ℕ) : Lev K := fun _ i k => inp (n * conn k + i)

/-- The array with `n` columns seen as an array with `n'` columns (`fmf_pretend` on the same data,
sfepy/discrete/common/extmods/fmfield.c:114-133). -/
def pretend (n n' : ℕ) (a : Lev K) : Lev K :=
  fun l i j => a l ((n' * i + j) / n) ((n' * i + j) % n)

end

end Verif.Term
