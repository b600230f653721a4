import Verif.Np.Vec
/-
Model of `sfepy/discrete/common/extmods/assemble.pyx` and of `create_adof_conn`
(`sfepy/discrete/variables.py`).

C arrays are functions from flat indices.  The float64 and complex128 variants differ only
in the scalar type, which is a parameter here (arithmetic is exact).  Reading or writing
out of bounds is not modelled (the theorems assume in-range connectivities where needed).
-/
namespace Verif.Asm
open Verif.Np

section Vector
variable {α : Type} [Add α] [Mul α]

/-- Body of the inner loop of `assemble_vector` (assemble.pyx:40-43):
`irg = pconn[ir]; if irg < 0: continue; val[irg] += sign * vec_in_el[ir]`. -/
def addEntry (sign : α) (val : Nat → α) (irg : Int) (x : α) : Nat → α :=
  if irg < 0 then val else upd val irg.toNat (val irg.toNat + sign * x)

/-- `assemble_vector` / `assemble_vector_complex` (assemble.pyx:13-77).
`vecIn` is the flat `vec_in_els`, `cellSize` the size of one element vector, `conn` the
flat connectivity with `nEp` columns. -/
def assembleVector (val : Nat → α) (vecIn : Nat → α) (cellSize : Nat) (iels : List Nat)
    (sign : α) (conn : Nat → Int) (nEp : Nat) : Nat → α :=
  iels.zipIdx.foldl (fun val p =>
    (List.range nEp).foldl (fun val ir =>
      addEntry sign val (conn (p.1 * nEp + ir)) (vecIn (p.2 * cellSize + ir))) val) val

end Vector

section Matrix
variable {α : Type} [Add α] [Mul α]

/-- The search loop `for ik in range(prows[irg], prows[irg+1]): if cols[ik] == icg: ... break`
with its `else` branch (assemble.pyx:119-128): position of the first match. -/
def linSearch (prows : Nat → Nat) (cols : Nat → Int) (irg : Nat) (icg : Int) : Option Nat :=
  (List.range' (prows irg) (prows (irg + 1) - prows irg)).find? fun ik => cols ik == icg

/-- `bsearch` (assemble.pyx:187-205).  `none` stands for the returned `-1`.  The integer
limits are mathematical integers (the C code adds them as uint32, so no overflow for
non-negative limits). -/
def bsearch (cols : Nat → Int) (i0 i1 : Int) (ii : Int) : Option Nat :=
  if h : i0 ≤ i1 then
    let im := (i0 + i1) / 2
    if cols im.toNat = ii then some im.toNat
    else if cols im.toNat < ii then bsearch cols (im + 1) i1 ii
    else bsearch cols i0 (im - 1) ii
  else none
termination_by (i1 - i0 + 1).toNat
decreasing_by all_goals omega

/-- The search used by `assemble_matrix_b` (assemble.pyx:251): note the inclusive upper
limit `_prows[irg + 1]`. -/
def binSearch (prows : Nat → Nat) (cols : Nat → Int) (irg : Nat) (icg : Int) : Option Nat :=
  bsearch cols (prows irg) (prows (irg + 1)) icg

/-- Body of the innermost loop (assemble.pyx:113-128).  An error carries the data array as
modified so far (`IndexError` is raised with `val` already updated in place). -/
def addItem (search : Nat → Int → Option Nat) (sign : α) (irg icg : Int) (x : α)
    (val : Nat → α) : Except (Nat → α) (Nat → α) :=
  if irg < 0 then .ok val
  else if icg < 0 then .ok val
  else
    match search irg.toNat icg with
    | some ik => .ok (upd val ik (val ik + sign * x))
    | none => .error val

/-- `assemble_matrix(_complex)` with `search := linSearch prows cols` (assemble.pyx:79-185)
and `assemble_matrix(_complex)_b` with `search := binSearch prows cols`
(assemble.pyx:207-310).  The test of `irg` is done inside the column loop, which has the
same effect. -/
def assembleMatrix (search : Nat → Int → Option Nat) (val : Nat → α) (mtxIn : Nat → α)
    (cellSize : Nat) (iels : List Nat) (sign : α) (rowConn : Nat → Int) (nEpr : Nat)
    (colConn : Nat → Int) (nEpc : Nat) : Except (Nat → α) (Nat → α) :=
  iels.zipIdx.foldlM (fun val p =>
    (List.range nEpr).foldlM (fun val ir =>
      (List.range nEpc).foldlM (fun val ic =>
        addItem search sign (rowConn (p.1 * nEpr + ir)) (colConn (p.1 * nEpc + ic))
          (mtxIn (p.2 * cellSize + (nEpc * ir + ic))) val) val) val) val

end Matrix

/-- `aux + offset * (aux >= 0)` (variables.py:143-144, 151-152). -/
def shiftActive (offset : Nat) (aux : Int) : Int :=
  aux + (offset : Int) * (if 0 ≤ aux then 1 else 0)

/-- `create_adof_conn(eq, conn, dpn, offset)` (variables.py:129-155) as a two-dimensional
array `adc e c`; `garbage` is the content of `nm.empty`. -/
def createAdofConn (garbage : Nat → Nat → Int) (eq : Nat → Int) (conn : Nat → Nat → Nat)
    (nEp dpn offset : Nat) : Nat → Nat → Int :=
  if dpn = 1 then fun e c => shiftActive offset (eq (conn e c))
  else
    (List.range dpn).foldl (fun adc idof => fun e c =>
      -- `adc[:, ii : ii + n_ep] = ...` with `ii = idof * n_ep`
      if idof * nEp ≤ c ∧ c < idof * nEp + nEp then
        shiftActive offset (eq (dpn * conn e (c - idof * nEp) + idof))
      else adc e c) garbage

end Verif.Asm
