import Mathlib.Data.Real.Basic
import Mathlib.Algebra.Group.Basic
import Mathlib.Data.List.Basic

/-!
# Correctors and homogenized coefficients

Models the mini applications of `/repo/sfepy/homogenization/coefs_base.py` that solve the corrector problems
and evaluate the coefficients, and the index sets and polynomials of `/repo/sfepy/homogenization/utils.py`.
Exact real arithmetic.  DOF vectors are elements of an arbitrary real vector space.
-/

namespace Verif.Coef

/-- `iter_sym()` - `/repo/sfepy/homogenization/utils.py:40-45`. -/
def iterSym (dim : ℕ) : List (ℕ × ℕ) :=
  (List.range dim).map (fun i => (i, i)) ++
    (List.range dim).flatMap fun r => (List.range' (r + 1) (dim - (r + 1))).map fun c => (r, c)

/-- `iter_nonsym()` - `/repo/sfepy/homogenization/utils.py:47-50`. -/
def iterNonsym (dim : ℕ) : List (ℕ × ℕ) :=
  (List.range dim).flatMap fun r => (List.range dim).map fun c => (r, c)

/-- `coor_to_sym()` with its table - `/repo/sfepy/homogenization/utils.py:52-57`. -/
def coorToSym (r c dim : ℕ) : Option ℕ :=
  match dim with
  | 2 => [0, 2, 2, 1][2 * r + c]?
  | 3 => [0, 3, 4, 3, 1, 5, 4, 5, 2][3 * r + c]?
  | _ => none

/-- `build_op_pi()` - `/repo/sfepy/homogenization/utils.py:3-11`: the displacement `pi[node, component]` of the
node with the coordinates `coor node`. -/
def buildPi {n : ℕ} (coor : Fin n → ℕ → ℝ) (r s : ℕ) (node : Fin n) (i : ℕ) : ℝ :=
  if i = r then coor node s else 0

variable {U : Type} [AddCommGroup U]

/-- An index of a corrector or coefficient: `(ir, ic)`, with `None` for vector-like ones. -/
abbrev Idx := Option ℕ × Option ℕ

/-- A solution of corrector problems: a single state or states numbered by one or two indices; a state gives
DOF vectors by names of variables - `CorrSolution`, `/repo/sfepy/homogenization/coefs_base.py:84-96`. -/
inductive Corr (U : Type)
  | state (s : String → Option U)
  | states1 (n : ℕ) (s : ℕ → String → Option U)
  | states2 (n m : ℕ) (s : ℕ → ℕ → String → Option U)

/-- `get_corr_state()` and the component - `/repo/sfepy/homogenization/coefs_base.py:638-647`; `none` is an
exception.  Simplification: one index given to states with two is an error at once. -/
def corrState : Corr U → Idx → String → Option U
  | .state s, _, comp => s comp
  | .states1 n s, (none, some c), comp => if c < n then s c comp else none
  | .states1 n s, (some r, none), comp => if r < n then s r comp else none
  | .states2 n m s, (some r, some c), comp => if r < n ∧ c < m then s r c comp else none
  | _, _, _ => none

/-- An item of `set_variables`: the variable to be set, the required correctors that are added and the
component. -/
structure Item where
  var : String
  req : String
  more : List String
  comp : String

/-- The value of an item - `/repo/sfepy/homogenization/coefs_base.py:657-665`. -/
def itemVal (data : String → Option (Corr U)) (ix : Idx) (it : Item) : Option U :=
  it.more.foldl (fun acc r => acc.bind fun v => (data r).bind fun c => (corrState c ix it.comp).map (v + ·))
    ((data it.req).bind fun c => corrState c ix it.comp)

/-- The values of the variables; `none` if not set. -/
abbrev Vars (U : Type) := String → Option U

/-- The loop of `CoefMN.set_variables_default()` - `/repo/sfepy/homogenization/coefs_base.py:657-667`. -/
def setVars (data : String → Option (Corr U)) (ix : Idx) : List Item → Vars U → Option (Vars U)
  | [], vs => some vs
  | it :: its, vs => (itemVal data ix it).bind fun v =>
      setVars data ix its fun name => if name = it.var then some v else vs name

/-- The list `set_variables` of a coefficient: items for rows, for columns and common ones. -/
structure SetVar where
  row : List Item
  col : List Item
  extra : List Item

/-- The inner loop of `CoefMN.get_coef()` - `/repo/sfepy/homogenization/coefs_base.py:690-699`. -/
def colLoop (eval : Vars U → ℝ) (sv : SetVar) (data : String → Option (Corr U)) :
    List Idx → Vars U → Option (List ℝ × Vars U)
  | [], vs => some ([], vs)
  | j :: js, vs => (setVars data j (sv.col ++ sv.extra) vs).bind fun vs' =>
      (colLoop eval sv data js vs').map fun r => (eval vs' :: r.1, r.2)

/-- The outer loop of `CoefMN.get_coef()` - `/repo/sfepy/homogenization/coefs_base.py:682-699`. -/
def rowLoop (eval : Vars U → ℝ) (sv : SetVar) (data : String → Option (Corr U)) (cols : List Idx) :
    List Idx → Vars U → Option (List (List ℝ))
  | [], _ => some []
  | i :: is, vs => (setVars data i (sv.row ++ sv.extra) vs).bind fun vs' =>
      (colLoop eval sv data cols vs').bind fun r =>
        (rowLoop eval sv data cols is r.2).map fun rest => r.1 :: rest

/-- `CoefMN.get_coef()` - `/repo/sfepy/homogenization/coefs_base.py:674-703`. -/
noncomputable def getCoef (eval : Vars U → ℝ) (sv : SetVar) (data : String → Option (Corr U))
    (rows cols : List Idx) (vs : Vars U) (volume : ℝ) : Option (List (List ℝ)) :=
  (rowLoop eval sv data cols rows vs).map fun M => M.map fun r => r.map fun x => x / volume

/-- The indices of a pair. -/
def pairIdx (p : ℕ × ℕ) : Idx := (some p.1, some p.2)

/-- `CoefSymSym.__call__()` - `/repo/sfepy/homogenization/coefs_base.py:721-729`. -/
noncomputable def coefSymSym (eval : Vars U → ℝ) (sv : SetVar) (data : String → Option (Corr U)) (dim : ℕ)
    (vs : Vars U) (volume : ℝ) : Option (List (List ℝ)) :=
  getCoef eval sv data ((iterSym dim).map pairIdx) ((iterSym dim).map pairIdx) vs volume

/-- `CoefMN.__call__()` - `/repo/sfepy/homogenization/coefs_base.py:705-714`. -/
noncomputable def coefMN (eval : Vars U → ℝ) (sv : SetVar) (data : String → Option (Corr U)) (dim1 dim2 : ℕ)
    (vs : Vars U) (volume : ℝ) : Option (List (List ℝ)) :=
  getCoef eval sv data ((List.range dim1).map fun i => (some i, none))
    ((List.range dim2).map fun i => (none, some i)) vs volume

/-- The loop of `CorrNN.__call__()` - `/repo/sfepy/homogenization/coefs_base.py:382-398`: the problem is
solved for the data of each index, starting from the state left by the previous one. -/
def corrLoop {I : Type} (solve : U → U → U) (pi : I → U) : List I → U → List (I × U)
  | [], _ => []
  | i :: is, x => let y := solve x (pi i); (i, y) :: corrLoop solve pi is y

/-- The table of states filled by `CorrNN.__call__()`. -/
def corrStates {I : Type} [DecidableEq I] (solve : U → U → U) (pi : I → U) (is : List I) (x : U) (i : I) :
    Option U :=
  ((corrLoop solve pi is x).reverse.find? fun p => p.1 = i).map Prod.snd

end Verif.Coef
