import Verif.Iga.Polar
import Mathlib.Data.List.GetD

/-!
# Bezier extraction operators (discrete/iga/iga.py)

Matrices are functions of the row and the column; the rows and the columns `0, …, degree` count.
-/

namespace Iga

variable {K : Type*} [Field K]

/-- An extraction operator, `ndarray` of the shape `(degree + 1, degree + 1)`
(sfepy/discrete/iga/iga.py:87). -/
abbrev Op (K : Type*) := ℕ → ℕ → K

/-- `nm.eye(degree + 1, degree + 1)` (sfepy/discrete/iga/iga.py:87, 100). -/
def eye : Op K := fun i k => if i = k then 1 else 0

/-- The knots as a function of the index (`knots[i]`, sfepy/discrete/iga/iga.py:80-81).
Simplification: past the end the last knot is repeated; the model never reads there. -/
def knotFn (knots : List K) : ℕ → K := fun i => knots.getD (min i (knots.length - 1)) 0

/-- The scan for the last knot equal to `knots[b]` (sfepy/discrete/iga/iga.py:94-95). -/
def scanKnot [DecidableEq K] (t : ℕ → K) (n : ℕ) : ℕ → ℕ → ℕ
  | 0, b => b
  | fuel + 1, b => if b + 1 < n ∧ t b = t (b + 1) then scanKnot t n fuel (b + 1) else b

/-- The insertion weights: `alphas[ij - mult - 1] = numer / (knots[a + ij] - knots[a])`
(sfepy/discrete/iga/iga.py:104-107). -/
def alphas (t : ℕ → K) (a b mult : ℕ) : ℕ → K := fun x =>
  (t b - t a) / (t (a + (x + mult + 1)) - t a)

/-- `cc[:, ik] = alpha * cc[:, ik] + (1.0 - alpha) * cc[:, ik - 1]`
(sfepy/discrete/iga/iga.py:115-117). -/
def colUpdate (α : K) (ik : ℕ) (cc : Op K) : Op K := fun i k =>
  if k = ik then α * cc i ik + (1 - α) * cc i (ik - 1) else cc i k

/-- One sweep over the columns, `for ik in range(degree, s, -1)` (sfepy/discrete/iga/iga.py:114-117). -/
def sweep (al : ℕ → K) (p s : ℕ) (cc : Op K) : Op K :=
  (List.range (p - s)).foldl (fun cc q => colUpdate (al (p - q - s - 1)) (p - q) cc) cc

/-- `cn[save : ij + save + 2, save] = cc[degree - ij - 1: degree + 1, degree]`
(sfepy/discrete/iga/iga.py:119-122). -/
def saveColumn (p ij save : ℕ) (cc cn : Op K) : Op K := fun i k =>
  if k = save ∧ save ≤ i ∧ i < ij + save + 2 then cc (p - ij - 1 + (i - save)) p else cn i k

/-- The body of the loop over the inserted knots (sfepy/discrete/iga/iga.py:110-122). -/
def insertBody (al : ℕ → K) (p mult : ℕ) (hasNext : Bool) (st : Op K × Op K) (ij : ℕ) :
    Op K × Op K :=
  let cc := sweep al p (mult + ij) st.1
  (cc, if hasNext then saveColumn p ij (p - mult - ij - 1) cc st.2 else st.2)

/-- The loop over the inserted knots, on the current and on the next operator
(sfepy/discrete/iga/iga.py:103-122). -/
def insertKnots (t : ℕ → K) (a b p mult : ℕ) (hasNext : Bool) (cc cn : Op K) : Op K × Op K :=
  if mult < p then
    (List.range (p - mult)).foldl (insertBody (alphas t a b mult) p mult hasNext) (cc, cn)
  else (cc, cn)

/-- The main loop (sfepy/discrete/iga/iga.py:88-127); `done` are the finished operators, `cc = cs[-1]`. -/
def extractLoop [DecidableEq K] (t : ℕ → K) (n p : ℕ) :
    ℕ → ℕ → ℕ → List (Op K) → Op K → List (Op K)
  | 0, _, _, done, cc => done ++ [cc]
  | fuel + 1, a, b0, done, cc =>
    if b0 + 1 < n then
      let b := scanKnot t n n b0
      let r := insertKnots t a b p (b - b0 + 1) (decide (b + 1 < n)) cc eye
      if b + 1 < n then extractLoop t n p fuel b (b + 1) (done ++ [r.1]) r.2
      else done ++ [r.1]
    else done ++ [cc]

/-- `compute_bezier_extraction_1d` (sfepy/discrete/iga/iga.py:63-129). -/
def computeBezierExtraction1d [DecidableEq K] (knots : List K) (p : ℕ) : List (Op K) :=
  extractLoop (knotFn knots) knots.length p knots.length p (p + 1) [] eye

end Iga
