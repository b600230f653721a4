/-
A model of the construction of quadrature rules: sfepy/discrete/quadratures.py, simplex_cubature.py and
integrals.py.

Real numbers stand for floating point numbers throughout (the tables hold the decimal numbers of the
source text, exactly); rounding is not modelled.
-/
import Verif.Quad.Spec
import Mathlib.Data.Rat.Defs
import Mathlib.Analysis.Real.Sqrt

namespace Quad

/-! ## simplex_cubature.py -/

/-- The largest first component, sfepy/discrete/simplex_cubature.py:19-20. -/
def effMax (n : ℕ) : Option ℕ → ℕ
  | none => n
  | some v => if n < v then n else v

/-- `generate_decreasing_nonnegative_tuples_summing_to(n, length, 0, max)`,
sfepy/discrete/simplex_cubature.py:8-26: `none` is the TypeError of comparing with `None` when the length
is one.  The remainder `n - i` is never negative, because `i ≤ max ≤ n`. -/
def decTuples (n : ℕ) : ℕ → Option ℕ → Option (List (List ℕ))
  | 0, _ => some [[]]
  | 1, none => none
  | 1, some mx => if n ≤ mx then some [[n]] else some []
  | len + 2, mx =>
    ((List.range (effMax n mx + 1)).mapM fun i =>
      (decTuples (n - i) (len + 1) (some i)).map fun rs => rs.map fun r => i :: r).map List.flatten

/-- Insert an element at every position: the inner loop of `generate_permutations`,
sfepy/discrete/simplex_cubature.py:38-40. -/
def insertAll (a : ℕ) (perm : List ℕ) : List (List ℕ) :=
  (List.range (perm.length + 1)).map fun i => perm.take i ++ [a] ++ perm.drop i

/-- `generate_permutations`, sfepy/discrete/simplex_cubature.py:28-40. -/
def genPerms : List ℕ → List (List ℕ)
  | [] => [[]]
  | [a] => [[a]]
  | a :: b :: l => (genPerms (b :: l)).flatMap fun perm => insertAll a perm

/-- The loop of `generate_unique_permutations` with the set of what was seen,
sfepy/discrete/simplex_cubature.py:49-52. -/
def uniqueLoop (had : List (List ℕ)) : List (List ℕ) → List (List ℕ)
  | [] => []
  | p :: ps => if p ∈ had then uniqueLoop had ps else p :: uniqueLoop (p :: had) ps

/-- `generate_unique_permutations`, sfepy/discrete/simplex_cubature.py:42-52. -/
def uniquePerms (l : List ℕ) : List (List ℕ) := uniqueLoop [] (genPerms l)

/-- `wandering_element`, sfepy/discrete/simplex_cubature.py:54-56. -/
def wandering {K : Type} (length : ℕ) (wanderer landscape : K) : List (List K) :=
  (List.range length).map fun i =>
    List.replicate i landscape ++ [wanderer] ++ List.replicate (length - 1 - i) landscape

/-- `factorial`, sfepy/discrete/simplex_cubature.py:58-61: `reduce(mul, range(1, n + 1), 1)`. -/
def pyFactorial (n : ℕ) : ℕ := ((List.range n).map fun i => i + 1).foldl (· * ·) 1

/-- The loop of `_extended_euclidean`, sfepy/discrete/simplex_cubature.py:78-84 (`divmod` is floor
division). -/
def euclidLoop (q r : ℤ) (Q R : ℤ × ℤ) : ℤ × ℤ × ℤ :=
  if _h : r = 0 then (q, Q.1, Q.2)
  else
    let quot := q.fdiv r
    let t := q.fmod r
    euclidLoop r t R (Q.1 - quot * R.1, Q.2 - quot * R.2)
termination_by r.natAbs
decreasing_by
  rcases lt_or_gt_of_ne _h with h1 | h1
  · have h0 := Int.neg_fmod_neg q r
    have h3 := Int.fmod_nonneg_of_pos (-q) (b := -r) (by omega)
    have h2 := Int.fmod_lt_of_pos (-q) (b := -r) (by omega)
    omega
  · have := Int.fmod_nonneg_of_pos q h1
    have h2 := Int.fmod_lt_of_pos q h1
    omega

/-- `_extended_euclidean`, sfepy/discrete/simplex_cubature.py:63-84 (after the exchange the arguments are in
order, so the recursive call goes straight to the loop). -/
def extEuclid (q r : ℤ) : ℤ × ℤ × ℤ :=
  if q.natAbs < r.natAbs then
    let p := euclidLoop r q (1, 0) (0, 1)
    (p.1, p.2.2, p.2.1)
  else euclidLoop q r (1, 0) (0, 1)

/-- `_simplify_fraction`, sfepy/discrete/simplex_cubature.py:89-92. -/
def simplifyFraction (a b : ℤ) : ℤ × ℤ :=
  let g := (extEuclid a b).1
  (a.fdiv g, b.fdiv g)

/-- `points_to_weights[point] = points_to_weights.get(point, 0) + weight`,
sfepy/discrete/simplex_cubature.py:130-131: a dictionary in insertion order. -/
def dictAdd {K : Type} [Zero K] [Add K] (k : List (ℤ × ℤ)) (w : K) :
    List (List (ℤ × ℤ) × K) → List (List (ℤ × ℤ) × K)
  | [] => [(k, 0 + w)]
  | p :: d => if p.1 = k then (p.1, p.2 + w) :: d else p :: dictAdd k w d

/-- The weight of the `i`-th group of points, sfepy/discrete/simplex_cubature.py:118-121. -/
def gmWeight {K : Type} [Field K] (s n i : ℕ) : K :=
  (-1) ^ i * (2 ^ (2 * s))⁻¹ * ((2 * s + 1 + n - 2 * i : ℕ) : K) ^ (2 * s + 1) /
    (pyFactorial i : K) / (pyFactorial (2 * s + 1 + n - i) : K)

/-- The points of the `i`-th group in the order of the loops with their weights,
sfepy/discrete/simplex_cubature.py:123-128. -/
def gmGroup {K : Type} [Field K] (s n i : ℕ) : Option (List (List (ℤ × ℤ) × K)) :=
  (decTuples (s - i) (n + 1) none).map fun ts => ts.flatMap fun t =>
    (uniquePerms t).map fun beta =>
      (beta.map fun (b : ℕ) => simplifyFraction (2 * b + 1) (2 * s + 1 + n - 2 * i), gmWeight s n i)

/-- The dictionary `points_to_weights`, sfepy/discrete/simplex_cubature.py:115-131. -/
def gmDict {K : Type} [Field K] (s n : ℕ) : Option (List (List (ℤ × ℤ) × K)) :=
  ((List.range (s + 1)).mapM fun i => gmGroup s n i).map fun gs =>
    gs.flatten.foldl (fun d p => dictAdd p.1 p.2 d) []

/-- The vertices of the simplex in `[-1, 1]^n`, sfepy/discrete/simplex_cubature.py:134-136. -/
def gmVertices {K : Type} [Field K] (n : ℕ) : List (List K) :=
  List.replicate n (-1) :: wandering n 1 (-1)

/-- `reduce(add, ...)` of vectors, sfepy/discrete/simplex_cubature.py:145. -/
def reduceAdd {K : Type} [Add K] : List (List K) → List K
  | [] => []
  | v :: vs => vs.foldl (List.zipWith (· + ·)) v

/-- The coordinates of a point given by barycentric coordinates,
sfepy/discrete/simplex_cubature.py:145. -/
def realPoint {K : Type} [Field K] (n : ℕ) (p : List (ℤ × ℤ)) : List K :=
  reduceAdd (List.zipWith (fun (ab : ℤ × ℤ) v => v.map fun x => (ab.1 : K) / (ab.2 : K) * x) p
    (gmVertices n))

/-- `get_simplex_cubature(order, dimension)`, sfepy/discrete/simplex_cubature.py:94-156: the points with
positive weights come first. -/
def simplexCubature {K : Type} [Field K] [LinearOrder K] (s n : ℕ) : Option (Rule K × ℕ) :=
  (gmDict (K := K) s n).map fun d =>
    let pts := d.map fun p => (realPoint (K := K) n p.1, (2 ^ n : K) * p.2, decide (p.2 > 0))
    let pos := (pts.filter fun p => p.2.2).map fun p => (p.1, p.2.1)
    let neg := (pts.filter fun p => !p.2.2).map fun p => (p.1, p.2.1)
    (pos ++ neg, 2 * s + 1)

/-! ## quadratures.py -/

/-- The number of coordinates, `self.coors.shape[1]`, sfepy/discrete/quadratures.py:207. -/
def ruleDim {K : Type} : Rule K → ℕ
  | [] => 0
  | r :: _ => r.1.length

/-- `data[0, 0]`, sfepy/discrete/quadratures.py:214. -/
def firstCoor {K : Type} [One K] : Rule K → K
  | [] => 1
  | r :: _ => r.1.headD 1

/-- `QuadraturePoints.__init__`, sfepy/discrete/quadratures.py:191-236.  `fromData` says whether the rows
were given as `data`; with `coors` and `weights`, the symmetric mode fails, because `data` is then `None`
(line 214). -/
noncomputable def mkQP (fromData : Bool) (rows : Rule ℝ) (bounds : Option (ℝ × ℝ)) (tpFix weightFix : ℝ)
    (symmetric : Bool) : Option (Rule ℝ) :=
  let dim := ruleDim rows
  let r1 := rows.map fun p => (p.1, p.2 * weightFix)
  let volume := 1 ^ dim * tpFix
  let r2 := match bounds with
    | none => r1
    | some (a, b) =>
      let volumeB := (b - a) ^ dim * tpFix
      let c1 := (1 - 0) / (b - a)
      let c2 := (b * 0 - a * 1) / (b - a)
      r1.map fun p => (p.1.map fun x => c1 * x + c2, p.2 * (volume / volumeB))
  if symmetric then
    if fromData = false then none
    else if dim ≠ 1 then none
    else
      let tail := if firstCoor rows = 0 then r2.tail.reverse else r2.reverse
      some ((tail.map fun p => (p.1.map fun x => 2 * (1 / 2 * (0 + 1)) - x, p.2)) ++ r2)
  else some r2

/-- The numeric expressions of the tables. -/
inductive Ex where
  /-- The decimal number `m / 10 ^ k`. -/
  | dec (m k : ℕ)
  /-- `nm.sqrt` of a quotient `a / b`. -/
  | sqrt (a b : ℕ)
  | neg (a : Ex)
  | add (a b : Ex)
  | sub (a b : Ex)
  | mul (a b : Ex)
  | div (a b : Ex)

/-- The value of an expression. -/
noncomputable def Ex.real : Ex → ℝ
  | .dec m k => (m : ℝ) / 10 ^ k
  | .sqrt a b => Real.sqrt ((a : ℝ) / b)
  | .neg a => -a.real
  | .add a b => a.real + b.real
  | .sub a b => a.real - b.real
  | .mul a b => a.real * b.real
  | .div a b => a.real / b.real

/-- An entry of `quadrature_tables`: the arguments of the constructor. -/
structure Entry where
  /-- The key of the entry. -/
  order : ℕ
  /-- The coordinates and the weights. -/
  rows : List (List Ex × Ex)
  /-- Whether `bounds=(-1.0, 1.0)` is given. -/
  bounds : Bool
  /-- `tp_fix`. -/
  tpFix : Ex
  /-- `weight_fix`. -/
  weightFix : Ex
  /-- `symmetric`. -/
  symmetric : Bool

/-- The constructed entry of a table, sfepy/discrete/quadratures.py:239-851 (`_QP(...)`). -/
noncomputable def Entry.rule (e : Entry) : Option (Rule ℝ) :=
  mkQP true (e.rows.map fun r => (r.1.map Ex.real, r.2.real))
    (if e.bounds then some (-1, 1) else none) e.tpFix.real e.weightFix.real e.symmetric

/-- The geometries of `quadrature_tables`. -/
inductive Geom where
  | g01 | g12 | g23 | g24 | g34 | g36 | g38
  deriving DecidableEq

/-- `int(geometry[0])`, sfepy/discrete/quadratures.py:140, 157. -/
def Geom.dim : Geom → ℕ
  | .g01 => 0
  | .g12 => 1
  | .g23 => 2
  | .g24 => 2
  | .g34 => 3
  | .g36 => 3
  | .g38 => 3

/-- `geometry in simplex_geometries`, sfepy/discrete/quadratures.py:58. -/
def Geom.simplex : Geom → Bool
  | .g12 => true
  | .g23 => true
  | .g34 => true
  | _ => false

/-- `get_actual_order`, sfepy/discrete/quadratures.py:64-95: the keys are increasing, so
`nm.searchsorted` gives the first key that is not less. -/
def getActualOrder (orders : List ℕ) (order : ℕ) : ℕ :=
  if order ∈ orders then order
  else
    let ii := (orders.takeWhile fun o => decide (o < order)).length
    if ii ≥ orders.length then orders.foldl max 0 else orders.getD ii 0

/-- The rule of a table for a key, `table[order]`. -/
noncomputable def tableRule (table : List Entry) (order : ℕ) : Option (Rule ℝ) :=
  match table.find? fun e => e.order == order with
  | some e => e.rule
  | none => none

/-- The tensor product of a line rule, sfepy/discrete/quadratures.py:166-186. -/
def tensorRule {K : Type} [Mul K] (dim : ℕ) (r1 : Rule K) : Rule K :=
  if dim = 3 then
    r1.flatMap fun z => r1.flatMap fun y => r1.map fun x => (x.1 ++ y.1 ++ z.1, z.2 * (y.2 * x.2))
  else
    r1.flatMap fun y => r1.map fun x => (x.1 ++ y.1, y.2 * x.2)

/-- `QuadraturePoints.from_table`, sfepy/discrete/quadratures.py:128-189, with the tables as an argument:
the rule and the resulting order.  `none` is an error: the AssertionError of line 146 or the NameError of
line 166 (`order1d` is not defined with `full_order`). -/
noncomputable def fromTableOf (tables : Geom → List Entry) (g : Geom) (order : ℕ) (full : Bool) :
    Option (Rule ℝ × ℕ) :=
  let orders := fun g => (tables g).map Entry.order
  let maxOrder := fun g => (orders g).foldl max 0
  if g.simplex then
    if order > maxOrder g then
      let oo := order / 2
      let tpFix : ℝ := if g.dim = 2 then 1 / 2 else 1 / 6
      match simplexCubature (K := ℝ) oo g.dim with
      | none => none
      | some (r, exact) =>
        match mkQP false r (some (-1, 1)) tpFix 1 false with
        | none => none
        | some qp => if exact ≥ order then some (qp, order) else none
    else
      let o := getActualOrder (orders g) order
      (tableRule (tables g) o).map fun r => (r, o)
  else
    let o := if full then order else g.dim * order
    if o ≤ maxOrder g then
      let oa := getActualOrder (orders g) o
      (tableRule (tables g) oa).map fun r => (r, oa)
    else if full then none
    else
      let oo := getActualOrder (orders .g12) order
      match tableRule (tables .g12) oo with
      | none => none
      | some r1 =>
        (mkQP false (tensorRule g.dim r1) none 1 1 false).map fun r => (r, g.dim * oo)

/-! ## integrals.py -/

/-- An `Integral`, sfepy/discrete/integrals.py:81-105: built-in with an order, or custom with the arguments
of the constructor of the points (coordinates and weights, bounds, `tp_fix`, `weight_fix`, `symmetric`). -/
structure IntegralDef where
  order : ℕ
  full : Bool
  custom : Option (Rule ℝ × Option (ℝ × ℝ) × ℝ × ℝ × Bool)

/-- The rule built by `Integral.get_qp` when it is not in the cache, sfepy/discrete/integrals.py:130-140. -/
noncomputable def freshQp (fromTab : Geom → ℕ → Bool → Option (Rule ℝ × ℕ)) (I : IntegralDef) (g : Geom) :
    Option (Rule ℝ) :=
  match I.custom with
  | none => (fromTab g I.order I.full).map Prod.fst
  | some c => mkQP false c.1 c.2.1 c.2.2.1 c.2.2.2.1 c.2.2.2.2

/-- `Integral.get_qp`, sfepy/discrete/integrals.py:107-144, with the cache `self.qps`; an error leaves the
cache unchanged. -/
noncomputable def getQp (fromTab : Geom → ℕ → Bool → Option (Rule ℝ × ℕ)) (I : IntegralDef)
    (qps : List (Geom × Rule ℝ)) (g : Geom) : Option (Rule ℝ) × List (Geom × Rule ℝ) :=
  match qps.find? fun x => decide (x.1 = g) with
  | some x => (some x.2, qps)
  | none =>
    match freshQp fromTab I g with
    | none => (none, qps)
    | some r => (some r, qps ++ [(g, r)])

/-- The name of the integral of an order, `'__o%d' % order`, sfepy/discrete/integrals.py:64. -/
def orderName (order : ℕ) : String := "__o" ++ order.repr

/-- `Integrals.get` of an order, sfepy/discrete/integrals.py:57-74 (`int(name)` has been taken). -/
def integralsGet (st : List (String × IntegralDef)) (order : ℕ) :
    IntegralDef × List (String × IntegralDef) :=
  match st.find? fun x => decide (x.1 = orderName order) with
  | some x => (x.2, st)
  | none => (⟨order, false, none⟩, st ++ [(orderName order, ⟨order, false, none⟩)])

end Quad
