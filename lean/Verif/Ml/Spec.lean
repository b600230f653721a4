import Verif.Ml.Builder

/-!
# What a multilinear term expression means

The documentation of a term gives an integral of a product of the arguments, in index notation: `i.j` is
`∂ u_i / ∂ x_j`, repeated letters are summed, the letters occurring once are the axes of the result.
-/

namespace Ml

variable {K : Type*} [Field K]

/-- The index letters of an argument: of a material, its letters; of a variable, the component letter (vectors only)
and the letter of the derivative, or the letter of the vector storage of the gradient. -/
def argLetters (a : Arg) : List Char :=
  match a.kind, a.mod with
  | .ndarray, _ => a.ein.filter fun c => !c.isDigit
  | _, some _ => [a.ein.getD 0 ' ']
  | _, none => (if a.nc > 1 then [a.ein.getD 0 ' '] else []) ++
      (if a.ein.contains '.' || a.ein.contains ':' then [a.ein.getD 2 ' '] else [])

/-- The dummy letter inside of `s(i:j)->I`, `v(i.j)->I`. -/
def innerLetters (a : Arg) : List Char :=
  match a.kind, a.mod with
  | .ndarray, _ => []
  | _, some _ => [a.ein.getD 2 ' ']
  | _, none => []

/-- The value of the component `k` of the function with the DOFs `w`. -/
def fieldVal (env : Env K) (fe : Bool) (a c q : ℕ) (w : ℕ → ℕ → K) (k : ℕ) : K :=
  ∑ n ∈ Finset.range (env.nn a), env.bf a (if fe then c else 0) q n * w k n

/-- The derivative of the component `k` by the coordinate `j`. -/
def gradVal (env : Env K) (a c q : ℕ) (w : ℕ → ℕ → K) (k j : ℕ) : K :=
  ∑ n ∈ Finset.range (env.nn a), env.bfg a c q j n * w k n

/-- The positions of the strain components: `11, 22, 33, 12, 13, 23` and `11, 22, 12`. -/
def symPairs (dim : ℕ) : List (ℕ × ℕ) :=
  if dim = 3 then [(0, 0), (1, 1), (2, 2), (0, 1), (0, 2), (1, 2)] else [(0, 0), (1, 1), (0, 1)]

/-- The strain vector of a gradient: the diagonal and the doubled off-diagonal components. -/
def strainVec (dim : ℕ) (G : ℕ → ℕ → K) (s : ℕ) : K :=
  match (symPairs dim)[s]? with
  | some (a, b) => if a = b then G a a else G a b + G b a
  | none => 0

/-- The gradient stored as the vector `11, 12, 13, 21, ...`. -/
def gradVec (dim : ℕ) (G : ℕ → ℕ → K) (s : ℕ) : K :=
  if s < dim * dim then G (s / dim) (s % dim) else 0

/-- The value of an argument in the point `q` of the cell `c`, for the values `ρ` of the letters. `w` are the DOFs of the
variable. -/
def argVal (env : Env K) (fe : Bool) (c q : ℕ) (a : Arg) (w : ℕ → ℕ → K) (ρ : Char → ℕ) : K :=
  match a.kind, a.mod with
  | .ndarray, _ => env.mat a.name c q (a.ein.map fun ch => if ch.isDigit then ch.toNat - 48 else ρ ch)
  | _, some .s => strainVec env.dim (gradVal env a.name c q w) (ρ (a.ein.getD 0 ' '))
  | _, some .v => gradVec env.dim (gradVal env a.name c q w) (ρ (a.ein.getD 0 ' '))
  | _, none =>
    let k := if a.nc > 1 then ρ (a.ein.getD 0 ' ') else 0
    if a.ein.contains '.' || a.ein.contains ':' then gradVal env a.name c q w k (ρ (a.ein.getD 2 ' '))
    else fieldVal env fe a.name c q w k

/-- The letters occurring at least twice. -/
def repeatedLetters (args : List Arg) : List Char :=
  (args.flatMap argLetters).dedup.filter fun l => decide ((args.flatMap argLetters).count l ≠ 1)

/-- The letters occurring once, in the alphabetic order. -/
def freeOf (args : List Arg) : List Char :=
  ((args.flatMap argLetters).dedup.filter fun l => decide ((args.flatMap argLetters).count l = 1)).insertionSort
    (fun a b => a.toNat ≤ b.toNat)

/-- The integrand of the term in the point `q` of the cell `c`: the sum over the repeated letters of the products of
the values of the arguments. `W p` are the DOFs of the variable at the position `p`, `fr` the indices of the free
letters. -/
def form (size : Char → ℕ) (env : Env K) (fe : Bool) (c q : ℕ) (args : List Arg) (W : ℕ → ℕ → ℕ → K) (fr : List ℕ) :
    K :=
  sumOver size (repeatedLetters args) (assign (freeOf args) fr) fun ρ =>
    ((numbered args).map fun x => argVal env fe c q x.2 (W x.1) ρ).prod

/-- The variable giving the mapping of the integral: the virtual one, or the first one. -/
def firstVar (args : List Arg) : ℕ :=
  match args.find? (fun a => decide (a.kind = .virtual)), args.find? (fun a => decide (a.kind = .state)) with
  | some a, _ => a.name
  | none, some a => a.name
  | none, none => 0

/-- The weight of a quadrature point: `det` (the Jacobian times the weight); in the element average mode (without a
virtual variable) over the element volume. -/
def weight (env : Env K) (mode : Mode) (args : List Arg) (c q : ℕ) : K :=
  env.det (firstVar args) c q *
    (if mode = .elAvg ∧ ∀ a ∈ args, a.kind ≠ .virtual then 1 / env.vol (firstVar args) c else 1)

/-- The DOFs of the basis function of the node `n`, component `k`. -/
def unitDofs (k n : ℕ) : ℕ → ℕ → K := fun k' n' => if k' = k ∧ n' = n then 1 else 0

/-- The index of a basis function in the output: no component axis for scalar variables. -/
def basisIdx (nc : ℕ) (k n : ℕ) : List ℕ := if nc > 1 then [k, n] else [n]

/-- The letters used by the builder. -/
def reserved : List Char :=
  ['c', 'q', 'd', 'e', 'f', 'g', 'h', 'r', 's', 't', 'u', 'v', 'w', 'x', 'y', 'z']

/-- Well formed term expressions. -/
structure WF (dim : ℕ) (args : List Arg) : Prop where
  /-- the reserved letters (see the documentation of `ETermBase`) are not used -/
  letters : ∀ a ∈ args, ∀ l ∈ argLetters a ++ innerLetters a, l ∉ reserved
  /-- the inner letters of the modifiers are used once only -/
  inner : (args.flatMap innerLetters).Nodup
  innerNot : ∀ l ∈ args.flatMap innerLetters, l ∉ args.flatMap argLetters
  /-- modifiers are of gradients of vectors in 2D or 3D -/
  mods : ∀ a ∈ args, a.kind ≠ .ndarray → a.mod.isSome →
    a.nc > 1 ∧ (a.ein.contains '.' || a.ein.contains ':') = true ∧ (dim = 2 ∨ dim = 3)

/-- Materials after a differentiated variable occur only in expressions with one summand. -/
def MatFirst (diff : Option ℕ) (nAdd : ℕ) (xs : List (ℕ × Arg)) : Prop :=
  nAdd = 1 ∨ xs.Pairwise fun x y => ¬((x.2.kind = .state ∧ diff = some x.2.name) ∧ y.2.kind = .ndarray)

/-- The conditions on the term expression and the differentiated variable. -/
structure Good (dim : ℕ) (diff : Option ℕ) (nAdd : ℕ) (args : List Arg) : Prop where
  wf : WF dim args
  matFirst : MatFirst diff nAdd (numbered args)
  count : nAdd = nAddOf diff args
  plain : nAdd = 1 ∨ ∀ a ∈ args, a.kind = .state → diff = some a.name → a.mod = none

end Ml
