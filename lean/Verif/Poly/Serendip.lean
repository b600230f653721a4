/-
The serendipity elements `SerendipityTensorProductPolySpace` (sfepy/discrete/fem/poly_spaces.py:761-895): the nodes and
the basis.  The functions and their gradients are the expressions of sfepy/discrete/fem/_serendipity.py; the evaluation
by `sm.lambdify()` is the exact value.
-/
import Verif.Poly.SerTables
import Verif.Fem.SpecLagrange
import Verif.Fem.Nodes
import Mathlib.Tactic.IntervalCases

namespace Verif.Poly.Ser

open Verif.Fem (Gel gel24 gel38 Nod appendEdges vertexMap rowAt tensorNodeCoor)
open Finset

/-- `_define_nodes()` (sfepy/discrete/fem/poly_spaces.py:806-867): the vertices, then the nodes on the edges. -/
def nodes (g : Gel) (order : ℕ) : List Nod :=
  appendEdges ((List.range g.nV).map fun ii =>
    { nt := (0, ii)
      row := fun k =>
        let i := order * vertexMap g.dim ii (k / 2)
        if k % 2 = 0 then order - i else i }) 1 g.edges order

/-- `n_nod` (sfepy/discrete/fem/poly_spaces.py:814-819). -/
def nNod (dim order : ℕ) : ℕ := if dim = 2 then 4 * order else 8 + 12 * (order - 1)

/-- The basis function `ib` in the point `x`: `_eval_basis()` with `diff=0`
(sfepy/discrete/fem/poly_spaces.py:869-887). -/
def val {K : Type} [Field K] (dim order : ℕ) (x : ℕ → K) (ib : ℕ) : K :=
  ((bfs dim order).getD ib (PE.c 0)).eval fun i => x i.val

/-- The derivative in the direction `ig` of the basis function `ib` in the point `x`: `_eval_basis()` with `diff=1`
(sfepy/discrete/fem/poly_spaces.py:888-891). -/
def grad {K : Type} [Field K] (dim order : ℕ) (x : ℕ → K) (ig ib : ℕ) : K :=
  (((bfgs dim order).getD ib []).getD ig (PE.c 0)).eval fun i => x i.val

/-! ### Specification -/

/-- The elements: quadrilaterals and hexahedra of the orders 1, 2, 3. -/
def Element (g : Gel) (order : ℕ) : Prop := (g = gel24 ∨ g = gel38) ∧ order ∈ [1, 2, 3]

/-- The coordinate `d` of the node `j`: `node_coors` with `bbox` from 0 to 1
(sfepy/discrete/fem/poly_spaces.py:860-865). -/
def nodeCoor {K : Type} [Field K] (g : Gel) (order j d : ℕ) : K :=
  tensorNodeCoor order 0 1 (rowAt (nodes g order) j) d

/-- The superlinear degree of a monomial: the variables with the exponent one are not counted. -/
def superDegree (m : ℕ → ℕ) (dim : ℕ) : ℕ := ∑ d ∈ range dim, if m d = 1 then 0 else m d

/-- The value of a monomial. -/
def mono {K : Type} [Field K] (dim : ℕ) (m : ℕ → ℕ) (x : ℕ → K) : K := ∏ d ∈ range dim, x d ^ m d

end Verif.Poly.Ser
