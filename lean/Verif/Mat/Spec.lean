/-
Specification of material data, independent of the code.
-/
import Mathlib.Data.List.Basic

namespace Verif.Mat

/-- The array `g` of shape `(n_el, n_qp)` presents the rows returned by a material function for the
points of cells in order: either the function returned one row (a constant), and `g` is one layer with
this row in all `nQp` points, or row `e * nQp + q` is in the cell `e` and point `q`. -/
structure Presents {A : Type} (nQp : Nat) (rows : List A) (g : List (List A)) : Prop where
  width : ∀ l ∈ g, l.length = nQp
  const : rows.length = 1 → g.length = 1 ∧ ∀ q < nQp, (g[0]?).bind (·[q]?) = rows[0]?
  general : rows.length ≠ 1 → g.length * nQp = rows.length ∧
    ∀ e q, e < g.length → q < nQp → (g[e]?).bind (·[q]?) = rows[e * nQp + q]?

/-- The value in a cell of a parameter given by regions: that of the last region in the dictionary
having the cell, zero when there is none. -/
def valueInCell {A : Type} (zero : A) (byRegion : List (List Nat × A)) (c : Nat) : A :=
  match (byRegion.filter fun p => c ∈ p.1).getLast? with
  | some p => p.2
  | none => zero

end Verif.Mat
