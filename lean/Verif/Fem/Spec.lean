/-
The places of the nodes of the Lagrange elements in the cells of a mesh.

A node of a simplex is in the point `sum_i row[i] / order * x_i` of the cell with the vertices `x_i`; a node of
a tensor product element is in the point with the weights given by the products of the items of the row, i.e.
in the image of the reference node by the multi-linear mapping of the cell.  The place of a node is the function
giving the weight of every mesh vertex.
-/
import Verif.Fem.Nodes

namespace Verif.Fem

open Finset

/-- The weight of the mesh vertex `v` at the node with the given row of a simplex with the vertices `conn`. -/
def simplexLoc (nV : ℕ) (conn row : ℕ → ℕ) (v : ℕ) : ℕ :=
  ∑ i ∈ range nV, if conn i = v then row i else 0

/-- The weight of the mesh vertex `v` at the node with the given row of a tensor product cell with the
vertices `conn`: the columns `2 d`, `2 d + 1` are the weights of the both ends in the direction `d`. -/
def tensorLoc (dim nV : ℕ) (conn row : ℕ → ℕ) (v : ℕ) : ℕ :=
  ∑ i ∈ range nV, if conn i = v then ∏ d ∈ range dim, row (2 * d + vertexMap dim i d) else 0

end Verif.Fem
