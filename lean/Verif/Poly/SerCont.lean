/-
The functions of the serendipity fields are continuous.
-/
import Verif.Poly.SerBasic
import Verif.Fem.PropsContGeneric

namespace Verif.Poly.Ser

open Verif.Fem
open Finset

/-! ### The traces of the functions on the edges and on the faces -/

/-- The nodes of the faces. -/
def faceNodes (o : ℕ) : List (List ℕ) :=
  if o = 1 then [[0, 3, 2, 1], [0, 4, 7, 3], [0, 1, 5, 4], [4, 5, 6, 7], [1, 2, 6, 5], [3, 7, 6, 2]]
  else if o = 2 then [[0, 3, 2, 1, 11, 10, 9, 8],
    [0, 4, 7, 3, 16, 15, 19, 11],
    [0, 1, 5, 4, 8, 17, 12, 16],
    [4, 5, 6, 7, 12, 13, 14, 15],
    [1, 2, 6, 5, 9, 18, 13, 17],
    [3, 7, 6, 2, 19, 14, 18, 10]]
  else [[0, 3, 2, 1, 15, 14, 13, 12, 11, 10, 9, 8],
    [0, 4, 7, 3, 24, 25, 23, 22, 31, 30, 14, 15],
    [0, 1, 5, 4, 8, 9, 26, 27, 17, 16, 25, 24],
    [4, 5, 6, 7, 16, 17, 18, 19, 20, 21, 22, 23],
    [1, 2, 6, 5, 10, 11, 28, 29, 19, 18, 27, 26],
    [3, 7, 6, 2, 30, 31, 21, 20, 29, 28, 12, 13]]

/-- The nodes of a quadrilateral reflected in the first direction. -/
def flipNodes (o : ℕ) : List ℕ :=
  if o = 1 then [1, 0, 3, 2] else if o = 2 then [1, 0, 3, 2, 4, 7, 6, 5] else [1, 0, 3, 2, 5, 4, 11, 10, 9, 8, 7, 6]

/-- The nodes of a quadrilateral with swapped directions. -/
def transNodes (o : ℕ) : List ℕ :=
  if o = 1 then [0, 3, 2, 1] else if o = 2 then [0, 3, 2, 1, 7, 6, 5, 4] else [0, 3, 2, 1, 11, 10, 9, 8, 7, 6, 5, 4]

/-- The nodes of an edge, from the first vertex to the second one. -/
def edgeNodes (g : Gel) (o e : ℕ) : List ℕ :=
  [(g.edges.getD e []).getD 0 0] ++ (List.range (o - 1)).map (fun j => g.nV + e * (o - 1) + j) ++
    [(g.edges.getD e []).getD 1 0]

/-- The Lagrange functions of a segment. -/
def bfs1 (o : ℕ) : List PE :=
  let s : PE := .v 0
  let k (a b : ℚ) : PE := .add (.mul (.c a) s) (.c b)
  if o = 1 then [k (-1) 1, s]
  else if o = 2 then [.mul (k 2 (-1)) (k 1 (-1)), .mul s (k (-4) 4), .mul s (k 2 (-1))]
  else [.mul (.mul (.mul (.c (-1/2)) (k 3 (-1))) (k 3 (-2))) (k 1 (-1)),
    .mul (.mul (.mul (.c (9/2)) s) (k 3 (-2))) (k 1 (-1)),
    .mul (.mul (.mul (.c (-9/2)) s) (k 3 (-1))) (k 1 (-1)),
    .mul (.mul (.mul (.c (1/2)) s) (k 3 (-1))) (k 3 (-2))]

/-- The coordinates of the points of a face. -/
def faceSub (f : ℕ) (i : Fin 4) : PE :=
  ((([[.v 1, .v 0, .c 0], [.c 0, .v 1, .v 0], [.v 0, .c 0, .v 1], [.v 0, .v 1, .c 1], [.c 1, .v 0, .v 1],
    [.v 1, .c 1, .v 0]] : List (List PE)).getD f []).getD i.val (.c 0))

/-- The coordinates of the points of an edge. -/
def edgeSub (dim : ℕ) (l : List ℕ) (i : Fin 4) : PE :=
  let a := vertexMap dim (l.getD 0 0) i.val
  let b := vertexMap dim (l.getD 1 0) i.val
  if a = b then .c a else if a = 0 then .v 0 else .sub (.c 1) (.v 0)

theorem faceTrace : ∀ o ∈ [1, 2, 3], ∀ f < 6,
    ((faceNodes o).getD f []).length = 4 * o ∧ ((faceNodes o).getD f []).Nodup ∧
    (∀ k ∈ (faceNodes o).getD f [], k < nNod 3 o) ∧
    (∀ m < 4 * o, PE.same (PE.subst (faceSub f) ((bfs 3 o).getD (((faceNodes o).getD f []).getD m 0) (.c 0)))
      ((bfs 2 o).getD m (.c 0)) = true) ∧
    ∀ k < nNod 3 o, k ∉ (faceNodes o).getD f [] → PE.same (PE.subst (faceSub f) ((bfs 3 o).getD k (.c 0))) (.c 0) = true := by
  decide +kernel

theorem edgeTrace : ∀ p ∈ els, ∀ e < p.1.edges.length,
    (edgeNodes p.1 p.2 e).length = p.2 + 1 ∧ (edgeNodes p.1 p.2 e).Nodup ∧
    (∀ k ∈ edgeNodes p.1 p.2 e, k < nNod p.1.dim p.2) ∧
    (∀ m < p.2 + 1, PE.same (PE.subst (edgeSub p.1.dim (p.1.edges.getD e []))
      ((bfs p.1.dim p.2).getD ((edgeNodes p.1 p.2 e).getD m 0) (.c 0))) ((bfs1 p.2).getD m (.c 0)) = true) ∧
    ∀ k < nNod p.1.dim p.2, k ∉ edgeNodes p.1 p.2 e →
      PE.same (PE.subst (edgeSub p.1.dim (p.1.edges.getD e [])) ((bfs p.1.dim p.2).getD k (.c 0))) (.c 0) = true := by
  decide +kernel

/-- The weight of the vertex `a` of an element at its node `k`. -/
def nodeW (g : Gel) (o k a : ℕ) : ℕ := ∏ d ∈ range g.dim, rowAt (nodes g o) k (2 * d + vertexMap g.dim a d)

theorem faceW' : ∀ o ∈ [1, 2, 3], ∀ f < 6, ∀ m < 4 * o, ∀ i < 8,
    nodeW gel38 o (((faceNodes o).getD f []).getD m 0) i =
      ∑ a ∈ range 4, if (gel38.faces.getD f []).getD a 0 = i then o * nodeW gel24 o m a else 0 := by
  decide +kernel

theorem edgeW' : ∀ p ∈ els, ∀ e < p.1.edges.length, ∀ m < p.2 + 1, ∀ i < p.1.nV,
    nodeW p.1 p.2 ((edgeNodes p.1 p.2 e).getD m 0) i =
      ∑ a ∈ range 2, if (p.1.edges.getD e []).getD a 0 = i then p.2 ^ (p.1.dim - 1) * (if a = 0 then p.2 - m else m)
        else 0 := by
  decide +kernel

theorem vertW' : ∀ p ∈ els, ∀ k < p.1.nV, ∀ i < p.1.nV, nodeW p.1 p.2 k i = if k = i then p.2 ^ p.1.dim else 0 := by
  decide +kernel

theorem vertVal : ∀ p ∈ els, p.1.nV ≤ nNod p.1.dim p.2 ∧ ∀ i < p.1.nV, ∀ k < nNod p.1.dim p.2,
    PE.same (PE.subst (fun d => .c (vertexMap p.1.dim i d.val)) ((bfs p.1.dim p.2).getD k (.c 0)))
      (.c (if k = i then 1 else 0)) = true := by
  decide +kernel

theorem flipQ : ∀ o ∈ [1, 2, 3], ∀ m < 4 * o, (flipNodes o).getD m 0 < 4 * o ∧
    (flipNodes o).getD ((flipNodes o).getD m 0) 0 = m ∧
    PE.same (PE.subst (fun i => if i = 0 then .sub (.c 1) (.v 0) else .v i) ((bfs 2 o).getD m (.c 0)))
      ((bfs 2 o).getD ((flipNodes o).getD m 0) (.c 0)) = true ∧
    ∀ a < 4, nodeW gel24 o m a = nodeW gel24 o ((flipNodes o).getD m 0) ([1, 0, 3, 2].getD a 0) := by
  decide +kernel

theorem transQ : ∀ o ∈ [1, 2, 3], ∀ m < 4 * o, (transNodes o).getD m 0 < 4 * o ∧
    (transNodes o).getD ((transNodes o).getD m 0) 0 = m ∧
    PE.same (PE.subst (fun i => if i = 0 then .v 1 else if i = 1 then .v 0 else .v i) ((bfs 2 o).getD m (.c 0)))
      ((bfs 2 o).getD ((transNodes o).getD m 0) (.c 0)) = true ∧
    ∀ a < 4, nodeW gel24 o m a = nodeW gel24 o ((transNodes o).getD m 0) ([0, 3, 2, 1].getD a 0) := by
  decide +kernel

theorem flip1Q : ∀ o ∈ [1, 2, 3], ∀ m < o + 1,
    PE.same (PE.subst (fun i => if i = 0 then .sub (.c 1) (.v 0) else .v i) ((bfs1 o).getD m (.c 0)))
      ((bfs1 o).getD (o - m) (.c 0)) = true := by
  decide +kernel

end Verif.Poly.Ser
