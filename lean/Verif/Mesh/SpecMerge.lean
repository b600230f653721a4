/-
Specification for merging of meshes and matching of coordinates.
-/
import Verif.Mesh.Merge

namespace Verif.Mesh

section

variable {d : ℕ} {K : Type} [Field K] [LinearOrder K]

/-- Two points are at most `eps` apart. -/
def Near (eps : K) (a b : Fin d → K) : Prop := dist2 a b ≤ eps ^ 2

/-- The result of `cKDTree(x).query_pairs(eps)`: all the pairs `i < j` of points with a distance at most
`eps`, each one once, in any order. -/
structure IsPairs (eps : K) (x : List (Fin d → K)) (Q : List (ℕ × ℕ)) : Prop where
  nodup : Q.Nodup
  mem : ∀ i j, (i, j) ∈ Q ↔ i < j ∧ ∃ a b, x[i]? = some a ∧ x[j]? = some b ∧ Near eps a b

/-- The points are more than `r` apart. -/
def Sep (r : K) (x : List (Fin d → K)) : Prop :=
  ∀ (i j : ℕ) (a b : Fin d → K), i ≠ j → x[i]? = some a → x[j]? = some b → ¬ Near r a b

/-- Translation by a multiple of `u`. -/
def alongDir (u : Fin d → K) (t : K) (a : Fin d → K) : Fin d → K := a + t • u

/-- A list of indices that sorts `c` (the result of `argsort`). -/
structure IsArgsort (c : List K) (i : List ℕ) : Prop where
  perm : i.Perm (List.range c.length)
  sorted : i.Pairwise fun a b => c.getD a 0 ≤ c.getD b 0

end

end Verif.Mesh
