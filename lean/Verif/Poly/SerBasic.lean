/-
The serendipity bases: the functions are nodal, the gradients are exact.
-/
import Verif.Poly.Serendip

namespace Verif.Poly.Ser

open Verif.Fem (Gel gel24 gel38 Nod appendEdges vertexMap rowAt tensorNodeCoor)
open Finset

/-- All the elements. -/
def els : List (Gel × ℕ) := [(gel24, 1), (gel24, 2), (gel24, 3), (gel38, 1), (gel38, 2), (gel38, 3)]

theorem mem_els {g : Gel} {o : ℕ} (h : Element g o) : (g, o) ∈ els := by
  obtain ⟨h1 | h1, h2⟩ := h <;> subst h1 <;> simp at h2 <;> rcases h2 with rfl | rfl | rfl <;> simp [els]

/-- The rational coordinates of the nodes. -/
def qCoor (g : Gel) (order j d : ℕ) : ℚ := (rowAt (nodes g order) j (2 * d + 1) : ℚ) / order

theorem nodeCoor_eq {K : Type} [Field K] [CharZero K] (g : Gel) (o j d : ℕ) :
    (nodeCoor g o j d : K) = ((qCoor g o j d : ℚ) : K) := by
  simp [nodeCoor, tensorNodeCoor, qCoor]

theorem els_dim : ∀ p ∈ els, p.1.dim = 2 ∨ p.1.dim = 3 := by decide +kernel

theorem usesQ : ∀ p ∈ els, ∀ e ∈ bfs p.1.dim p.2, e.usesOnly p.1.dim = true := by decide +kernel

theorem lenQ : ∀ p ∈ els, (nodes p.1 p.2).length = nNod p.1.dim p.2 ∧ (bfs p.1.dim p.2).length = nNod p.1.dim p.2 ∧
    (bfgs p.1.dim p.2).length = nNod p.1.dim p.2 := by decide +kernel

theorem nodalQ : ∀ p ∈ els, ∀ i < nNod p.1.dim p.2, ∀ j < nNod p.1.dim p.2,
    ((bfs p.1.dim p.2).getD i (PE.c 0)).eval (fun d => if d.val < p.1.dim then qCoor p.1 p.2 j d else 0) =
      if i = j then 1 else 0 := by
  decide +kernel

theorem gradQ : ∀ p ∈ els, ∀ i < nNod p.1.dim p.2, ∀ d : Fin 4, d.val < p.1.dim →
    PE.same (((bfs p.1.dim p.2).getD i (PE.c 0)).diff d) (((bfgs p.1.dim p.2).getD i []).getD d (PE.c 0)) = true := by
  decide +kernel

theorem getD_mem {α : Type} {l : List α} {i : ℕ} {a : α} (h : i < l.length) : l.getD i a ∈ l := by
  rw [List.getD_eq_getElem?_getD, List.getElem?_eq_getElem h]; exact List.getElem_mem h

/-- The values depend on the coordinates of the element only. -/
theorem val_congr {K : Type} [Field K] {g : Gel} {o : ℕ} (h : Element g o) {x x' : ℕ → K}
    (hx : ∀ d < g.dim, x d = x' d) {i : ℕ} (hi : i < nNod g.dim o) : val g.dim o x i = val g.dim o x' i := by
  have hm := mem_els h
  obtain ⟨-, h2, -⟩ := lenQ _ hm
  exact PE.eval_congr (usesQ _ hm _ (getD_mem (by rw [h2]; exact hi))) fun j hj => hx j hj

/-- **C99**: there is one function for each node. -/
theorem C99_serendipity_counts (g : Gel) (o : ℕ) (h : Element g o) :
    (nodes g o).length = nNod g.dim o ∧ (bfs g.dim o).length = nNod g.dim o ∧ (bfgs g.dim o).length = nNod g.dim o :=
  lenQ _ (mem_els h)

/-- **C99**: the functions are one in their nodes and zero in the other nodes. -/
theorem C99_serendipity_nodal {K : Type} [Field K] [CharZero K] (g : Gel) (o : ℕ) (h : Element g o) (i j : ℕ)
    (hi : i < nNod g.dim o) (hj : j < nNod g.dim o) :
    val g.dim o (fun d => (nodeCoor g o j d : K)) i = if i = j then 1 else 0 := by
  have h1 := nodalQ _ (mem_els h) i hi j hj
  have h2 := PE.eval_cast (K := K) ((bfs g.dim o).getD i (PE.c 0))
    (fun d => if d.val < g.dim then qCoor g o j d else 0)
  rw [h1] at h2
  rw [val_congr h (x' := fun d => if d < g.dim then (nodeCoor g o j d : K) else 0) (fun d hd => by simp [hd]) hi]
  have h3 : val g.dim o (fun d => if d < g.dim then (nodeCoor g o j d : K) else 0) i =
      ((bfs g.dim o).getD i (PE.c 0)).eval
        (fun d : Fin 4 => (((if d.val < g.dim then qCoor g o j d else 0) : ℚ) : K)) := by
    unfold val
    congr 1
    funext d
    by_cases hd : d.val < g.dim
    · simp only [hd, if_true]
      exact nodeCoor_eq g o j d.val
    · simp only [hd, if_false, Rat.cast_zero]
  rw [h3, h2]
  split_ifs <;> simp

/-- **C99**: the gradients are the derivatives of the functions. -/
theorem C99_serendipity_gradient (g : Gel) (o : ℕ) (h : Element g o) (i ig : ℕ) (hi : i < nNod g.dim o)
    (hg : ig < g.dim) (x : ℕ → ℝ) :
    HasDerivAt (fun t => val g.dim o (Function.update x ig t) i) (grad g.dim o x ig i) (x ig) := by
  have hm := mem_els h
  have hd : ig < 4 := by rcases els_dim _ hm with h1 | h1 <;> simp only at h1 <;> omega
  have hs := PE.eval_eq_of_same (K := ℝ) (gradQ _ hm i hi ⟨ig, hd⟩ hg)
  have := PE.hasDerivAt ((bfs g.dim o).getD i (PE.c 0)) (fun j => x j.val) ⟨ig, hd⟩ (x ig)
  have hu : ∀ t : ℝ, (fun j : Fin 4 => Function.update x ig t j.val) =
      Function.update (fun j : Fin 4 => x j.val) ⟨ig, hd⟩ t := by
    intro t
    funext j
    by_cases e : j = ⟨ig, hd⟩
    · subst e; simp
    · rw [Function.update_of_ne e, Function.update_of_ne fun e' => e (Fin.ext e')]
  have hx : Function.update (fun j : Fin 4 => x j.val) ⟨ig, hd⟩ (x ig) = fun j : Fin 4 => x j.val :=
    Function.update_eq_self (f := fun j : Fin 4 => x j.val) ⟨ig, hd⟩
  rw [hx] at this
  simp only [val, hu]
  exact this.congr_deriv (hs _)

end Verif.Poly.Ser
