/-
The serendipity bases span the polynomials of a bounded superlinear degree.
-/
import Verif.Poly.SerBasic

namespace Verif.Poly.Ser

open Verif.Fem (Gel gel24 gel38 Nod appendEdges vertexMap rowAt tensorNodeCoor)
open Finset

/-- The superlinear degree of a monomial given by three exponents. -/
def sd (m : ℕ × ℕ × ℕ) : ℕ :=
  (if m.1 = 1 then 0 else m.1) + (if m.2.1 = 1 then 0 else m.2.1) + (if m.2.2 = 1 then 0 else m.2.2)

/-- The monomials of an element. -/
def monos (dim order : ℕ) : List (ℕ × ℕ × ℕ) :=
  ((List.range 4).flatMap fun a => (List.range 4).flatMap fun b =>
    (List.range (if dim = 2 then 1 else 4)).map fun c => (a, b, c)).filter fun m => sd m ≤ order

/-- The interpolation of a monomial. -/
def repro (g : Gel) (o : ℕ) (m : ℕ × ℕ × ℕ) : PE :=
  (List.range (nNod g.dim o)).foldr (fun i e => .add (.mul (.c (qCoor g o i 0 ^ m.1 * qCoor g o i 1 ^ m.2.1 *
    (if g.dim = 2 then 1 else qCoor g o i 2 ^ m.2.2))) ((bfs g.dim o).getD i (.c 0))) e) (.c 0)

def monoE (m : ℕ × ℕ × ℕ) : PE := .mul (.mul (.pow (.v 0) m.1) (.pow (.v 1) m.2.1)) (.pow (.v 2) m.2.2)

theorem spanQ : ∀ p ∈ els, ∀ e ∈ bfs p.1.dim p.2,
    (PE.norm e).all (fun t => t.2 == 0 ||
      (sd (t.1.1, t.1.2.1, t.1.2.2.1) ≤ p.2 && t.1.2.2.2 == 0 && (p.1.dim == 3 || t.1.2.2.1 == 0))) = true := by
  decide +kernel

theorem reproQ2 : ∀ p ∈ [(gel24, 1), (gel24, 2), (gel24, 3), (gel38, 1), (gel38, 2)], ∀ m ∈ monos p.1.dim p.2,
    PE.same (repro p.1 p.2 m) (monoE m) = true := by
  decide +kernel

theorem reproQ3 : ∀ m ∈ monos 3 3, PE.same (repro gel38 3 m) (monoE m) = true := by decide +kernel

theorem reproQ {g : Gel} {o : ℕ} (h : Element g o) : ∀ m ∈ monos g.dim o, PE.same (repro g o m) (monoE m) = true := by
  obtain ⟨h1 | h1, h2⟩ := h <;> subst h1 <;> simp at h2 <;> rcases h2 with rfl | rfl | rfl
  · exact reproQ2 (gel24, 1) (by simp)
  · exact reproQ2 (gel24, 2) (by simp)
  · exact reproQ2 (gel24, 3) (by simp)
  · exact reproQ2 (gel38, 1) (by simp)
  · exact reproQ2 (gel38, 2) (by simp)
  · exact reproQ3

section
variable {K : Type} [Field K] [CharZero K]

omit [CharZero K] in
theorem eval_foldr (ρ : Fin 4 → K) (w : ℕ → ℚ) (B : ℕ → PE) (n : ℕ) :
    PE.eval ρ ((List.range n).foldr (fun i e => PE.add (PE.mul (PE.c (w i)) (B i)) e) (PE.c 0)) =
      ∑ i ∈ range n, (w i : K) * (B i).eval ρ := by
  have : ∀ l : List ℕ, PE.eval ρ (l.foldr (fun i e => PE.add (PE.mul (PE.c (w i)) (B i)) e) (PE.c 0)) =
      (l.map fun i => (w i : K) * (B i).eval ρ).sum := by
    intro l
    induction l with
    | nil => simp [PE.eval]
    | cons a l ih => simp [PE.eval, ih]
  rw [this, Finset.sum_range, ← List.sum_ofFn]
  congr 1
  rw [List.ofFn_eq_map]
  apply List.ext_getElem <;> simp

/-- **C99**: every polynomial of the superlinear degree up to the order is given by its values in the nodes. -/
theorem C99_serendipity_reproduces (g : Gel) (o : ℕ) (h : Element g o) (p : List ((ℕ → ℕ) × K))
    (hp : ∀ t ∈ p, superDegree t.1 g.dim ≤ o) (x : ℕ → K) :
    ∑ i ∈ range (nNod g.dim o), (p.map fun t => t.2 * mono g.dim t.1 fun d => nodeCoor g o i d).sum * val g.dim o x i =
      (p.map fun t => t.2 * mono g.dim t.1 x).sum := by
  have hd := els_dim _ (mem_els h)
  simp only at hd
  have one : ∀ m : ℕ → ℕ, superDegree m g.dim ≤ o →
      ∑ i ∈ range (nNod g.dim o), (mono g.dim m fun d => (nodeCoor g o i d : K)) * val g.dim o x i = mono g.dim m x := by
    intro m hm
    set e : ℕ × ℕ × ℕ := (m 0, m 1, if g.dim = 2 then 0 else m 2) with he
    have ho : o ≤ 3 := by
      have := h.2
      simp at this
      omega
    have hmem : e ∈ monos g.dim o := by
      have h3 : ∀ n : ℕ, (if n = 1 then 0 else n) ≤ o → n < 4 := by intro n hn; split_ifs at hn <;> omega
      rcases hd with hd | hd
      · rw [hd] at hm he ⊢
        simp only [superDegree, sum_range_succ, range_zero, sum_empty] at hm
        simp only [monos, List.mem_filter, List.mem_flatMap, List.mem_range, List.mem_map, decide_eq_true_eq, he, if_true]
        refine ⟨⟨m 0, h3 _ (by omega), m 1, h3 _ (by omega), 0, by omega, rfl⟩, ?_⟩
        simp only [sd]
        simpa using hm
      · rw [hd] at hm he ⊢
        simp only [superDegree, sum_range_succ, range_zero, sum_empty] at hm
        simp only [monos, List.mem_filter, List.mem_flatMap, List.mem_range, List.mem_map, decide_eq_true_eq, he]
        refine ⟨⟨m 0, h3 _ (by omega), m 1, h3 _ (by omega), m 2, ?_, rfl⟩, ?_⟩
        · simpa using h3 (m 2) (by omega)
        · simp only [sd]
          simpa using hm
    have hs := PE.eval_eq_of_same (K := K) (reproQ h e hmem) fun j => x j.val
    rw [repro, eval_foldr] at hs
    rw [← show (monoE e).eval (fun j : Fin 4 => x j.val) = mono g.dim m x by
      rcases hd with hd | hd <;> simp [monoE, PE.eval, mono, he, hd, prod_range_succ]]
    rw [← hs]
    refine sum_congr rfl fun i _ => ?_
    rw [val]
    congr 1
    simp only [mono, nodeCoor_eq]
    rcases hd with hd | hd <;> simp [hd, he, prod_range_succ]
  induction p with
  | nil => simp
  | cons t p ih =>
    simp only [List.map_cons, List.sum_cons, add_mul, sum_add_distrib]
    rw [ih fun t ht => hp t (by simp [ht]), ← one t.1 (hp t (by simp)), mul_sum]
    congr 1
    exact sum_congr rfl fun i _ => by ring

/-- **C99**: the functions sum up to one. -/
theorem C99_serendipity_unity (g : Gel) (o : ℕ) (h : Element g o) (x : ℕ → K) :
    ∑ i ∈ range (nNod g.dim o), val g.dim o x i = 1 := by
  have := C99_serendipity_reproduces g o h [(fun _ => 0, (1 : K))] (by simp [superDegree]) x
  simpa [mono] using this

/-- **C99**: every function is a polynomial of the superlinear degree up to the order. -/
theorem C99_serendipity_span (g : Gel) (o : ℕ) (h : Element g o) (i : ℕ) (hi : i < nNod g.dim o) :
    ∃ p : List ((ℕ → ℕ) × K), (∀ t ∈ p, superDegree t.1 g.dim ≤ o) ∧
      ∀ x : ℕ → K, val g.dim o x i = (p.map fun t => t.2 * mono g.dim t.1 x).sum := by
  have hm := mem_els h
  have hd := els_dim _ hm
  simp only at hd
  obtain ⟨-, h2, -⟩ := lenQ _ hm
  have hs := spanQ _ hm _ (getD_mem (i := i) (a := PE.c 0) (by rw [h2]; exact hi))
  have hv : ∀ x : ℕ → K, val g.dim o x i = PE.evalN (fun j : Fin 4 => x j.val)
    (PE.norm ((bfs g.dim o).getD i (PE.c 0))) := fun x => (PE.evalN_norm _ _).symm
  simp only [hv]
  simp only at hs
  generalize PE.norm ((bfs g.dim o).getD i (PE.c 0)) = l at hs
  induction l with
  | nil => exact ⟨[], by simp, by simp [PE.evalN]⟩
  | cons t l ih =>
    simp only [List.all_cons, Bool.and_eq_true] at hs
    obtain ⟨p, hp, e⟩ := ih hs.2
    have h1 := hs.1
    simp only [Bool.or_eq_true, beq_iff_eq, Bool.and_eq_true, decide_eq_true_eq] at h1
    rcases h1 with h1 | ⟨⟨h1, h3⟩, h4⟩
    · refine ⟨p, hp, fun x => ?_⟩
      rw [← e x]
      simp [PE.evalN, h1]
    · refine ⟨(fun d => if d = 0 then t.1.1 else if d = 1 then t.1.2.1 else t.1.2.2.1, (t.2 : K)) :: p, ?_, fun x => ?_⟩
      · intro t' ht'
        rcases List.mem_cons.1 ht' with rfl | ht'
        · simp only [superDegree]
          simp only [sd] at h1
          rcases hd with hd | hd
          · simp only [hd, sum_range_succ, range_zero, sum_empty]
            simp
            omega
          · simp only [hd, sum_range_succ, range_zero, sum_empty]
            simp
            omega
        · exact hp t' ht'
      · rw [List.map_cons, List.sum_cons, ← e x]
        simp only [PE.evalN, List.map_cons, List.sum_cons]
        congr 1
        congr 1
        simp only [PE.evalMono, mono, h3]
        rcases hd with hd | hd
        · have : t.1.2.2.1 = 0 := by simpa [hd] using h4
          simp [hd, prod_range_succ, this]
        · simp [hd, prod_range_succ]

end

end Verif.Poly.Ser
