/-
The functions of the hierarchical fields are continuous: the values in a cell as the sums of the functions of its
vertices, edges, faces and of its interior.
-/
import Verif.Poly.LobNodes
import Verif.Poly.LobProps
import Verif.Fem.PropsContGeneric

namespace Verif.Poly.Lob

open Verif.Fem Verif.CMesh
open Finset

/-! ### The functions of one variable -/

/-- The function `k` on the segment `[0, 1]`. -/
noncomputable def ell (k : ℕ) (x : ℝ) : ℝ := lob k (xi 0 1 x)

theorem xi01 (x : ℝ) : xi 0 1 x = 2 * x - 1 := by simp [xi]

theorem ell0 (x : ℝ) : ell 0 x = 1 - x := by
  rw [ell, (C101_lobatto_linear _).1, xi01]; ring

theorem ell1 (x : ℝ) : ell 1 x = x := by
  rw [ell, (C101_lobatto_linear _).2, xi01]; ring

theorem lob_big {k : ℕ} (hk : 10 < k) (x : ℝ) : lob k x = 0 := by
  have : lobattoTab.length = 11 := by decide
  have h : lobattoTab.getD k (.c 0) = .c 0 := List.getD_eq_default _ _ (by rw [this]; omega)
  rw [lob, h]
  simp [PE.eval]

theorem ell_ends (k : ℕ) : ell (k + 2) 0 = 0 ∧ ell (k + 2) 1 = 0 := by
  rw [ell, ell, xi01, xi01]
  norm_num
  rcases Nat.lt_or_ge 10 (k + 2) with h | h
  · exact ⟨lob_big h _, lob_big h _⟩
  · exact ⟨(C101_lobatto_ends (k + 2) ⟨by omega, h⟩).2, (C101_lobatto_ends (k + 2) ⟨by omega, h⟩).1⟩

theorem ell_zero (k : ℕ) : ell (k + 2) 0 = 0 := (ell_ends k).1
theorem ell_one (k : ℕ) : ell (k + 2) 1 = 0 := (ell_ends k).2

theorem ell_flip (k : ℕ) (x : ℝ) : ell (k + 2) (1 - x) = (if k % 2 = 1 then -1 else 1) * ell (k + 2) x := by
  rw [ell, ell, xi01, xi01]
  rcases Nat.lt_or_ge 10 (k + 2) with h | h
  · rw [lob_big h, lob_big h]; simp
  · rw [show 2 * (1 - x) - 1 = -(2 * x - 1) by ring, C101_lobatto_parity (k + 2) ⟨by omega, h⟩]
    congr 1
    rw [pow_add]
    rcases Nat.mod_two_eq_zero_or_one k with h | h
    · rw [if_neg (by omega), (Nat.even_iff.2 h).neg_one_pow]; norm_num
    · rw [if_pos h, (Nat.odd_iff.2 h).neg_one_pow]; norm_num

/-- A combination of the functions of an edge from the vertex `p` to the vertex `q`. -/
noncomputable def edgeFun (n : ℕ) (w : ℕ → ℝ) (p q : ℕ) (s : ℝ) : ℝ :=
  ∑ j ∈ range n, ((if p < q ∧ j % 2 = 1 then -1 else 1) * ell (j + 2) s) * w j

theorem edgeFun_zero (n : ℕ) (w : ℕ → ℝ) (p q : ℕ) : edgeFun n w p q 0 = 0 :=
  sum_eq_zero fun j _ => by rw [ell_zero]; ring

theorem edgeFun_one (n : ℕ) (w : ℕ → ℝ) (p q : ℕ) : edgeFun n w p q 1 = 0 :=
  sum_eq_zero fun j _ => by rw [ell_one]; ring

theorem edgeFun_swap (n : ℕ) (w : ℕ → ℝ) {p q : ℕ} (h : p ≠ q) (s : ℝ) : edgeFun n w q p (1 - s) = edgeFun n w p q s := by
  refine sum_congr rfl fun j _ => ?_
  rw [ell_flip]
  rcases Nat.mod_two_eq_zero_or_one j with hj | hj
  · simp [hj]
  · rcases Nat.lt_or_ge p q with hp | hp
    · simp [hj, hp, show ¬ q < p by omega]
    · simp [hj, show ¬ p < q by omega, show q < p by omega]

/-! ### The types of the nodes -/

theorem nt_iff (nts : List (ℕ × ℕ)) {t : ℕ} (ht : t ≠ 0) (k : ℕ) : (nts.getD k (0, 0)).1 = t ↔ k ∈ whereType nts t := by
  simp only [whereType, List.mem_filter, List.mem_range, beq_iff_eq]
  refine ⟨fun h => ⟨?_, h⟩, fun h => h.2⟩
  by_contra hk
  rw [List.getD_eq_default _ _ (by omega)] at h
  exact ht h.symm

/-- The type of a node by its number. -/
theorem nt_cases {g : Gel} (hg : IsEl g) (o k : ℕ) :
    ((((nodes g o).map Nod.nt).getD k (0, 0)).1 = 1 ↔ g.nV ≤ k ∧ k < g.nV + g.edges.length * (o - 1)) ∧
    ((((nodes g o).map Nod.nt).getD k (0, 0)).1 = 2 ↔ g.nV + g.edges.length * (o - 1) ≤ k ∧
      k < g.nV + g.edges.length * (o - 1) + g.faces.length * nf g o) := by
  obtain ⟨w1, w2, -⟩ := describe_shape g.nV g.edges.length (o - 1) g.faces.length (nf g o) (nb g o)
  rw [nt_iff _ (by decide), nt_iff _ (by decide), (shape_eq hg o).nts, w1, w2, List.mem_range'_1, List.mem_range'_1]
  exact ⟨Iff.rfl, Iff.rfl⟩

theorem blk {a b i j : ℕ} (hi : i < a) (hj : j < b) : i * b + j < a * b := by
  calc i * b + j < (i + 1) * b := by rw [Nat.succ_mul]; omega
    _ ≤ _ := Nat.mul_le_mul_right _ hi

theorem sum_blocks (a b : ℕ) (f : ℕ → ℝ) : ∑ k ∈ range (a * b), f k = ∑ i ∈ range a, ∑ j ∈ range b, f (i * b + j) := by
  induction a with
  | zero => simp
  | succ a ih => rw [Nat.succ_mul, sum_range_add, ih, sum_range_succ]

/-- The number of the nodes. -/
theorem nNod_eq {g : Gel} (hg : IsEl g) {o : ℕ} (ho : 1 ≤ o) :
    nNod g.dim o = g.nV + g.edges.length * (o - 1) + g.faces.length * nf g o + nb g o := by
  obtain ⟨m, rfl⟩ : ∃ m, o = m + 1 := ⟨o - 1, by omega⟩
  rcases hg with rfl | rfl
  · show (m + 1 + 1) ^ 2 = 4 + 4 * m + 0 * _ + m ^ 2
    ring
  · show (m + 1 + 1) ^ 3 = 8 + 12 * m + 6 * (if 3 = 2 then 0 else m ^ 2) + m ^ 3
    norm_num
    ring

/-- The value in a cell by the kinds of the nodes. -/
theorem value_split {g : Gel} (hg : IsEl g) {o : ℕ} (ho : 1 ≤ o) (f : ℕ → ℝ) :
    ∑ k ∈ range (nNod g.dim o), f k = ∑ i ∈ range g.nV, f i
      + ∑ e ∈ range g.edges.length, ∑ j ∈ range (o - 1), f (g.nV + e * (o - 1) + j)
      + ∑ e ∈ range g.faces.length, ∑ j ∈ range (nf g o), f (g.nV + g.edges.length * (o - 1) + e * nf g o + j)
      + ∑ j ∈ range (nb g o), f (g.nV + g.edges.length * (o - 1) + g.faces.length * nf g o + j) := by
  rw [nNod_eq hg ho, sum_range_add, sum_range_add, sum_range_add, sum_blocks, sum_blocks]
  simp only [Nat.add_assoc]

/-! ### The values of the kinds of nodes -/

theorem evalTP01 (dim : ℕ) (row : ℕ → ℕ) (x : ℕ → ℝ) : evalTP dim row 0 1 x = ∏ d ∈ range dim, ell (row d) (x d) := rfl

theorem val_vertex {g : Gel} (hg : IsEl g) (o oi : ℕ) {i : ℕ} (hi : i < g.nV) (x : ℕ → ℝ) :
    orientedVal g o oi i x = ∏ d ∈ range g.dim, ell (vertexMap g.dim i d) (x d) := by
  obtain ⟨h1, h2⟩ := nt_cases hg o i
  simp only [orientedVal]
  rw [if_neg (fun h => by have := h1.1 h; omega), if_neg (fun h => by have := h2.1 h; omega), row_vertex g o hi, evalTP01]

theorem val_edge {g : Gel} (hg : IsEl g) (o oi : ℕ) {e j : ℕ} (he : e < g.edges.length) (hj : j < o - 1) (x : ℕ → ℝ) :
    orientedVal g o oi (g.nV + e * (o - 1) + j) x =
      (if oi = 1 then -1 else 1) * ∏ d ∈ range g.dim, ell (edgeRow g.dim (g.edges.getD e []) (j + 2) d) (x d) := by
  obtain ⟨h1, h2⟩ := nt_cases hg o (g.nV + e * (o - 1) + j)
  have := blk he hj
  simp only [orientedVal]
  rw [if_pos (h1.2 ⟨by omega, by omega⟩), row_edge g o he hj, evalTP01]
  split_ifs <;> ring

theorem val_bubble {g : Gel} (hg : IsEl g) (o oi : ℕ) {j : ℕ} (hj : j < nb g o) (x : ℕ → ℝ)
    {d : ℕ} (hd : d < g.dim) (hx : x d = 0 ∨ x d = 1) :
    orientedVal g o oi (g.nV + g.edges.length * (o - 1) + g.faces.length * nf g o + j) x = 0 := by
  obtain ⟨h1, h2⟩ := nt_cases hg o (g.nV + g.edges.length * (o - 1) + g.faces.length * nf g o + j)
  simp only [orientedVal]
  rw [if_neg (fun h => by have := h1.1 h; omega), if_neg (fun h => by have := h2.1 h; omega), evalTP01]
  refine prod_eq_zero (mem_range.2 hd) ?_
  have hr := (row_bubble hg o hj d hd).1
  generalize rowAt (nodes g o) (g.nV + g.edges.length * (o - 1) + g.faces.length * nf g o + j) d = r at *
  obtain ⟨r, rfl⟩ : ∃ k, r = k + 2 := ⟨r - 2, by omega⟩
  rcases hx with h | h
  · rw [h, ell_zero]
  · rw [h, ell_one]

/-- The sign and the order of the indices of a function of a face with the orientation item `oi`. -/
noncomputable def faceBasis (oi a b : ℕ) (s t : ℝ) : ℝ :=
  if 4 ≤ oi then (if oi = 5 ∨ oi = 6 then -1 else 1) * (ell b s * ell a t)
  else (if oi = 1 ∨ oi = 2 then -1 else 1) * (ell a s * ell b t)

theorem faceRow_prod {f : ℕ} (hf : f < 6) (a b : ℕ) (x : ℕ → ℝ) :
    ∏ d ∈ range 3, ell (faceRow 3 (gel38.faces.getD f []) a b d) (x d) =
      ell a (x (irun1 3 (gel38.faces.getD f []))) * ell b (x (irun2 3 (gel38.faces.getD f []))) *
        ell (vertexMap 3 ((gel38.faces.getD f []).getD 0 0) (ifix 3 (gel38.faces.getD f [])))
          (x (ifix 3 (gel38.faces.getD f []))) := by
  have key : ∀ f < 6, ∃ p q r, irun1 3 (gel38.faces.getD f []) = p ∧ irun2 3 (gel38.faces.getD f []) = q ∧
      ifix 3 (gel38.faces.getD f []) = r ∧ (p, q, r) ∈ [(0, 1, 2), (1, 0, 2), (0, 2, 1), (2, 0, 1), (1, 2, 0), (2, 1, 0)] := by
    intro f hf
    refine ⟨_, _, _, rfl, rfl, rfl, ?_⟩
    revert f; decide
  obtain ⟨p, q, r, h1, h2, h3, h4⟩ := key f hf
  simp only [faceRow, h1, h2, h3]
  simp only [List.mem_cons, Prod.mk.injEq, List.not_mem_nil, or_false] at h4
  rcases h4 with ⟨rfl, rfl, rfl⟩ | ⟨rfl, rfl, rfl⟩ | ⟨rfl, rfl, rfl⟩ | ⟨rfl, rfl, rfl⟩ | ⟨rfl, rfl, rfl⟩ | ⟨rfl, rfl, rfl⟩ <;>
    (simp [prod_range_succ, -mul_eq_mul_left_iff, -mul_eq_mul_right_iff]; try ring)

theorem val_face (o oi : ℕ) {f i j : ℕ} (hf : f < 6) (hi : i < o - 1) (hj : j < o - 1) (x : ℕ → ℝ) :
    orientedVal gel38 o oi (8 + 12 * (o - 1) + f * nf gel38 o + (i * (o - 1) + j)) x =
      faceBasis oi (i + 2) (j + 2) (x (irun1 3 (gel38.faces.getD f []))) (x (irun2 3 (gel38.faces.getD f []))) *
        ell (vertexMap 3 ((gel38.faces.getD f []).getD 0 0) (ifix 3 (gel38.faces.getD f [])))
          (x (ifix 3 (gel38.faces.getD f []))) := by
  have hg : IsEl gel38 := .inr rfl
  have hnf : nf gel38 o = (o - 1) ^ 2 := by rw [nf, if_neg (by decide)]
  have hm : i * (o - 1) + j < nf gel38 o := by rw [hnf, sq]; exact blk hi hj
  have hb := blk hf hm
  obtain ⟨h1, h2⟩ := nt_cases hg o (8 + 12 * (o - 1) + f * nf gel38 o + (i * (o - 1) + j))
  have h1 : _ ↔ 8 ≤ _ ∧ _ < 8 + 12 * (o - 1) := h1
  have h2 : _ ↔ 8 + 12 * (o - 1) ≤ _ ∧ _ < 8 + 12 * (o - 1) + 6 * nf gel38 o := h2
  have h0 : faceIndx0 gel38 o = 8 + 12 * (o - 1) := faceIndx0_eq hg
    (by rw [hnf]; exact Nat.mul_pos (by decide) (pow_pos (by omega) 2))
  have r1 : rowAt (nodes gel38 o) (8 + 12 * (o - 1) + f * nf gel38 o + (i * (o - 1) + j)) = _ := row_face hg o hf hi hj
  have r2 := row_sface hg o (f := f) hf hi hj
  have hs : 8 + 12 * (o - 1) + f * nf gel38 o + (i * (o - 1) + j) - faceIndx0 gel38 o = f * nf gel38 o + (i * (o - 1) + j) := by
    rw [h0]; omega
  simp only [orientedVal]
  rw [if_neg (fun h => by have := h1.1 h; omega), if_pos (h2.2 ⟨by omega, by omega⟩), hs, r1, r2]
  have e1 := faceRow_prod hf (i + 2) (j + 2) x
  have e2 := faceRow_prod hf (j + 2) (i + 2) x
  simp only [evalTP01]
  simp only [show gel38.dim = 3 from rfl]
  rw [e1, e2]
  simp only [faceBasis]
  rcases Nat.lt_or_ge oi 4 with h | h
  · simp only [show ¬ 4 ≤ oi by omega, show ¬ (oi = 5 ∨ oi = 6) by omega, if_false]
    split_ifs <;> ring
  · simp only [h, show ¬ (oi = 1 ∨ oi = 2) by omega, if_false, if_true]
    split_ifs <;> ring

/-- The axis of an edge. -/
def axis (g : Gel) (e : ℕ) : ℕ :=
  firstAxis g.dim fun d => vertexMap g.dim ((g.edges.getD e []).getD 0 0) d ≠ vertexMap g.dim ((g.edges.getD e []).getD 1 0) d

/-- The edge in the direction of its axis. -/
def edgeVerts (g : Gel) (e : ℕ) : ℕ × ℕ :=
  if tpEdgeOri g.dim (g.edges.getD e []) then ((g.edges.getD e []).getD 0 0, (g.edges.getD e []).getD 1 0)
  else ((g.edges.getD e []).getD 1 0, (g.edges.getD e []).getD 0 0)

/-- The part of the functions of an edge that does not depend on the position along the edge. -/
noncomputable def edgeRest (g : Gel) (e : ℕ) (x : ℕ → ℝ) : ℝ :=
  ∏ d ∈ range g.dim, if d = axis g e then 1 else ell (vertexMap g.dim ((g.edges.getD e []).getD 0 0) d) (x d)

theorem edgeRow_eq {g : Gel} (hg : IsEl g) {e : ℕ} (he : e < g.edges.length) (k : ℕ) {d : ℕ} (hd : d < g.dim) :
    edgeRow g.dim (g.edges.getD e []) k d =
      if d = axis g e then k else vertexMap g.dim ((g.edges.getD e []).getD 0 0) d := by
  rcases hg with rfl | rfl
  · have he : e < 4 := he
    have hd : d < 2 := hd
    interval_cases e <;> interval_cases d <;> rfl
  · have he : e < 12 := he
    have hd : d < 3 := hd
    interval_cases e <;> interval_cases d <;> rfl

theorem axis_lt {g : Gel} (hg : IsEl g) {e : ℕ} (he : e < g.edges.length) : axis g e < g.dim := by
  rcases hg with rfl | rfl
  · exact (by decide : ∀ e < gel24.edges.length, axis gel24 e < gel24.dim) e he
  · exact (by decide : ∀ e < gel38.edges.length, axis gel38 e < gel38.dim) e he

theorem edgeRow_prod {g : Gel} (hg : IsEl g) {e : ℕ} (he : e < g.edges.length) (k : ℕ) (x : ℕ → ℝ) :
    ∏ d ∈ range g.dim, ell (edgeRow g.dim (g.edges.getD e []) k d) (x d) = ell k (x (axis g e)) * edgeRest g e x := by
  rw [edgeRest, ← mul_prod_erase _ _ (mem_range.2 (axis_lt hg he)),
    ← mul_prod_erase _ (fun d => if d = axis g e then (1 : ℝ) else _) (mem_range.2 (axis_lt hg he)), if_pos rfl, one_mul,
    edgeRow_eq hg he k (axis_lt hg he), if_pos rfl]
  congr 1
  refine prod_congr rfl fun d hd => ?_
  obtain ⟨h1, h2⟩ := mem_erase.1 hd
  rw [edgeRow_eq hg he k (mem_range.1 h2), if_neg h1, if_neg h1]

theorem nodeOrder_edge {g : Gel} (hg : IsEl g) (o : ℕ) {e j : ℕ} (he : e < g.edges.length) (hj : j < o - 1) :
    nodeOrder g.dim (rowAt (nodes g o) (g.nV + e * (o - 1) + j)) = j + 2 := by
  rw [row_edge g o he hj, nodeOrder, ← mul_prod_erase _ _ (mem_range.2 (axis_lt hg he)), edgeRow_eq hg he _ (axis_lt hg he),
    if_pos rfl, if_pos (by omega), prod_eq_one, mul_one]
  intro d hd
  obtain ⟨h1, h2⟩ := mem_erase.1 hd
  rw [edgeRow_eq hg he _ (mem_range.1 h2), if_neg h1]
  have : vertexMap g.dim ((g.edges.getD e []).getD 0 0) d ≤ 1 := by
    have h2 := mem_range.1 h2
    rcases hg with rfl | rfl
    · exact (by decide : ∀ e < gel24.edges.length, ∀ d < gel24.dim, vertexMap gel24.dim ((gel24.edges.getD e []).getD 0 0) d ≤ 1)
        e he d h2
    · exact (by decide : ∀ e < gel38.edges.length, ∀ d < gel38.dim, vertexMap gel38.dim ((gel38.edges.getD e []).getD 0 0) d ≤ 1)
        e he d h2
  split_ifs <;> omega

end Verif.Poly.Lob
