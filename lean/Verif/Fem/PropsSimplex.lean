/-
The conformity of the numbering of the DOFs of the Lagrange simplex elements.
-/
import Verif.Fem.PropsNodes
import Verif.Fem.Spec
import Mathlib.Algebra.BigOperators.Ring.Finset

namespace Verif.Fem

open Finset

/-! ### Sums of local weights -/

/-- The weights of the mesh vertices given by the weights of the local vertices. -/
def pushW (nV : ℕ) (conn W : ℕ → ℕ) (v : ℕ) : ℕ := ∑ i ∈ range nV, if conn i = v then W i else 0

theorem pushW_congr {nV : ℕ} {conn W W' : ℕ → ℕ} {v : ℕ} (h : ∀ i < nV, W i = W' i) :
    pushW nV conn W v = pushW nV conn W' v :=
  Finset.sum_congr rfl fun i hi => by rw [h i (Finset.mem_range.1 hi)]

theorem pushW_single {nV a : ℕ} (ha : a < nV) (conn : ℕ → ℕ) (c v : ℕ) :
    pushW nV conn (fun i => if i = a then c else 0) v = if v = conn a then c else 0 := by
  unfold pushW
  rw [Finset.sum_eq_single a]
  · simp [eq_comm]
  · intro b _ hb
    simp [hb]
  · intro h
    exact absurd (Finset.mem_range.2 ha) h

theorem pushW_add {nV : ℕ} (conn W W' : ℕ → ℕ) (v : ℕ) :
    pushW nV conn (fun i => W i + W' i) v = pushW nV conn W v + pushW nV conn W' v := by
  unfold pushW
  rw [← Finset.sum_add_distrib]
  refine Finset.sum_congr rfl fun i _ => ?_
  split_ifs <;> rfl

theorem pushW_mul {nV : ℕ} (conn W : ℕ → ℕ) (s v : ℕ) :
    pushW nV conn (fun i => s * W i) v = s * pushW nV conn W v := by
  unfold pushW
  rw [Finset.mul_sum]
  refine Finset.sum_congr rfl fun i _ => ?_
  split_ifs <;> simp

theorem pushW_edge {nV a b : ℕ} (ha : a < nV) (hb : b < nV) (order j : ℕ) (conn : ℕ → ℕ) (v : ℕ) :
    pushW nV conn (edgeW order a b j) v = edgeW order (conn a) (conn b) j v := by
  have : edgeW order a b j = fun i => (if i = a then order - 1 - j else 0) + if i = b then j + 1 else 0 := rfl
  rw [this, pushW_add, pushW_single ha, pushW_single hb, edgeW]

theorem pushW_tri {nV a b c : ℕ} (ha : a < nV) (hb : b < nV) (hc : c < nV) (m : ℕ) (p : ℕ × ℕ) (conn : ℕ → ℕ) (v : ℕ) :
    pushW nV conn (triW m a b c p) v = triW m (conn a) (conn b) (conn c) p v := by
  have : triW m a b c p = fun i => ((if i = a then m - p.1 - p.2 else 0) + if i = b then p.2 + 1 else 0)
    + if i = c then p.1 + 1 else 0 := rfl
  rw [this, pushW_add, pushW_add, pushW_single ha, pushW_single hb, pushW_single hc, triW]

theorem pushW_sq {nV a b c e : ℕ} (ha : a < nV) (hb : b < nV) (hc : c < nV) (he : e < nV) (m : ℕ) (p : ℕ × ℕ)
    (conn : ℕ → ℕ) (v : ℕ) :
    pushW nV conn (sqW m a b c e p) v = sqW m (conn a) (conn b) (conn c) (conn e) p v := by
  have : sqW m a b c e p = fun i => (((if i = a then (m - p.2) * (m - p.1) else 0)
    + if i = b then (p.2 + 1) * (m - p.1) else 0) + if i = c then (p.2 + 1) * (p.1 + 1) else 0)
    + if i = e then (m - p.2) * (p.1 + 1) else 0 := rfl
  rw [this, pushW_add, pushW_add, pushW_add, pushW_single ha, pushW_single hb, pushW_single hc, pushW_single he, sqW]

/-- The weight of the image of a local vertex. -/
theorem pushW_at {nV i : ℕ} {conn : ℕ → ℕ} (hinj : ∀ i < nV, ∀ i' < nV, conn i = conn i' → i = i') (hi : i < nV)
    (W : ℕ → ℕ) : pushW nV conn W (conn i) = W i := by
  unfold pushW
  rw [Finset.sum_eq_single i]
  · simp
  · intro b hb hne
    rw [if_neg fun h => hne (hinj _ (Finset.mem_range.1 hb) _ hi h)]
  · intro h
    exact absurd (Finset.mem_range.2 hi) h

theorem pushW_ne {nV : ℕ} (conn : ℕ → ℕ) {W : ℕ → ℕ} (h : ∀ i < nV, W i ≠ 0) (v : ℕ) :
    pushW nV conn W v ≠ 0 ↔ ∃ i < nV, v = conn i := by
  unfold pushW
  rw [Ne, Finset.sum_eq_zero_iff, not_forall]
  constructor
  · rintro ⟨i, hi⟩
    push Not at hi
    refine ⟨i, Finset.mem_range.1 hi.1, ?_⟩
    by_contra hne
    exact hi.2 (if_neg fun h => hne h.symm)
  · rintro ⟨i, hi, rfl⟩
    refine ⟨i, ?_⟩
    push Not
    exact ⟨Finset.mem_range.2 hi, by rw [if_pos rfl]; exact h i hi⟩

/-! ### Rows -/

/-- The vertex nodes of a simplex. -/
def simplexV (nV order : ℕ) : List Nod :=
  (List.range nV).map fun i => { nt := (0, i), row := fun k => if k = i then order else 0 }

theorem length_simplexV (nV order : ℕ) : (simplexV nV order).length = nV := by simp [simplexV]

theorem nt_simplexV (nV order : ℕ) : (simplexV nV order).map Nod.nt = (List.range nV).map fun i => (0, i) := by
  simp [simplexV]

theorem rowAt_simplexV {nV order i : ℕ} (hi : i < nV) :
    rowAt (simplexV nV order) i = fun k => if k = i then order else 0 := by
  rw [simplexV, rowAt_map _ _ _ (by simpa using hi) 0, List.getD_eq_getElem _ _ (by simpa using hi), List.getElem_range]

theorem div_ite2 {o : ℕ} (ho : 1 ≤ o) (c1 c2 : ℕ) (p q : Prop) [Decidable p] [Decidable q] :
    (c1 * (if p then o else 0) + c2 * (if q then o else 0)) / o = (if p then c1 else 0) + if q then c2 else 0 := by
  have : c1 * (if p then o else 0) + c2 * (if q then o else 0) = ((if p then c1 else 0) + if q then c2 else 0) * o := by
    split_ifs <;> ring
  rw [this, Nat.mul_div_cancel _ ho]

theorem div_ite3 {o : ℕ} (ho : 1 ≤ o) (c1 c2 c3 : ℕ) (p q r : Prop) [Decidable p] [Decidable q] [Decidable r] :
    (c1 * (if p then o else 0) + c2 * (if q then o else 0) + c3 * (if r then o else 0)) / o =
      (if p then c1 else 0) + (if q then c2 else 0) + if r then c3 else 0 := by
  have : c1 * (if p then o else 0) + c2 * (if q then o else 0) + c3 * (if r then o else 0) =
      ((if p then c1 else 0) + (if q then c2 else 0) + if r then c3 else 0) * o := by
    split_ifs <;> ring
  rw [this, Nat.mul_div_cancel _ ho]

theorem div_ite4 {o : ℕ} (ho : 1 ≤ o) (c1 c2 c3 c4 : ℕ) (p q r s : Prop) [Decidable p] [Decidable q] [Decidable r]
    [Decidable s] :
    (c1 * (if p then o else 0) + c2 * (if q then o else 0) + c3 * (if r then o else 0) + c4 * (if s then o else 0)) / o =
      (if p then c1 else 0) + (if q then c2 else 0) + (if r then c3 else 0) + if s then c4 else 0 := by
  have : c1 * (if p then o else 0) + c2 * (if q then o else 0) + c3 * (if r then o else 0) + c4 * (if s then o else 0) =
      ((if p then c1 else 0) + (if q then c2 else 0) + (if r then c3 else 0) + if s then c4 else 0) * o := by
    split_ifs <;> ring
  rw [this, Nat.mul_div_cancel _ ho]

theorem rowAt_edgeBlock {nodes : List Nod} {nV o : ℕ} (ho : 1 ≤ o)
    (hn : ∀ i < nV, rowAt nodes i = fun k => if k = i then o else 0) (nt : ℕ) (l : List ℕ) (e : ℕ)
    (h0 : l.getD 0 0 < nV) (h1 : l.getD 1 0 < nV) {j : ℕ} (hj : j < o - 1) :
    rowAt (edgeBlock nodes nt o l e) j = edgeW o (l.getD 0 0) (l.getD 1 0) j := by
  rw [edgeBlock, rowAt_map _ _ _ (by simpa using hj) 0, List.getD_eq_getElem (List.range _) _ (by simpa using hj),
    List.getElem_range, hn _ h0, hn _ h1]
  funext k
  simp only
  rw [div_ite2 ho, edgeW, show o - (j + 1) = o - 1 - j by omega]

theorem rowAt_triBlock {nodes : List Nod} {nV o : ℕ} (ho : 1 ≤ o)
    (hn : ∀ i < nV, rowAt nodes i = fun k => if k = i then o else 0) (nt : ℕ) (l : List ℕ) (e : ℕ)
    (h0 : l.getD 0 0 < nV) (h1 : l.getD 1 0 < nV) (h2 : l.getD 2 0 < nV) {j : ℕ} (hj : j < (triL (o - 2)).length) :
    rowAt (triBlock nodes nt o l e) j = triW (o - 2) (l.getD 0 0) (l.getD 1 0) (l.getD 2 0)
      ((triL (o - 2)).getD j (0, 0)) := by
  rw [triBlock, rowAt_map _ _ _ hj (0, 0), hn _ h0, hn _ h1, hn _ h2]
  funext k
  simp only
  rw [div_ite3 ho, triW]
  congr 3
  omega

theorem simplexLoc_eq (nV : ℕ) (conn row : ℕ → ℕ) : simplexLoc nV conn row = pushW nV conn row := rfl

/-! ### `1_2` -/

/-- The nodes inside of a segment. -/
theorem simplexNodes12 (o : ℕ) : simplexNodes gel12 o =
    simplexV 2 o ++ (List.range 0).flatMap (fun _ => []) ++ (List.range 0).flatMap (fun _ => []) ++
      edgeBlock (simplexV 2 o) 3 o [0, 1] 0 := by
  simp only [simplexNodes, gel12, if_true, appendEdges_eq, simplexV]
  simp

theorem shape12 (o : ℕ) : HasShape gel12 (simplexNodes gel12 o) 0 0 (o - 1) where
  nts := by
    rw [simplexNodes12]
    exact nts_blocks _ 2 0 0 0 0 (o - 1) _ _ _ (nt_simplexV _ _) (by simp) (by simp) (nt_edgeBlock ..)
  hE := .inr rfl
  hF := .inr rfl

theorem row12_vert {o i : ℕ} (hi : i < 2) : rowAt (simplexNodes gel12 o) i = fun k => if k = i then o else 0 := by
  rw [simplexNodes12, rowAt_vert _ 2 0 0 _ _ _ (length_simplexV _ _) hi, rowAt_simplexV hi]

theorem row12_bubble {o j : ℕ} (ho : 1 ≤ o) (hj : j < o - 1) :
    rowAt (simplexNodes gel12 o) (2 + 0 * 0 + 0 * 0 + j) = edgeW o 0 1 j := by
  rw [simplexNodes12, rowAt_bubble _ 2 0 0 0 0 _ _ _ (length_simplexV _ _) (by simp) (by simp),
    rowAt_edgeBlock (nV := 2) ho (fun i hi => rowAt_simplexV hi) _ _ _ (by simp) (by simp) hj]
  rfl

/-- The positions of the nodes of the element `1_2`. -/
def located12 {o : ℕ} (ho : 1 ≤ o) :
    Located gel12 (simplexNodes gel12 o) o 0 0 (o - 1) (simplexLoc 2) where
  s0 := o
  s1 := 1
  s2 := 1
  pos0 := ho
  pos1 := one_pos
  pos2 := one_pos
  hne := .inr rfl
  lenF := 3
  lenF3 := .inl rfl
  hnf := .inr rfl
  hnV := by simp [gel12]
  edges := by simp [gel12]
  faces := by simp [gel12]
  vert := fun conn i v hi => by rw [row12_vert hi, simplexLoc_eq, pushW_single (nV := 2) hi]
  edge := fun conn e j v he => by simp [gel12] at he
  face := fun conn e j v he => by simp [gel12] at he
  bubble := fun conn j v hj => by
    have hr : rowAt (simplexNodes gel12 o) (gel12.nV + gel12.edges.length * 0 + gel12.faces.length * 0 + j) = _ :=
      row12_bubble ho hj
    rw [hr, simplexLoc_eq]
    refine pushW_ne conn (fun i hi => ?_) v
    unfold edgeW
    interval_cases i <;> simp
    omega
  bubble_inj := fun conn j j' hj hj' hinj h => by
    have hr : rowAt (simplexNodes gel12 o) (gel12.nV + gel12.edges.length * 0 + gel12.faces.length * 0 + j) = _ :=
      row12_bubble ho hj
    have hr' : rowAt (simplexNodes gel12 o) (gel12.nV + gel12.edges.length * 0 + gel12.faces.length * 0 + j') = _ :=
      row12_bubble ho hj'
    have := h (conn 1)
    rw [hr, hr', simplexLoc_eq, simplexLoc_eq, pushW_at (nV := 2) hinj (by decide),
      pushW_at (nV := 2) hinj (by decide)] at this
    simpa [edgeW] using this

/-! ### `2_3` -/

theorem simplexNodes23 (o : ℕ) : simplexNodes gel23 o =
    simplexV 3 o ++ (List.range 3).flatMap (fun e => edgeBlock (simplexV 3 o) 1 o (gel23.edges.getD e []) e)
      ++ (List.range 0).flatMap (fun _ => []) ++
      triBlock (appendEdges (simplexV 3 o) 1 gel23.edges o) 3 o [0, 1, 2] 0 := by
  have : simplexNodes gel23 o = appendFaces (appendEdges (simplexV 3 o) 1 gel23.edges o) 3 [[0, 1, 2]] o := rfl
  rw [this, appendFaces_eq]
  conv_lhs => lhs; rw [appendEdges_eq]
  have h1 : gel23.edges.length = 3 := rfl
  rw [h1]
  simp

theorem rowAt_appendEdges {nV o i nt : ℕ} {edges : List (List ℕ)} (hi : i < nV) :
    rowAt (appendEdges (simplexV nV o) nt edges o) i = fun k => if k = i then o else 0 := by
  rw [appendEdges_eq, rowAt_append_left (by rw [length_simplexV]; exact hi), rowAt_simplexV hi]

theorem shape23 (o : ℕ) : HasShape gel23 (simplexNodes gel23 o) (o - 1) 0 (triL (o - 2)).length where
  nts := by
    rw [simplexNodes23]
    exact nts_blocks _ 3 3 0 (o - 1) 0 _ _ _ _ (nt_simplexV _ _) (fun e _ => nt_edgeBlock ..) (by simp) (nt_triBlock ..)
  hE := .inl (by decide)
  hF := .inr rfl

theorem row23_vert {o i : ℕ} (hi : i < 3) : rowAt (simplexNodes gel23 o) i = fun k => if k = i then o else 0 := by
  rw [simplexNodes23, rowAt_vert _ 3 3 0 _ _ _ (length_simplexV _ _) hi, rowAt_simplexV hi]

theorem gel23_edges : ∀ e < 3, (gel23.edges.getD e []).length = 2 ∧ (gel23.edges.getD e []).Nodup ∧
    ∀ i ∈ gel23.edges.getD e [], i < 3 := by decide

theorem getD_lt {l : List ℕ} {n k : ℕ} (hk : k < l.length) (h : ∀ i ∈ l, i < n) : l.getD k 0 < n := by
  rw [List.getD_eq_getElem _ _ hk]; exact h _ (List.getElem_mem hk)

theorem row23_edge {o e j : ℕ} (ho : 1 ≤ o) (he : e < 3) (hj : j < o - 1) :
    rowAt (simplexNodes gel23 o) (3 + e * (o - 1) + j) =
      edgeW o ((gel23.edges.getD e []).getD 0 0) ((gel23.edges.getD e []).getD 1 0) j := by
  obtain ⟨a, -, b⟩ := gel23_edges e he
  rw [simplexNodes23, rowAt_edge _ 3 3 0 (o - 1) _ _ _ (length_simplexV _ _) (fun e _ => length_edgeBlock ..) he hj,
    rowAt_edgeBlock (nV := 3) ho (fun i hi => rowAt_simplexV hi) _ _ _ (getD_lt (by omega) b) (getD_lt (by omega) b) hj]

theorem row23_bubble {o j : ℕ} (ho : 1 ≤ o) (hj : j < (triL (o - 2)).length) :
    rowAt (simplexNodes gel23 o) (3 + 3 * (o - 1) + 0 * 0 + j) = triW (o - 2) 0 1 2 ((triL (o - 2)).getD j (0, 0)) := by
  rw [simplexNodes23, rowAt_bubble _ 3 3 0 (o - 1) 0 _ _ _ (length_simplexV _ _) (fun e _ => length_edgeBlock ..)
    (by simp), rowAt_triBlock (nV := 3) ho (fun i hi => rowAt_appendEdges hi) _ _ _ (by simp) (by simp) (by simp) hj]
  rfl

/-- The positions of the nodes of the element `2_3`. -/
def located23 {o : ℕ} (ho : 1 ≤ o) :
    Located gel23 (simplexNodes gel23 o) o (o - 1) 0 (triL (o - 2)).length (simplexLoc 3) where
  s0 := o
  s1 := 1
  s2 := 1
  pos0 := ho
  pos1 := one_pos
  pos2 := one_pos
  hne := .inl rfl
  lenF := 3
  lenF3 := .inl rfl
  hnf := .inr rfl
  hnV := by simp [gel23]
  edges := gel23_edges
  faces := by simp [gel23]
  vert := fun conn i v hi => by rw [row23_vert hi, simplexLoc_eq, pushW_single (nV := 3) hi]
  edge := fun conn e j v he hj => by
    obtain ⟨a, -, b⟩ := gel23_edges e he
    have hr : rowAt (simplexNodes gel23 o) (gel23.nV + e * (o - 1) + j) = _ := row23_edge ho he hj
    rw [hr, simplexLoc_eq, pushW_edge (getD_lt (by omega) b) (getD_lt (by omega) b), one_mul]
  face := fun conn e j v he => by simp [gel23] at he
  bubble := fun conn j v hj => by
    have hr : rowAt (simplexNodes gel23 o) (gel23.nV + gel23.edges.length * (o - 1) + gel23.faces.length * 0 + j) = _ :=
      row23_bubble ho hj
    rw [hr, simplexLoc_eq]
    refine pushW_ne conn (fun i hi => ?_) v
    have := mem_triL.1 (List.getElem_mem hj)
    rw [List.getD_eq_getElem _ _ hj]
    unfold triW
    interval_cases i <;> simp
    omega
  bubble_inj := fun conn j j' hj hj' hinj h => by
    have hr : rowAt (simplexNodes gel23 o) (gel23.nV + gel23.edges.length * (o - 1) + gel23.faces.length * 0 + j) = _ :=
      row23_bubble ho hj
    have hr' : rowAt (simplexNodes gel23 o) (gel23.nV + gel23.edges.length * (o - 1) + gel23.faces.length * 0 + j') = _ :=
      row23_bubble ho hj'
    rw [hr, hr', simplexLoc_eq, simplexLoc_eq] at h
    have h1 := h (conn 1)
    have h2 := h (conn 2)
    rw [pushW_at (nV := 3) hinj (by decide), pushW_at (nV := 3) hinj (by decide), List.getD_eq_getElem _ _ hj,
      List.getD_eq_getElem _ _ hj'] at h1 h2
    simp only [triW] at h1 h2
    simp at h1 h2
    exact (List.Nodup.getElem_inj_iff (nodup_triL _)).1 (Prod.ext h2 h1)

/-! ### `3_4` -/

/-- The order of the nodes inside a tetrahedron. -/
def tetL (m : ℕ) : List (ℕ × ℕ × ℕ) :=
  (List.range m).flatMap fun i1 => (List.range m).flatMap fun i2 => (List.range (m - i1 - i2)).map fun i3 => (i1, i2, i3)

theorem mem_tetL {m : ℕ} {p : ℕ × ℕ × ℕ} : p ∈ tetL m ↔ p.1 + p.2.1 + p.2.2 < m := by
  obtain ⟨x, y, z⟩ := p
  simp only [tetL, List.mem_flatMap, List.mem_range, List.mem_map, Prod.mk.injEq]
  constructor
  · rintro ⟨a, ha, b, hb, c, hc, rfl, rfl, rfl⟩; omega
  · intro h; exact ⟨x, by omega, y, by omega, z, by omega, rfl, rfl, rfl⟩

theorem nodup_rows3 (m : ℕ) (n : ℕ → ℕ) (k : ℕ → ℕ → ℕ) :
    ((List.range m).flatMap fun i1 => (List.range (n i1)).flatMap fun i2 =>
      (List.range (k i1 i2)).map fun i3 => (i1, i2, i3)).Nodup := by
  rw [List.nodup_flatMap]
  constructor
  · intro i _
    have := (nodup_rows (n i) (k i)).map (f := fun p : ℕ × ℕ => (i, p.1, p.2)) (fun a b h => by simpa [Prod.ext_iff] using h)
    rw [List.map_flatMap] at this
    convert this using 3
    rw [List.map_map]
    rfl
  · refine List.nodup_range.imp fun {a b} hab => ?_
    intro p hp hq
    simp only [List.mem_flatMap, List.mem_map, List.mem_range] at hp hq
    obtain ⟨x, -, y, -, rfl⟩ := hp
    obtain ⟨x', -, y', -, e⟩ := hq
    exact hab (Prod.mk.inj e).1.symm

theorem nodup_tetL (m : ℕ) : (tetL m).Nodup := nodup_rows3 m _ _

/-- The weights of the node `p` inside of a tetrahedron. -/
def tetW (m : ℕ) (p : ℕ × ℕ × ℕ) (v : ℕ) : ℕ :=
  (if v = 0 then m - p.1 - p.2.1 - p.2.2 else 0) + (if v = 1 then p.2.2 + 1 else 0)
    + (if v = 2 then p.2.1 + 1 else 0) + if v = 3 then p.1 + 1 else 0

/-- The nodes inside of a tetrahedron. -/
def tetBlock (nodes : List Nod) (order : ℕ) : List Nod :=
  (tetL (order - 3)).map fun p =>
    { nt := (3, 0)
      row := fun k => ((order - (p.1 + 1) - (p.2.1 + 1) - (p.2.2 + 1)) * rowAt nodes 0 k
        + (p.2.2 + 1) * rowAt nodes 1 k + (p.2.1 + 1) * rowAt nodes 2 k + (p.1 + 1) * rowAt nodes 3 k) / order }

theorem appendBubbles_eq (nodes : List Nod) (o : ℕ) : appendBubbles nodes 3 o = nodes ++ tetBlock nodes o := by
  rw [appendBubbles]
  simp only
  congr 1
  rw [tetBlock, tetL, List.map_flatMap]
  refine List.flatMap_congr fun i _ => ?_
  rw [List.map_flatMap]
  refine List.flatMap_congr fun j _ => ?_
  rw [List.map_map]
  rfl

theorem simplexNodes34 (o : ℕ) : simplexNodes gel34 o =
    simplexV 4 o ++ (List.range 6).flatMap (fun e => edgeBlock (simplexV 4 o) 1 o (gel34.edges.getD e []) e)
      ++ (List.range 4).flatMap (fun f => triBlock (appendEdges (simplexV 4 o) 1 gel34.edges o) 2 o
        (gel34.faces.getD f []) f) ++
      tetBlock (appendFaces (appendEdges (simplexV 4 o) 1 gel34.edges o) 2 gel34.faces o) o := by
  have : simplexNodes gel34 o = appendBubbles (appendFaces (appendEdges (simplexV 4 o) 1 gel34.edges o) 2
    gel34.faces o) 3 o := rfl
  rw [this, appendBubbles_eq]
  conv_lhs => lhs; rw [appendFaces_eq]; lhs; rw [appendEdges_eq]
  rfl

theorem rowAt_appendFaces {nV o i : ℕ} {edges faces : List (List ℕ)} (hi : i < nV) :
    rowAt (appendFaces (appendEdges (simplexV nV o) 1 edges o) 2 faces o) i = fun k => if k = i then o else 0 := by
  rw [appendFaces_eq, rowAt_append_left, rowAt_appendEdges hi]
  rw [appendEdges_eq, List.length_append, length_simplexV]
  omega

theorem shape34 (o : ℕ) : HasShape gel34 (simplexNodes gel34 o) (o - 1) (triL (o - 2)).length (tetL (o - 3)).length where
  nts := by
    rw [simplexNodes34]
    exact nts_blocks _ 4 6 4 (o - 1) _ _ _ _ _ (nt_simplexV _ _) (fun e _ => nt_edgeBlock ..)
      (fun e _ => nt_triBlock ..) (map_nt_const _ _ _ fun _ => rfl)
  hE := .inl (by decide)
  hF := .inl (by decide)

theorem row34_vert {o i : ℕ} (hi : i < 4) : rowAt (simplexNodes gel34 o) i = fun k => if k = i then o else 0 := by
  rw [simplexNodes34, rowAt_vert _ 4 6 4 _ _ _ (length_simplexV _ _) hi, rowAt_simplexV hi]

theorem gel34_edges : ∀ e < 6, (gel34.edges.getD e []).length = 2 ∧ (gel34.edges.getD e []).Nodup ∧
    ∀ i ∈ gel34.edges.getD e [], i < 4 := by decide

theorem gel34_faces : ∀ e < 4, (gel34.faces.getD e []).length = 3 ∧ (gel34.faces.getD e []).Nodup ∧
    ∀ i ∈ gel34.faces.getD e [], i < 4 := by decide

theorem row34_edge {o e j : ℕ} (ho : 1 ≤ o) (he : e < 6) (hj : j < o - 1) :
    rowAt (simplexNodes gel34 o) (4 + e * (o - 1) + j) =
      edgeW o ((gel34.edges.getD e []).getD 0 0) ((gel34.edges.getD e []).getD 1 0) j := by
  obtain ⟨a, -, b⟩ := gel34_edges e he
  rw [simplexNodes34, rowAt_edge _ 4 6 4 (o - 1) _ _ _ (length_simplexV _ _) (fun e _ => length_edgeBlock ..) he hj,
    rowAt_edgeBlock (nV := 4) ho (fun i hi => rowAt_simplexV hi) _ _ _ (getD_lt (by omega) b) (getD_lt (by omega) b) hj]

theorem row34_face {o f j : ℕ} (ho : 1 ≤ o) (hf : f < 4) (hj : j < (triL (o - 2)).length) :
    rowAt (simplexNodes gel34 o) (4 + 6 * (o - 1) + f * (triL (o - 2)).length + j) =
      triW (o - 2) ((gel34.faces.getD f []).getD 0 0) ((gel34.faces.getD f []).getD 1 0)
        ((gel34.faces.getD f []).getD 2 0) ((triL (o - 2)).getD j (0, 0)) := by
  obtain ⟨a, -, b⟩ := gel34_faces f hf
  rw [simplexNodes34, rowAt_face _ 4 6 4 (o - 1) _ _ _ _ (length_simplexV _ _) (fun e _ => length_edgeBlock ..)
    (fun e _ => length_triBlock ..) hf hj,
    rowAt_triBlock (nV := 4) ho (fun i hi => rowAt_appendEdges hi) _ _ _ (getD_lt (by omega) b) (getD_lt (by omega) b)
      (getD_lt (by omega) b) hj]

theorem row34_bubble {o j : ℕ} (ho : 1 ≤ o) (hj : j < (tetL (o - 3)).length) :
    rowAt (simplexNodes gel34 o) (4 + 6 * (o - 1) + 4 * (triL (o - 2)).length + j) =
      tetW (o - 3) ((tetL (o - 3)).getD j (0, 0, 0)) := by
  rw [simplexNodes34, rowAt_bubble _ 4 6 4 (o - 1) _ _ _ _ (length_simplexV _ _) (fun e _ => length_edgeBlock ..)
    (fun e _ => length_triBlock ..), tetBlock, rowAt_map _ _ _ hj (0, 0, 0), rowAt_appendFaces (by omega),
    rowAt_appendFaces (by omega), rowAt_appendFaces (by omega), rowAt_appendFaces (by omega)]
  funext k
  simp only
  rw [div_ite4 ho, tetW]
  congr 4
  omega

/-- The positions of the nodes of the element `3_4`. -/
def located34 {o : ℕ} (ho : 1 ≤ o) :
    Located gel34 (simplexNodes gel34 o) o (o - 1) (triL (o - 2)).length (tetL (o - 3)).length (simplexLoc 4) where
  s0 := o
  s1 := 1
  s2 := 1
  pos0 := ho
  pos1 := one_pos
  pos2 := one_pos
  hne := .inl rfl
  lenF := 3
  lenF3 := .inl rfl
  hnf := .inl rfl
  hnV := by simp [gel34]
  edges := gel34_edges
  faces := gel34_faces
  vert := fun conn i v hi => by rw [row34_vert hi, simplexLoc_eq, pushW_single (nV := 4) hi]
  edge := fun conn e j v he hj => by
    obtain ⟨a, -, b⟩ := gel34_edges e he
    have hr : rowAt (simplexNodes gel34 o) (gel34.nV + e * (o - 1) + j) = _ := row34_edge ho he hj
    rw [hr, simplexLoc_eq, pushW_edge (getD_lt (by omega) b) (getD_lt (by omega) b), one_mul]
  face := fun conn f j v hf hj => by
    obtain ⟨a, -, b⟩ := gel34_faces f hf
    have hr : rowAt (simplexNodes gel34 o) (gel34.nV + gel34.edges.length * (o - 1) + f * (triL (o - 2)).length + j) = _ :=
      row34_face ho hf hj
    rw [hr, simplexLoc_eq, pushW_tri (getD_lt (by omega) b) (getD_lt (by omega) b) (getD_lt (by omega) b), one_mul]
    obtain ⟨x, y, z, e⟩ := list_three a
    rw [e]
    rfl
  bubble := fun conn j v hj => by
    have hr : rowAt (simplexNodes gel34 o) (gel34.nV + gel34.edges.length * (o - 1) + gel34.faces.length *
      (triL (o - 2)).length + j) = _ := row34_bubble ho hj
    rw [hr, simplexLoc_eq]
    refine pushW_ne conn (fun i hi => ?_) v
    have := mem_tetL.1 (List.getElem_mem hj)
    rw [List.getD_eq_getElem _ _ hj]
    unfold tetW
    interval_cases i <;> simp
    omega
  bubble_inj := fun conn j j' hj hj' hinj h => by
    have hr : rowAt (simplexNodes gel34 o) (gel34.nV + gel34.edges.length * (o - 1) + gel34.faces.length *
      (triL (o - 2)).length + j) = _ := row34_bubble ho hj
    have hr' : rowAt (simplexNodes gel34 o) (gel34.nV + gel34.edges.length * (o - 1) + gel34.faces.length *
      (triL (o - 2)).length + j') = _ := row34_bubble ho hj'
    rw [hr, hr', simplexLoc_eq, simplexLoc_eq] at h
    have h1 := h (conn 1)
    have h2 := h (conn 2)
    have h3 := h (conn 3)
    rw [pushW_at (nV := 4) hinj (by decide), pushW_at (nV := 4) hinj (by decide), List.getD_eq_getElem _ _ hj,
      List.getD_eq_getElem _ _ hj'] at h1 h2 h3
    simp only [tetW] at h1 h2 h3
    simp at h1 h2 h3
    exact (List.Nodup.getElem_inj_iff (nodup_tetL _)).1 (Prod.ext h3 (Prod.ext h2 h1))

theorem HasShape.length {g : Gel} {N : List Nod} {ne nf nb : ℕ} (h : HasShape g N ne nf nb) :
    N.length = g.nV + g.edges.length * ne + g.faces.length * nf + nb := by
  have := congrArg List.length h.nts
  rw [List.length_map, shape] at this
  rw [this]
  simp only [List.length_append, List.length_map, List.length_range, List.length_replicate]
  rw [length_blocks _ ne _ fun _ _ => by simp, length_blocks _ nf _ fun _ _ => by simp]

/-- **C55**: for a Lagrange field of any order on simplices of the dimension 1, 2 or 3, two local nodes of two
cells have the same DOF iff they are in the same place: the field is continuous, and has no redundant identifications
of DOFs. -/
theorem C55_conforming_simplex (g : Gel) (hg : g = gel12 ∨ g = gel23 ∨ g = gel34) (order : ℕ) (ho : 1 ≤ order)
    (d : FieldData) (M : MeshOk g d) (el el' k k' : ℕ) (hel : el < d.cells.length) (hel' : el' < d.cells.length)
    (hk : k < (simplexNodes g order).length) (hk' : k' < (simplexNodes g order).length) :
    (setupGlobalBasis g (simplexNodes g order) order d).1 (el, k) =
      (setupGlobalBasis g (simplexNodes g order) order d).1 (el', k') ↔
    ∀ v, simplexLoc g.nV (d.conn (d.cells.getD el 0)) (rowAt (simplexNodes g order) k) v =
      simplexLoc g.nV (d.conn (d.cells.getD el' 0)) (rowAt (simplexNodes g order) k') v := by
  rcases hg with rfl | rfl | rfl
  · rw [(shape12 order).length] at hk hk'
    exact conforming (located12 ho) M ((shape12 order).econn order d) hel hel' hk hk'
  · rw [(shape23 order).length] at hk hk'
    exact conforming (located23 ho) M ((shape23 order).econn order d) hel hel' hk hk'
  · rw [(shape34 order).length] at hk hk'
    exact conforming (located34 ho) M ((shape34 order).econn order d) hel hel' hk hk'

end Verif.Fem
