/-
The functions of the serendipity fields are continuous: the proof.
-/
import Verif.Poly.SerCont

namespace Verif.Poly.Ser

open Verif.Fem
open Finset

variable {K : Type} [Field K] [CharZero K]

omit [CharZero K] in
theorem sum_trace {n : ℕ} {ν : List ℕ} (hnd : ν.Nodup) (hlt : ∀ k ∈ ν, k < n) (φ φ' a : ℕ → K)
    (h1 : ∀ m < ν.length, φ (ν.getD m 0) = φ' m) (h0 : ∀ k < n, k ∉ ν → φ k = 0) :
    ∑ k ∈ range n, φ k * a k = ∑ m ∈ range ν.length, φ' m * a (ν.getD m 0) := by
  have e1 : ∑ k ∈ ν.toFinset, φ k * a k = ∑ k ∈ range n, φ k * a k := by
    refine sum_subset (fun k hk => mem_range.2 (hlt k (List.mem_toFinset.1 hk))) fun k hk hk' => ?_
    rw [h0 k (mem_range.1 hk) fun h => hk' (List.mem_toFinset.2 h), zero_mul]
  rw [← e1]
  symm
  refine sum_nbij (fun m => ν.getD m 0) (fun m hm => ?_) (fun m hm m' hm' e => ?_) (fun k hk => ?_) fun m hm => ?_
  · exact List.mem_toFinset.2 (getD_mem (mem_range.1 hm))
  · have hm := mem_range.1 (mem_coe.1 hm)
    have hm' := mem_range.1 (mem_coe.1 hm')
    simp only at e
    rw [List.getD_eq_getElem _ _ hm, List.getD_eq_getElem _ _ hm'] at e
    exact (hnd.getElem_inj_iff).1 e
  · obtain ⟨m, hm, e⟩ := List.getElem_of_mem (List.mem_toFinset.1 (mem_coe.1 hk))
    exact ⟨m, mem_coe.2 (mem_range.2 hm), by simp only; rw [List.getD_eq_getElem _ _ hm, e]⟩
  · rw [h1 m (mem_range.1 hm)]

/-! ### The numbering of the DOFs -/

theorem shapeQ : ∀ p ∈ els, (nodes p.1 p.2).map Nod.nt = shape p.1.nV p.1.edges.length (p.2 - 1) p.1.faces.length 0 0 := by
  decide +kernel

theorem hasShape {g : Gel} {o : ℕ} (h : Element g o) : HasShape g (nodes g o) (o - 1) 0 0 where
  nts := shapeQ _ (mem_els h)
  hE := .inl (by obtain ⟨rfl | rfl, -⟩ := h <;> decide)
  hF := .inr rfl

theorem row24 {o k : ℕ} (hk : k < (nodes gel24 o).length) : rowAt (nodes gel24 o) k = rowAt (tensorNodes gel24 o) k := by
  have : tensorNodes gel24 o = nodes gel24 o ++ _ := rfl
  rw [this, rowAt, rowAt, List.getElem?_append_left hk]

theorem row38 {o k : ℕ} (hk : k < (nodes gel38 o).length) : rowAt (nodes gel38 o) k = rowAt (tensorNodes gel38 o) k := by
  obtain ⟨X, hX⟩ : ∃ X, tensorNodes gel38 o = nodes gel38 o ++ X := by
    have h : tensorNodes gel38 o = appendTpBubbles (appendTpFaces (nodes gel38 o) 2 gel38.faces o) 3 o := rfl
    rw [h, appendTpBubbles, appendTpFaces]
    simp only [List.append_assoc]
    exact ⟨_, rfl⟩
  rw [hX, rowAt, rowAt, List.getElem?_append_left hk]

theorem one_le {g : Gel} {o : ℕ} (h : Element g o) : 1 ≤ o := by
  have := h.2
  simp at this
  omega

theorem edge_idx {nV nE m e j N : ℕ} (hN : N = nV + nE * m) (he : e < nE) (hj : j < m) : nV + e * m + j < N := by
  subst hN
  have : e * m + m ≤ nE * m := by rw [← Nat.succ_mul]; exact Nat.mul_le_mul_right _ he
  omega

theorem nNod_eq : ∀ p ∈ els, nNod p.1.dim p.2 = p.1.nV + p.1.edges.length * (p.2 - 1) := by decide +kernel

def located24 {o : ℕ} (h : Element gel24 o) : Located gel24 (nodes gel24 o) o (o - 1) 0 0 (tensorLoc 2 4) where
  s0 := o ^ 2
  s1 := o
  s2 := 1
  pos0 := Nat.pow_pos (one_le h)
  pos1 := one_le h
  pos2 := one_pos
  hne := .inl rfl
  lenF := 3
  lenF3 := .inl rfl
  hnf := .inr rfl
  hnV := by simp [gel24]
  edges := gel24_edges
  faces := by simp [gel24]
  vert := fun conn i v hi => by
    have hl := nNod_eq _ (mem_els h)
    rw [row24 (by rw [(lenQ _ (mem_els h)).1, hl]; exact Nat.lt_add_right _ hi)]
    exact (tlocated24 (one_le h)).vert conn i v hi
  edge := fun conn e j v he hj => by
    have hl := nNod_eq _ (mem_els h)
    rw [row24 (by rw [(lenQ _ (mem_els h)).1]; exact edge_idx hl he hj)]
    exact (tlocated24 (one_le h)).edge conn e j v he hj
  face := fun conn e j v he => by simp [gel24] at he
  bubble := fun conn j v hj => by omega
  bubble_inj := fun conn j j' hj => by omega

def located38 {o : ℕ} (h : Element gel38 o) : Located gel38 (nodes gel38 o) o (o - 1) 0 0 (tensorLoc 3 8) where
  s0 := (tlocated38 (one_le h)).s0
  s1 := (tlocated38 (one_le h)).s1
  s2 := 1
  pos0 := (tlocated38 (one_le h)).pos0
  pos1 := (tlocated38 (one_le h)).pos1
  pos2 := one_pos
  hne := .inl rfl
  lenF := 4
  lenF3 := .inr rfl
  hnf := .inr rfl
  hnV := by simp [gel38]
  edges := gel38_edges
  faces := gel38_faces
  vert := fun conn i v hi => by
    have hl := nNod_eq _ (mem_els h)
    rw [row38 (by rw [(lenQ _ (mem_els h)).1, hl]; exact Nat.lt_add_right _ hi)]
    exact (tlocated38 (one_le h)).vert conn i v hi
  edge := fun conn e j v he hj => by
    have hl := nNod_eq _ (mem_els h)
    rw [row38 (by rw [(lenQ _ (mem_els h)).1]; exact edge_idx hl he hj)]
    exact (tlocated38 (one_le h)).edge conn e j v he hj
  face := fun conn e j v he hj => by omega
  bubble := fun conn j v hj => by omega
  bubble_inj := fun conn j j' hj => by omega

/-- **C100**: two local nodes of two cells have the same DOF iff they are in the same place. -/
theorem C100_serendipity_conforming (g : Gel) (o : ℕ) (h : Element g o) (d : FieldData) (M : MeshOk g d) (el el' k k' : ℕ)
    (hel : el < d.cells.length) (hel' : el' < d.cells.length) (hk : k < nNod g.dim o) (hk' : k' < nNod g.dim o) :
    (setupGlobalBasis g (nodes g o) o d).1 (el, k) = (setupGlobalBasis g (nodes g o) o d).1 (el', k') ↔
    ∀ v, tensorLoc g.dim g.nV (d.conn (d.cells.getD el 0)) (rowAt (nodes g o) k) v =
      tensorLoc g.dim g.nV (d.conn (d.cells.getD el' 0)) (rowAt (nodes g o) k') v := by
  have hl := nNod_eq _ (mem_els h)
  simp only at hl
  rw [hl] at hk hk'
  obtain ⟨rfl | rfl, ho⟩ := h
  · exact conforming (located24 ⟨.inl rfl, ho⟩) M ((hasShape ⟨.inl rfl, ho⟩).econn o d) hel hel' (by omega) (by omega)
  · exact conforming (located38 ⟨.inr rfl, ho⟩) M ((hasShape ⟨.inr rfl, ho⟩).econn o d) hel hel' (by omega) (by omega)

/-- The DOFs as a function of the place. -/
theorem ser_value {g : Gel} {o : ℕ} (h : Element g o) {d : FieldData} (M : MeshOk g d) (u : ℤ → K) :
    ∃ U : (ℕ → ℕ) → K, ∀ el < d.cells.length, ∀ φ : ℕ → K,
      fieldValue (setupGlobalBasis g (nodes g o) o d).1 u φ (nNod g.dim o) el =
      ∑ k ∈ range (nNod g.dim o), φ k * U (tensorLoc g.dim g.nV (cellV d el) (rowAt (nodes g o) k)) := by
  set econn := (setupGlobalBasis g (nodes g o) o d).1 with he
  set loc : ℕ → ℕ → ℕ → ℕ := fun el k => tensorLoc g.dim g.nV (cellV d el) (rowAt (nodes g o) k) with hloc
  refine ⟨dofAt econn u (nNod g.dim o) d.cells.length loc, fun el hel φ => sum_congr rfl fun k hk => ?_⟩
  congr 1
  refine (dofAt_eq u (loc := loc) (fun el hel el' hel' k hk k' hk' e => ?_) hel (mem_range.1 hk)).symm
  exact (C100_serendipity_conforming g o h d M el el' k k' hel hel' hk hk').2 fun v => congrFun e v

/-! ### The traces -/

theorem loc_eq (g : Gel) (o k : ℕ) (c : ℕ → ℕ) :
    tensorLoc g.dim g.nV c (rowAt (nodes g o) k) = fun v => ∑ i ∈ range g.nV, if c i = v then nodeW g o k i else 0 := rfl

theorem sum_push' {n : ℕ} (N : ℕ) (l : ℕ → ℕ) (hl : ∀ a < n, l a < N) (X : ℕ → ℕ) (c : ℕ → ℕ) (v : ℕ) :
    (∑ i ∈ range N, if c i = v then (∑ a ∈ range n, if l a = i then X a else 0) else 0) =
      ∑ a ∈ range n, if c (l a) = v then X a else 0 := by
  have : ∀ i, (if c i = v then (∑ a ∈ range n, if l a = i then X a else 0) else 0) =
      ∑ a ∈ range n, if l a = i then (if c (l a) = v then X a else 0) else 0 := by
    intro i
    by_cases h : c i = v
    · rw [if_pos h]
      refine sum_congr rfl fun a _ => ?_
      by_cases e : l a = i
      · subst e; simp [h]
      · simp [e]
    · rw [if_neg h]
      symm
      refine sum_eq_zero fun a _ => ?_
      by_cases e : l a = i
      · subst e; simp [h]
      · simp [e]
  simp only [this]
  rw [sum_comm]
  refine sum_congr rfl fun a ha => ?_
  rw [sum_ite_eq, if_pos (mem_range.2 (hl a (mem_range.1 ha)))]

/-- The function on a face. -/
def gQ (o : ℕ) (U : (ℕ → ℕ) → K) (x y z w : ℕ) (s t : K) : K :=
  ∑ m ∈ range (4 * o), ((bfs 2 o).getD m (.c 0)).eval (fun i => if i = 0 then s else if i = 1 then t else 0) *
    U (w4 x y z w (o * nodeW gel24 o m 0) (o * nodeW gel24 o m 1) (o * nodeW gel24 o m 2) (o * nodeW gel24 o m 3))

/-- The function on an edge. -/
def gE (o sc : ℕ) (U : (ℕ → ℕ) → K) (p q : ℕ) (s : K) : K :=
  ∑ m ∈ range (o + 1), ((bfs1 o).getD m (.c 0)).eval (fun i => if i = 0 then s else 0) *
    U (w2 p q (sc * (o - m)) (sc * m))

theorem gE_swap {o : ℕ} (ho : o ∈ [1, 2, 3]) (sc : ℕ) (U : (ℕ → ℕ) → K) (p q : ℕ) (s : K) :
    gE o sc U q p (1 - s) = gE o sc U p q s := by
  rw [gE, gE]
  refine sum_nbij' (fun m => o - m) (fun m => o - m) (fun m hm => ?_) (fun m hm => ?_) (fun m hm => ?_) (fun m hm => ?_)
    fun m hm => ?_
  · simp only [mem_range] at *; omega
  · simp only [mem_range] at *; omega
  · simp only [mem_range] at *; omega
  · simp only [mem_range] at *; omega
  · have hm := mem_range.1 hm
    have := PE.eval_eq_of_same (K := K) (flip1Q o ho m hm) fun i => if i = 0 then s else 0
    rw [PE.eval_subst] at this
    rw [← this]
    congr 1
    · congr 1
      funext i
      by_cases h : i = 0 <;> simp [h, PE.eval]
    · congr 1
      funext v
      rw [w2, w2, show o - (o - m) = m by omega, add_comm]

theorem gQ_flip {o : ℕ} (ho : o ∈ [1, 2, 3]) (U : (ℕ → ℕ) → K) (x y z w : ℕ) (s t : K) :
    gQ o U y x w z (1 - s) t = gQ o U x y z w s t := by
  rw [gQ, gQ]
  have F := flipQ o ho
  refine sum_nbij' (fun m => (flipNodes o).getD m 0) (fun m => (flipNodes o).getD m 0) (fun m hm => ?_) (fun m hm => ?_)
    (fun m hm => ?_) (fun m hm => ?_) fun m hm => ?_
  · exact mem_range.2 (F m (mem_range.1 hm)).1
  · exact mem_range.2 (F m (mem_range.1 hm)).1
  · exact (F m (mem_range.1 hm)).2.1
  · exact (F m (mem_range.1 hm)).2.1
  · obtain ⟨-, -, h3, h4⟩ := F m (mem_range.1 hm)
    have := PE.eval_eq_of_same (K := K) h3 fun i => if i = 0 then s else if i = 1 then t else 0
    rw [PE.eval_subst] at this
    rw [← this]
    congr 1
    · congr 1
      funext i
      by_cases h : i = 0 <;> simp [h, PE.eval]
    · congr 1
      funext v
      rw [h4 0 (by omega), h4 1 (by omega), h4 2 (by omega), h4 3 (by omega)]
      simp only [w4, List.getD_cons_zero, List.getD_cons_succ]
      ring

theorem gQ_trans {o : ℕ} (ho : o ∈ [1, 2, 3]) (U : (ℕ → ℕ) → K) (x y z w : ℕ) (s t : K) :
    gQ o U x w z y t s = gQ o U x y z w s t := by
  rw [gQ, gQ]
  have F := transQ o ho
  refine sum_nbij' (fun m => (transNodes o).getD m 0) (fun m => (transNodes o).getD m 0) (fun m hm => ?_) (fun m hm => ?_)
    (fun m hm => ?_) (fun m hm => ?_) fun m hm => ?_
  · exact mem_range.2 (F m (mem_range.1 hm)).1
  · exact mem_range.2 (F m (mem_range.1 hm)).1
  · exact (F m (mem_range.1 hm)).2.1
  · exact (F m (mem_range.1 hm)).2.1
  · obtain ⟨-, -, h3, h4⟩ := F m (mem_range.1 hm)
    have := PE.eval_eq_of_same (K := K) h3 fun i => if i = 0 then s else if i = 1 then t else 0
    rw [PE.eval_subst] at this
    rw [← this]
    congr 1
    · congr 1
      funext i
      by_cases h : i = 0
      · simp [h, PE.eval]
      · by_cases h' : i = 1 <;> simp [h, h', PE.eval]
    · congr 1
      funext v
      rw [h4 0 (by omega), h4 1 (by omega), h4 2 (by omega), h4 3 (by omega)]
      simp only [w4, List.getD_cons_zero, List.getD_cons_succ]
      ring

/-- The sum over the nodes in a cell. -/
def cellVal (g : Gel) (o : ℕ) (U : (ℕ → ℕ) → K) (c : ℕ → ℕ) (x : ℕ → K) : K :=
  ∑ k ∈ range (nNod g.dim o), val g.dim o x k * U (tensorLoc g.dim g.nV c (rowAt (nodes g o) k))

theorem cellVal_congr {g : Gel} {o : ℕ} (h : Element g o) (U : (ℕ → ℕ) → K) (c : ℕ → ℕ) {x x' : ℕ → K}
    (hx : ∀ d < g.dim, x d = x' d) : cellVal g o U c x = cellVal g o U c x' :=
  sum_congr rfl fun k hk => by rw [val_congr h hx (mem_range.1 hk)]

theorem cell_vert {g : Gel} {o : ℕ} (h : Element g o) (U : (ℕ → ℕ) → K) (c : ℕ → ℕ) {i : ℕ} (hi : i < g.nV) :
    cellVal g o U c (vPt g.dim i) = U (w1 (c i) (o ^ g.dim)) := by
  obtain ⟨hn, hv⟩ := vertVal _ (mem_els h)
  simp only at hn hv
  rw [cellVal, sum_eq_single i]
  · have := PE.eval_eq_of_same (K := K) (hv i hi i (by omega)) fun _ => 0
    rw [PE.eval_subst] at this
    have e : val g.dim o (vPt (K := K) g.dim i) i = 1 := by
      rw [val]
      simpa [PE.eval, vPt] using this
    rw [e, one_mul, loc_eq]
    congr 1
    funext v
    rw [sum_eq_single i]
    · rw [vertW' _ (mem_els h) i hi i hi]
      simp [w1]
    · intro j hj hji
      rw [vertW' _ (mem_els h) i hi j (mem_range.1 hj), if_neg (Ne.symm hji)]
      simp
    · intro hh; exact absurd (mem_range.2 hi) hh
  · intro k hk hki
    have := PE.eval_eq_of_same (K := K) (hv i hi k (mem_range.1 hk)) fun _ => 0
    rw [PE.eval_subst] at this
    have e : val g.dim o (vPt (K := K) g.dim i) k = 0 := by
      rw [val]
      simpa [PE.eval, vPt, hki] using this
    rw [e, zero_mul]
  · intro hh; exact absurd (mem_range.2 (by omega)) hh

theorem edgeSub_eval (dim : ℕ) (l : List ℕ) (i : Fin 4) (s : K)
    (h : ∀ a < 2, vertexMap dim (l.getD a 0) i.val ≤ 1) :
    (edgeSub dim l i).eval (fun i => if i = 0 then s else 0) = ePt dim l s i.val := by
  have h0 := h 0 (by omega)
  have h1 := h 1 (by omega)
  simp only [edgeSub, ePt]
  generalize vertexMap dim (l.getD 0 0) i.val = a at *
  generalize vertexMap dim (l.getD 1 0) i.val = b at *
  interval_cases a <;> interval_cases b <;> simp [PE.eval]

theorem vmap_le : ∀ dim ∈ [2, 3], ∀ i < 8, ∀ d < 4, vertexMap dim i d ≤ 1 := by decide +kernel

theorem edges_lt : ∀ p ∈ els, p.1.nV ≤ 8 ∧ p.1.dim ∈ [2, 3] ∧ ∀ e < p.1.edges.length, ∀ a < 2,
    (p.1.edges.getD e []).getD a 0 < p.1.nV := by
  decide +kernel

theorem cell_edge {g : Gel} {o : ℕ} (h : Element g o) (U : (ℕ → ℕ) → K) (c : ℕ → ℕ) {e : ℕ} (he : e < g.edges.length)
    (s : K) : cellVal g o U c (ePt g.dim (g.edges.getD e []) s) =
      gE o (o ^ (g.dim - 1)) U (c ((g.edges.getD e []).getD 0 0)) (c ((g.edges.getD e []).getD 1 0)) s := by
  obtain ⟨h1, h2, h3, h4, h5⟩ := edgeTrace _ (mem_els h) e he
  obtain ⟨n8, dm, lt⟩ := edges_lt _ (mem_els h)
  simp only at h1 h2 h3 h4 h5 n8 dm lt
  have ev : ∀ k, val g.dim o (ePt g.dim (g.edges.getD e []) s) k =
      (PE.subst (edgeSub g.dim (g.edges.getD e [])) ((bfs g.dim o).getD k (.c 0))).eval
        (fun i => if i = 0 then s else 0) := by
    intro k
    rw [PE.eval_subst, val]
    congr 1
    funext i
    refine (edgeSub_eval _ _ _ _ fun a ha => ?_).symm
    exact vmap_le _ dm _ (lt_of_lt_of_le (lt e he a ha) n8) _ i.isLt
  rw [cellVal, sum_trace h2 h3 _ (fun m => ((bfs1 o).getD m (.c 0)).eval (fun i => if i = 0 then s else 0)), h1, gE]
  · refine sum_congr rfl fun m hm => ?_
    congr 1
    rw [loc_eq]
    congr 1
    funext v
    have : ∀ i ∈ range g.nV, (if c i = v then nodeW g o ((edgeNodes g o e).getD m 0) i else 0) =
        if c i = v then (∑ a ∈ range 2, if (g.edges.getD e []).getD a 0 = i then
          o ^ (g.dim - 1) * (if a = 0 then o - m else m) else 0) else 0 := fun i hi => by
      rw [edgeW' _ (mem_els h) e he m (mem_range.1 hm) i (mem_range.1 hi)]
    rw [sum_congr rfl this, sum_push' g.nV (fun a => (g.edges.getD e []).getD a 0) (lt e he)]
    simp [sum_range_succ, w2, w1]
  · intro m hm
    rw [ev]
    exact PE.eval_eq_of_same (h4 m (by omega)) _
  · intro k hk hk'
    rw [ev, PE.eval_eq_of_same (h5 k hk hk') _]
    simp [PE.eval]

theorem faceSub_eval {f : ℕ} (hf : f < 6) (d : Fin 4) (hd : d.val < 3) (s t : K) :
    (faceSub f d).eval (fun i => if i = 0 then s else if i = 1 then t else 0) = fPt 3 (gel38.faces.getD f []) s t d.val := by
  obtain ⟨d, hd'⟩ := d
  simp only at hd
  interval_cases f <;> interval_cases d <;> simp [faceSub, PE.eval, fPt, gel38, vertexMap] <;> ring

theorem faces_lt : ∀ f < 6, ∀ a < 4, (gel38.faces.getD f []).getD a 0 < 8 := by decide +kernel

theorem cell_face {o : ℕ} (h : Element gel38 o) (U : (ℕ → ℕ) → K) (c : ℕ → ℕ) {f : ℕ} (hf : f < 6) (s t : K) :
    cellVal gel38 o U c (fPt 3 (gel38.faces.getD f []) s t) =
      gQ o U (c ((gel38.faces.getD f []).getD 0 0)) (c ((gel38.faces.getD f []).getD 1 0))
        (c ((gel38.faces.getD f []).getD 2 0)) (c ((gel38.faces.getD f []).getD 3 0)) s t := by
  obtain ⟨h1, h2, h3, h4, h5⟩ := faceTrace o h.2 f hf
  have ev : ∀ k < nNod 3 o, val 3 o (fPt 3 (gel38.faces.getD f []) s t) k =
      (PE.subst (faceSub f) ((bfs 3 o).getD k (.c 0))).eval
        (fun i => if i = 0 then s else if i = 1 then t else 0) := by
    intro k hk
    rw [PE.eval_subst, val]
    refine PE.eval_congr (n := 3) (usesQ _ (mem_els h) _ (getD_mem (by rw [(lenQ _ (mem_els h)).2.1]; exact hk))) ?_
    intro i hi
    exact (faceSub_eval hf i hi s t).symm
  show ∑ k ∈ range (nNod 3 o), val 3 o _ k * U (tensorLoc 3 8 c (rowAt (nodes gel38 o) k)) = _
  rw [sum_trace h2 h3 _ (fun m => ((bfs 2 o).getD m (.c 0)).eval (fun i => if i = 0 then s else if i = 1 then t else 0)),
    h1, gQ]
  · refine sum_congr rfl fun m hm => ?_
    congr 1
    have hl := loc_eq gel38 o (((faceNodes o).getD f []).getD m 0) c
    have hl : tensorLoc 3 8 c (rowAt (nodes gel38 o) (((faceNodes o).getD f []).getD m 0)) = _ := hl
    rw [hl]
    congr 1
    funext v
    have : ∀ i ∈ range gel38.nV, (if c i = v then nodeW gel38 o (((faceNodes o).getD f []).getD m 0) i else 0) =
        if c i = v then (∑ a ∈ range 4, if (gel38.faces.getD f []).getD a 0 = i then o * nodeW gel24 o m a else 0)
          else 0 := fun i hi => by
      rw [faceW' o h.2 f hf m (mem_range.1 hm) i (mem_range.1 hi)]
    rw [sum_congr rfl this, sum_push' gel38.nV (fun a => (gel38.faces.getD f []).getD a 0) (faces_lt f hf)]
    simp [sum_range_succ, w4, w1]
  · intro m hm
    rw [ev _ (h3 _ (getD_mem hm))]
    exact PE.eval_eq_of_same (h4 m (by omega)) _
  · intro k hk hk'
    rw [ev _ hk, PE.eval_eq_of_same (h5 k hk hk') _]
    simp [PE.eval]

/-! ### The continuity -/

theorem pair_map {l : List ℕ} (h : l.length = 2) (c : ℕ → ℕ) : l.map c = [c (l.getD 0 0), c (l.getD 1 0)] := by
  conv_lhs => rw [list_two h]
  rfl

theorem quad_map {l : List ℕ} (h : l.length = 4) (c : ℕ → ℕ) :
    l.map c = [c (l.getD 0 0), c (l.getD 1 0), c (l.getD 2 0), c (l.getD 3 0)] := by
  obtain ⟨a, b, c', d', h4⟩ := list_four h
  rw [h4]
  rfl

theorem gE_pair {o : ℕ} (ho : o ∈ [1, 2, 3]) (sc : ℕ) (U : (ℕ → ℕ) → K) {p q p' q' : ℕ} (hd : p ≠ q) {s s' : K}
    (h : [p, q].Perm [p', q']) (hw : ∀ v, w2 p q (1 - s) s v = w2 p' q' (1 - s') s' v) :
    gE o sc U p q s = gE o sc U p' q' s' := by
  rcases pair_points hd h hw with ⟨rfl, rfl, rfl⟩ | ⟨rfl, rfl, rfl⟩
  · rfl
  · rw [gE_swap ho]

theorem gQ_around {o : ℕ} (ho : o ∈ [1, 2, 3]) (U : (ℕ → ℕ) → K) {x y z w x' y' z' w' : ℕ} (hd : [x, y, z, w].Nodup)
    {s t s' t' : K} (h : [x', y', z', w'] ∈ around x y z w) (hw : ∀ v, wQ x y z w s t v = wQ x' y' z' w' s' t' v) :
    gQ o U x y z w s t = gQ o U x' y' z' w' s' t' := by
  have F := fun x y z w => gQ_flip (K := K) ho U x y z w
  have T := fun x y z w => gQ_trans (K := K) ho U x y z w
  have F2 : ∀ x y z w (s t : K), gQ o U w z y x s (1 - t) = gQ o U x y z w s t := fun x y z w s t => by
    rw [← T, F, T]
  rcases around_points hd h hw with ⟨rfl, rfl, rfl, rfl, rfl, rfl⟩ | ⟨rfl, rfl, rfl, rfl, rfl, rfl⟩ |
    ⟨rfl, rfl, rfl, rfl, rfl, rfl⟩ | ⟨rfl, rfl, rfl, rfl, rfl, rfl⟩ | ⟨rfl, rfl, rfl, rfl, rfl, rfl⟩ |
    ⟨rfl, rfl, rfl, rfl, rfl, rfl⟩ | ⟨rfl, rfl, rfl, rfl, rfl, rfl⟩ | ⟨rfl, rfl, rfl, rfl, rfl, rfl⟩
  · rfl
  · rw [← F, ← T]
  · rw [F, F2]
  · rw [← T, ← F]
  · rw [F2]
  · rw [F, F2, T]
  · rw [F]
  · rw [T]

/-- **C100**: a function of a serendipity field is continuous: the values from two cells in a common point are the
same. -/
theorem C100_serendipity_continuous (g : Gel) (o : ℕ) (h : Element g o) (d : FieldData) (M : MeshOk g d) (u : ℤ → K)
    (el el' : ℕ) (hel : el < d.cells.length) (hel' : el' < d.cells.length) (x x' : ℕ → K)
    (hw : ∀ v, meshWeight g.nV (d.conn (d.cells.getD el 0))
        (tensorWeight g.dim fun i j => if j = 0 then 1 - x i else x i) v =
      meshWeight g.nV (d.conn (d.cells.getD el' 0)) (tensorWeight g.dim fun i j => if j = 0 then 1 - x' i else x' i) v) :
    fieldValue (setupGlobalBasis g (nodes g o) o d).1 u (val g.dim o x) (nNod g.dim o) el =
      fieldValue (setupGlobalBasis g (nodes g o) o d).1 u (val g.dim o x') (nNod g.dim o) el' := by
  obtain ⟨U, hU⟩ := ser_value h M u
  rw [hU el hel, hU el' hel']
  show cellVal g o U (cellV d el) x = cellVal g o U (cellV d el') x'
  have ho := h.2
  have hg := h.1
  rcases hg with rfl | rfl
  · have wt : ∀ (c : ℕ → ℕ) (x : ℕ → K),
        meshWeight 4 c (tensorWeight 2 fun i j => if j = 0 then 1 - x i else x i) =
          wQ (c 0) (c 1) (c 2) (c 3) (x 0) (x 1) := by
      intro c x
      funext v
      simp [meshWeight, tensorWeight, sum_range_succ, prod_range_succ, vertexMap, wQ, w4, w1]
    have key := continuous_quad M (fun el s t => cellVal gel24 o U (cellV d el) fun i => if i = 0 then s else t)
      (fun el hel el' hel' i hi i' hi' e => by
        have a := cell_vert h U (cellV d el) hi
        have a' := cell_vert h U (cellV d el') hi'
        rw [e, ← a'] at a
        rw [cellVal_congr h U (cellV d el) (x' := vPt gel24.dim i), a]
        · exact cellVal_congr h U _ fun d hd => by
            have hd : d < 2 := hd
            interval_cases d <;> simp <;> rfl
        · intro d hd
          have hd : d < 2 := hd
          interval_cases d <;> simp <;> rfl)
      (fun el hel el' hel' e he e' he' hp s s' hw => by
        have a := cell_edge h U (cellV d el) he s
        have a' := cell_edge h U (cellV d el') he' s'
        obtain ⟨l1, n1, b1⟩ := gel24_edges e he
        obtain ⟨l2, n2, b2⟩ := gel24_edges e' he'
        rw [pair_map l1, pair_map l2] at hp
        have hn : ((gel24.edges.getD e []).map (cellV d el)).Nodup :=
          n1.map_on fun x hx y hy e => M.inj _ (mem_cell hel) x (b1 x hx) y (b1 y hy) e
        rw [pair_map l1] at hn
        rw [gE_pair ho _ U (List.pairwise_pair.1 hn) hp hw, ← a'] at a
        rw [cellVal_congr h U (cellV d el) (x' := ePt gel24.dim (gel24.edges.getD e []) s), a]
        · exact cellVal_congr h U _ fun d hd => by
            have hd : d < 2 := hd
            interval_cases d <;> simp <;> rfl
        · intro d hd
          have hd : d < 2 := hd
          interval_cases d <;> simp <;> rfl)
      hel hel' (s := x 0) (t := x 1) (s' := x' 0) (t' := x' 1)
      (fun v => by
        have h1 := congrFun (wt (cellV d el) x) v
        have h2 := congrFun (wt (cellV d el') x') v
        rw [← h1, ← h2]
        exact hw v)
    rw [cellVal_congr h U (cellV d el) (x' := fun i => if i = 0 then x 0 else x 1), key]
    · exact cellVal_congr h U _ fun d hd => by
        have hd : d < 2 := hd
        interval_cases d <;> simp
    · intro d hd
      have hd : d < 2 := hd
      interval_cases d <;> simp
  · have wt : ∀ (c : ℕ → ℕ) (x : ℕ → K),
        meshWeight 8 c (tensorWeight 3 fun i j => if j = 0 then 1 - x i else x i) = wH c (x 0) (x 1) (x 2) := by
      intro c x
      refine (hex_weight c (fun i j => if j = 0 then 1 - x i else x i) fun i hi => ?_).trans ?_
      · simp
      · simp
    have pt : ∀ y : ℕ → K, ∀ d < gel38.dim, (fun i => if i = 0 then y 0 else if i = 1 then y 1 else y 2) d = y d := by
      intro y d hd
      have hd : d < 3 := hd
      interval_cases d <;> simp
    have key := continuous_hex M
      (fun el s t r => cellVal gel38 o U (cellV d el) fun i => if i = 0 then s else if i = 1 then t else r)
      (fun el hel el' hel' i hi i' hi' e => by
        have a := cell_vert h U (cellV d el) hi
        have a' := cell_vert h U (cellV d el') hi'
        rw [e, ← a'] at a
        rw [cellVal_congr h U (cellV d el) (pt (vPt 3 i)), cellVal_congr h U (cellV d el') (pt (vPt 3 i'))]
        exact a)
      (fun el hel el' hel' e he e' he' hp s s' hw => by
        have a := cell_edge h U (cellV d el) he s
        have a' := cell_edge h U (cellV d el') he' s'
        obtain ⟨l1, n1, b1⟩ := gel38_edges e he
        obtain ⟨l2, n2, b2⟩ := gel38_edges e' he'
        rw [pair_map l1, pair_map l2] at hp
        have hn : ((gel38.edges.getD e []).map (cellV d el)).Nodup :=
          n1.map_on fun x hx y hy e => M.inj _ (mem_cell hel) x (b1 x hx) y (b1 y hy) e
        rw [pair_map l1] at hn
        rw [gE_pair ho _ U (List.pairwise_pair.1 hn) hp hw, ← a'] at a
        rw [cellVal_congr h U (cellV d el) (pt (ePt 3 _ s)), cellVal_congr h U (cellV d el') (pt (ePt 3 _ s'))]
        exact a)
      (fun el hel el' hel' f hf f' hf' hp s t s' t' hw => by
        have a := cell_face h U (cellV d el) hf s t
        have a' := cell_face h U (cellV d el') hf' s' t'
        obtain ⟨l1, n1, b1⟩ := gel38_faces f hf
        obtain ⟨l2, n2, b2⟩ := gel38_faces f' hf'
        have hn : ((gel38.faces.getD f []).map (cellV d el)).Nodup :=
          n1.map_on fun x hx y hy e => M.inj _ (mem_cell hel) x (b1 x hx) y (b1 y hy) e
        have hid := (M.face_eq _ (mem_cell hel) _ (mem_cell hel') f hf f' hf').2 hp
        have hq := M.quad _ (mem_cell hel) _ (mem_cell hel') f hf f' hf' hid _ _ _ _ (quad_map l1 (cellV d el))
        have hq' : (gel38.faces.getD f' []).map (cellV d el') ∈ _ := hq
        rw [quad_map l2] at hq'
        rw [quad_map l1] at hn
        rw [gQ_around ho U hn hq' hw, ← a'] at a
        rw [cellVal_congr h U (cellV d el) (pt (fPt 3 _ s t)), cellVal_congr h U (cellV d el') (pt (fPt 3 _ s' t'))]
        exact a)
      hel hel' (s := x 0) (t := x 1) (r := x 2) (s' := x' 0) (t' := x' 1) (r' := x' 2)
      (fun v => by
        have h1 := congrFun (wt (cellV d el) x) v
        have h2 := congrFun (wt (cellV d el') x') v
        rw [← h1, ← h2]
        exact hw v)
    rw [cellVal_congr h U (cellV d el) (pt x), cellVal_congr h U (cellV d el') (pt x')] at key
    exact key

end Verif.Poly.Ser
