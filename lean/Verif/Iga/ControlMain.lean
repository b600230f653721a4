import Verif.Iga.Control

/-!
# The Bezier control points: main theorem
-/

namespace Iga

variable {K : Type*} [Field K] [LinearOrder K] [IsStrictOrderedRing K]

/-- The operators of a patch in the directions, `compute_bezier_extraction`
(sfepy/discrete/iga/iga.py:131-159). -/
def patchOps (ds : List (Dir K)) : List (List (Op K)) :=
  ds.map fun d => computeBezierExtraction1d d.knots d.p

/-- The combined operators of a patch. -/
def patchCcs (ds : List (Dir K)) : List (Op K) :=
  combineExtraction (ds.map fun d => d.p + 1) (patchOps ds)

/-- The connectivity of a patch. -/
def patchConn (ds : List (Dir K)) : List (List ℕ) :=
  createConn (ds.map Dir.nEl) (ds.map Dir.knots) (ds.map Dir.p)

/-- The Bezier connectivity of a patch. -/
def patchBconn (ds : List (Dir K)) : List (List ℕ) :=
  createBconn (ds.map Dir.nEl) (ds.map Dir.p)

/-- The number of the local functions. -/
def nLoc (ds : List (Dir K)) : ℕ := (ds.map fun d => d.p + 1).prod

/-- The index of the element `e`. -/
def elemIdx (ds : List (Dir K)) (e : List ℕ) : ℕ := ravel (ds.map Dir.nEl) e

/-- The index of the local function `l`. -/
def locIdx (ds : List (Dir K)) (l : List ℕ) : ℕ := ravel (ds.map fun d => d.p + 1) l

/-- `cc = ccs[ie]`. -/
def elemOp (ds : List (Dir K)) (e : List ℕ) : Op K := (patchCcs ds).getD (elemIdx ds e) eye

/-- `conn[ie, a]`. -/
def elemConn (ds : List (Dir K)) (e : List ℕ) (a : ℕ) : ℕ :=
  ((patchConn ds).getD (elemIdx ds e) []).getD a 0

/-- `bconn[ie, a]`. -/
def elemBconn (ds : List (Dir K)) (e : List ℕ) (a : ℕ) : ℕ :=
  ((patchBconn ds).getD (elemIdx ds e) []).getD a 0

theorem getD_map_tp {β : Type*} (ns e : List ℕ) (f : List ℕ → β) (b : β) (he : Valid ns e) :
    ((tp ns).map f).getD (ravel ns e) b = f e := by
  rw [List.getD_eq_getElem?_getD, List.getElem?_map, tp_get he]; rfl

theorem patchOps_length (ds : List (Dir K)) (h : ∀ d ∈ ds, Clamped d.knots d.p) :
    (patchOps ds).map List.length = ds.map Dir.nEl := by
  unfold patchOps
  rw [List.map_map]
  exact List.map_congr_left fun d hd => (extraction_final d.knots d.p (h d hd)).length_eq.symm

theorem opsOf_eq (ds : List (Dir K)) (e : List ℕ) :
    List.zipWith (fun c e => c.getD e eye) (patchOps ds) e = opsOf ds e := by
  induction ds generalizing e with
  | nil => cases e <;> rfl
  | cons d ds ih =>
    cases e with
    | nil => rfl
    | cons e es =>
      unfold patchOps at ih ⊢
      simp only [List.map_cons, List.zipWith_cons_cons, opsOf, ih]

theorem opsOf_length (ds : List (Dir K)) (e : List ℕ) (he : e.length = ds.length) :
    (opsOf ds e).length = ds.length := by
  rw [← opsOf_eq]; simp [patchOps, he]

/-- The combined operator of the element. -/
theorem elemOp_entry (ds : List (Dir K)) (h : ∀ d ∈ ds, Clamped d.knots d.p) (e i k : List ℕ)
    (he : Valid (ds.map Dir.nEl) e) (hi : Valid (ds.map fun d => d.p + 1) i)
    (hk : Valid (ds.map fun d => d.p + 1) k) :
    elemOp ds e (locIdx ds i) (locIdx ds k) = entry (opsOf ds e) i k := by
  unfold elemOp patchCcs combineExtraction elemIdx
  rw [patchOps_length ds h, getD_map_tp _ _ _ _ he, opsOf_eq]
  have hlen : e.length = ds.length := by have := he.length_eq; simpa using this.symm
  have e1 : ((ds.map fun d => d.p + 1).zip (opsOf ds e)).map Prod.fst = ds.map fun d => d.p + 1 :=
    List.map_fst_zip (by simp [opsOf_length ds e hlen])
  have e2 : ((ds.map fun d => d.p + 1).zip (opsOf ds e)).map Prod.snd = opsOf ds e :=
    List.map_snd_zip (by simp [opsOf_length ds e hlen])
  have key := C77_combined_operator ((ds.map fun d => d.p + 1).zip (opsOf ds e)) i k
    (by rw [e1]; exact hi) (by rw [e1]; exact hk)
  rw [e1, e2] at key
  exact key

theorem globOf_eq (ds : List (Dir K)) (e l : List ℕ) :
    List.zipWith (fun (g : ℕ → ℕ) i => g i) (List.zipWith Dir.glob ds e) l = globOf ds e l := by
  induction ds generalizing e l with
  | nil => cases e <;> cases l <;> rfl
  | cons d ds ih =>
    cases e with
    | nil => rfl
    | cons e es =>
      cases l with
      | nil => rfl
      | cons l ls => simp only [List.zipWith_cons_cons, globOf, ih]

theorem elemConn_eq (ds : List (Dir K)) (h : ∀ d ∈ ds, Clamped d.knots d.p) (e l : List ℕ)
    (he : Valid (ds.map Dir.nEl) e) (hl : Valid (ds.map fun d => d.p + 1) l) :
    elemConn ds e (locIdx ds l) = ravel (ds.map Dir.nFun) (globOf ds e l) := by
  have := C77_connectivity_nd ds h e l he hl
  rw [globOf_eq] at this
  exact this

theorem bconn1d_get (nEl p e l : ℕ) (he : e < nEl) (hl : l < p + 1) :
    ((bconn1d nEl p).getD e []).getD l 0 = l + p * e := by
  unfold bconn1d
  rw [List.getD_eq_getElem?_getD, List.getD_eq_getElem?_getD, List.getElem?_map, List.getElem?_range he]
  simp [List.getElem?_range hl]

theorem zipWith_bconn (ds : List (Dir K)) (e k : List ℕ) (he : Valid (ds.map Dir.nEl) e)
    (hk : Valid (ds.map fun d => d.p + 1) k) :
    List.zipWith (fun c i => c.getD i 0)
      (List.zipWith (fun conn e => conn.getD e []) (ds.map fun d => bconn1d d.nEl d.p) e) k
      = bezIdx ds e k := by
  induction ds generalizing e k with
  | nil => cases e <;> cases k <;> rfl
  | cons d ds ih =>
    rcases e with _ | ⟨e, es⟩
    · simp [Valid] at he
    rcases k with _ | ⟨k, ks⟩
    · simp [Valid] at hk
    simp only [List.map_cons, Valid, List.forall₂_cons] at he hk
    simp only [List.map_cons, List.zipWith_cons_cons, bezIdx]
    rw [bconn1d_get _ _ _ _ he.1 hk.1, ih es ks he.2 hk.2]

/-- The shape of the grid of the Bezier points. -/
def bezShape (ds : List (Dir K)) : List ℕ := ds.map fun d => d.p * d.nEl + 1

theorem nEl_pos (d : Dir K) (h : Clamped d.knots d.p) : 0 < d.nEl := by
  have hl := h.long
  unfold Dir.nEl
  apply List.length_pos_of_mem (a := d.p)
  unfold spans
  rw [List.mem_filter, List.mem_range]
  exact ⟨by omega, by simpa using h.firstLt⟩

/-- **C77.** The Bezier connectivity: the point `k` of the element `e` has the coordinates
`degree * e + k` in the grid of all Bezier points; neighbours share exactly the points on their
common boundary. -/
theorem C77_bezier_connectivity (ds : List (Dir K)) (h : ∀ d ∈ ds, Clamped d.knots d.p) (e k : List ℕ)
    (he : Valid (ds.map Dir.nEl) e) (hk : Valid (ds.map fun d => d.p + 1) k) :
    elemBconn ds e (locIdx ds k) = ravel (bezShape ds) (bezIdx ds e k) := by
  unfold elemBconn patchBconn createBconn elemIdx locIdx
  have e1 : List.zipWith bconn1d (ds.map Dir.nEl) (ds.map Dir.p)
      = ds.map fun d => bconn1d d.nEl d.p := by
    rw [List.zipWith_map]; exact List.zipWith_self
  have e2 : (ds.map fun d => bconn1d d.nEl d.p).map numFuns = bezShape ds := by
    unfold bezShape
    rw [List.map_map]
    exact List.map_congr_left fun d hd => numFuns_bconn _ _ (nEl_pos d (h d hd))
  have e3 : (ds.map Dir.p).map (· + 1) = ds.map fun d => d.p + 1 := by rw [List.map_map]; rfl
  simp only [e1, e2, e3]
  rw [makeConn_get _ _ _ _ _ _ he hk, zipWith_bconn ds e k he hk]

theorem bezIdx_valid (ds : List (Dir K)) (e k : List ℕ) (he : Valid (ds.map Dir.nEl) e)
    (hk : Valid (ds.map fun d => d.p + 1) k) : Valid (bezShape ds) (bezIdx ds e k) := by
  induction ds generalizing e k with
  | nil =>
    cases e <;> cases k <;> exact List.Forall₂.nil
  | cons d ds ih =>
    rcases e with _ | ⟨e, es⟩
    · simp [Valid] at he
    rcases k with _ | ⟨k, ks⟩
    · simp [Valid] at hk
    simp only [List.map_cons, Valid, List.forall₂_cons] at he hk
    refine List.Forall₂.cons ?_ (ih es ks he.2 hk.2)
    calc k + d.p * e < d.p + 1 + d.p * e := by omega
      _ = d.p * (e + 1) + 1 := by ring
      _ ≤ d.p * d.nEl + 1 := Nat.add_le_add_right (Nat.mul_le_mul_left d.p he.1) 1

/-- A weighted sum of the element is the functional of the point. -/
theorem elem_multi (ds : List (Dir K)) (h : ∀ d ∈ ds, Clamped d.knots d.p) (e k : List ℕ)
    (he : Valid (ds.map Dir.nEl) e) (hk : Valid (ds.map fun d => d.p + 1) k) (w : ℕ → K) :
    ∑ a ∈ Finset.range (nLoc ds), elemOp ds e a (locIdx ds k) * w (elemConn ds e a)
      = multi ds e k fun A => w (ravel (ds.map Dir.nFun) A) := by
  have hlen : e.length = ds.length := by have := he.length_eq; simpa using this.symm
  have hlenk : k.length = ds.length := by have := hk.length_eq; simpa using this.symm
  unfold nLoc
  rw [sum_range_ravel, multi_eq ds e k hlen hlenk]
  congr 1
  refine List.map_congr_left fun l hl => ?_
  have hl' := mem_tp.1 hl
  have e1 := elemOp_entry ds h e l k he hl' hk
  have e2 := elemConn_eq ds h e l he hl'
  unfold locIdx at e1 e2 ⊢
  rw [e1, e2]

/-- The rows that the loop over the elements processes. -/
theorem rows_eq (ds : List (Dir K)) (h : ∀ d ∈ ds, Clamped d.knots d.p)
    (f : List ℕ × Op K × List ℕ → List ℕ × (ℕ → K))
    (r : List ℕ × (ℕ → K)) (hr : r ∈ ((patchConn ds).zip ((patchCcs ds).zip (patchBconn ds))).map f) :
    ∃ e, Valid (ds.map Dir.nEl) e ∧ r = f ((patchConn ds).getD (elemIdx ds e) [], elemOp ds e,
      (patchBconn ds).getD (elemIdx ds e) []) := by
  have hA : ∃ g, patchConn ds = (tp (ds.map Dir.nEl)).map g := ⟨_, rfl⟩
  have hB : ∃ g, patchCcs ds = (tp (ds.map Dir.nEl)).map g := by
    unfold patchCcs combineExtraction; rw [patchOps_length ds h]; exact ⟨_, rfl⟩
  have hC : ∃ g, patchBconn ds = (tp (ds.map Dir.nEl)).map g := ⟨_, rfl⟩
  obtain ⟨gA, hA⟩ := hA
  obtain ⟨gB, hB⟩ := hB
  obtain ⟨gC, hC⟩ := hC
  rw [hA, hB, hC, List.zip_map', List.zip_map', List.map_map] at hr
  obtain ⟨e, he, rfl⟩ := List.mem_map.1 hr
  have he' := mem_tp.1 he
  refine ⟨e, he', ?_⟩
  unfold elemOp elemIdx
  rw [hA, hB, hC, getD_map_tp _ _ _ _ he', getD_map_tp _ _ _ _ he', getD_map_tp _ _ _ _ he']
  rfl

theorem row_mem (ds : List (Dir K)) (h : ∀ d ∈ ds, Clamped d.knots d.p)
    (f : List ℕ × Op K × List ℕ → List ℕ × (ℕ → K)) (e : List ℕ) (he : Valid (ds.map Dir.nEl) e) :
    f ((patchConn ds).getD (elemIdx ds e) [], elemOp ds e, (patchBconn ds).getD (elemIdx ds e) [])
      ∈ ((patchConn ds).zip ((patchCcs ds).zip (patchBconn ds))).map f := by
  have hA : ∃ g, patchConn ds = (tp (ds.map Dir.nEl)).map g := ⟨_, rfl⟩
  have hB : ∃ g, patchCcs ds = (tp (ds.map Dir.nEl)).map g := by
    unfold patchCcs combineExtraction; rw [patchOps_length ds h]; exact ⟨_, rfl⟩
  have hC : ∃ g, patchBconn ds = (tp (ds.map Dir.nEl)).map g := ⟨_, rfl⟩
  obtain ⟨gA, hA⟩ := hA
  obtain ⟨gB, hB⟩ := hB
  obtain ⟨gC, hC⟩ := hC
  unfold elemOp elemIdx
  rw [hA, hB, hC, getD_map_tp _ _ _ _ he, getD_map_tp _ _ _ _ he, getD_map_tp _ _ _ _ he,
    List.zip_map', List.zip_map', List.map_map]
  exact List.mem_map.2 ⟨e, mem_tp.2 he, rfl⟩

theorem bconn_row_length (ds : List (Dir K)) (e : List ℕ) (he : Valid (ds.map Dir.nEl) e) :
    ((patchBconn ds).getD (elemIdx ds e) []).length = nLoc ds := by
  unfold patchBconn createBconn elemIdx makeConn rowNd nLoc
  simp only
  rw [getD_map_tp _ _ _ _ he, List.length_map, tp_length, List.map_map]
  rfl

theorem nLoc_ravel (ds : List (Dir K)) {l : ℕ} (hl : l < nLoc ds) :
    ∃ k, Valid (ds.map fun d => d.p + 1) k ∧ l = locIdx ds k := by
  obtain ⟨k, h1, h2⟩ := exists_ravel hl
  exact ⟨k, h1, h2.symm⟩

/-- The value that the loop stores for a point, if it is a function of the functional of the point. -/
theorem scatter_patch (ds : List (Dir K)) (h : ∀ d ∈ ds, GoodDir d)
    (val : (ℕ → ℕ) → Op K → ℕ → K)
    (hval : ∀ e k e' k', Valid (ds.map Dir.nEl) e → Valid (ds.map Dir.nEl) e' →
      Valid (ds.map fun d => d.p + 1) k → Valid (ds.map fun d => d.p + 1) k' →
      bezIdx ds e k = bezIdx ds e' k' →
      val (elemConn ds e) (elemOp ds e) (locIdx ds k) = val (elemConn ds e') (elemOp ds e') (locIdx ds k'))
    (e k : List ℕ) (he : Valid (ds.map Dir.nEl) e) (hk : Valid (ds.map fun d => d.p + 1) k) :
    scatterElems (((patchConn ds).zip ((patchCcs ds).zip (patchBconn ds))).map fun r =>
        (r.2.2, val (fun i => r.1.getD i 0) r.2.1)) (fun _ => 0) (elemBconn ds e (locIdx ds k))
      = val (elemConn ds e) (elemOp ds e) (locIdx ds k) := by
  have hcl : ∀ d ∈ ds, Clamped d.knots d.p := fun d hd => (h d hd).clamped
  refine scatterElems_consistent _ _ ?_ _
    (row_mem ds hcl (fun r => (r.2.2, val (fun i => r.1.getD i 0) r.2.1)) e he) (locIdx ds k) ?_
  · intro r hr r' hr' l hl l' hl' heq
    obtain ⟨e1, h1, rfl⟩ := rows_eq ds hcl _ r hr
    obtain ⟨e2, h2, rfl⟩ := rows_eq ds hcl _ r' hr'
    simp only at hl hl' heq ⊢
    rw [bconn_row_length ds _ h1] at hl
    rw [bconn_row_length ds _ h2] at hl'
    obtain ⟨k1, hk1, rfl⟩ := nLoc_ravel ds hl
    obtain ⟨k2, hk2, rfl⟩ := nLoc_ravel ds hl'
    have b1 := C77_bezier_connectivity ds hcl e1 k1 h1 hk1
    have b2 := C77_bezier_connectivity ds hcl e2 k2 h2 hk2
    unfold elemBconn at b1 b2
    rw [b1, b2] at heq
    exact hval e1 k1 e2 k2 h1 h2 hk1 hk2
      (ravel_injective (bezIdx_valid ds e1 k1 h1 hk1) (bezIdx_valid ds e2 k2 h2 hk2) heq)
  · rw [bconn_row_length ds _ he]
    exact ravel_lt hk

/-- **C77.** The Bezier mesh of a continuous patch: although the elements overwrite the points they
share with their neighbours, in the end every element finds in the global arrays exactly its own Bezier
weights and control points. -/
theorem C77_bezier_control (ds : List (Dir K)) (h : ∀ d ∈ ds, GoodDir d) (points weights : ℕ → K)
    (e k : List ℕ) (he : Valid (ds.map Dir.nEl) e) (hk : Valid (ds.map fun d => d.p + 1) k) :
    bezierWeights (nLoc ds) weights (patchCcs ds) (patchConn ds) (patchBconn ds)
        (elemBconn ds e (locIdx ds k))
      = bezWeight (nLoc ds) (elemOp ds e) (fun i => weights (elemConn ds e i)) (locIdx ds k) ∧
    bezierPoints (nLoc ds) points weights (patchCcs ds) (patchConn ds) (patchBconn ds)
        (elemBconn ds e (locIdx ds k))
      = bezPoint (nLoc ds) (elemOp ds e) (fun i => weights (elemConn ds e i))
          (fun i => points (elemConn ds e i)) (locIdx ds k) := by
  have hcl : ∀ d ∈ ds, Clamped d.knots d.p := fun d hd => (h d hd).clamped
  constructor
  · refine scatter_patch ds h (fun c cc k => bezWeight (nLoc ds) cc (fun i => weights (c i)) k) ?_ e k he hk
    intro e k e' k' he he' hk hk' heq
    simp only [bezWeight]
    rw [elem_multi ds hcl e k he hk, elem_multi ds hcl e' k' he' hk',
      multi_shared ds h e k e' k' he he' hk hk' heq]
  · refine scatter_patch ds h (fun c cc k => bezPoint (nLoc ds) cc (fun i => weights (c i))
      (fun i => points (c i)) k) ?_ e k he hk
    intro e k e' k' he he' hk hk' heq
    simp only [bezPoint, bezWeight]
    have m1 := elem_multi ds hcl e k he hk weights
    have m2 := elem_multi ds hcl e' k' he' hk' weights
    have m3 := elem_multi ds hcl e k he hk fun A => weights A * points A
    have m4 := elem_multi ds hcl e' k' he' hk' fun A => weights A * points A
    rw [m1, m2, m3, m4, multi_shared ds h e k e' k' he he' hk hk' heq,
      multi_shared ds h e k e' k' he he' hk hk' heq]

/-- **C77.** The geometry of the Bezier mesh is the geometry of the NURBS patch: on every element and
for every value of the Bernstein basis `B` the weight function and the weighted position computed from
the Bezier arrays are those of the NURBS. -/
theorem C77_bezier_geometry (ds : List (Dir K)) (h : ∀ d ∈ ds, GoodDir d) (points weights B : ℕ → K)
    (e : List ℕ) (he : Valid (ds.map Dir.nEl) e)
    (hw : ∀ v, (∃ k < nLoc ds, v = elemBconn ds e k) →
      bezierWeights (nLoc ds) weights (patchCcs ds) (patchConn ds) (patchBconn ds) v ≠ 0) :
    (∑ k ∈ Finset.range (nLoc ds),
        bezierWeights (nLoc ds) weights (patchCcs ds) (patchConn ds) (patchBconn ds) (elemBconn ds e k)
          * B k
      = ∑ i ∈ Finset.range (nLoc ds), weights (elemConn ds e i)
          * ∑ k ∈ Finset.range (nLoc ds), elemOp ds e i k * B k) ∧
    ∑ k ∈ Finset.range (nLoc ds),
        bezierWeights (nLoc ds) weights (patchCcs ds) (patchConn ds) (patchBconn ds) (elemBconn ds e k)
          * bezierPoints (nLoc ds) points weights (patchCcs ds) (patchConn ds) (patchBconn ds)
              (elemBconn ds e k) * B k
      = ∑ i ∈ Finset.range (nLoc ds), weights (elemConn ds e i) * points (elemConn ds e i)
          * ∑ k ∈ Finset.range (nLoc ds), elemOp ds e i k * B k := by
  have hw' : ∀ k < nLoc ds,
      bezWeight (nLoc ds) (elemOp ds e) (fun i => weights (elemConn ds e i)) k ≠ 0 := by
    intro k hk
    obtain ⟨k, hk', rfl⟩ := nLoc_ravel ds hk
    rw [← (C77_bezier_control ds h points weights e k he hk').1]
    exact hw _ ⟨_, hk, rfl⟩
  obtain ⟨f1, f2⟩ := C77_bezier_form (nLoc ds) (elemOp ds e) (fun i => weights (elemConn ds e i))
    (fun i => points (elemConn ds e i)) B hw'
  constructor
  · rw [← f1]
    refine Finset.sum_congr rfl fun l hl => ?_
    obtain ⟨k, hk, rfl⟩ := nLoc_ravel ds (Finset.mem_range.1 hl)
    rw [(C77_bezier_control ds h points weights e k he hk).1]
  · rw [← f2]
    refine Finset.sum_congr rfl fun l hl => ?_
    obtain ⟨k, hk, rfl⟩ := nLoc_ravel ds (Finset.mem_range.1 hl)
    obtain ⟨g1, g2⟩ := C77_bezier_control ds h points weights e k he hk
    rw [g1, g2]

end Iga
