/-
The closed form of the nodes of the Lagrange elements.
-/
import Verif.Fem.PropsConform

namespace Verif.Fem

theorem rowAt_append_left {A B : List Nod} {i : ℕ} (h : i < A.length) : rowAt (A ++ B) i = rowAt A i := by
  rw [rowAt, rowAt, List.getElem?_append_left h]

theorem rowAt_append_right {A B : List Nod} {n i : ℕ} (h : A.length = n) : rowAt (A ++ B) (n + i) = rowAt B i := by
  rw [rowAt, rowAt, List.getElem?_append_right (by omega)]
  congr 3
  omega

theorem rowAt_blocks (n m : ℕ) (f : ℕ → List Nod) (hf : ∀ i < n, (f i).length = m) (i j : ℕ)
    (hi : i < n) (hj : j < m) : rowAt ((List.range n).flatMap f) (i * m + j) = rowAt (f i) j := by
  rw [rowAt, rowAt, getElem?_blocks n m f hf i j hi hj]

theorem rowAt_map {α : Type} (l : List α) (f : α → Nod) (j : ℕ) (hj : j < l.length) (d : α) :
    rowAt (l.map f) j = (f (l.getD j d)).row := by
  rw [rowAt, List.getElem?_map, List.getElem?_eq_getElem hj, List.getD_eq_getElem _ _ hj]
  rfl

theorem zipIdx_flatMap {β : Type} (l : List (List ℕ)) (f : List ℕ × ℕ → List β) :
    l.zipIdx.flatMap f = (List.range l.length).flatMap fun i => f (l.getD i [], i) := by
  have : l.zipIdx = (List.range l.length).map fun i => (l.getD i [], i) := by
    apply List.ext_getElem
    · simp
    · intro i h1 h2
      simp at h2
      simp [h2]
  rw [this, List.flatMap_map]

theorem map_nt_blocks (n m : ℕ) (f : ℕ → List Nod) (t : ℕ) (hf : ∀ i < n, (f i).map Nod.nt = List.replicate m (t, i)) :
    ((List.range n).flatMap f).map Nod.nt = (List.range n).flatMap fun e => List.replicate m (t, e) := by
  rw [List.map_flatMap]
  exact List.flatMap_congr fun i hi => hf i (List.mem_range.1 hi)

theorem map_nt_const {α : Type} (l : List α) (f : α → Nod) (x : ℕ × ℕ) (h : ∀ a, (f a).nt = x) :
    (l.map f).map Nod.nt = List.replicate l.length x := by
  rw [List.map_map, List.eq_replicate_iff]
  refine ⟨by simp, ?_⟩
  intro b hb
  obtain ⟨a, -, rfl⟩ := List.mem_map.1 hb
  exact h a

/-- The nodes of an edge. -/
def edgeBlock (nodes : List Nod) (nt order : ℕ) (l : List ℕ) (e : ℕ) : List Nod :=
  (List.range (order - 1)).map fun j =>
    { nt := (nt, e)
      row := fun k => ((order - (j + 1)) * rowAt nodes (l.getD 0 0) k + (j + 1) * rowAt nodes (l.getD 1 0) k) / order }

/-- The nodes of a triangle. -/
def triBlock (nodes : List Nod) (nt order : ℕ) (l : List ℕ) (e : ℕ) : List Nod :=
  (triL (order - 2)).map fun p =>
    { nt := (nt, e)
      row := fun k => ((order - (p.1 + 1) - (p.2 + 1)) * rowAt nodes (l.getD 0 0) k
        + (p.2 + 1) * rowAt nodes (l.getD 1 0) k + (p.1 + 1) * rowAt nodes (l.getD 2 0) k) / order }

/-- The nodes of a quadrilateral. -/
def sqBlock (nodes : List Nod) (nt order : ℕ) (l : List ℕ) (e : ℕ) : List Nod :=
  (sqL (order - 1)).map fun p =>
    { nt := (nt, e)
      row := fun k => ((order - (p.2 + 1)) * (order - (p.1 + 1)) * rowAt nodes (l.getD 0 0) k
        + (order - (p.1 + 1)) * (p.2 + 1) * rowAt nodes (l.getD 1 0) k
        + (p.2 + 1) * (p.1 + 1) * rowAt nodes (l.getD 2 0) k
        + (p.1 + 1) * (order - (p.2 + 1)) * rowAt nodes (l.getD 3 0) k) / order ^ 2 }

theorem appendEdges_eq (nodes : List Nod) (nt : ℕ) (edges : List (List ℕ)) (order : ℕ) :
    appendEdges nodes nt edges order =
      nodes ++ (List.range edges.length).flatMap fun e => edgeBlock nodes nt order (edges.getD e []) e := by
  rw [appendEdges, zipIdx_flatMap]
  rfl

theorem appendFaces_eq (nodes : List Nod) (nt : ℕ) (faces : List (List ℕ)) (order : ℕ) :
    appendFaces nodes nt faces order =
      nodes ++ (List.range faces.length).flatMap fun e => triBlock nodes nt order (faces.getD e []) e := by
  rw [appendFaces, zipIdx_flatMap]
  congr 1
  refine List.flatMap_congr fun e _ => ?_
  rw [triBlock, triL, List.map_flatMap]
  refine List.flatMap_congr fun i _ => ?_
  rw [List.map_map]
  rfl

theorem appendTpFaces_eq (nodes : List Nod) (nt : ℕ) (faces : List (List ℕ)) (order : ℕ) :
    appendTpFaces nodes nt faces order =
      nodes ++ (List.range faces.length).flatMap fun e => sqBlock nodes nt order (faces.getD e []) e := by
  rw [appendTpFaces, zipIdx_flatMap]
  congr 1
  refine List.flatMap_congr fun e _ => ?_
  rw [sqBlock, sqL, List.map_flatMap]
  refine List.flatMap_congr fun i _ => ?_
  rw [List.map_map]
  rfl

theorem length_edgeBlock (nodes : List Nod) (nt order : ℕ) (l : List ℕ) (e : ℕ) :
    (edgeBlock nodes nt order l e).length = order - 1 := by simp [edgeBlock]

theorem length_triBlock (nodes : List Nod) (nt order : ℕ) (l : List ℕ) (e : ℕ) :
    (triBlock nodes nt order l e).length = (triL (order - 2)).length := by simp [triBlock]

theorem length_sqBlock (nodes : List Nod) (nt order : ℕ) (l : List ℕ) (e : ℕ) :
    (sqBlock nodes nt order l e).length = (sqL (order - 1)).length := by simp [sqBlock]

theorem nt_edgeBlock (nodes : List Nod) (nt order : ℕ) (l : List ℕ) (e : ℕ) :
    (edgeBlock nodes nt order l e).map Nod.nt = List.replicate (order - 1) (nt, e) := by
  rw [edgeBlock, map_nt_const _ _ (nt, e) fun _ => rfl, List.length_range]

theorem nt_triBlock (nodes : List Nod) (nt order : ℕ) (l : List ℕ) (e : ℕ) :
    (triBlock nodes nt order l e).map Nod.nt = List.replicate (triL (order - 2)).length (nt, e) := by
  rw [triBlock, map_nt_const _ _ (nt, e) fun _ => rfl]

theorem nt_sqBlock (nodes : List Nod) (nt order : ℕ) (l : List ℕ) (e : ℕ) :
    (sqBlock nodes nt order l e).map Nod.nt = List.replicate (sqL (order - 1)).length (nt, e) := by
  rw [sqBlock, map_nt_const _ _ (nt, e) fun _ => rfl]

/-! ### The nodes of the elements of the dimension three -/

/-- The list of the nodes made of the vertices, the edges, the faces and the bubbles. -/
theorem nts_blocks (V : List Nod) (nV nE nF ne nf nb : ℕ) (fe ff : ℕ → List Nod) (B : List Nod)
    (hV : V.map Nod.nt = (List.range nV).map fun i => (0, i))
    (he : ∀ e < nE, (fe e).map Nod.nt = List.replicate ne (1, e))
    (hf : ∀ e < nF, (ff e).map Nod.nt = List.replicate nf (2, e))
    (hB : B.map Nod.nt = List.replicate nb (3, 0)) :
    (V ++ (List.range nE).flatMap fe ++ (List.range nF).flatMap ff ++ B).map Nod.nt = shape nV nE ne nF nf nb := by
  rw [List.map_append, List.map_append, List.map_append, hV, map_nt_blocks nE ne fe 1 he,
    map_nt_blocks nF nf ff 2 hf, hB, shape]

section rows
variable (V : List Nod) (nV nE nF ne nf nb : ℕ) (fe ff : ℕ → List Nod) (B : List Nod) (hV : V.length = nV)
  (he : ∀ e < nE, (fe e).length = ne) (hf : ∀ e < nF, (ff e).length = nf)
include hV

theorem rowAt_vert {i : ℕ} (hi : i < nV) :
    rowAt (V ++ (List.range nE).flatMap fe ++ (List.range nF).flatMap ff ++ B) i = rowAt V i := by
  rw [List.append_assoc, List.append_assoc, rowAt_append_left (by omega)]

include he

theorem rowAt_edge {e j : ℕ} (h : e < nE) (hj : j < ne) :
    rowAt (V ++ (List.range nE).flatMap fe ++ (List.range nF).flatMap ff ++ B) (nV + e * ne + j) = rowAt (fe e) j := by
  rw [List.append_assoc, List.append_assoc, Nat.add_assoc, rowAt_append_right hV,
    rowAt_append_left, rowAt_blocks nE ne fe he e j h hj]
  rw [length_blocks nE ne fe he]
  calc e * ne + j < (e + 1) * ne := by rw [Nat.succ_mul]; omega
      _ ≤ _ := Nat.mul_le_mul_right _ h

include hf

theorem rowAt_face {e j : ℕ} (h : e < nF) (hj : j < nf) :
    rowAt (V ++ (List.range nE).flatMap fe ++ (List.range nF).flatMap ff ++ B) (nV + nE * ne + e * nf + j) =
      rowAt (ff e) j := by
  rw [List.append_assoc, Nat.add_assoc _ (e * nf),
    rowAt_append_right (by rw [List.length_append, hV, length_blocks nE ne fe he]),
    rowAt_append_left, rowAt_blocks nF nf ff hf e j h hj]
  rw [length_blocks nF nf ff hf]
  calc e * nf + j < (e + 1) * nf := by rw [Nat.succ_mul]; omega
      _ ≤ _ := Nat.mul_le_mul_right _ h

theorem rowAt_bubble (j : ℕ) :
    rowAt (V ++ (List.range nE).flatMap fe ++ (List.range nF).flatMap ff ++ B) (nV + nE * ne + nF * nf + j) =
      rowAt B j := by
  rw [rowAt_append_right (by rw [List.length_append, List.length_append, hV, length_blocks nE ne fe he,
    length_blocks nF nf ff hf])]

end rows

end Verif.Fem
