/-
C67: the refined mesh is conforming.
-/
import Mathlib.Data.List.Perm.Basic
import Mathlib.Data.Set.Function
import Mathlib.Data.Fintype.Basic
import Mathlib.Data.List.Permutation
import Verif.Mesh.PropsRefine

namespace Verif.Mesh

/-! ### Specification -/

section

variable {V : Type}

/-- `x` is the number of the node in the middle of the edge between the vertices `a` and `b`. -/
def IsMid (m : RMesh V) (oe a b x : ℕ) : Prop :=
  ∃ (g : ℕ) (er : List ℕ), m.edges[g]? = some er ∧ er.Perm [a, b] ∧ x = g + oe

/-- `x` is the number of the node in the middle of the face with the vertices `fr`. -/
def IsFaceMid (m : RMesh V) (of : ℕ) (fr : List ℕ) (x : ℕ) : Prop :=
  ∃ (g : ℕ) (er : List ℕ), m.faces[g]? = some er ∧ er.Perm fr ∧ x = g + of

/-- `f` is (in some order of vertices) one of the pieces of the facet with the given vertices: halves
of an edge; corner triangles and the middle triangle of a triangle; quarters of a quadrilateral.  The
pieces do not depend on a cell that has the facet. -/
def IsPiece (m : RMesh V) (oe of : ℕ) (fac f : List ℕ) : Prop :=
  match fac with
  | [a, b] => ∃ x, IsMid m oe a b x ∧ (f.Perm [a, x] ∨ f.Perm [b, x])
  | [a, b, c] => ∃ x y z, IsMid m oe a b x ∧ IsMid m oe b c y ∧ IsMid m oe c a z ∧
      (f.Perm [a, x, z] ∨ f.Perm [b, y, x] ∨ f.Perm [c, z, y] ∨ f.Perm [x, y, z])
  | [a, b, c, d] => ∃ x y z w u, IsMid m oe a b x ∧ IsMid m oe b c y ∧ IsMid m oe c d z ∧
      IsMid m oe d a w ∧ IsFaceMid m of [a, b, c, d] u ∧
      (f.Perm [a, x, u, w] ∨ f.Perm [b, y, u, x] ∨ f.Perm [c, z, u, y] ∨ f.Perm [d, w, u, z])
  | _ => False

/-- The facet `l` of child `t` of cell `i` in the new connectivity. -/
def childFacet (conn : List (List ℕ)) (nch : ℕ) (facTab : List (List ℕ)) (i t l : ℕ) : List ℕ :=
  (facTab.getD l []).map fun v => (conn.getD (nch * i + t) []).getD v 0

/-- The vertices of the facet `j` of a cell. -/
def facetOf (facTab : List (List ℕ)) (row : List ℕ) (j : ℕ) : List ℕ :=
  (facTab.getD j []).map fun v => row.getD v 0

/-- The children of cell `i` fit together and fit to the facets of the cell: a facet of a child is a
piece of a facet of the cell, or there is exactly one other child that has it; all pieces of all facets
of the cell are facets of children. -/
structure Conforms (m : RMesh V) (conn : List (List ℕ)) (oe of nch : ℕ) (facTab : List (List ℕ))
    (i : ℕ) (row : List ℕ) : Prop where
  out_or_in : ∀ t < nch, ∀ l < facTab.length,
    (∃ j < facTab.length, IsPiece m oe of (facetOf facTab row j) (childFacet conn nch facTab i t l)) ∨
    (∃ t' < nch, ∃ l' < facTab.length, t' ≠ t ∧
      (childFacet conn nch facTab i t' l').Perm (childFacet conn nch facTab i t l) ∧
      ∀ t'' < nch, ∀ l'' < facTab.length,
        (childFacet conn nch facTab i t'' l'').Perm (childFacet conn nch facTab i t l) →
        (t'' = t ∧ l'' = l) ∨ (t'' = t' ∧ l'' = l'))
  pieces : ∀ j < facTab.length, ∀ f, IsPiece m oe of (facetOf facTab row j) f →
    ∃ t < nch, ∃ l < facTab.length, (childFacet conn nch facTab i t l).Perm f

/-! ### Pieces do not depend on the cell -/

theorem isMid_comm {m : RMesh V} {oe a b x : ℕ} : IsMid m oe a b x ↔ IsMid m oe b a x := by
  unfold IsMid
  constructor <;>
  · rintro ⟨g, er, h1, h2, h3⟩
    exact ⟨g, er, h1, h2.trans (List.Perm.swap _ _ _), h3⟩

theorem isFaceMid_perm {m : RMesh V} {of x : ℕ} {r s : List ℕ} (h : r.Perm s) :
    IsFaceMid m of r x ↔ IsFaceMid m of s x := by
  unfold IsFaceMid
  constructor
  · rintro ⟨g, er, h1, h2, h3⟩
    exact ⟨g, er, h1, h2.trans h, h3⟩
  · rintro ⟨g, er, h1, h2, h3⟩
    exact ⟨g, er, h1, h2.trans h.symm, h3⟩

theorem isPiece_edge {m : RMesh V} {oe of a b : ℕ} {f : List ℕ} (h : IsPiece m oe of [a, b] f) :
    IsPiece m oe of [b, a] f := by
  obtain ⟨x, h1, h2⟩ := h
  exact ⟨x, isMid_comm.1 h1, h2.symm⟩

theorem perm3 {A : Type} (a b c : A) : [a, b, c].Perm [b, c, a] :=
  (List.Perm.swap b a [c]).trans ((List.Perm.swap c a []).cons b)

theorem isPiece_tri_rot {m : RMesh V} {oe of a b c : ℕ} {f : List ℕ}
    (h : IsPiece m oe of [a, b, c] f) : IsPiece m oe of [b, c, a] f := by
  obtain ⟨x, y, z, h1, h2, h3, h4⟩ := h
  refine ⟨y, z, x, h2, h3, h1, ?_⟩
  rcases h4 with h | h | h | h
  · exact Or.inr (Or.inr (Or.inl h))
  · exact Or.inl h
  · exact Or.inr (Or.inl h)
  · exact Or.inr (Or.inr (Or.inr (h.trans (perm3 _ _ _))))

theorem isPiece_tri_rev {m : RMesh V} {oe of a b c : ℕ} {f : List ℕ}
    (h : IsPiece m oe of [a, b, c] f) : IsPiece m oe of [b, a, c] f := by
  obtain ⟨x, y, z, h1, h2, h3, h4⟩ := h
  refine ⟨x, z, y, isMid_comm.1 h1, isMid_comm.1 h3, isMid_comm.1 h2, ?_⟩
  rcases h4 with h | h | h | h
  · exact Or.inr (Or.inl (h.trans ((List.Perm.swap _ _ _).cons _)))
  · exact Or.inl (h.trans ((List.Perm.swap _ _ _).cons _))
  · exact Or.inr (Or.inr (Or.inl (h.trans ((List.Perm.swap _ _ _).cons _))))
  · exact Or.inr (Or.inr (Or.inr (h.trans ((List.Perm.swap _ _ _).cons _))))

theorem perm4 {A : Type} (a b c d : A) : [a, b, c, d].Perm [b, c, d, a] :=
  (List.Perm.swap b a [c, d]).trans ((perm3 a c d).cons b)

theorem perm_2_4 {A : Type} (a b c d : A) : [a, b, c, d].Perm [a, d, c, b] := by
  refine List.Perm.cons _ ?_
  exact (perm3 b c d).trans ((List.Perm.swap d c [b]))

theorem isPiece_quad_rot {m : RMesh V} {oe of a b c d : ℕ} {f : List ℕ}
    (h : IsPiece m oe of [a, b, c, d] f) : IsPiece m oe of [b, c, d, a] f := by
  obtain ⟨x, y, z, w, u, h1, h2, h3, h4, h5, h6⟩ := h
  refine ⟨y, z, w, x, u, h2, h3, h4, h1, (isFaceMid_perm (perm4 _ _ _ _)).1 h5, ?_⟩
  rcases h6 with h | h | h | h
  · exact Or.inr (Or.inr (Or.inr h))
  · exact Or.inl h
  · exact Or.inr (Or.inl h)
  · exact Or.inr (Or.inr (Or.inl h))

theorem isPiece_quad_rev {m : RMesh V} {oe of a b c d : ℕ} {f : List ℕ}
    (h : IsPiece m oe of [a, b, c, d] f) : IsPiece m oe of [a, d, c, b] f := by
  obtain ⟨x, y, z, w, u, h1, h2, h3, h4, h5, h6⟩ := h
  refine ⟨w, z, y, x, u, isMid_comm.1 h4, isMid_comm.1 h3, isMid_comm.1 h2, isMid_comm.1 h1,
    (isFaceMid_perm (perm_2_4 _ _ _ _)).1 h5, ?_⟩
  rcases h6 with h | h | h | h
  · exact Or.inl (h.trans (perm_2_4 _ _ _ _))
  · exact Or.inr (Or.inr (Or.inr (h.trans (perm_2_4 _ _ _ _))))
  · exact Or.inr (Or.inr (Or.inl (h.trans (perm_2_4 _ _ _ _))))
  · exact Or.inr (Or.inl (h.trans (perm_2_4 _ _ _ _)))

/-- The orders of the vertices of a facet that define the same facet: all for edges and triangles,
rotations and reflections of quadrilaterals. -/
inductive SameFacet (r : List ℕ) : List ℕ → Prop
  | perm {s : List ℕ} (hl : r.length ≤ 3) (h : r.Perm s) : SameFacet r s
  | refl : SameFacet r r
  | rot {a b c d : ℕ} (h : SameFacet r [a, b, c, d]) : SameFacet r [b, c, d, a]
  | rev {a b c d : ℕ} (h : SameFacet r [a, b, c, d]) : SameFacet r [a, d, c, b]

theorem perm_three_cases {a b c : ℕ} {s : List ℕ} (h : [a, b, c].Perm s) :
    s = [a, b, c] ∨ s = [b, c, a] ∨ s = [c, a, b] ∨ s = [b, a, c] ∨ s = [a, c, b] ∨ s = [c, b, a] := by
  have : s ∈ [a, b, c].permutations' := List.mem_permutations'.2 h.symm
  simp [List.permutations'] at this
  tauto

/-- **Pieces of a facet** are the same for all the cells with the facet. -/
theorem C67_pieces_shared {m : RMesh V} {oe of : ℕ} {r s f : List ℕ} (h : SameFacet r s)
    (hf : IsPiece m oe of r f) : IsPiece m oe of s f := by
  induction h with
  | @perm s hl h =>
    match r, hl, h, hf with
    | [], _, h, hf => exact hf.elim
    | [a], _, h, hf => exact hf.elim
    | [a, b], _, h, hf =>
      have : s ∈ [a, b].permutations' := List.mem_permutations'.2 h.symm
      simp [List.permutations'] at this
      rcases this with rfl | rfl
      · exact hf
      · exact isPiece_edge hf
    | [a, b, c], _, h, hf =>
      rcases perm_three_cases h with rfl | rfl | rfl | rfl | rfl | rfl
      · exact hf
      · exact isPiece_tri_rot hf
      · exact isPiece_tri_rot (isPiece_tri_rot hf)
      · exact isPiece_tri_rev hf
      · exact isPiece_tri_rev (isPiece_tri_rot (isPiece_tri_rot hf))
      · exact isPiece_tri_rev (isPiece_tri_rot hf)
  | refl => exact hf
  | rot _ ih => exact isPiece_quad_rot ih
  | rev _ ih => exact isPiece_quad_rev ih

/-! ### The tables -/

/-- The index of a local edge. -/
def edgeIdx (eTab : List (List ℕ)) (a b : ℕ) : ℕ := eTab.findIdx fun r => r.isPerm [a, b]

/-- The pieces of the local facet `j`, by items of the tables. -/
def pieceTab (eTab : List (List ℕ)) (j : ℕ) (loc : List ℕ) : List (List Pt) :=
  let e := edgeIdx eTab
  match loc with
  | [a, b] => [[.c a, .e (e a b)], [.c b, .e (e a b)]]
  | [a, b, c] => [[.c a, .e (e a b), .e (e c a)], [.c b, .e (e b c), .e (e a b)],
      [.c c, .e (e c a), .e (e b c)], [.e (e a b), .e (e b c), .e (e c a)]]
  | [a, b, c, d] => [[.c a, .e (e a b), .f j, .e (e d a)], [.c b, .e (e b c), .f j, .e (e a b)],
      [.c c, .e (e c d), .f j, .e (e b c)], [.c d, .e (e d a), .f j, .e (e c d)]]
  | _ => []

/-- The edges of a local facet are in the table of edges. -/
def locOk (eTab : List (List ℕ)) (loc : List ℕ) : Bool :=
  match loc with
  | [a, b] => edgeIdx eTab a b < eTab.length
  | [a, b, c] => edgeIdx eTab a b < eTab.length ∧ edgeIdx eTab b c < eTab.length ∧
      edgeIdx eTab c a < eTab.length
  | [a, b, c, d] => edgeIdx eTab a b < eTab.length ∧ edgeIdx eTab b c < eTab.length ∧
      edgeIdx eTab c d < eTab.length ∧ edgeIdx eTab d a < eTab.length
  | _ => false

/-- The facet `l` of child `t` by items of the tables. -/
def facetPts (tab : List Pt) (k : ℕ) (facTab : List (List ℕ)) (t l : ℕ) : List Pt :=
  (facTab.getD l []).map fun v => tab.getD (t * k + v) .b

/-- The check of a table. -/
def TabOk (eTab facTab : List (List ℕ)) (tab : List Pt) (nch k : ℕ) : Prop :=
  (∀ t < nch, ∀ l < facTab.length,
    (∃ j < facTab.length, ∃ q ∈ pieceTab eTab j (facTab.getD j []),
      (facetPts tab k facTab t l).isPerm q = true) ∨
    (∃ t' < nch, ∃ l' < facTab.length, t' ≠ t ∧
      (facetPts tab k facTab t' l').isPerm (facetPts tab k facTab t l) = true ∧
      ∀ t'' < nch, ∀ l'' < facTab.length,
        (facetPts tab k facTab t'' l'').isPerm (facetPts tab k facTab t l) = true →
        (t'' = t ∧ l'' = l) ∨ (t'' = t' ∧ l'' = l'))) ∧
  (∀ j < facTab.length, ∀ q ∈ pieceTab eTab j (facTab.getD j []),
    ∃ t < nch, ∃ l < facTab.length, (facetPts tab k facTab t l).isPerm q = true)

/-- The same as a function. -/
def tabOkB (eTab facTab : List (List ℕ)) (tab : List Pt) (nch k : ℕ) : Bool :=
  let N := List.range nch
  let F := List.range facTab.length
  let P := facetPts tab k facTab
  (N.all fun t => F.all fun l =>
    (F.any fun j => (pieceTab eTab j (facTab.getD j [])).any fun q => (P t l).isPerm q) ||
    (N.any fun t' => F.any fun l' => decide (t' ≠ t) && (P t' l').isPerm (P t l) &&
      (N.all fun t'' => F.all fun l'' => !(P t'' l'').isPerm (P t l) ||
        decide ((t'' = t ∧ l'' = l) ∨ (t'' = t' ∧ l'' = l'))))) &&
  (F.all fun j => (pieceTab eTab j (facTab.getD j [])).all fun q =>
    N.any fun t => F.any fun l => (P t l).isPerm q)

theorem tabOkB_spec {eTab facTab : List (List ℕ)} {tab : List Pt} {nch k : ℕ}
    (h : tabOkB eTab facTab tab nch k = true) : TabOk eTab facTab tab nch k := by
  simp only [tabOkB, Bool.and_eq_true, Bool.or_eq_true, List.all_eq_true, List.any_eq_true,
    List.mem_range, decide_eq_true_eq, Bool.not_eq_true'] at h
  obtain ⟨h1, h2⟩ := h
  refine ⟨fun t ht l hl => ?_, fun j hj q hq => h2 j hj q hq⟩
  rcases h1 t ht l hl with h | ⟨t', ht', l', hl', ⟨hne, hp⟩, hu⟩
  · exact Or.inl h
  · refine Or.inr ⟨t', ht', l', hl', hne, hp, fun t'' ht'' l'' hl'' hp'' => ?_⟩
    rcases hu t'' ht'' l'' hl'' with h | h
    · rw [h] at hp''; cases hp''
    · exact h

theorem tabOk23 : TabOk edges23 edges23 tab23 4 3 := tabOkB_spec (by decide +kernel)
theorem tabOk24 : TabOk edges24 edges24 tab24 4 4 := tabOkB_spec (by decide +kernel)
theorem tabOk34 : TabOk edges34 faces34 tab34 8 4 := tabOkB_spec (by decide +kernel)
theorem tabOk38 : TabOk edges38 faces38 tab38 8 8 := tabOkB_spec (by decide +kernel)

/-! ### Nodes of a cell -/

theorem perm_of_map_perm {A B : Type} [Nonempty A] {f : A → B} {S : Set A} (hf : Set.InjOn f S)
    {L L' : List A} (hL : ∀ a ∈ L, a ∈ S) (hL' : ∀ a ∈ L', a ∈ S) (h : (L.map f).Perm (L'.map f)) :
    L.Perm L' := by
  have key : ∀ M : List A, (∀ a ∈ M, a ∈ S) → (M.map f).map (Function.invFunOn f S) = M := by
    intro M hM
    rw [List.map_map]
    conv_rhs => rw [← List.map_id M]
    apply List.map_congr_left
    intro a ha
    exact hf.leftInvOn_invFunOn (hM a ha)
  have := h.map (Function.invFunOn f S)
  rwa [key L hL, key L' hL'] at this

variable {m : RMesh V} {nv : ℕ} {eTab fTab : List (List ℕ)}

theorem nodup_inj {row : List ℕ} (hn : row.Nodup) {v w : ℕ} (hv : v < row.length) (hw : w < row.length)
    (h : row.getD v 0 = row.getD w 0) : v = w := by
  rw [List.getD_eq_getElem?_getD, List.getD_eq_getElem?_getD, List.getElem?_eq_getElem hv,
    List.getElem?_eq_getElem hw] at h
  exact (List.Nodup.getElem_inj_iff hn).1 h

/-- Different entries of a local table are different sets of vertices. -/
def TabInj (nv : ℕ) (tab : List (List ℕ)) : Prop :=
  (∀ loc ∈ tab, ∀ v ∈ loc, v < nv) ∧
  ∀ j < tab.length, ∀ j' < tab.length, (tab.getD j []).isPerm (tab.getD j' []) = true → j = j'

theorem incidence_inj {tab conn ents cellEnts : List (List ℕ)} (h : Incidence tab conn ents cellEnts)
    (ht : TabInj nv tab) {i : ℕ} {row : List ℕ} (hr : conn[i]? = some row) (hl : row.length = nv)
    (hn : row.Nodup) {j j' : ℕ} (hj : j < tab.length) (hj' : j' < tab.length)
    (e : (cellEnts.getD i []).getD j 0 = (cellEnts.getD i []).getD j' 0) : j = j' := by
  obtain ⟨ids, g, er, h1, h2, h3, h4⟩ := h.mem i j row tab[j] hr (by simp [hj])
  obtain ⟨ids', g', er', h1', h2', h3', h4'⟩ := h.mem i j' row tab[j'] hr (by simp [hj'])
  have : ids = ids' := by rw [h1] at h1'; exact Option.some.inj h1'
  subst this
  have e1 : cellEnts.getD i [] = ids := by simp [List.getD_eq_getElem?_getD, h1]
  have e2 : ids.getD j 0 = g := by simp [List.getD_eq_getElem?_getD, h2]
  have e3 : ids.getD j' 0 = g' := by simp [List.getD_eq_getElem?_getD, h2']
  rw [e1, e2, e3] at e
  subst e
  rw [h3] at h3'
  have : er = er' := Option.some.inj h3'
  subst this
  have hp : (tab[j].map fun v => row.getD v 0).Perm (tab[j'].map fun v => row.getD v 0) :=
    h4.symm.trans h4'
  have hinj : Set.InjOn (fun v => row.getD v 0) {v | v < nv} := by
    intro v hv w hw e
    exact nodup_inj hn (by rw [hl]; exact hv) (by rw [hl]; exact hw) e
  have := perm_of_map_perm hinj (fun v hv => ht.1 _ (List.getElem_mem hj) v hv)
    (fun v hv => ht.1 _ (List.getElem_mem hj') v hv) hp
  apply ht.2 j hj j' hj'
  have a1 : tab.getD j [] = tab[j] := by simp [List.getD_eq_getElem?_getD, hj]
  have a2 : tab.getD j' [] = tab[j'] := by simp [List.getD_eq_getElem?_getD, hj']
  rw [a1, a2]
  exact List.isPerm_iff.2 this

theorem incidence_lt {tab conn ents cellEnts : List (List ℕ)} (h : Incidence tab conn ents cellEnts)
    {i : ℕ} {row : List ℕ} (hr : conn[i]? = some row) {j : ℕ} (hj : j < tab.length) :
    (cellEnts.getD i []).getD j 0 < ents.length := by
  obtain ⟨ids, g, er, h1, h2, h3, h4⟩ := h.mem i j row tab[j] hr (by simp [hj])
  have e1 : cellEnts.getD i [] = ids := by simp [List.getD_eq_getElem?_getD, h1]
  have e2 : ids.getD j 0 = g := by simp [List.getD_eq_getElem?_getD, h2]
  rw [e1, e2]
  exact (List.getElem?_eq_some_iff.1 h3).1

/-- Requirements on the offsets. -/
structure Offs (m : RMesh V) (fTab : List (List ℕ)) (hasB : Bool) (oe of ob : ℕ) : Prop where
  e : m.coors.length ≤ oe
  f : fTab ≠ [] → oe + m.edges.length ≤ of
  b : hasB = true → oe + m.edges.length ≤ ob ∧ (fTab ≠ [] → of + m.faces.length ≤ ob)

/-- The nodes of a cell have different numbers. -/
theorem node_inj (h : Topo nv eTab fTab m) (he : TabInj nv eTab) (hf : TabInj nv fTab) {i : ℕ}
    {row : List ℕ} (hr : m.conn[i]? = some row) (hn : row.Nodup) {hasB : Bool} {oe of ob : ℕ}
    (ho : Offs m fTab hasB oe of ob) :
    Set.InjOn (m.node oe of ob i) {p | p.Ok nv eTab fTab hasB = true} := by
  have hl := h.len row (List.mem_of_getElem? hr)
  have er : m.conn.getD i [] = row := by simp [List.getD_eq_getElem?_getD, hr]
  have bc : ∀ v, v < nv → row.getD v 0 < m.coors.length := fun v hv => h.mem_lt hr hv
  have be : ∀ j, j < eTab.length → (m.cellEdges.getD i []).getD j 0 < m.edges.length :=
    fun j hj => incidence_lt h.edges hr hj
  have bf : ∀ j, j < fTab.length → (m.cellFaces.getD i []).getD j 0 < m.faces.length :=
    fun j hj => incidence_lt h.faces hr hj
  have ne : ∀ j, j < fTab.length → fTab ≠ [] := by
    intro j hj e
    simp [e] at hj
  have o1 := ho.e
  intro p hp q hq e
  simp only [Set.mem_ofPred_eq] at hp hq
  cases p with
  | c v =>
    have hv : v < nv := by simpa [Pt.Ok] using hp
    have b1 := bc v hv
    cases q with
    | c w =>
      have hw : w < nv := by simpa [Pt.Ok] using hq
      simp only [RMesh.node, er] at e
      rw [nodup_inj hn (by omega) (by omega) e]
    | e j => simp only [RMesh.node, er] at e; omega
    | f j =>
      have hj : j < fTab.length := by simpa [Pt.Ok] using hq
      have := ho.f (ne j hj)
      simp only [RMesh.node, er] at e; omega
    | b =>
      have := (ho.b (by simpa [Pt.Ok] using hq)).1
      simp only [RMesh.node, er] at e; omega
  | e j =>
    have hj : j < eTab.length := by simpa [Pt.Ok] using hp
    have b1 := be j hj
    cases q with
    | c w =>
      have hw : w < nv := by simpa [Pt.Ok] using hq
      have := bc w hw
      simp only [RMesh.node, er] at e; omega
    | e j' =>
      have hj' : j' < eTab.length := by simpa [Pt.Ok] using hq
      simp only [RMesh.node] at e
      rw [incidence_inj h.edges he hr hl hn hj hj' (by omega)]
    | f j' =>
      have hj' : j' < fTab.length := by simpa [Pt.Ok] using hq
      have := ho.f (ne j' hj')
      simp only [RMesh.node] at e; omega
    | b =>
      have := (ho.b (by simpa [Pt.Ok] using hq)).1
      simp only [RMesh.node] at e; omega
  | f j =>
    have hj : j < fTab.length := by simpa [Pt.Ok] using hp
    have b1 := bf j hj
    have o2 := ho.f (ne j hj)
    cases q with
    | c w =>
      have hw : w < nv := by simpa [Pt.Ok] using hq
      have := bc w hw
      simp only [RMesh.node, er] at e; omega
    | e j' =>
      have hj' : j' < eTab.length := by simpa [Pt.Ok] using hq
      have := be j' hj'
      simp only [RMesh.node] at e; omega
    | f j' =>
      have hj' : j' < fTab.length := by simpa [Pt.Ok] using hq
      simp only [RMesh.node] at e
      rw [incidence_inj h.faces hf hr hl hn hj hj' (by omega)]
    | b =>
      have := (ho.b (by simpa [Pt.Ok] using hq)).2 (ne j hj)
      simp only [RMesh.node] at e; omega
  | b =>
    have hb := ho.b (by simpa [Pt.Ok] using hp)
    cases q with
    | c w =>
      have hw : w < nv := by simpa [Pt.Ok] using hq
      have := bc w hw
      simp only [RMesh.node, er] at e; omega
    | e j' =>
      have hj' : j' < eTab.length := by simpa [Pt.Ok] using hq
      have := be j' hj'
      simp only [RMesh.node] at e; omega
    | f j' =>
      have hj' : j' < fTab.length := by simpa [Pt.Ok] using hq
      have := bf j' hj'
      have := hb.2 (ne j' hj')
      simp only [RMesh.node] at e; omega
    | b => rfl

/-- The node of a local edge. -/
theorem node_mid (h : Topo nv eTab fTab m) {i : ℕ} {row : List ℕ} (hr : m.conn[i]? = some row)
    {oe of ob a b : ℕ} (hj : edgeIdx eTab a b < eTab.length) :
    IsMid m oe (row.getD a 0) (row.getD b 0) (m.node oe of ob i (.e (edgeIdx eTab a b))) := by
  obtain ⟨ids, g, er, h1, h2, h3, h4⟩ := h.edges.mem i (edgeIdx eTab a b) row (eTab[edgeIdx eTab a b]) hr (by simp [hj])
  have hp : (eTab[edgeIdx eTab a b]).isPerm [a, b] = true := List.findIdx_getElem (w := hj)
  have hp := (List.isPerm_iff.1 hp).map fun v => row.getD v 0
  refine ⟨g, er, h3, h4.trans hp, ?_⟩
  simp [RMesh.node, List.getD_eq_getElem?_getD, h1, h2]

theorem isMid_unique {ce cc et : List (List ℕ)} (h : Incidence et cc m.edges ce) {oe a b x y : ℕ}
    (h1 : IsMid m oe a b x) (h2 : IsMid m oe a b y) : x = y := by
  obtain ⟨g, er, k1, k2, rfl⟩ := h1
  obtain ⟨g', er', l1, l2, rfl⟩ := h2
  rw [h.uniq g g' er er' k1 l1 (k2.trans l2.symm)]

theorem isFaceMid_unique {ce cc et : List (List ℕ)} (h : Incidence et cc m.faces ce) {of x y : ℕ}
    {r : List ℕ} (h1 : IsFaceMid m of r x) (h2 : IsFaceMid m of r y) : x = y := by
  obtain ⟨g, er, k1, k2, rfl⟩ := h1
  obtain ⟨g', er', l1, l2, rfl⟩ := h2
  rw [h.uniq g g' er er' k1 l1 (k2.trans l2.symm)]

theorem node_faceMid (h : Topo nv eTab fTab m) {i : ℕ} {row : List ℕ} (hr : m.conn[i]? = some row)
    {oe of ob j : ℕ} (hj : j < fTab.length) :
    IsFaceMid m of (facetOf fTab row j) (m.node oe of ob i (.f j)) := by
  obtain ⟨ids, g, er, h1, h2, h3, h4⟩ := h.faces.mem i j row fTab[j] hr (by simp [hj])
  refine ⟨g, er, h3, ?_, ?_⟩
  · have e : fTab.getD j [] = fTab[j] := by simp [List.getD_eq_getElem?_getD, hj]
    unfold facetOf
    rw [e]; exact h4
  · simp [RMesh.node, List.getD_eq_getElem?_getD, h1, h2]

/-- The pieces of the local facets are the pieces of the facets. -/
theorem pieceTab_spec (h : Topo nv eTab fTab m) {i : ℕ} {row : List ℕ} (hr : m.conn[i]? = some row)
    {oe of ob j : ℕ} {facTab : List (List ℕ)} (hj : j < facTab.length)
    (hok : locOk eTab (facTab.getD j []) = true)
    (hfac : facTab = fTab ∨ ∀ loc ∈ facTab, loc.length ≠ 4) (f : List ℕ) :
    IsPiece m oe of (facetOf facTab row j) f ↔
      ∃ q ∈ pieceTab eTab j (facTab.getD j []), f.Perm (q.map (m.node oe of ob i)) := by
  have er : m.conn.getD i [] = row := by simp [List.getD_eq_getElem?_getD, hr]
  have hc : ∀ v, m.node oe of ob i (.c v) = row.getD v 0 := by intro v; simp only [RMesh.node, er]
  have hmem : facTab.getD j [] ∈ facTab := by
    rw [List.getD_eq_getElem?_getD, List.getElem?_eq_getElem hj]; simp
  have hfm : (facTab.getD j []).length = 4 →
      IsFaceMid m of (facetOf facTab row j) (m.node oe of ob i (.f j)) := by
    intro h4
    rcases hfac with e | e
    · subst e
      exact node_faceMid h hr hj
    · exact absurd h4 (e _ hmem)
  unfold facetOf at hfm ⊢
  generalize facTab.getD j [] = loc at hok hfm ⊢
  match loc, hok, hfm with
  | [a, b], hok, _ =>
    have hx := node_mid h hr (oe := oe) (of := of) (ob := ob) (a := a) (b := b) (by simpa [locOk] using hok)
    simp only [List.map_cons, List.map_nil, IsPiece, pieceTab, List.mem_cons, List.not_mem_nil, or_false,
      exists_eq_or_imp, exists_eq_left, hc]
    constructor
    · rintro ⟨x, h1, h2⟩
      rwa [isMid_unique h.edges h1 hx] at h2
    · intro h2
      exact ⟨_, hx, h2⟩
  | [a, b, c], hok, _ =>
    simp only [locOk, decide_eq_true_eq] at hok
    obtain ⟨k1, k2, k3⟩ := hok
    have hx := node_mid h hr (oe := oe) (of := of) (ob := ob) k1
    have hy := node_mid h hr (oe := oe) (of := of) (ob := ob) k2
    have hz := node_mid h hr (oe := oe) (of := of) (ob := ob) k3
    simp only [List.map_cons, List.map_nil, IsPiece, pieceTab, List.mem_cons, List.not_mem_nil, or_false,
      exists_eq_or_imp, exists_eq_left, hc]
    constructor
    · rintro ⟨x, y, z, h1, h2, h3, h4⟩
      rwa [isMid_unique h.edges h1 hx, isMid_unique h.edges h2 hy, isMid_unique h.edges h3 hz] at h4
    · intro h4
      exact ⟨_, _, _, hx, hy, hz, h4⟩
  | [a, b, c, d], hok, hfm =>
    simp only [locOk, decide_eq_true_eq] at hok
    obtain ⟨k1, k2, k3, k4⟩ := hok
    have hx := node_mid h hr (oe := oe) (of := of) (ob := ob) k1
    have hy := node_mid h hr (oe := oe) (of := of) (ob := ob) k2
    have hz := node_mid h hr (oe := oe) (of := of) (ob := ob) k3
    have hw := node_mid h hr (oe := oe) (of := of) (ob := ob) k4
    have hu := hfm rfl
    simp only [List.map_cons, List.map_nil] at hu
    simp only [List.map_cons, List.map_nil, IsPiece, pieceTab, List.mem_cons, List.not_mem_nil, or_false,
      exists_eq_or_imp, exists_eq_left, hc]
    constructor
    · rintro ⟨x, y, z, w, u, h1, h2, h3, h4, h5, h6⟩
      rwa [isMid_unique h.edges h1 hx, isMid_unique h.edges h2 hy, isMid_unique h.edges h3 hz,
        isMid_unique h.edges h4 hw, isFaceMid_unique h.faces h5 hu] at h6
    · intro h6
      exact ⟨_, _, _, _, _, hx, hy, hz, hw, hu, h6⟩
  | [], hok, _ => simp [locOk] at hok
  | [a], hok, _ => simp [locOk] at hok
  | a :: b :: c :: d :: e :: l, hok, _ => simp [locOk] at hok

theorem childFacet_eq {n nch k : ℕ} {nd : ℕ → Pt → ℕ} {tab : List Pt} (htab : tab.length = nch * k)
    {facTab : List (List ℕ)} (hfk : ∀ loc ∈ facTab, ∀ v ∈ loc, v < k) {i t l : ℕ} (hi : i < n)
    (ht : t < nch) (hl : l < facTab.length) :
    childFacet (stackT n nch k nd tab) nch facTab i t l = (facetPts tab k facTab t l).map (nd i) := by
  have e : (stackT n nch k nd tab).getD (nch * i + t) [] = childRow (nd i) tab k t := by
    rw [List.getD_eq_getElem?_getD, stackT_get nd htab hi ht]
    rfl
  unfold childFacet facetPts
  rw [e, List.map_map]
  apply List.map_congr_left
  intro v hv
  have hmem : facTab.getD l [] ∈ facTab := by
    rw [List.getD_eq_getElem?_getD, List.getElem?_eq_getElem hl]; simp
  have hv := hfk _ hmem v hv
  unfold childRow
  rw [List.getD_eq_getElem?_getD, List.getElem?_map, List.getElem?_range hv]
  rfl

theorem conforms (h : Topo nv eTab fTab m) (he : TabInj nv eTab) (hf : TabInj nv fTab) {i : ℕ}
    {row : List ℕ} (hr : m.conn[i]? = some row) (hn : row.Nodup) {hasB : Bool} {oe of ob : ℕ}
    (ho : Offs m fTab hasB oe of ob) {facTab : List (List ℕ)} {tab : List Pt} {nch k : ℕ}
    (htab : tab.length = nch * k) (hok : ∀ p ∈ tab, p.Ok nv eTab fTab hasB = true)
    (hfk : ∀ loc ∈ facTab, ∀ v ∈ loc, v < k)
    (hlo : ∀ j < facTab.length, locOk eTab (facTab.getD j []) = true)
    (hfac : facTab = fTab ∨ ∀ loc ∈ facTab, loc.length ≠ 4) (hT : TabOk eTab facTab tab nch k) :
    Conforms m (stackT m.conn.length nch k (m.node oe of ob) tab) oe of nch facTab i row := by
  have hi : i < m.conn.length := (List.getElem?_eq_some_iff.1 hr).1
  have hcf := fun t (ht : t < nch) l (hl : l < facTab.length) =>
    childFacet_eq (nd := m.node oe of ob) htab hfk hi ht hl
  have hmem : ∀ t < nch, ∀ l < facTab.length, ∀ p ∈ facetPts tab k facTab t l,
      p ∈ {p : Pt | p.Ok nv eTab fTab hasB = true} := by
    intro t ht l hl p hp
    unfold facetPts at hp
    obtain ⟨v, hv, rfl⟩ := List.mem_map.1 hp
    apply hok
    have hv := hfk _ (by rw [List.getD_eq_getElem?_getD, List.getElem?_eq_getElem hl]; simp) v hv
    have : t * k + v < tab.length := by
      rw [htab]
      calc t * k + v < t * k + k := by omega
        _ = (t + 1) * k := by ring
        _ ≤ nch * k := Nat.mul_le_mul_right _ ht
    rw [List.getD_eq_getElem?_getD, List.getElem?_eq_getElem this]
    simp
  have hinj := node_inj h he hf hr hn ho
  refine ⟨fun t ht l hl => ?_, fun j hj f hp => ?_⟩
  · rcases hT.1 t ht l hl with ⟨j, hj, q, hq, hp⟩ | ⟨t', ht', l', hl', hne, hp, hu⟩
    · refine Or.inl ⟨j, hj, ?_⟩
      rw [pieceTab_spec h hr (ob := ob) hj (hlo j hj) hfac]
      refine ⟨q, hq, ?_⟩
      rw [hcf t ht l hl]
      exact (List.isPerm_iff.1 hp).map _
    · refine Or.inr ⟨t', ht', l', hl', hne, ?_, fun t'' ht'' l'' hl'' hp'' => ?_⟩
      · rw [hcf t ht l hl, hcf t' ht' l' hl']
        exact (List.isPerm_iff.1 hp).map _
      · rw [hcf t ht l hl, hcf t'' ht'' l'' hl''] at hp''
        haveI : Nonempty Pt := ⟨.b⟩
        exact hu t'' ht'' l'' hl'' (List.isPerm_iff.2
          (perm_of_map_perm hinj (hmem t'' ht'' l'' hl'') (hmem t ht l hl) hp''))
  · rw [pieceTab_spec h hr (ob := ob) hj (hlo j hj) hfac] at hp
    obtain ⟨q, hq, hp⟩ := hp
    obtain ⟨t, ht, l, hl, hpq⟩ := hT.2 j hj q hq
    refine ⟨t, ht, l, hl, ?_⟩
    rw [hcf t ht l hl]
    exact ((List.isPerm_iff.1 hpq).map _).trans hp.symm

theorem tabInj_nil (nv : ℕ) : TabInj nv [] := ⟨by simp, by simp⟩

variable {K : Type} [Field K] [AddCommGroup V] [Module K V]

/-- **Conformity of refined triangle meshes.** -/
theorem C67_conforming23 (h : Topo 3 edges23 [] m) {i : ℕ} {row : List ℕ} (hr : m.conn[i]? = some row)
    (hn : row.Nodup) :
    Conforms m (refine23 K m).conn m.coors.length 0 4 edges23 i row :=
  conforms h (by unfold TabInj; decide) (tabInj_nil 3) hr hn (hasB := false)
    ⟨le_rfl, by simp, by simp⟩ rfl (by decide) (by decide) (by decide) (Or.inr (by decide)) tabOk23

/-- **Conformity of refined quadrilateral meshes.** -/
theorem C67_conforming24 (h : Topo 4 edges24 [] m) {i : ℕ} {row : List ℕ} (hr : m.conn[i]? = some row)
    (hn : row.Nodup) :
    Conforms m (refine24 K m).conn m.coors.length 0 4 edges24 i row :=
  conforms h (by unfold TabInj; decide) (tabInj_nil 4) hr hn (hasB := true)
    ⟨le_rfl, by simp, by simp⟩ rfl (by decide) (by decide) (by decide) (Or.inr (by decide)) tabOk24

/-- **Conformity of refined tetrahedral meshes.** -/
theorem C67_conforming34 (h : Topo 4 edges34 faces34 m) {i : ℕ} {row : List ℕ}
    (hr : m.conn[i]? = some row) (hn : row.Nodup) :
    Conforms m (refine34 K m).conn m.coors.length 0 8 faces34 i row :=
  conforms (fTab := []) ⟨h.len, h.lt, h.edges, ⟨by simp, h.faces.uniq⟩, h.groups⟩
    (by unfold TabInj; decide) (tabInj_nil 4) hr hn (hasB := false)
    ⟨le_rfl, by simp, by simp⟩ rfl (by decide) (by decide) (by decide) (Or.inr (by decide)) tabOk34

/-- **Conformity of refined hexahedral meshes.** -/
theorem C67_conforming38 (h : Topo 8 edges38 faces38 m) {i : ℕ} {row : List ℕ}
    (hr : m.conn[i]? = some row) (hn : row.Nodup) :
    Conforms m (refine38 K m).conn m.coors.length (m.coors.length + m.edges.length) 8 faces38 i row := by
  have := conforms (oe := m.coors.length) (of := m.coors.length + m.edges.length)
    (ob := m.coors.length + m.edges.length + m.faces.length) h
    (by unfold TabInj; decide) (by unfold TabInj; decide) hr hn (hasB := true)
    ⟨le_rfl, by simp, by simp⟩ rfl (by decide) (by decide) (by decide) (Or.inl rfl) tabOk38
  simpa [refine38] using this

/-- **Neighbour cells fit together**: a facet of a child of one cell that is a piece of a facet common
with another cell, is a facet of a child of the other cell. -/
theorem C67_neighbours {conn : List (List ℕ)} {oe of nch i i' j j' : ℕ} {facTab : List (List ℕ)}
    {row row' : List ℕ} (h' : Conforms m conn oe of nch facTab i' row') (hj' : j' < facTab.length)
    (hs : SameFacet (facetOf facTab row j) (facetOf facTab row' j')) {t l : ℕ}
    (hp : IsPiece m oe of (facetOf facTab row j) (childFacet conn nch facTab i t l)) :
    ∃ t' < nch, ∃ l' < facTab.length,
      (childFacet conn nch facTab i' t' l').Perm (childFacet conn nch facTab i t l) :=
  h'.pieces j' hj' _ (C67_pieces_shared hs hp)

end

end Verif.Mesh
