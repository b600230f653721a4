/-
C67: examples.
-/
import Mathlib.Tactic.IntervalCases
import Mathlib.Tactic.NormNum
import Verif.Mesh.PropsRefineInc

namespace Verif.Mesh

theorem topo_complete {V : Type} {nv : ℕ} {eTab fTab : List (List ℕ)} {R : Refined V}
    (h1 : ∀ row ∈ R.conn, row.length = nv) (h2 : ∀ row ∈ R.conn, ∀ v ∈ row, v < R.coors.length)
    (h3 : R.groups.length = R.conn.length) : Topo nv eTab fTab (complete eTab fTab R) :=
  ⟨h1, h2, allEnts_incidence _ _, allEnts_incidence _ _, h3⟩

/-! ### Two triangles -/

def twoTri : Refined (Fin 2 → ℚ) :=
  { coors := [![0, 0], ![1, 0], ![1, 1], ![0, 1]], conn := [[0, 1, 2], [0, 2, 3]], groups := [5, 6] }

theorem twoTri_topo : Topo 3 edges23 [] (complete edges23 [] twoTri) :=
  topo_complete (by decide) (by decide) (by decide)

/-- The second cell: eight children in total, the last one with the group 6. -/
example : (refine23 ℚ (complete edges23 [] twoTri)).conn.length = 8 ∧
    (refine23 ℚ (complete edges23 [] twoTri)).groups[7]? = some 6 := by
  obtain ⟨r, h1, h2, -⟩ := C67_triangles (K := ℚ) twoTri_topo (i := 1) (row := [0, 2, 3]) rfl
  refine ⟨by simp [refine23, stackT, reshape, complete, twoTri], ?_⟩
  have := h2 3 (by norm_num)
  simpa [complete, twoTri] using this

/-- Repeated refinement: the cells of the level `k` have the area `1 / 2 / 4 ^ k`. -/
example (k : ℕ) : ∃ m : ℕ → RMesh (Fin 2 → ℚ), (m k).conn.length = 4 ^ k * 2 ∧
    ∀ (q : ℕ) (r : List ℕ), (m k).conn[q]? = some r → q / 4 ^ k = 0 →
      triArea2 (vtxs (m k).coors r 3) = 1 / 4 ^ k := by
  obtain ⟨m, h0, hm⟩ := C67_chain_exists (refine23 ℚ) twoTri_topo (by decide)
  refine ⟨m, ?_, ?_⟩
  · rw [((C67_levels (K := ℚ) m k).1 (Or.inl hm)).1, h0]
    rfl
  · intro q r hq e
    rw [(C67_measure (K := ℚ) k).1 m hm q r [0, 1, 2] hq (by rw [e, h0]; rfl), h0]
    congr 1
    simp [triArea2, vtxs, vtx, complete, twoTri]

/-- The common edge `0, 2` of the two cells. -/
example : SameFacet (facetOf edges23 [0, 1, 2] 2) (facetOf edges23 [0, 2, 3] 0) :=
  .perm (by decide) (by decide)

example {t l : ℕ}
    (hp : IsPiece (complete edges23 [] twoTri) 4 0 (facetOf edges23 [0, 1, 2] 2)
      (childFacet (refine23 ℚ (complete edges23 [] twoTri)).conn 4 edges23 0 t l)) :
    ∃ t' < 4, ∃ l' < 3, (childFacet (refine23 ℚ (complete edges23 [] twoTri)).conn 4 edges23 1 t' l').Perm
      (childFacet (refine23 ℚ (complete edges23 [] twoTri)).conn 4 edges23 0 t l) :=
  C67_neighbours (C67_conforming23 (K := ℚ) twoTri_topo (i := 1) (row := [0, 2, 3]) rfl (by decide))
    (j' := 0) (by decide) (.perm (by decide) (by decide)) hp

/-! ### Two quadrilaterals -/

def twoQuad : Refined (Fin 2 → ℚ) :=
  { coors := [![0, 0], ![1, 0], ![1, 1], ![0, 1], ![2, 0], ![2, 1]], conn := [[0, 1, 2, 3], [1, 4, 5, 2]],
    groups := [1, 2] }

theorem twoQuad_topo : Topo 4 edges24 [] (complete edges24 [] twoQuad) :=
  topo_complete (by decide) (by decide) (by decide)

example : ∃ m : ℕ → RMesh (Fin 2 → ℚ), m 0 = complete edges24 [] twoQuad ∧
    ∀ k, QuadSet ℚ (m k) = QuadSet ℚ (m 0) := by
  obtain ⟨m, h0, hm⟩ := C67_chain_exists (refine24 ℚ) twoQuad_topo (by decide)
  exact ⟨m, h0, fun k => (C67_domain (K := ℚ) m k).2.1 hm⟩

example : Conforms (complete edges24 [] twoQuad) (refine24 ℚ (complete edges24 [] twoQuad)).conn 6 0 4
    edges24 1 [1, 4, 5, 2] :=
  C67_conforming24 (K := ℚ) twoQuad_topo rfl (by decide)

/-! ### Two tetrahedrons -/

def twoTet : Refined (Fin 3 → ℚ) :=
  { coors := [![0, 0, 0], ![1, 0, 0], ![0, 1, 0], ![0, 0, 1], ![1, 1, 1]],
    conn := [[0, 1, 2, 3], [1, 2, 3, 4]], groups := [1, 2] }

theorem twoTet_topo : Topo 4 edges34 faces34 (complete edges34 faces34 twoTet) :=
  topo_complete (by decide) (by decide) (by decide)

theorem twoTet_vol : tetVol6 (vtxs twoTet.coors [0, 1, 2, 3] 4) = 1 := by
  simp [tetVol6, det3v, vtxs, vtx, twoTet]

/-- The children of the tetrahedron can be arbitrarily flat. -/
example (R : ℚ) : ∃ (m : ℕ → RMesh (Fin 3 → ℚ)) (n q : ℕ) (r : List ℕ),
    m 0 = complete edges34 faces34 twoTet ∧ (m (2 * n)).conn[q]? = some r ∧
    64 ^ n * tetVol6 (vtxs (m (2 * n)).coors r 4) = 1 ∧
    R < 16 ^ n * ∑ j, (vtx (m (2 * n)).coors r 1 j - vtx (m (2 * n)).coors r 0 j) ^ 2 := by
  obtain ⟨m, h0, hm⟩ := C67_chain_exists (refine34 ℚ) twoTet_topo (by decide)
  have hv : tetVol6 (vtxs (m 0).coors [0, 1, 2, 3] 4) = 1 := by rw [h0]; exact twoTet_vol
  obtain ⟨n, q, r, h1, h2, h3⟩ := C67_tetrahedrons_degenerate hm (i := 0) (row := [0, 1, 2, 3])
    (by rw [h0]; rfl) (by rw [hv]; norm_num) R
  exact ⟨m, n, q, r, h0, h1, by rw [h2, hv], h3⟩

example : Conforms (complete edges34 faces34 twoTet) (refine34 ℚ (complete edges34 faces34 twoTet)).conn
    5 0 8 faces34 1 [1, 2, 3, 4] :=
  C67_conforming34 (K := ℚ) twoTet_topo rfl (by decide)

/-- The common face. -/
example : SameFacet (facetOf faces34 [0, 1, 2, 3] 3) (facetOf faces34 [1, 2, 3, 4] 0) :=
  .perm (by decide) (by decide)

/-! ### Two hexahedrons -/

def twoHex : Refined (Fin 3 → ℚ) :=
  { coors := [![0, 0, 0], ![1, 0, 0], ![1, 1, 0], ![0, 1, 0], ![0, 0, 1], ![1, 0, 1], ![1, 1, 1],
      ![0, 1, 1], ![2, 0, 0], ![2, 1, 0], ![2, 0, 1], ![2, 1, 1]],
    conn := [[0, 1, 2, 3, 4, 5, 6, 7], [1, 8, 9, 2, 5, 10, 11, 6]], groups := [1, 2] }

theorem twoHex_topo : Topo 8 edges38 faces38 (complete edges38 faces38 twoHex) :=
  topo_complete (by decide) (by decide) (by decide)

example : Conforms (complete edges38 faces38 twoHex) (refine38 ℚ (complete edges38 faces38 twoHex)).conn
    12 (12 + (complete edges38 faces38 twoHex).edges.length) 8 faces38 0 [0, 1, 2, 3, 4, 5, 6, 7] :=
  C67_conforming38 (K := ℚ) twoHex_topo (i := 0) (row := [0, 1, 2, 3, 4, 5, 6, 7]) rfl (by decide)

example : ∃ m : ℕ → RMesh (Fin 3 → ℚ), m 0 = complete edges38 faces38 twoHex ∧
    ∀ k, HexSet ℚ (m k) = HexSet ℚ (m 0) ∧ (m k).conn.length = 8 ^ k * 2 := by
  obtain ⟨m, h0, hm⟩ := C67_chain_exists (refine38 ℚ) twoHex_topo (by decide)
  refine ⟨m, h0, fun k => ⟨(C67_domain (K := ℚ) m k).2.2.2 hm, ?_⟩⟩
  rw [((C67_levels (K := ℚ) m k).2 (Or.inr hm)).1, h0]
  rfl

/-- The common face `1, 2, 6, 5`, in the order of the second cell `[1, 5, 6, 2]`. -/
example : SameFacet (facetOf faces38 [0, 1, 2, 3, 4, 5, 6, 7] 4)
    (facetOf faces38 [1, 8, 9, 2, 5, 10, 11, 6] 1) :=
  .rev .refl

/-! ### One dimension -/

def threeNodes : RMesh ℚ :=
  { coors := [0, 1, 3], conn := [[0, 1], [1, 2]], groups := [7, 8], edges := [], faces := [],
    cellEdges := [], cellFaces := [] }

example : ((refine12 threeNodes).map fun R => (R.coors, R.conn, R.groups)) =
    some ([0, 1 / 2, 1, 2, 3], [[0, 1], [1, 2], [2, 3], [3, 4]], [7, 7, 8, 8]) := by
  decide +kernel

example : ∃ R, refine12 threeNodes = some R ∧ R.coors.length = 5 := by
  have hs : ∀ i, i + 1 < threeNodes.coors.length →
      threeNodes.coors.getD i 0 ≤ threeNodes.coors.getD (i + 1) 0 := by
    intro i hi
    have : i < 2 := by
      have : threeNodes.coors.length = 3 := rfl
      omega
    interval_cases i <;> norm_num [threeNodes]
  obtain ⟨R, h1, h2, -⟩ := C67_one_dim (m := threeNodes) rfl hs (by decide +kernel) rfl
  exact ⟨R, h1, h2⟩

end Verif.Mesh
