/-
C36 (continued): facets from the cell vertices only, examples, counterexamples.
-/
import Verif.CMesh.PropsFacets

namespace Verif.CMesh

/-- C36: the whole construction of the facets from the cell vertices: transposition of `D -> 0`,
cells sharing vertices, unique facets.  The requirements are on the cell vertices and on the
reference elements only. -/
theorem C36_facets_of_cells (nD nV nVMax : ℕ) (locs : ℕ → Conn) (cellTypes : ℕ → ℕ) (cD0 : Conn)
    (hwf : cD0.WF) (hnum : cD0.num = nD) (hv : ∀ c < nD, ∀ v ∈ cD0.row c, v < nV)
    (hn : nD ≤ u32None)
    (hloc : ∀ c < nD, ∀ f < (locs (cellTypes c)).num, ∀ lv ∈ (locs (cellTypes c)).row f,
      lv < (cD0.row c).length)
    (hsize : ∀ c < nD, ∀ f < (locs (cellTypes c)).num,
      2 ≤ ((locs (cellTypes c)).row f).length ∧ ((locs (cellTypes c)).row f).length ≤ 4 ∧
      ((locs (cellTypes c)).row f).length ≤ nVMax)
    (hdist : ∀ c < nD, (cellFacets locs cellTypes cD0 c).Pairwise fun g g' => ¬ g.Perm g')
    (hconf : ∀ c < nD, ∀ g ∈ cellFacets locs cellTypes cD0 c, ∀ c' < nD,
      ∀ g' ∈ cellFacets locs cellTypes cD0 c', (∀ v ∈ g, v ∈ g') → g.length = g'.length)
    (hsmall : ((List.range nD).flatMap (cellFacets locs cellTypes cD0)).length ≤ u32None) :
    ∃ c0D cDD s facets ids, transpose nV nD cD0 = some c0D ∧
      intersect nD cD0 c0D none = some cDD ∧ meshBuild nD nVMax locs cellTypes cDD cD0 = some s ∧
      UniqueFacets nD (cellFacets locs cellTypes cD0) s facets ids ∧
      s.cd0.nInc ≤ nVMax * facets.length := by
  obtain ⟨c0D, e1, -⟩ := C34_transpose nV nD cD0 hwf hnum hv hn
  obtain ⟨cDD, e2, w, en, hr⟩ := C35_neighbours nD nV cD0 c0D hwf hnum hv hn e1
  have hmem : ∀ c, ∀ g ∈ cellFacets locs cellTypes cD0 c, ∃ f < (locs (cellTypes c)).num,
      g = ((locs (cellTypes c)).row f).map fun lv => (cD0.row c).getD lv 0 := by
    intro c g hg
    simp only [cellFacets, List.mem_map, List.mem_range] at hg
    obtain ⟨f, hf, rfl⟩ := hg
    exact ⟨f, hf, rfl⟩
  have hC : Conforming nD cD0 (cellFacets locs cellTypes cD0) := by
    refine ⟨?_, ?_, hdist, hconf⟩
    · intro c hc g hg
      obtain ⟨f, hf, rfl⟩ := hmem c g hg
      rw [List.length_map]
      exact ⟨(hsize c hc f hf).1, (hsize c hc f hf).2.1⟩
    · intro c hc g hg v hvg
      obtain ⟨f, hf, rfl⟩ := hmem c g hg
      obtain ⟨lv, hlv, rfl⟩ := List.mem_map.1 hvg
      have h1 := hloc c hc f hf lv hlv
      rw [List.getD_eq_getElem?_getD, List.getElem?_eq_getElem h1, Option.getD_some]
      exact List.getElem_mem h1
  have hM : ∀ c < nD, ∀ g ∈ cellFacets locs cellTypes cD0 c, g.length ≤ nVMax := by
    intro c hc g hg
    obtain ⟨f, hf, rfl⟩ := hmem c g hg
    rw [List.length_map]
    exact (hsize c hc f hf).2.2
  obtain ⟨s, facets, ids, e3, hU, hle⟩ := C36_build nD nVMax locs cellTypes cDD cD0
    hC w en (fun c hc c' => (hr c hc).2 c') hM hsmall
  exact ⟨c0D, cDD, s, facets, ids, e1, e2, e3, hU, hle⟩

/-- A connectivity given by the list of its rows. -/
def connOf (rows : List (List ℕ)) : Conn :=
  { num := rows.length, nInc := (rows.map List.length).sum
    indices := fun p => rows.flatten.getD p 0
    offsets := fun i => ((rows.take i).map List.length).sum }

/-- The edges of the reference triangle. -/
def triEdges : Conn := connOf [[0, 1], [1, 2], [2, 0]]

/-- The whole construction for concrete meshes: the rows of `D -> d`, of `d -> 0`, and the
orientations. -/
def buildAll (nV nVMax : ℕ) (locs : ℕ → Conn) (cellTypes : ℕ → ℕ) (cells : List (List ℕ)) :
    Option (List (List ℕ) × List (List ℕ) × List ℕ) := do
  let cD0 := connOf cells
  let c0D ← transpose nV cells.length cD0
  let cDD ← intersect cells.length cD0 c0D none
  let s ← meshBuild cells.length nVMax locs cellTypes cDD cD0
  return ((List.range s.cDd.num).map s.cDd.row, (List.range s.cd0.num).map s.cd0.row,
    (List.range s.cDd.nInc).map s.oris)

/-- Non-vacuity: the two triangles (0, 1, 2), (2, 1, 3) meet the requirements and have 5 edges; the
common edge has the number 1 and both of its orientations occur. -/
example :
    (∀ c < 2, ∀ f < triEdges.num, ∀ lv ∈ triEdges.row f, lv < ((connOf [[0, 1, 2], [2, 1, 3]]).row c).length) ∧
    (∀ c < 2, (cellFacets (fun _ => triEdges) (fun _ => 0) (connOf [[0, 1, 2], [2, 1, 3]]) c).Pairwise
      fun g g' => ¬ g.Perm g') ∧
    (∀ c < 2, ∀ g ∈ cellFacets (fun _ => triEdges) (fun _ => 0) (connOf [[0, 1, 2], [2, 1, 3]]) c,
      ∀ c' < 2, ∀ g' ∈ cellFacets (fun _ => triEdges) (fun _ => 0) (connOf [[0, 1, 2], [2, 1, 3]]) c',
        (∀ v ∈ g, v ∈ g') → g.length = g'.length) ∧
    buildAll 4 2 (fun _ => triEdges) (fun _ => 0) [[0, 1, 2], [2, 1, 3]]
      = some ([[0, 1, 2], [1, 3, 4]], [[0, 1], [1, 2], [2, 0], [1, 3], [3, 2]], [1, 1, 0, 0, 1, 0]) := by
  refine ⟨by decide, by decide, by decide, by decide +kernel⟩

/-- Counterexample: in a mesh with a hexahedron and a tetrahedron attached to a half of its face (not
conforming), the triangular face (0, 2, 1) of the tetrahedron is taken for the quadrilateral face
(0, 1, 2, 3) of the hexahedron, because the search compares the first three vertices only.  (The
other faces of the two cells are left out.) -/
theorem C36_false_match : buildAll 5 4 (fun t => if t = 0 then connOf [[0, 1, 2, 3]]
    else connOf [[0, 2, 1]]) (fun c => c) [[0, 1, 2, 3], [0, 1, 2, 4]]
    = some ([[0], [0]], [[0, 1, 2, 3]], [63, 3]) := by
  decide +kernel

/-- Counterexample: the facets of a cell with repeated vertices are not identified with each other,
because only the other cells are searched: the edges (0, 1), (1, 0) of the degenerate triangle
(0, 1, 0) get two numbers. -/
theorem C36_degenerate_cell : buildAll 2 2 (fun _ => triEdges) (fun _ => 0) [[0, 1, 0]]
    = some ([[0, 1, 2]], [[0, 1], [1, 0], [0, 0]], [1, 0, 0]) := by
  decide +kernel

/-- C36: the orientation keys of two facets with the same number (2 to 4) of vertices are equal iff
the vertices of the facets are ordered in the same way. -/
theorem C36_orientation (g g' : List ℕ) (h1 : 2 ≤ g.length) (h2 : g.length ≤ 4)
    (hl : g'.length = g.length) : oriKey g = oriKey g' ↔
      ∀ i j, (hij : i < j) → (hj : j < g.length) → (g[i] < g[j] ↔ g'[i] < g'[j]) := by
  have hb : ∀ (p : Prop) [Decidable p] (n : ℕ), (if p then n else 0) = n * (if p then 1 else 0) := by
    intro p _ n; split <;> simp
  have hx : ∀ (p q : Prop) [Decidable p] [Decidable q],
      ((if p then 1 else 0 : ℕ) = if q then 1 else 0) ↔ (p ↔ q) := by
    intro p q _ _; split <;> split <;> simp_all
  have hle : ∀ (p : Prop) [Decidable p], (if p then 1 else 0 : ℕ) ≤ 1 := by
    intro p _; split <;> simp
  match g, g', h1, h2, hl with
  | [a, b], [a', b'], _, _, _ =>
    simp only [oriKey, hx]
    constructor
    · intro h i j hij hj
      obtain ⟨rfl, rfl⟩ : i = 0 ∧ j = 1 := by simp at hj; omega
      exact h
    · intro h; exact h 0 1 (by omega) (by simp)
  | [a, b, c], [a', b', c'], _, _, _ =>
    have key : oriKey [a, b, c] = oriKey [a', b', c'] ↔
        (a < b ↔ a' < b') ∧ (a < c ↔ a' < c') ∧ (b < c ↔ b' < c') := by
      simp only [oriKey]
      rw [hb (a < c), hb (b < c), hb (a' < c'), hb (b' < c'), ← hx (a < b), ← hx (a < c), ← hx (b < c)]
      have := hle (a < b); have := hle (a' < b'); have := hle (a < c); have := hle (a' < c')
      have := hle (b < c); have := hle (b' < c')
      omega
    rw [key]
    constructor
    · rintro ⟨k1, k2, k3⟩ i j hij hj
      simp only [List.length_cons, List.length_nil] at hj
      obtain ⟨rfl, rfl⟩ | ⟨rfl, rfl⟩ | ⟨rfl, rfl⟩ :
          (i = 0 ∧ j = 1) ∨ (i = 0 ∧ j = 2) ∨ (i = 1 ∧ j = 2) := by omega
      · exact k1
      · exact k2
      · exact k3
    · intro h
      exact ⟨h 0 1 (by omega) (by simp), h 0 2 (by omega) (by simp), h 1 2 (by omega) (by simp)⟩
  | [a, b, c, d], [a', b', c', d'], _, _, _ =>
    have key : oriKey [a, b, c, d] = oriKey [a', b', c', d'] ↔
        ((a < b ↔ a' < b') ∧ (a < c ↔ a' < c') ∧ (b < c ↔ b' < c')) ∧
        (a < d ↔ a' < d') ∧ (b < d ↔ b' < d') ∧ (c < d ↔ c' < d') := by
      simp only [oriKey]
      rw [hb (a < c), hb (b < c), hb (a' < c'), hb (b' < c'), hb (a < d), hb (b < d), hb (c < d),
        hb (a' < d'), hb (b' < d'), hb (c' < d'), ← hx (a < b), ← hx (a < c), ← hx (b < c),
        ← hx (a < d), ← hx (b < d), ← hx (c < d)]
      have := hle (a < b); have := hle (a' < b'); have := hle (a < c); have := hle (a' < c')
      have := hle (b < c); have := hle (b' < c'); have := hle (a < d); have := hle (a' < d')
      have := hle (b < d); have := hle (b' < d'); have := hle (c < d); have := hle (c' < d')
      omega
    rw [key]
    constructor
    · rintro ⟨⟨k1, k2, k3⟩, k4, k5, k6⟩ i j hij hj
      simp only [List.length_cons, List.length_nil] at hj
      obtain ⟨rfl, rfl⟩ | ⟨rfl, rfl⟩ | ⟨rfl, rfl⟩ | ⟨rfl, rfl⟩ | ⟨rfl, rfl⟩ | ⟨rfl, rfl⟩ :
          (i = 0 ∧ j = 1) ∨ (i = 0 ∧ j = 2) ∨ (i = 1 ∧ j = 2) ∨ (i = 0 ∧ j = 3) ∨
          (i = 1 ∧ j = 3) ∨ (i = 2 ∧ j = 3) := by omega
      · exact k1
      · exact k2
      · exact k3
      · exact k4
      · exact k5
      · exact k6
    · intro h
      exact ⟨⟨h 0 1 (by omega) (by simp), h 0 2 (by omega) (by simp), h 1 2 (by omega) (by simp)⟩,
        h 0 3 (by omega) (by simp), h 1 3 (by omega) (by simp), h 2 3 (by omega) (by simp)⟩

end Verif.CMesh
