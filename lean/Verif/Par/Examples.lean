import Verif.Par.PropsAdd
import Verif.Par.Composite
import Mathlib.Data.List.Nodup
import Mathlib.Data.List.ProdSigma

/-!
# Concrete distributions

A mesh of 2 × 2 quadrilaterals meets the hypotheses of C73 and C74; local problems exist for every
distribution; and the two hypotheses that are really needed (facet-connected cells around a node,
zeroed PETSc objects) are shown to be needed.
-/

namespace Par

/-! ### Local problems always exist -/

/-- The nodes of the given cells. -/
def localNodes (m : FEMesh) (cells : List ℕ) : List ℕ := unique (cells.flatMap m.econn)

/-- The usual local field: the nodes of the cells in increasing order. -/
def sortedLocal (m : FEMesh) (cells : List ℕ) : LocalField m cells where
  loc x := (localNodes m cells).idxOf x
  nLoc := (localNodes m cells).length
  bound := by
    intro c hc x hx
    exact List.idxOf_lt_length_of_mem (mem_unique.2 (List.mem_flatMap.2 ⟨c, hc, hx⟩))
  surj := by
    intro l hl
    have hm : (localNodes m cells)[l] ∈ localNodes m cells := List.getElem_mem hl
    obtain ⟨c, hc, hx⟩ := List.mem_flatMap.1 (mem_unique.1 hm)
    exact ⟨c, hc, _, hx, (nodup_unique _).idxOf_getElem l hl⟩
  inj := by
    intro c hc c' hc' x hx y hy h
    exact List.idxOf_inj (mem_unique.2 (List.mem_flatMap.2 ⟨c, hc, hx⟩)) |>.1 h

/-- Local problems with full local matrices. -/
def fullLocals {K : Type*} [AddCommMonoid K] (m : FEMesh) (nc : ℕ) (D : Dist)
    (ke : ℕ → ℕ → ℕ → K) : Locals K m nc D ke where
  L t := sortedLocal m (rankCells D t)
  junk _ _ := 0
  stored t := List.product (List.range (nc * (localNodes m (rankCells D t)).length))
    (List.range (nc * (localNodes m (rankCells D t)).length))
  nodup _ := List.nodup_range.product List.nodup_range
  bound t e he := by
    have := List.mem_product.1 he
    exact ⟨List.mem_range.1 this.1, List.mem_range.1 this.2⟩
  complete t i hi j hj _ := List.mem_product.2 ⟨List.mem_range.2 hi, List.mem_range.2 hj⟩

/-! ### Four quadrilaterals, three tasks -/

/-- The vertices `3 y + x` of a 2 × 2 grid; the facets are the edges. -/
def grid : FEMesh where
  nCell := 4
  nFacet := 12
  nNod := 9
  econn c := [[0, 1, 4, 3], [1, 2, 5, 4], [3, 4, 7, 6], [4, 5, 8, 7]].getD c []
  fc f := [[0], [1], [0], [0, 1], [1], [0, 2], [1, 3], [2], [2, 3], [3], [2], [3]].getD f []
  fdofs f := [[0, 1], [1, 2], [0, 3], [1, 4], [2, 5], [3, 4], [4, 5], [3, 6], [4, 7], [5, 8],
    [6, 7], [7, 8]].getD f []
  fverts f := [[0, 1], [1, 2], [0, 3], [1, 4], [2, 5], [3, 4], [4, 5], [3, 6], [4, 7], [5, 8],
    [6, 7], [7, 8]].getD f []
  vcells v := [[0], [0, 1], [1], [0, 2], [0, 1, 2, 3], [1, 3], [2], [2, 3], [3]].getD v []

def gridTasks (c : ℕ) : ℕ := [0, 1, 2, 2].getD c 0

theorem grid_conforming : Conforming grid where
  fc := by decide +kernel
  cells := by decide +kernel
  sub := by decide +kernel
  star := by decide +kernel

theorem grid_covered : NodesCovered grid where
  bound := by decide +kernel
  cover := by decide +kernel

theorem grid_vertexCells : VertexCells grid := by
  intro v c hc
  by_cases h : v < 9
  · revert v c
    have : ∀ v < 9, ∀ c ∈ grid.vcells v, c < grid.nCell := by decide +kernel
    intro v c hc h
    exact this v h c hc
  · have : grid.vcells v = [] := by
      show List.getD _ v [] = []
      rw [List.getD_eq_getElem?_getD, List.getElem?_eq_none (by simpa using h)]
      rfl
    rw [this] at hc
    simp at hc

instance (m : FEMesh) (x a b : ℕ) : Decidable (AdjAt m x a b) := by
  unfold AdjAt; infer_instance

theorem grid_facetConnected : FacetConnected grid := by
  have key : ∀ a < grid.nCell, ∀ x ∈ grid.econn a, ∀ b < grid.nCell, x ∈ grid.econn b →
      a = b ∨ AdjAt grid x a b ∨ ∃ c < grid.nCell, AdjAt grid x a c ∧ AdjAt grid x c b := by
    decide +kernel
  intro x a ha b hb hxa hxb
  rcases key a ha x hxa b hb hxb with rfl | h | ⟨c, -, h1, h2⟩
  · exact Relation.ReflTransGen.refl
  · exact Relation.ReflTransGen.single h
  · exact (Relation.ReflTransGen.single h1).tail h2

theorem grid_tasks : Tasks grid gridTasks 3 where
  range := by
    intro t
    constructor
    · revert t; decide +kernel
    · rintro ⟨c, hc, rfl⟩
      revert c; decide +kernel
  touch := by
    have : ∀ c < grid.nCell, ∃ f < grid.nFacet, ∃ a < 4, ∃ b < 4, grid.fc f = [a, b] ∧
        gridTasks a ≠ gridTasks b ∧ (gridTasks a = gridTasks c ∨ gridTasks b = gridTasks c) := by
      decide +kernel
    intro c hc
    obtain ⟨f, hf, a, -, b, -, h1, h2, h3⟩ := this c hc
    exact ⟨f, hf, a, b, h1, h2, h3⟩
  pos := by decide

/-- The distribution of a scalar field exists, and so do the local problems: all the hypotheses of
C73 and C74 are met. -/
example : ∃ D, createMaps true grid gridTasks 1 (interFacets grid gridTasks) = some D ∧
    Nonempty (Locals ℚ grid 1 D fun _ i j => if i = j then 2 else 1) := by
  obtain ⟨D, hD⟩ := C73_never_fails true grid gridTasks 1 grid_conforming grid_facetConnected
  exact ⟨D, hD, ⟨fullLocals _ _ _ _⟩⟩

/-- The interface facets of the tasks 0, 1, 2. -/
example : interFacets grid gridTasks
    = [(0, [(1, [3]), (2, [5])]), (1, [(0, [3]), (2, [6])]), (2, [(0, [5]), (1, [6])])] := by
  decide +kernel

/-- The computed distribution: task 0 owns 0, 1, 4, 3, task 1 owns 2, 5, task 2 the rest. -/
example : (createMaps true grid gridTasks 1 (interFacets grid gridTasks)).map
    (fun D => (D.maps.map fun p => (p.1, p.2.owned, p.2.n, p.2.off), (List.range 9).map D.idMap))
    = some ([(0, [0, 1, 4, 3], 4, 0), (1, [2, 5], 2, 4), (2, [6, 7, 8], 3, 6)],
      [0, 1, 4, 3, 2, 5, 6, 7, 8]) := by
  decide +kernel

/-- The cells and the overlap cells of the tasks. -/
example : (createMaps true grid gridTasks 1 (interFacets grid gridTasks)).map
    (fun D => (D.parts, D.overlap))
    = some ([[0], [1], [2, 3]], [[0, 1, 2, 3], [0, 1, 2, 3], []]) := by
  decide +kernel

/-- Two components, expanded. -/
example : (createMaps false grid gridTasks 2 (interFacets grid gridTasks)).map
    (fun D => (D.maps.map fun p => (p.1, p.2.owned, p.2.n, p.2.off), D.overlap))
    = some ([(0, [0, 1, 2, 3, 8, 9, 6, 7], 8, 0), (1, [4, 5, 10, 11], 4, 8),
      (2, [12, 13, 14, 15, 16, 17], 6, 12)], [[], [], []]) := by
  decide +kernel

/-- Partitioning of 10 cells into 3 and 4 parts. -/
example : partitionNaive 10 3 = some [0, 0, 0, 0, 1, 1, 1, 2, 2, 2] ∧
    partitionNaive 10 4 = some [0, 0, 0, 1, 1, 1, 2, 2, 3, 3] ∧ partitionNaive 3 4 = none := by
  decide +kernel

/-! ### A mesh with two parts touching in a vertex

Four triangles: `0 1 4` of the task 0 touches the pair `4 2 5`, `4 5 3` of the tasks 1, 2 in the
vertex 4 only; `0 1 6` of the task 1 is the neighbour of the first one. -/

def bowtie : FEMesh where
  nCell := 4
  nFacet := 10
  nNod := 7
  econn c := [[0, 1, 4], [4, 2, 5], [4, 5, 3], [0, 6, 1]].getD c []
  fc f := [[0, 3], [0], [0], [1], [1], [1, 2], [2], [2], [3], [3]].getD f []
  fdofs f := [[0, 1], [1, 4], [0, 4], [2, 4], [2, 5], [4, 5], [3, 5], [3, 4], [0, 6],
    [1, 6]].getD f []
  fverts f := [[0, 1], [1, 4], [0, 4], [2, 4], [2, 5], [4, 5], [3, 5], [3, 4], [0, 6],
    [1, 6]].getD f []
  vcells v := [[0, 3], [0, 3], [1], [2], [0, 1, 2], [1, 2], [3]].getD v []

def bowtieTasks (c : ℕ) : ℕ := [0, 1, 2, 1].getD c 0

theorem bowtie_conforming : Conforming bowtie where
  fc := by decide +kernel
  cells := by decide +kernel
  sub := by decide +kernel
  star := by decide +kernel

/-- No assertion fails, task 0 owns the DOF 4, which is shared with the cells 1, 2, but its cells
including the overlap are 0, 3 only. -/
theorem bowtie_result : (createMaps true bowtie bowtieTasks 1 (interFacets bowtie bowtieTasks)).map
    (fun D => (D.maps.map fun p => (p.1, p.2.owned), rankCells D 0))
    = some ([(0, [4, 0, 1]), (1, [2, 6, 5]), (2, [3])], [0, 3]) := by
  decide +kernel

/-- So the matrix assembled with overlaps is silently wrong on such a mesh: with all the entries of
the element matrices one, the diagonal entry of the DOF 4 is 1 instead of 3. -/
theorem bowtie_wrong : ∃ D, createMaps true bowtie bowtieTasks 1 (interFacets bowtie bowtieTasks)
      = some D ∧
    (List.range 3).foldl (fun p t =>
      ((fullLocals (K := ℤ) bowtie 1 D fun _ _ _ => 1).rank (fun _ _ => 0) t).setMtx p)
      (fun _ _ => 0) (D.idMap 4) (D.idMap 4) = 1 ∧
    serialMat (K := ℤ) bowtie 1 (fun _ _ _ => 1) 4 4 = 3 := by
  obtain ⟨D, hD⟩ : ∃ D, createMaps true bowtie bowtieTasks 1 (interFacets bowtie bowtieTasks)
      = some D := by
    rcases h : createMaps true bowtie bowtieTasks 1 (interFacets bowtie bowtieTasks) with _ | D
    · have := bowtie_result; rw [h] at this; simp at this
    · exact ⟨D, rfl⟩
  refine ⟨D, hD, ?_, by decide +kernel⟩
  have key : (createMaps true bowtie bowtieTasks 1 (interFacets bowtie bowtieTasks)).map (fun D =>
      (List.range 3).foldl (fun p t =>
        ((fullLocals (K := ℤ) bowtie 1 D fun _ _ _ => 1).rank (fun _ _ => 0) t).setMtx p)
        (fun _ _ => 0) (D.idMap 4) (D.idMap 4)) = some 1 := by
    decide +kernel
  rw [hD] at key
  simpa using key

/-- Its cells around the vertex 4 are not connected by facets: the hypothesis of C74 fails. -/
example : ¬ FacetConnected bowtie := by
  intro h
  have := h 4 0 (by decide) 1 (by decide) (by decide) (by decide)
  rcases Relation.ReflTransGen.cases_head this with h0 | ⟨c, hc, -⟩
  · cases h0
  · obtain ⟨f, hf, hfc, hx⟩ := hc
    have hn : ∀ f < bowtie.nFacet, 4 ∈ bowtie.fdofs f → ∀ c < 4,
      ¬ (bowtie.fc f = [0, c] ∨ bowtie.fc f = [c, 0]) := by decide +kernel
    have hcb : c < 4 := by
      have hmem : c ∈ bowtie.fc f := by rcases hfc with h | h <;> rw [h] <;> simp
      exact bowtie_conforming.cells f hf c hmem
    exact hn f hf hx c hcb hfc

/-! ### Repeated assembling -/

/-- The second matrix is zero on the cell 3: the old entry of the DOF 8 survives. -/
example : ∃ D, createMaps true grid gridTasks 1 (interFacets grid gridTasks) = some D ∧
    (List.range 3).foldl (fun p t =>
      ((fullLocals (K := ℤ) grid 1 D fun _ _ _ => 0).rank (fun _ _ => 0) t).setMtx p)
      ((List.range 3).foldl (fun p t =>
        ((fullLocals (K := ℤ) grid 1 D fun _ _ _ => 1).rank (fun _ _ => 0) t).setMtx p)
        (fun _ _ => 0)) (D.idMap 8) (D.idMap 8) ≠ serialMat (K := ℤ) grid 1 (fun _ _ _ => 0) 8 8 := by
  obtain ⟨D, hD⟩ := C73_never_fails true grid gridTasks 1 grid_conforming grid_facetConnected
  refine ⟨D, hD, ?_⟩
  rw [Ne, C74_matrix_reassembled_iff (fun _ _ => 0) (fun _ _ _ => (1 : ℤ)) grid_vertexCells
    grid_conforming grid_facetConnected grid_covered grid_tasks (by decide) hD (fun _ _ _ => 0)
    _ _ (List.range 3) (by simp) 8 8 (by decide) (by decide)]
  decide +kernel

/-! ### Two fields -/

/-- A scalar field and a vector field with two components meet `FieldsOK`. -/
theorem grid_two_fields : ∃ Ds : ℕ → Dist, FieldsOK Ds (fun i => (i + 1) * 9) 3 2 := by
  obtain ⟨D0, h0⟩ := C73_never_fails true grid gridTasks 1 grid_conforming grid_facetConnected
  obtain ⟨D1, h1⟩ := C73_never_fails true grid gridTasks 2 grid_conforming grid_facetConnected
  refine ⟨fun i => if i = 0 then D0 else D1, ?_⟩
  refine fieldsOK_of_createMaps (ov := true) (m := fun _ => grid) (ct := gridTasks)
    (nc := fun i => i + 1) (fun _ _ => grid_conforming) (fun _ _ => grid_covered)
    (fun _ _ => grid_tasks) (fun _ _ => Nat.succ_pos _) (fun _ _ => ⟨rfl, rfl⟩) ?_
  intro i hi
  have : i = 0 ∨ i = 1 := by omega
  rcases this with rfl | rfl
  · exact h0
  · exact h1

/-- The composite numbering of two scalar fields: the DOFs of the second field of each task follow
those of the first one. -/
example : ((createMaps true grid gridTasks 1 (interFacets grid gridTasks)).bind fun D =>
    (interleave (fun _ => D) 3 2 fun _ _ => 77).map fun s =>
      ((List.range 9).map (s.ids 0), (List.range 9).map (s.ids 1),
        (List.range 3).map fun t : ℕ => compositeOf (fun _ => D) s (fun _ => 9) 2 t))
    = some ([0, 1, 8, 3, 2, 9, 12, 13, 14], [4, 5, 10, 7, 6, 11, 15, 16, 17],
      [((8, 18), (0, 8)), ((4, 18), (8, 12)), ((6, 18), (12, 18))]) := by
  decide +kernel

/-! ### The verification -/

/-- The result for the grid. -/
example : ((createMaps true grid gridTasks 1 (interFacets grid gridTasks)).bind fun D =>
    (verify false D.maps D.idMap 9 9 fun _ => 77).map fun v => (List.range 9).map v)
    = some [0, 0, 1, 0, 0, 1, 2, 2, 2] := by
  decide +kernel

/-- A DOF with two owners is not accepted, neither is a number out of the range of its task. -/
example : verify true [(0, ⟨some [0, 1], [], [], 2, 0⟩), (1, ⟨some [1], [], [], 1, 2⟩)] id 3 3
      (fun _ => 0) = none ∧
    verify false [(0, ⟨some [0, 1], [], [], 2, 0⟩), (1, ⟨some [2], [], [], 1, 2⟩)]
      (fun d => 2 - d) 3 3 (fun _ => 0) = none := by
  constructor <;> rfl

/-- As the comparison of the sorted arrays is never executed, PETSc numbers out of `0, …, N - 1` are
accepted: with `use_expand_dofs` always, without it when the offset is wrong as well. -/
example : (verify true [(0, ⟨some [0, 1], [], [], 2, 0⟩)] (fun d => d + 5) 2 2 (fun _ => 7)).isSome ∧
    (verify false [(0, ⟨some [0, 1], [], [], 2, 5⟩)] (fun d => d + 5) 2 2 (fun _ => 7)).isSome := by
  constructor <;> decide +kernel

end Par
