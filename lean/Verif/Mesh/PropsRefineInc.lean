/-
C67: the incidence relations used by the refinement are those computed by `cmesh`; refinement in 1D;
any mesh can be refined repeatedly.
-/
import Mathlib.Data.List.Sort
import Verif.CMesh.PropsFacets
import Verif.Mesh.PropsRefineLevels

namespace Verif.Mesh

open Verif.CMesh

/-- The rows of a connectivity. -/
def rowsOf (c : Conn) : List (List ℕ) := (List.range c.num).map c.row

/-- **Incidence relations from `cmesh`.**  The result of `mesh_build()` (C36) for cells of one type with
the local table `tab` has the properties required in `Topo`. -/
theorem C67_incidence {nD : ℕ} {conn tab : List (List ℕ)} {F : ℕ → List (List ℕ)} {s : BState}
    {facets : List (List ℕ)} {ids : List ℕ} (hn : conn.length = nD)
    (hF : ∀ i, F i = tab.map fun loc => loc.map fun v => (conn.getD i []).getD v 0)
    (hU : UniqueFacets nD F s facets ids) :
    Incidence tab conn (rowsOf s.cd0) (rowsOf s.cDd) := by
  have hlF : ∀ c ∈ List.range nD, (F c).length = tab.length := fun c _ => by simp [hF]
  have hlR : ∀ c ∈ List.range nD, (s.cDd.row c).length = tab.length := fun c hc => by
    rw [hU.rows c (List.mem_range.1 hc), hlF c hc]
  -- The first occurrence of a facet.
  have first : ∀ g ∈ ids, ∃ p, ∃ hp : p < ids.length, ids[p] = g ∧
      s.cd0.row g = facets[p]'(hU.len ▸ hp) := by
    intro g hg
    obtain ⟨p0, hp0, e0⟩ := List.getElem_of_mem hg
    classical
    have hex : ∃ p, ∃ hp : p < ids.length, ids[p] = g := ⟨p0, hp0, e0⟩
    obtain ⟨hp, e⟩ := Nat.find_spec hex
    refine ⟨Nat.find hex, hp, e, ?_⟩
    have := hU.verts (Nat.find hex) hp ?_
    · rw [e] at this; exact this
    · intro j hj e'
      exact Nat.find_min hex hj ⟨by omega, by rw [e', e]⟩
  have hrow : ∀ g, g < s.cd0.num → (rowsOf s.cd0)[g]? = some (s.cd0.row g) := by
    intro g hg
    unfold rowsOf
    rw [List.getElem?_map, List.getElem?_range hg]
    rfl
  constructor
  · intro i j row loc hr hl
    have hi : i < nD := by rw [← hn]; exact (List.getElem?_eq_some_iff.1 hr).1
    have hj : j < tab.length := (List.getElem?_eq_some_iff.1 hl).1
    have hjr : j < (s.cDd.row i).length := by rw [hlR i (List.mem_range.2 hi)]; exact hj
    have er : conn.getD i [] = row := by simp [List.getD_eq_getElem?_getD, hr]
    have hidx : ids[i * tab.length + j]? = some (s.cDd.row i)[j] := by
      rw [hU.ids_eq, getElem?_flatMap_const (n := tab.length) _ _ hlR i j hj, List.getElem?_range hi]
      simp [hjr]
    have hfac : facets[i * tab.length + j]? = some (loc.map fun v => row.getD v 0) := by
      rw [hU.facets_eq, getElem?_flatMap_const (n := tab.length) _ _ hlF i j hj, List.getElem?_range hi]
      rw [Option.bind_some, hF, er, List.getElem?_map, hl]
      rfl
    obtain ⟨hlt, hg⟩ := List.getElem?_eq_some_iff.1 hidx
    have hgm : (s.cDd.row i)[j] ∈ ids := hg ▸ List.getElem_mem hlt
    obtain ⟨p, hp, e1, e2⟩ := first _ hgm
    refine ⟨s.cDd.row i, (s.cDd.row i)[j], s.cd0.row (s.cDd.row i)[j], ?_, ?_, hrow _ (hU.lt _ hgm), ?_⟩
    · unfold rowsOf
      rw [List.getElem?_map, List.getElem?_range (by rw [hU.numDd]; exact hi)]
      rfl
    · exact List.getElem?_eq_getElem hjr
    · have hsame := (hU.same p (i * tab.length + j) hp hlt).1 (by rw [e1, hg])
      rw [e2]
      obtain ⟨hlf, hgf⟩ := List.getElem?_eq_some_iff.1 hfac
      rw [hgf] at hsame
      exact hsame
  · intro g g' r r' h1 h2 hp
    have hg : g < s.cd0.num := by
      have := (List.getElem?_eq_some_iff.1 h1).1
      simpa [rowsOf] using this
    have hg' : g' < s.cd0.num := by
      have := (List.getElem?_eq_some_iff.1 h2).1
      simpa [rowsOf] using this
    rw [hrow g hg] at h1
    rw [hrow g' hg'] at h2
    obtain ⟨p, hpl, e1, e2⟩ := first g (hU.all g hg)
    obtain ⟨p', hpl', e1', e2'⟩ := first g' (hU.all g' hg')
    rw [← e1, ← e1']
    apply (hU.same p p' hpl hpl').2
    rw [← e2, ← e2', Option.some.inj h1, Option.some.inj h2]
    exact hp

/-! ### Existence of repeated refinements -/

/-- The vertices of all the local entities of all the cells, each sorted, without repetition. -/
def allEnts (tab conn : List (List ℕ)) : List (List ℕ) :=
  (conn.flatMap fun row => tab.map fun loc =>
    (loc.map fun v => row.getD v 0).mergeSort (fun a b => decide (a ≤ b))).dedup

def allIds (tab conn : List (List ℕ)) : List (List ℕ) :=
  conn.map fun row => tab.map fun loc =>
    (allEnts tab conn).idxOf ((loc.map fun v => row.getD v 0).mergeSort (fun a b => decide (a ≤ b)))

theorem sort_eq_of_perm {l l' : List ℕ} (h : l.Perm l') :
    l.mergeSort (fun a b => decide (a ≤ b)) = l'.mergeSort (fun a b => decide (a ≤ b)) := by
  have p1 := List.mergeSort_perm l (fun a b => decide (a ≤ b))
  have p2 := List.mergeSort_perm l' (fun a b => decide (a ≤ b))
  have s1 := List.pairwise_mergeSort (le := fun a b : ℕ => decide (a ≤ b))
    (by intro a b c; simp; omega) (by intro a b; simp; omega) l
  have s2 := List.pairwise_mergeSort (le := fun a b : ℕ => decide (a ≤ b))
    (by intro a b c; simp; omega) (by intro a b; simp; omega) l'
  refine List.Perm.eq_of_pairwise ?_ s1 s2 (p1.trans (h.trans p2.symm))
  intro a b _ _ h1 h2
  simp only [decide_eq_true_eq] at h1 h2
  omega

theorem allEnts_incidence (tab conn : List (List ℕ)) :
    Incidence tab conn (allEnts tab conn) (allIds tab conn) := by
  constructor
  · intro i j row loc hr hl
    set e := (loc.map fun v => row.getD v 0).mergeSort (fun a b => decide (a ≤ b)) with he
    have hmem : e ∈ allEnts tab conn := by
      unfold allEnts
      rw [List.mem_dedup, List.mem_flatMap]
      exact ⟨row, List.mem_of_getElem? hr, List.mem_map.2 ⟨loc, List.mem_of_getElem? hl, rfl⟩⟩
    refine ⟨tab.map fun loc => (allEnts tab conn).idxOf ((loc.map fun v => row.getD v 0).mergeSort
      (fun a b => decide (a ≤ b))), (allEnts tab conn).idxOf e, e, ?_, ?_, ?_, ?_⟩
    · unfold allIds
      rw [List.getElem?_map, hr]
      rfl
    · rw [List.getElem?_map, hl]
      rfl
    · rw [List.getElem?_eq_getElem (List.idxOf_lt_length_iff.2 hmem)]
      simp
    · exact List.mergeSort_perm _ _
  · intro g g' r r' h1 h2 hp
    have hs : ∀ r ∈ allEnts tab conn, r.mergeSort (fun a b => decide (a ≤ b)) = r := by
      intro r hr
      unfold allEnts at hr
      rw [List.mem_dedup, List.mem_flatMap] at hr
      obtain ⟨row, -, hr⟩ := hr
      obtain ⟨loc, -, rfl⟩ := List.mem_map.1 hr
      exact sort_eq_of_perm (List.mergeSort_perm _ _)
    have e : r = r' := by
      rw [← hs r (List.mem_of_getElem? h1), ← hs r' (List.mem_of_getElem? h2)]
      exact sort_eq_of_perm hp
    subst e
    have hnd : (allEnts tab conn).Nodup := List.nodup_dedup _
    obtain ⟨k1, k2⟩ := List.getElem?_eq_some_iff.1 h1
    obtain ⟨k1', k2'⟩ := List.getElem?_eq_some_iff.1 h2
    exact (List.Nodup.getElem_inj_iff hnd).1 (k2.trans k2'.symm)

/-- A refined mesh with its incidence relations. -/
def complete {V : Type} (eTab fTab : List (List ℕ)) (R : Refined V) : RMesh V :=
  { coors := R.coors, conn := R.conn, groups := R.groups
    edges := allEnts eTab R.conn, faces := allEnts fTab R.conn
    cellEdges := allIds eTab R.conn, cellFaces := allIds fTab R.conn }

/-- **Every mesh can be refined repeatedly**: the hypotheses of the theorems about levels are met. -/
theorem C67_chain_exists {V : Type} (f : RMesh V → Refined V) {nv : ℕ} {eTab fTab : List (List ℕ)}
    {m0 : RMesh V} (h0 : Topo nv eTab fTab m0) (hnd : ∀ row ∈ m0.conn, row.Nodup) :
    ∃ m : ℕ → RMesh V, m 0 = m0 ∧ IsChain f nv eTab fTab m := by
  refine ⟨fun k => Nat.rec m0 (fun _ m => complete eTab fTab (f m)) k, rfl, h0, hnd, fun k => ?_⟩
  exact ⟨rfl, rfl, rfl, allEnts_incidence _ _, allEnts_incidence _ _⟩

/-! ### One dimension -/

section

variable {K : Type} [Field K] [LinearOrder K]

theorem trim_getD (l : List ℕ) {j : ℕ} (hj : j + 2 < l.length) :
    (l.tail.dropLast).getD j 0 = l.getD (j + 1) 0 := by
  rw [List.getD_eq_getElem?_getD, List.getD_eq_getElem?_getD, List.getElem?_dropLast]
  rw [if_pos (by simp; omega), List.getElem?_tail]

theorem double_getD {n j : ℕ} (hj : j < 2 * n) :
    ((List.range n).flatMap fun i => List.replicate 2 i).getD j 0 = j / 2 := by
  have e : j = (j / 2) * 2 + j % 2 := by omega
  rw [List.getD_eq_getElem?_getD]
  conv_lhs => rw [e]
  rw [getElem?_flatMap_const (n := 2) _ _ (by simp) (j / 2) (j % 2) (by omega),
    List.getElem?_range (by omega)]
  rcases Nat.mod_two_eq_zero_or_one j with h | h <;> simp [h]

/-- **Refinement in 1D** of a mesh with sorted nodes, where the cell `i` is between the nodes `i` and
`i + 1`: the nodes `2 i` are the original ones, the nodes `2 i + 1` are the centres of the cells, the
cells `2 i` and `2 i + 1` are the halves of the cell `i`, with its group. -/
theorem C67_one_dim {m : RMesh K} (hn : m.conn.length + 1 = m.coors.length)
    (hs : ∀ i, i + 1 < m.coors.length → m.coors.getD i 0 ≤ m.coors.getD (i + 1) 0)
    (hc : ∀ i < m.conn.length, m.conn[i]? = some [i, i + 1]) (hg : m.groups.length = m.conn.length) :
    ∃ R, refine12 m = some R ∧ R.coors.length = 2 * m.conn.length + 1 ∧
      (∀ i ≤ m.conn.length, R.coors[2 * i]? = m.coors[i]?) ∧
      (∀ i < m.conn.length,
        R.coors[2 * i + 1]? = some ((m.coors.getD i 0 + m.coors.getD (i + 1) 0) / 2)) ∧
      R.conn.length = 2 * m.conn.length ∧ (∀ q < R.conn.length, R.conn[q]? = some [q, q + 1]) ∧
      ∀ q < R.conn.length, R.groups[q]? = m.groups[q / 2]? := by
  unfold refine12
  simp only
  rw [if_pos, if_pos (by simpa using hn)]
  · have hN : 2 * m.coors.length - 1 = 2 * m.conn.length + 1 := by omega
    rw [hN]
    refine ⟨_, rfl, by simp, ?_, ?_, by simp [reshape], ?_, ?_⟩
    · intro i hi
      simp only
      rw [List.getElem?_map, List.getElem?_range (by omega)]
      have e2 : 2 * i / 2 = i := by omega
      have : i < m.coors.length := by omega
      simp [e2, this]
    · intro i hi
      simp only
      rw [List.getElem?_map, List.getElem?_range (by omega)]
      have e1 : ¬ (2 * i + 1) % 2 = 0 := by omega
      have e2 : (2 * i + 1) / 2 = i := by omega
      rw [Option.map_some, if_neg e1, e2, List.getD_eq_getElem?_getD, List.getElem?_map, hc i hi]
      simp [centroid]
      ring
    · intro q hq
      have hq : q < 2 * m.conn.length := by simpa [reshape] using hq
      simp only [reshape]
      rw [List.getElem?_map, List.getElem?_range (by omega)]
      have l1 : ((List.range (2 * m.conn.length + 1)).flatMap fun i => List.replicate 2 i).length
          = (2 * m.conn.length + 1) * 2 := by
        rw [length_flatMap_const (n := 2) _ _ (by simp)]; simp
      simp only [Option.map_some, Option.some.injEq, List.range_succ, List.range_zero, List.nil_append,
        List.map_cons, List.map_nil, List.cons_append]
      rw [← List.range_succ, trim_getD _ (by rw [l1]; omega), trim_getD _ (by rw [l1]; omega),
        double_getD (by omega), double_getD (by omega)]
      congr 1
      · omega
      · congr 1
        omega
    · intro q hq
      have hq : q < 2 * m.conn.length := by simpa [reshape] using hq
      exact groupsRepeat_div (by omega) (by omega)
  · rw [List.all_eq_true]
    intro i hi
    have := List.mem_range.1 hi
    simpa using hs i (by omega)

end

/-- **Wrong result for permuted cells**: the check in `refine_1_2()` is only for sorted coordinates.
For the nodes 0, 1, 3 with the cells given from right to left the new nodes are 0, 2, 1, 1/2, 3, and the
cell 1 of the result is between 2 and 1; the first cell, `[0, 2]`, overlaps with three others. -/
theorem C67_one_dim_permuted :
    ((refine12 (K := ℚ)
      { coors := [0, 1, 3], conn := [[1, 2], [0, 1]], groups := [7, 8], edges := [], faces := [],
        cellEdges := [], cellFaces := [] }).map fun R => (R.coors, R.conn, R.groups)) =
    some ([0, 2, 1, 1 / 2, 3], [[0, 1], [1, 2], [2, 3], [3, 4]], [7, 7, 8, 8]) := by
  decide +kernel

end Verif.Mesh
