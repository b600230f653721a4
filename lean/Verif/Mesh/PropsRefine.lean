/-
C67: nodes and rows of the refined meshes.
-/
import Mathlib.Tactic.Ring
import Mathlib.Tactic.IntervalCases
import Mathlib.Algebra.BigOperators.Group.List.Lemmas
import Verif.Mesh.PropsGen
import Verif.Mesh.SpecRefine

namespace Verif.Mesh

/-- The row `t` of the children of a cell. -/
def childRow (nd : Pt → ℕ) (tab : List Pt) (k t : ℕ) : List ℕ :=
  (List.range k).map fun c => nd (tab.getD (t * k + c) .b)

theorem stackT_length (n nch k : ℕ) (nd : ℕ → Pt → ℕ) (tab : List Pt) :
    (stackT n nch k nd tab).length = nch * n := by simp [stackT, reshape]

theorem stackT_get {n nch k : ℕ} (nd : ℕ → Pt → ℕ) {tab : List Pt} (htab : tab.length = nch * k)
    {i t : ℕ} (hi : i < n) (ht : t < nch) :
    (stackT n nch k nd tab)[nch * i + t]? = some (childRow (nd i) tab k t) := by
  have hr : nch * i + t < nch * n := by
    calc nch * i + t < nch * i + nch := by omega
      _ = nch * (i + 1) := by ring
      _ ≤ nch * n := Nat.mul_le_mul_left _ hi
  unfold stackT reshape
  rw [List.getElem?_map, List.getElem?_range hr, Option.map_some]
  congr 1
  unfold childRow
  apply List.map_congr_left
  intro c hc
  have hc : c < k := List.mem_range.1 hc
  have hj : t * k + c < nch * k := by
    calc t * k + c < t * k + k := by omega
      _ = (t + 1) * k := by ring
      _ ≤ nch * k := Nat.mul_le_mul_right _ ht
  have e : (nch * i + t) * k + c = i * (nch * k) + (t * k + c) := by ring
  rw [List.getD_eq_getElem?_getD, e,
    getElem?_flatMap_const (n := nch * k) _ _ (by simp [htab]) i _ hj, List.getElem?_range hi]
  have h1 : t * k + c < tab.length := by rw [htab]; exact hj
  simp [List.getD_eq_getElem?_getD, h1]

theorem stackT_cases {n nch k : ℕ} (hn : 0 < nch) (nd : ℕ → Pt → ℕ) {tab : List Pt}
    (htab : tab.length = nch * k) {q : ℕ} {r : List ℕ} (h : (stackT n nch k nd tab)[q]? = some r) :
    ∃ i t, i < n ∧ t < nch ∧ q = nch * i + t ∧ r = childRow (nd i) tab k t := by
  have hq : q < nch * n := by
    have := (List.getElem?_eq_some_iff.1 h).1
    rwa [stackT_length] at this
  have hi : q / nch < n := Nat.div_lt_of_lt_mul hq
  have ht : q % nch < nch := Nat.mod_lt _ hn
  have e : q = nch * (q / nch) + q % nch := (Nat.div_add_mod q nch).symm
  refine ⟨q / nch, q % nch, hi, ht, e, ?_⟩
  rw [e, stackT_get nd htab hi ht] at h
  exact (Option.some.inj h).symm

theorem groupsRepeat_get {g : List ℕ} {n i t x : ℕ} (ht : t < n) (h : g[i]? = some x) :
    (groupsRepeat g n)[n * i + t]? = some x := by
  unfold groupsRepeat
  rw [mul_comm n i, getElem?_flatMap_const (n := n) _ _ (by simp) i t ht, h]
  simp [ht]

theorem groupsRepeat_length (g : List ℕ) (n : ℕ) : (groupsRepeat g n).length = n * g.length := by
  unfold groupsRepeat
  rw [length_flatMap_const (n := n) _ _ (by simp), mul_comm]

section

variable {V : Type} {K : Type} [Field K] [AddCommGroup V] [Module K V]

/-- The mean of the local vertices `loc`. -/
def meanOf (K : Type) [Field K] [Module K V] (x : ℕ → V) (loc : List ℕ) : V :=
  ((loc.length : K))⁻¹ • (loc.map x).sum

/-- The position of an item of the tables in the cell with the vertices `x`. -/
def ptPos (K : Type) [Field K] [Module K V] (nv : ℕ) (eTab fTab : List (List ℕ)) (x : ℕ → V) : Pt → V
  | .c v => x v
  | .e j => meanOf K x (eTab.getD j [])
  | .f j => meanOf K x (fTab.getD j [])
  | .b => meanOf K x (List.range nv)

theorem centroid_perm (coors : List V) {r s : List ℕ} (h : r.Perm s) :
    centroid K coors r = centroid K coors s := by
  unfold centroid
  rw [h.length_eq, (h.map _).sum_eq]

theorem centroid_loc (coors : List V) (row loc : List ℕ) :
    centroid K coors (loc.map fun v => row.getD v 0) = meanOf K (vtx coors row) loc := by
  unfold centroid meanOf
  simp only [List.length_map, List.map_map]
  rfl

theorem centroid_row (coors : List V) {row : List ℕ} {nv : ℕ} (h : row.length = nv) :
    centroid K coors row = meanOf K (vtx coors row) (List.range nv) := by
  rw [← centroid_loc]
  congr 1
  subst h
  apply List.ext_getElem?
  intro k
  by_cases hk : k < row.length
  · simp [hk, List.getD_eq_getElem?_getD]
  · simp [hk]

/-- The items that are allowed in the tables. -/
def Pt.Ok (nv : ℕ) (eTab fTab : List (List ℕ)) (hasB : Bool) : Pt → Bool
  | .c v => v < nv
  | .e j => j < eTab.length
  | .f j => j < fTab.length
  | .b => hasB

variable {m : RMesh V} {nv : ℕ} {eTab fTab : List (List ℕ)}

theorem Incidence.get {tab conn ents cellEnts : List (List ℕ)} (h : Incidence tab conn ents cellEnts)
    {i j : ℕ} {row : List ℕ} (hr : conn[i]? = some row) (hj : j < tab.length) (coors : List V) :
    ∃ er, ents[(cellEnts.getD i []).getD j 0]? = some er ∧
      er.Perm ((tab.getD j []).map fun v => row.getD v 0) ∧
      centroid K coors er = meanOf K (vtx coors row) (tab.getD j []) := by
  obtain ⟨ids, g, er, h1, h2, h3, h4⟩ := h.mem i j row tab[j] hr (by simp [hj])
  have e1 : cellEnts.getD i [] = ids := by simp [List.getD_eq_getElem?_getD, h1]
  have e2 : ids.getD j 0 = g := by simp [List.getD_eq_getElem?_getD, h2]
  have e3 : tab.getD j [] = tab[j] := by simp [List.getD_eq_getElem?_getD, hj]
  refine ⟨er, by rw [e1, e2, h3], by rw [e3]; exact h4, ?_⟩
  rw [centroid_perm coors h4, centroid_loc, e3]

omit [AddCommGroup V] in
theorem Topo.mem_lt (h : Topo nv eTab fTab m) {i v : ℕ} {row : List ℕ} (hr : m.conn[i]? = some row)
    (hv : v < nv) : row.getD v 0 < m.coors.length := by
  have hm : row ∈ m.conn := List.mem_of_getElem? hr
  have hl := h.len row hm
  refine h.lt row hm _ ?_
  rw [List.getD_eq_getElem?_getD, List.getElem?_eq_getElem (by omega)]
  simp

/-- **Positions of the nodes of a child**: the offsets of the node numbers fit to the order of the new
coordinates. -/
theorem node_pos (h : Topo nv eTab fTab m) {i : ℕ} {row : List ℕ} (hr : m.conn[i]? = some row)
    (oe of ob : ℕ) (hasB : Bool) (cs : List V)
    (hc : ∀ v < m.coors.length, cs.getD v 0 = m.coors.getD v 0)
    (he : eTab ≠ [] → ∀ g er, m.edges[g]? = some er → cs.getD (g + oe) 0 = centroid K m.coors er)
    (hf : fTab ≠ [] → ∀ g fr, m.faces[g]? = some fr → cs.getD (g + of) 0 = centroid K m.coors fr)
    (hb : hasB = true → ∀ g r, m.conn[g]? = some r → cs.getD (g + ob) 0 = centroid K m.coors r)
    (p : Pt) (hp : p.Ok nv eTab fTab hasB = true) :
    cs.getD (m.node oe of ob i p) 0 = ptPos K nv eTab fTab (vtx m.coors row) p := by
  have er : m.conn.getD i [] = row := by simp [List.getD_eq_getElem?_getD, hr]
  cases p with
  | c v =>
    have hv : v < nv := by simpa [Pt.Ok] using hp
    simp only [RMesh.node, er, ptPos]
    rw [hc _ (h.mem_lt hr hv)]
    rfl
  | e j =>
    have hj : j < eTab.length := by simpa [Pt.Ok] using hp
    obtain ⟨er', h1, -, h3⟩ := h.edges.get (K := K) hr hj m.coors
    simp only [RMesh.node, ptPos]
    rw [he (by intro e; simp [e] at hj) _ _ h1, h3]
  | f j =>
    have hj : j < fTab.length := by simpa [Pt.Ok] using hp
    obtain ⟨er', h1, -, h3⟩ := h.faces.get (K := K) hr hj m.coors
    simp only [RMesh.node, ptPos]
    rw [hf (by intro e; simp [e] at hj) _ _ h1, h3]
  | b =>
    have hb' : hasB = true := by simpa [Pt.Ok] using hp
    simp only [RMesh.node, ptPos]
    rw [hb hb' _ _ hr, centroid_row m.coors (h.len row (List.mem_of_getElem? hr))]

/-- The vertices of child `t`. -/
def childPts (K : Type) [Field K] [Module K V] (nv : ℕ) (eTab fTab : List (List ℕ)) (tab : List Pt)
    (k : ℕ) (x : ℕ → V) (t : ℕ) : Fin k → V :=
  fun c => ptPos K nv eTab fTab x (tab.getD (t * k + c) .b)

theorem vtxs_childRow {cs : List V} {nd : Pt → ℕ} {tab : List Pt} {k t : ℕ} {x : ℕ → V} {hasB : Bool}
    (hpos : ∀ p : Pt, p.Ok nv eTab fTab hasB = true → cs.getD (nd p) 0 = ptPos K nv eTab fTab x p)
    (hok : ∀ p ∈ tab, p.Ok nv eTab fTab hasB = true) (hlt : ∀ c < k, t * k + c < tab.length) :
    vtxs cs (childRow nd tab k t) k = childPts K nv eTab fTab tab k x t := by
  funext c
  have hc := c.2
  have e : (childRow nd tab k t).getD c 0 = nd (tab.getD (t * k + c) .b) := by
    unfold childRow
    rw [List.getD_eq_getElem?_getD, List.getElem?_map, List.getElem?_range hc]
    rfl
  unfold vtxs vtx childPts
  rw [e, hpos]
  apply hok
  rw [List.getD_eq_getElem?_getD, List.getElem?_eq_getElem (hlt c hc)]
  simp

/-- The children in a refined mesh: generic form of the four functions. -/
theorem children (h : Topo nv eTab fTab m) {i : ℕ} {row : List ℕ} (hr : m.conn[i]? = some row)
    {oe of ob : ℕ} {hasB : Bool} {cs : List V} {tab : List Pt} {nch k : ℕ}
    (hc : ∀ v < m.coors.length, cs.getD v 0 = m.coors.getD v 0)
    (he : eTab ≠ [] → ∀ g er, m.edges[g]? = some er → cs.getD (g + oe) 0 = centroid K m.coors er)
    (hf : fTab ≠ [] → ∀ g fr, m.faces[g]? = some fr → cs.getD (g + of) 0 = centroid K m.coors fr)
    (hb : hasB = true → ∀ g r, m.conn[g]? = some r → cs.getD (g + ob) 0 = centroid K m.coors r)
    (htab : tab.length = nch * k) (hok : ∀ p ∈ tab, p.Ok nv eTab fTab hasB = true)
    {t : ℕ} (ht : t < nch) :
    ∃ r, (stackT m.conn.length nch k (m.node oe of ob) tab)[nch * i + t]? = some r ∧
      vtxs cs r k = childPts K nv eTab fTab tab k (vtx m.coors row) t := by
  have hi : i < m.conn.length := (List.getElem?_eq_some_iff.1 hr).1
  refine ⟨_, stackT_get _ htab hi ht, ?_⟩
  refine vtxs_childRow (hasB := hasB) (fun p hp => node_pos h hr oe of ob hasB cs hc he hf hb p hp) hok ?_
  intro c hc
  rw [htab]
  calc t * k + c < t * k + k := by omega
    _ = (t + 1) * k := by ring
    _ ≤ nch * k := Nat.mul_le_mul_right _ ht

theorem getD_append_map {A B : List V} {f : List ℕ → V} {L : List (List ℕ)} {C : List V} {n g : ℕ}
    {r : List ℕ} (hA : A.length = n) (hB : B = A ++ L.map f ++ C) (hg : L[g]? = some r) :
    B.getD (g + n) 0 = f r := by
  have hl : g < L.length := (List.getElem?_eq_some_iff.1 hg).1
  subst hB
  rw [List.getD_eq_getElem?_getD, List.append_assoc, List.getElem?_append_right (by omega),
    show g + n - A.length = g by omega, List.getElem?_append_left (by simpa using hl),
    List.getElem?_map, hg]
  rfl

theorem getD_append_left' {A B : List V} {v : ℕ} (h : v < A.length) :
    (A ++ B).getD v 0 = A.getD v 0 := by
  rw [List.getD_eq_getElem?_getD, List.getD_eq_getElem?_getD, List.getElem?_append_left h]

theorem refine23_child (h : Topo 3 edges23 [] m) {i : ℕ} {row : List ℕ} (hr : m.conn[i]? = some row)
    {t : ℕ} (ht : t < 4) :
    ∃ r, (refine23 K m).conn[4 * i + t]? = some r ∧
      vtxs (refine23 K m).coors r 3 = childPts K 3 edges23 [] tab23 3 (vtx m.coors row) t :=
  children h hr (hasB := false) (fun v hv => getD_append_left' hv)
    (fun _ g er hg => getD_append_map (A := m.coors) (C := []) rfl (by simp [refine23]) hg) (by simp) (by simp) rfl (by decide) ht

theorem refine24_child (h : Topo 4 edges24 [] m) {i : ℕ} {row : List ℕ} (hr : m.conn[i]? = some row)
    {t : ℕ} (ht : t < 4) :
    ∃ r, (refine24 K m).conn[4 * i + t]? = some r ∧
      vtxs (refine24 K m).coors r 4 = childPts K 4 edges24 [] tab24 4 (vtx m.coors row) t :=
  children h hr (hasB := true)
    (fun v hv => by simp only [refine24, List.append_assoc]; exact getD_append_left' hv)
    (fun _ g er hg => getD_append_map (A := m.coors) rfl rfl hg)
    (by simp)
    (fun _ g er hg => getD_append_map (A := m.coors ++ m.edges.map (centroid K m.coors)) (C := [])
      (by simp) (by simp [refine24]) hg) rfl (by decide) ht

theorem refine34_child (h : Topo 4 edges34 faces34 m) {i : ℕ} {row : List ℕ}
    (hr : m.conn[i]? = some row) {t : ℕ} (ht : t < 8) :
    ∃ r, (refine34 K m).conn[8 * i + t]? = some r ∧
      vtxs (refine34 K m).coors r 4 = childPts K 4 edges34 [] tab34 4 (vtx m.coors row) t :=
  children (fTab := []) ⟨h.len, h.lt, h.edges, ⟨by simp, h.faces.uniq⟩, h.groups⟩ hr (hasB := false)
    (fun v hv => getD_append_left' hv)
    (fun _ g er hg => getD_append_map (A := m.coors) (C := []) rfl (by simp [refine34]) hg) (by simp) (by simp) rfl (by decide) ht

theorem refine38_child (h : Topo 8 edges38 faces38 m) {i : ℕ} {row : List ℕ}
    (hr : m.conn[i]? = some row) {t : ℕ} (ht : t < 8) :
    ∃ r, (refine38 K m).conn[8 * i + t]? = some r ∧
      vtxs (refine38 K m).coors r 8 = childPts K 8 edges38 faces38 tab38 8 (vtx m.coors row) t :=
  children h hr (hasB := true)
    (fun v hv => by simp only [refine38, List.append_assoc]; exact getD_append_left' hv)
    (fun _ g er hg => getD_append_map (A := m.coors)
      (C := m.faces.map (centroid K m.coors) ++ m.conn.map (centroid K m.coors)) rfl
      (by simp [refine38]) hg)
    (fun _ g er hg => getD_append_map (A := m.coors ++ m.edges.map (centroid K m.coors))
      (C := m.conn.map (centroid K m.coors)) (by simp) (by simp [refine38]) hg)
    (fun _ g er hg => getD_append_map (A := m.coors ++ m.edges.map (centroid K m.coors) ++
      m.faces.map (centroid K m.coors)) (C := [])
      (by simp [add_assoc]) (by simp [refine38]) hg) rfl (by decide) ht

end

end Verif.Mesh
