/-
C67: repeated refinement.
-/
import Mathlib.Algebra.Order.Archimedean.Basic
import Mathlib.Algebra.BigOperators.Ring.List
import Mathlib.Tactic.Positivity
import Verif.Mesh.PropsRefineQuad
import Verif.Mesh.PropsRefineConf

namespace Verif.Mesh

section

variable {V : Type} {K : Type} [Field K] [AddCommGroup V] [Module K V]

/-- `m'` is the mesh of the refined domain (`FEDomain.refine()`, fem/domain.py:271-311): the data given
by a function of refine.py with the incidence relations of the new mesh. -/
structure RefStep (f : RMesh V → Refined V) (eTab fTab : List (List ℕ)) (m m' : RMesh V) : Prop where
  coors : m'.coors = (f m).coors
  conn : m'.conn = (f m).conn
  groups : m'.groups = (f m).groups
  edges : Incidence eTab m'.conn m'.edges m'.cellEdges
  faces : Incidence fTab m'.conn m'.faces m'.cellFaces

/-- A mesh and its repeated refinements. -/
structure IsChain (f : RMesh V → Refined V) (nv : ℕ) (eTab fTab : List (List ℕ)) (m : ℕ → RMesh V) :
    Prop where
  zero : Topo nv eTab fTab (m 0)
  nodup : ∀ row ∈ (m 0).conn, row.Nodup
  step : ∀ k, RefStep f eTab fTab (m k) (m (k + 1))

/-! ### The refined mesh is a mesh -/

theorem node_lt {m : RMesh V} {nv : ℕ} {eTab fTab : List (List ℕ)} (h : Topo nv eTab fTab m) {i : ℕ}
    {row : List ℕ} (hr : m.conn[i]? = some row) {oe of ob N : ℕ} {hasB : Bool}
    (hc : m.coors.length ≤ N) (he : eTab ≠ [] → m.edges.length + oe ≤ N)
    (hf : fTab ≠ [] → m.faces.length + of ≤ N) (hb : hasB = true → m.conn.length + ob ≤ N) (p : Pt)
    (hp : p.Ok nv eTab fTab hasB = true) : m.node oe of ob i p < N := by
  have er : m.conn.getD i [] = row := by simp [List.getD_eq_getElem?_getD, hr]
  cases p with
  | c v =>
    have hv : v < nv := by simpa [Pt.Ok] using hp
    have := h.mem_lt hr hv
    simp only [RMesh.node, er]
    omega
  | e j =>
    have hj : j < eTab.length := by simpa [Pt.Ok] using hp
    have := incidence_lt h.edges hr hj
    have := he (by intro e; simp [e] at hj)
    simp only [RMesh.node]
    omega
  | f j =>
    have hj : j < fTab.length := by simpa [Pt.Ok] using hp
    have := incidence_lt h.faces hr hj
    have := hf (by intro e; simp [e] at hj)
    simp only [RMesh.node]
    omega
  | b =>
    have hb' : hasB = true := by simpa [Pt.Ok] using hp
    have := hb hb'
    have hi : i < m.conn.length := (List.getElem?_eq_some_iff.1 hr).1
    simp only [RMesh.node]
    omega

/-- The items of child `t`. -/
def rowPts (tab : List Pt) (k t : ℕ) : List Pt := (List.range k).map fun c => tab.getD (t * k + c) .b

theorem valid {m : RMesh V} {nv : ℕ} {eTab fTab : List (List ℕ)} (h : Topo nv eTab fTab m)
    (hnd : ∀ row ∈ m.conn, row.Nodup) (he : TabInj nv eTab) (hf : TabInj nv fTab)
    {oe of ob N nch k : ℕ} {hasB : Bool} {tab : List Pt} (ho : Offs m fTab hasB oe of ob)
    (hc : m.coors.length ≤ N) (he' : eTab ≠ [] → m.edges.length + oe ≤ N)
    (hf' : fTab ≠ [] → m.faces.length + of ≤ N) (hb' : hasB = true → m.conn.length + ob ≤ N)
    (hn : 0 < nch) (htab : tab.length = nch * k) (hok : ∀ p ∈ tab, p.Ok nv eTab fTab hasB = true)
    (hrow : ∀ t < nch, (rowPts tab k t).Nodup) :
    ∀ r ∈ stackT m.conn.length nch k (m.node oe of ob) tab,
      r.length = k ∧ r.Nodup ∧ ∀ v ∈ r, v < N := by
  intro r hr
  obtain ⟨q, hq, e⟩ := List.getElem_of_mem hr
  have hq' : (stackT m.conn.length nch k (m.node oe of ob) tab)[q]? = some r := by
    rw [List.getElem?_eq_getElem hq, e]
  obtain ⟨i, t, hi, ht, -, rfl⟩ := stackT_cases hn _ htab hq'
  have hri : m.conn[i]? = some m.conn[i] := List.getElem?_eq_getElem hi
  have hmem : ∀ p ∈ rowPts tab k t, p.Ok nv eTab fTab hasB = true := by
    intro p hp
    obtain ⟨c, hc, rfl⟩ := List.mem_map.1 hp
    have hc := List.mem_range.1 hc
    apply hok
    have : t * k + c < tab.length := by
      rw [htab]
      calc t * k + c < t * k + k := by omega
        _ = (t + 1) * k := by ring
        _ ≤ nch * k := Nat.mul_le_mul_right _ ht
    rw [List.getD_eq_getElem?_getD, List.getElem?_eq_getElem this]
    simp
  have er : childRow (m.node oe of ob i) tab k t = (rowPts tab k t).map (m.node oe of ob i) := by
    unfold childRow rowPts
    rw [List.map_map]
    rfl
  refine ⟨by simp [childRow], ?_, ?_⟩
  · rw [er]
    refine (hrow t ht).map_on ?_
    intro p hp q hq e
    exact node_inj h he hf hri (hnd _ (List.getElem_mem hi)) ho (hmem p hp) (hmem q hq) e
  · rw [er]
    intro v hv
    obtain ⟨p, hp, rfl⟩ := List.mem_map.1 hv
    exact node_lt h hri hc he' hf' hb' p (hmem p hp)

theorem valid23 {m : RMesh V} (h : Topo 3 edges23 [] m) (hnd : ∀ row ∈ m.conn, row.Nodup) :
    ∀ r ∈ (refine23 K m).conn, r.length = 3 ∧ r.Nodup ∧ ∀ v ∈ r, v < (refine23 K m).coors.length :=
  valid h hnd (by unfold TabInj; decide) (tabInj_nil 3) (hasB := false) ⟨le_rfl, by simp, by simp⟩
    (by simp [refine23]) (by simp [refine23, add_comm]) (by simp) (by simp) (by omega) rfl (by decide)
    (by decide)

theorem valid24 {m : RMesh V} (h : Topo 4 edges24 [] m) (hnd : ∀ row ∈ m.conn, row.Nodup) :
    ∀ r ∈ (refine24 K m).conn, r.length = 4 ∧ r.Nodup ∧ ∀ v ∈ r, v < (refine24 K m).coors.length :=
  valid h hnd (by unfold TabInj; decide) (tabInj_nil 4) (hasB := true) ⟨le_rfl, by simp, by simp⟩
    (by simp [refine24]) (by simp [refine24]; omega) (by simp) (by simp [refine24]; omega) (by omega)
    rfl (by decide) (by decide)

theorem valid34 {m : RMesh V} (h : Topo 4 edges34 faces34 m) (hnd : ∀ row ∈ m.conn, row.Nodup) :
    ∀ r ∈ (refine34 K m).conn, r.length = 4 ∧ r.Nodup ∧ ∀ v ∈ r, v < (refine34 K m).coors.length :=
  valid (fTab := []) ⟨h.len, h.lt, h.edges, ⟨by simp, h.faces.uniq⟩, h.groups⟩ hnd
    (by unfold TabInj; decide) (tabInj_nil 4) (hasB := false) ⟨le_rfl, by simp, by simp⟩
    (by simp [refine34]) (by simp [refine34, add_comm]) (by simp) (by simp) (by omega) rfl (by decide)
    (by decide)

theorem valid38 {m : RMesh V} (h : Topo 8 edges38 faces38 m) (hnd : ∀ row ∈ m.conn, row.Nodup) :
    ∀ r ∈ (refine38 K m).conn, r.length = 8 ∧ r.Nodup ∧ ∀ v ∈ r, v < (refine38 K m).coors.length :=
  valid h hnd (by unfold TabInj; decide) (by unfold TabInj; decide) (hasB := true)
    ⟨le_rfl, by simp, by simp⟩
    (by simp [refine38]) (by simp [refine38]; omega) (by simp [refine38]; omega)
    (by simp [refine38]; omega) (by omega) rfl (by decide) (by decide)

/-- **The refined meshes are meshes**: the cells have the right number of different vertices and all of
them have coordinates. -/
theorem C67_valid {m : RMesh V} (hnd : ∀ row ∈ m.conn, row.Nodup) :
    (Topo 3 edges23 [] m → ∀ r ∈ (refine23 K m).conn,
      r.length = 3 ∧ r.Nodup ∧ ∀ v ∈ r, v < (refine23 K m).coors.length) ∧
    (Topo 4 edges24 [] m → ∀ r ∈ (refine24 K m).conn,
      r.length = 4 ∧ r.Nodup ∧ ∀ v ∈ r, v < (refine24 K m).coors.length) ∧
    (Topo 4 edges34 faces34 m → ∀ r ∈ (refine34 K m).conn,
      r.length = 4 ∧ r.Nodup ∧ ∀ v ∈ r, v < (refine34 K m).coors.length) ∧
    (Topo 8 edges38 faces38 m → ∀ r ∈ (refine38 K m).conn,
      r.length = 8 ∧ r.Nodup ∧ ∀ v ∈ r, v < (refine38 K m).coors.length) :=
  ⟨fun h => valid23 h hnd, fun h => valid24 h hnd, fun h => valid34 h hnd, fun h => valid38 h hnd⟩

/-- The original nodes keep numbers and coordinates. -/
theorem C67_old_nodes (m : RMesh V) {v : ℕ} (hv : v < m.coors.length) :
    (refine23 K m).coors[v]? = m.coors[v]? ∧ (refine24 K m).coors[v]? = m.coors[v]? ∧
    (refine34 K m).coors[v]? = m.coors[v]? ∧ (refine38 K m).coors[v]? = m.coors[v]? := by
  refine ⟨?_, ?_, ?_, ?_⟩
  · exact List.getElem?_append_left hv
  · simp only [refine24, List.append_assoc]; exact List.getElem?_append_left hv
  · exact List.getElem?_append_left hv
  · simp only [refine38, List.append_assoc]; exact List.getElem?_append_left hv

/-! ### Levels -/

/-- What is common to the four functions. -/
structure Regular (f : RMesh V → Refined V) (nch nv : ℕ) (eTab fTab : List (List ℕ)) : Prop where
  len : ∀ m, (f m).conn.length = nch * m.conn.length
  grp : ∀ m, (f m).groups = groupsRepeat m.groups nch
  valid : ∀ m, Topo nv eTab fTab m → (∀ row ∈ m.conn, row.Nodup) →
    ∀ r ∈ (f m).conn, r.length = nv ∧ r.Nodup ∧ ∀ v ∈ r, v < (f m).coors.length

theorem regular23 : Regular (V := V) (refine23 K) 4 3 edges23 [] :=
  ⟨fun _ => stackT_length _ _ _ _ _, fun _ => rfl, fun _ h hn => valid23 h hn⟩
theorem regular24 : Regular (V := V) (refine24 K) 4 4 edges24 [] :=
  ⟨fun _ => stackT_length _ _ _ _ _, fun _ => rfl, fun _ h hn => valid24 h hn⟩
theorem regular34 : Regular (V := V) (refine34 K) 8 4 edges34 faces34 :=
  ⟨fun _ => stackT_length _ _ _ _ _, fun _ => rfl, fun _ h hn => valid34 h hn⟩
theorem regular38 : Regular (V := V) (refine38 K) 8 8 edges38 faces38 :=
  ⟨fun _ => stackT_length _ _ _ _ _, fun _ => rfl, fun _ h hn => valid38 h hn⟩

omit [AddCommGroup V] in
theorem chain_topo {f : RMesh V → Refined V} {nch nv : ℕ} {eTab fTab : List (List ℕ)}
    (hf : Regular f nch nv eTab fTab) {m : ℕ → RMesh V} (h : IsChain f nv eTab fTab m) (k : ℕ) :
    Topo nv eTab fTab (m k) ∧ ∀ row ∈ (m k).conn, row.Nodup := by
  induction k with
  | zero => exact ⟨h.zero, h.nodup⟩
  | succ k ih =>
    have s := h.step k
    have v := hf.valid (m k) ih.1 ih.2
    refine ⟨⟨?_, ?_, s.edges, s.faces, ?_⟩, ?_⟩
    · intro r hr; rw [s.conn] at hr; exact (v r hr).1
    · intro r hr; rw [s.conn] at hr; rw [s.coors]; exact (v r hr).2.2
    · rw [s.groups, s.conn, hf.grp, groupsRepeat_length, hf.len, ih.1.groups]
    · intro r hr; rw [s.conn] at hr; exact (v r hr).2.1

omit [AddCommGroup V] in
theorem groupsRepeat_div {g : List ℕ} {n q : ℕ} (hn : 0 < n) (hq : q < n * g.length) :
    (groupsRepeat g n)[q]? = g[q / n]? := by
  have e : q = n * (q / n) + q % n := (Nat.div_add_mod q n).symm
  have hi : q / n < g.length := Nat.div_lt_of_lt_mul hq
  conv_lhs => rw [e]
  rw [groupsRepeat_get (Nat.mod_lt _ hn) (List.getElem?_eq_getElem hi), List.getElem?_eq_getElem hi]

omit [AddCommGroup V] in
/-- Numbers of cells and groups after `k` refinements. -/
theorem chain_counts {f : RMesh V → Refined V} {nch nv : ℕ} (hpos : 0 < nch)
    {eTab fTab : List (List ℕ)} (hf : Regular f nch nv eTab fTab) {m : ℕ → RMesh V}
    (h : IsChain f nv eTab fTab m) (k : ℕ) :
    (m k).conn.length = nch ^ k * (m 0).conn.length ∧
    ∀ q < (m k).conn.length, (m k).groups[q]? = (m 0).groups[q / nch ^ k]? := by
  induction k with
  | zero => simp
  | succ k ih =>
    have s := h.step k
    have hl : (m (k + 1)).conn.length = nch * (m k).conn.length := by rw [s.conn, hf.len]
    refine ⟨by rw [hl, ih.1, pow_succ]; ring, fun q hq => ?_⟩
    rw [hl] at hq
    rw [s.groups, hf.grp, groupsRepeat_div hpos (by rw [(chain_topo hf h k).1.groups]; exact hq),
      ih.2 _ (Nat.div_lt_of_lt_mul hq), Nat.div_div_eq_div_mul, pow_succ, mul_comm nch]

/-- **Cells after `k` refinements**: `4^k` (2D), resp. `8^k` (3D) in each original cell, numbered by
the original cells, with their groups. -/
theorem C67_levels (m : ℕ → RMesh V) (k : ℕ) :
    (IsChain (refine23 K) 3 edges23 [] m ∨ IsChain (refine24 K) 4 edges24 [] m →
      (m k).conn.length = 4 ^ k * (m 0).conn.length ∧
      ∀ q < (m k).conn.length, (m k).groups[q]? = (m 0).groups[q / 4 ^ k]?) ∧
    (IsChain (refine34 K) 4 edges34 faces34 m ∨ IsChain (refine38 K) 8 edges38 faces38 m →
      (m k).conn.length = 8 ^ k * (m 0).conn.length ∧
      ∀ q < (m k).conn.length, (m k).groups[q]? = (m 0).groups[q / 8 ^ k]?) := by
  refine ⟨?_, ?_⟩
  · rintro (h | h)
    · exact chain_counts (by omega) regular23 h k
    · exact chain_counts (by omega) regular24 h k
  · rintro (h | h)
    · exact chain_counts (by omega) regular34 h k
    · exact chain_counts (by omega) regular38 h k

end

section

variable {V : Type} {K : Type} [Field K] [LinearOrder K] [IsStrictOrderedRing K] [AddCommGroup V]
  [Module K V]

/-- The points of a mesh of simplices. -/
def MeshSet (K : Type) [Field K] [LinearOrder K] [Module K V] (n : ℕ) (m : RMesh V) : Set V :=
  {p | ∃ row ∈ m.conn, p ∈ Simplex (K := K) (vtxs m.coors row n)}

/-- The points of a mesh of quadrilaterals (of the images of the unit square). -/
def QuadSet (K : Type) [Field K] [LinearOrder K] [Module K V] (m : RMesh V) : Set V :=
  {p | ∃ row ∈ m.conn, ∃ s t : K, 0 ≤ s ∧ s ≤ 1 ∧ 0 ≤ t ∧ t ≤ 1 ∧ p = bilinear (vtxs m.coors row 4) s t}

/-- The points of a mesh of hexahedrons (of the images of the unit cube). -/
def HexSet (K : Type) [Field K] [LinearOrder K] [Module K V] (m : RMesh V) : Set V :=
  {p | ∃ row ∈ m.conn, ∃ s t u : K, 0 ≤ s ∧ s ≤ 1 ∧ 0 ≤ t ∧ t ≤ 1 ∧ 0 ≤ u ∧ u ≤ 1 ∧
    p = trilinear (vtxs m.coors row 8) s t u}

theorem set23 {m m' : RMesh V} (h : Topo 3 edges23 [] m) (s : RefStep (refine23 K) edges23 [] m m') :
    MeshSet K 3 m' = MeshSet K 3 m := by
  ext p
  constructor
  · rintro ⟨r, hr, hp⟩
    rw [s.conn] at hr
    rw [s.coors] at hp
    obtain ⟨q, hq, e⟩ := List.getElem_of_mem hr
    have hq' : (refine23 K m).conn[q]? = some r := by rw [List.getElem?_eq_getElem hq, e]
    obtain ⟨i, t, hi, ht, rfl, -⟩ := stackT_cases (by omega) _ rfl hq'
    obtain ⟨r', h1, -, h3, -⟩ := C67_triangles (K := K) h (List.getElem?_eq_getElem hi)
    refine ⟨_, List.getElem_mem hi, (h3 p).2 ⟨t, ht, ?_⟩⟩
    have := h1 t ht
    rw [hq'] at this
    rwa [← Option.some.inj this]
  · rintro ⟨r, hr, hp⟩
    obtain ⟨i, hi, rfl⟩ := List.getElem_of_mem hr
    obtain ⟨r', h1, -, h3, -⟩ := C67_triangles (K := K) h (List.getElem?_eq_getElem hi)
    obtain ⟨t, ht, hp⟩ := (h3 p).1 hp
    refine ⟨r' t, ?_, ?_⟩
    · rw [s.conn]; exact List.mem_of_getElem? (h1 t ht)
    · rwa [s.coors]

theorem set34 {m m' : RMesh V} (h : Topo 4 edges34 faces34 m)
    (s : RefStep (refine34 K) edges34 faces34 m m') : MeshSet K 4 m' = MeshSet K 4 m := by
  ext p
  constructor
  · rintro ⟨r, hr, hp⟩
    rw [s.conn] at hr
    rw [s.coors] at hp
    obtain ⟨q, hq, e⟩ := List.getElem_of_mem hr
    have hq' : (refine34 K m).conn[q]? = some r := by rw [List.getElem?_eq_getElem hq, e]
    obtain ⟨i, t, hi, ht, rfl, -⟩ := stackT_cases (by omega) _ rfl hq'
    obtain ⟨r', h1, -, h3, -⟩ := C67_tetrahedrons (K := K) h (List.getElem?_eq_getElem hi)
    refine ⟨_, List.getElem_mem hi, (h3 p).2 ⟨t, ht, ?_⟩⟩
    have := h1 t ht
    rw [hq'] at this
    rwa [← Option.some.inj this]
  · rintro ⟨r, hr, hp⟩
    obtain ⟨i, hi, rfl⟩ := List.getElem_of_mem hr
    obtain ⟨r', h1, -, h3, -⟩ := C67_tetrahedrons (K := K) h (List.getElem?_eq_getElem hi)
    obtain ⟨t, ht, hp⟩ := (h3 p).1 hp
    refine ⟨r' t, ?_, ?_⟩
    · rw [s.conn]; exact List.mem_of_getElem? (h1 t ht)
    · rwa [s.coors]

theorem set24 {m m' : RMesh V} (h : Topo 4 edges24 [] m) (s : RefStep (refine24 K) edges24 [] m m') :
    QuadSet K m' = QuadSet K m := by
  obtain ⟨o, a, b, hT, H⟩ := C67_quadrilaterals (K := K) (V := V)
  ext p
  constructor
  · rintro ⟨r, hr, x, y, h1, h2, h3, h4, rfl⟩
    rw [s.conn] at hr
    obtain ⟨q, hq, e⟩ := List.getElem_of_mem hr
    have hq' : (refine24 K m).conn[q]? = some r := by rw [List.getElem?_eq_getElem hq, e]
    obtain ⟨i, t, hi, ht, rfl, -⟩ := stackT_cases (by omega) _ rfl hq'
    obtain ⟨r', k1, -, k3⟩ := H m h i _ (List.getElem?_eq_getElem hi) t ht
    have : r' = r := by rw [hq'] at k1; exact (Option.some.inj k1).symm
    subst this
    obtain ⟨⟨i1, i2⟩, i3, i4⟩ := hT.inside t ht x y h1 h2 h3 h4
    exact ⟨_, List.getElem_mem hi, _, _, i1, i2, i3, i4, by rw [s.coors, k3]⟩
  · rintro ⟨r, hr, x, y, h1, h2, h3, h4, rfl⟩
    obtain ⟨i, hi, rfl⟩ := List.getElem_of_mem hr
    obtain ⟨t, ht, x', y', i1, i2, i3, i4, e⟩ := hT.cover x y h1 h2 h3 h4
    obtain ⟨r', k1, -, k3⟩ := H m h i _ (List.getElem?_eq_getElem hi) t ht
    refine ⟨r', ?_, x', y', i1, i2, i3, i4, ?_⟩
    · rw [s.conn]; exact List.mem_of_getElem? k1
    · rw [s.coors, k3, e]

theorem set38 {m m' : RMesh V} (h : Topo 8 edges38 faces38 m)
    (s : RefStep (refine38 K) edges38 faces38 m m') : HexSet K m' = HexSet K m := by
  obtain ⟨o, a, b, c, hT, H⟩ := C67_hexahedrons (K := K) (V := V)
  ext p
  constructor
  · rintro ⟨r, hr, x, y, z, h1, h2, h3, h4, h5, h6, rfl⟩
    rw [s.conn] at hr
    obtain ⟨q, hq, e⟩ := List.getElem_of_mem hr
    have hq' : (refine38 K m).conn[q]? = some r := by rw [List.getElem?_eq_getElem hq, e]
    obtain ⟨i, t, hi, ht, rfl, -⟩ := stackT_cases (by omega) _ rfl hq'
    obtain ⟨r', k1, -, k3⟩ := H m h i _ (List.getElem?_eq_getElem hi) t ht
    have : r' = r := by rw [hq'] at k1; exact (Option.some.inj k1).symm
    subst this
    obtain ⟨⟨i1, i2⟩, ⟨i3, i4⟩, i5, i6⟩ := hT.inside t ht x y z h1 h2 h3 h4 h5 h6
    exact ⟨_, List.getElem_mem hi, _, _, _, i1, i2, i3, i4, i5, i6, by rw [s.coors, k3]⟩
  · rintro ⟨r, hr, x, y, z, h1, h2, h3, h4, h5, h6, rfl⟩
    obtain ⟨i, hi, rfl⟩ := List.getElem_of_mem hr
    obtain ⟨t, ht, x', y', z', i1, i2, i3, i4, i5, i6, e⟩ := hT.cover x y z h1 h2 h3 h4 h5 h6
    obtain ⟨r', k1, -, k3⟩ := H m h i _ (List.getElem?_eq_getElem hi) t ht
    refine ⟨r', ?_, x', y', z', i1, i2, i3, i4, i5, i6, ?_⟩
    · rw [s.conn]; exact List.mem_of_getElem? k1
    · rw [s.coors, k3, e]

/-- **The domain does not change**, after any number of refinements. -/
theorem C67_domain (m : ℕ → RMesh V) (k : ℕ) :
    (IsChain (refine23 K) 3 edges23 [] m → MeshSet K 3 (m k) = MeshSet K 3 (m 0)) ∧
    (IsChain (refine24 K) 4 edges24 [] m → QuadSet K (m k) = QuadSet K (m 0)) ∧
    (IsChain (refine34 K) 4 edges34 faces34 m → MeshSet K 4 (m k) = MeshSet K 4 (m 0)) ∧
    (IsChain (refine38 K) 8 edges38 faces38 m → HexSet K (m k) = HexSet K (m 0)) := by
  refine ⟨fun h => ?_, fun h => ?_, fun h => ?_, fun h => ?_⟩
  · induction k with
    | zero => rfl
    | succ k ih => rw [set23 (chain_topo regular23 h k).1 (h.step k), ih]
  · induction k with
    | zero => rfl
    | succ k ih => rw [set24 (chain_topo regular24 h k).1 (h.step k), ih]
  · induction k with
    | zero => rfl
    | succ k ih => rw [set34 (chain_topo regular34 h k).1 (h.step k), ih]
  · induction k with
    | zero => rfl
    | succ k ih => rw [set38 (chain_topo regular38 h k).1 (h.step k), ih]

/-- **Signed areas and volumes after `k` refinements**: the cells of the original cell `i` have its
signed area divided by `4^k`, resp. volume divided by `8^k`. -/
theorem C67_measure (k : ℕ) :
    (∀ m : ℕ → RMesh (Fin 2 → K), IsChain (refine23 K) 3 edges23 [] m → ∀ (q : ℕ) (r r0 : List ℕ),
      (m k).conn[q]? = some r → (m 0).conn[q / 4 ^ k]? = some r0 →
      triArea2 (vtxs (m k).coors r 3) = triArea2 (vtxs (m 0).coors r0 3) / 4 ^ k) ∧
    (∀ m : ℕ → RMesh (Fin 3 → K), IsChain (refine34 K) 4 edges34 faces34 m →
      ∀ (q : ℕ) (r r0 : List ℕ), (m k).conn[q]? = some r → (m 0).conn[q / 8 ^ k]? = some r0 →
      tetVol6 (vtxs (m k).coors r 4) = tetVol6 (vtxs (m 0).coors r0 4) / 8 ^ k) := by
  induction k with
  | zero =>
    refine ⟨fun m _ q r r0 h1 h2 => ?_, fun m _ q r r0 h1 h2 => ?_⟩ <;>
    · rw [pow_zero, Nat.div_one, h1] at h2
      rw [Option.some.inj h2, pow_zero, div_one]
  | succ k ih =>
    refine ⟨fun m h q r r0 h1 h2 => ?_, fun m h q r r0 h1 h2 => ?_⟩
    · have s := h.step k
      have hT := (chain_topo regular23 h k).1
      rw [s.conn] at h1
      have h1' := h1
      obtain ⟨i, t, hi, ht, rfl, -⟩ := stackT_cases (by omega) _ rfl h1
      rw [s.coors, C67_triangles_area hT (List.getElem?_eq_getElem hi) ht h1',
        ih.1 m h i _ r0 (List.getElem?_eq_getElem hi) ?_, pow_succ]
      · field_simp
      · rw [← h2, show 4 ^ (k + 1) = 4 * 4 ^ k by ring, ← Nat.div_div_eq_div_mul,
          show (4 * i + t) / 4 = i by omega]
    · have s := h.step k
      have hT := (chain_topo regular34 h k).1
      rw [s.conn] at h1
      have h1' := h1
      obtain ⟨i, t, hi, ht, rfl, -⟩ := stackT_cases (by omega) _ rfl h1
      rw [s.coors, C67_tetrahedrons_volume hT (List.getElem?_eq_getElem hi) ht h1',
        ih.2 m h i _ r0 (List.getElem?_eq_getElem hi) ?_, pow_succ]
      · field_simp
      · rw [← h2, show 8 ^ (k + 1) = 8 * 8 ^ k by ring, ← Nat.div_div_eq_div_mul,
          show (8 * i + t) / 8 = i by omega]

/-! ### Shapes -/

/-- **Triangles stay similar**: the edge vectors of each child are the halves of the edge vectors of the
cell, up to the order and the sign. -/
theorem C67_triangles_similar {m : RMesh V} (h : Topo 3 edges23 [] m) {i : ℕ} {row : List ℕ}
    (hr : m.conn[i]? = some row) {t : ℕ} (ht : t < 4) {r : List ℕ}
    (hc : (refine23 K m).conn[4 * i + t]? = some r) :
    let x := vtx m.coors row
    let y := vtx (refine23 K m).coors r
    ∃ σ : Fin 3 → Fin 3, Function.Injective σ ∧ ∀ j : Fin 3, ∃ s : K, (s = 1 ∨ s = -1) ∧
      y ((j + 1 : Fin 3) : ℕ) - y (j : ℕ) = (s / 2) • (x ((σ j + 1 : Fin 3) : ℕ) - x ((σ j : Fin 3) : ℕ)) := by
  intro x y
  obtain ⟨r', h1, h2⟩ := refine23_child (K := K) h hr ht
  rw [hc] at h1
  have := Option.some.inj h1
  subst this
  obtain ⟨c0, c1, c2, c3⟩ := child23 (K := K) x
  have hy : ∀ j : Fin 3, y j = childPts K 3 edges23 [] tab23 3 x t j := fun j => congrFun h2 j
  rcases lt4 ht with rfl | rfl | rfl | rfl
  · refine ⟨![0, 1, 2], by decide, fun j => ⟨1, Or.inl rfl, ?_⟩⟩
    rw [hy, hy, c0]
    fin_cases j <;> simp <;> module
  · refine ⟨![2, 0, 1], by decide, fun j => ⟨-1, Or.inr rfl, ?_⟩⟩
    rw [hy, hy, c1]
    fin_cases j <;> simp <;> module
  · refine ⟨![1, 2, 0], by decide, fun j => ⟨1, Or.inl rfl, ?_⟩⟩
    rw [hy, hy, c2]
    fin_cases j <;> simp <;> module
  · refine ⟨![2, 0, 1], by decide, fun j => ⟨1, Or.inl rfl, ?_⟩⟩
    rw [hy, hy, c3]
    fin_cases j <;> simp <;> module

/-- The corner children of a tetrahedron are similar to it: the edge vectors are exact halves. -/
theorem C67_tetrahedrons_corners {m : RMesh V} (h : Topo 4 edges34 faces34 m) {i : ℕ} {row : List ℕ}
    (hr : m.conn[i]? = some row) {t : ℕ} (ht : t < 4) {r : List ℕ}
    (hc : (refine34 K m).conn[8 * i + t]? = some r) (v w : Fin 4) :
    vtxs (refine34 K m).coors r 4 v - vtxs (refine34 K m).coors r 4 w =
      (1 / 2 : K) • (vtxs m.coors row 4 v - vtxs m.coors row 4 w) := by
  obtain ⟨r', h1, h2⟩ := refine34_child (K := K) h hr (t := t) (by omega)
  rw [hc] at h1
  have := Option.some.inj h1
  subst this
  obtain ⟨c0, c1, c2, c3, -⟩ := child34 (K := K) (vtx m.coors row)
  rw [h2]
  rcases lt4 ht with rfl | rfl | rfl | rfl
  · rw [c0]; fin_cases v <;> fin_cases w <;> simp [vtxs] <;> module
  · rw [c1]; fin_cases v <;> fin_cases w <;> simp [vtxs] <;> module
  · rw [c2]; fin_cases v <;> fin_cases w <;> simp [vtxs] <;> module
  · rw [c3]; fin_cases v <;> fin_cases w <;> simp [vtxs] <;> module

theorem child5_shape (x : ℕ → V) :
    let y := childPts K 4 edges34 [] tab34 4 x 5
    y 1 - y 0 = (1 / 2 : K) • ((x 2 - x 0) - (x 1 - x 0)) ∧ y 2 - y 0 = (1 / 2 : K) • (x 3 - x 0) ∧
      y 3 - y 0 = (1 / 2 : K) • (x 2 - x 0) := by
  intro y
  obtain ⟨-, -, -, -, -, c5, -⟩ := child34 (K := K) x
  simp only [y, c5, Matrix.cons_val_zero, Matrix.cons_val_one, Matrix.cons_val]
  refine ⟨?_, ?_, ?_⟩ <;> module

theorem step5 {m m' : RMesh V} (h : Topo 4 edges34 faces34 m)
    (s : RefStep (refine34 K) edges34 faces34 m m') {i : ℕ} {row : List ℕ}
    (hr : m.conn[i]? = some row) :
    ∃ r, m'.conn[8 * i + 5]? = some r ∧
      vtx m'.coors r 1 - vtx m'.coors r 0 = (1 / 2 : K) • ((vtx m.coors row 2 - vtx m.coors row 0) -
        (vtx m.coors row 1 - vtx m.coors row 0)) ∧
      vtx m'.coors r 2 - vtx m'.coors r 0 = (1 / 2 : K) • (vtx m.coors row 3 - vtx m.coors row 0) ∧
      vtx m'.coors r 3 - vtx m'.coors r 0 = (1 / 2 : K) • (vtx m.coors row 2 - vtx m.coors row 0) := by
  obtain ⟨r, h1, h2⟩ := refine34_child (K := K) h hr (t := 5) (by omega)
  refine ⟨r, by rw [s.conn, h1], ?_⟩
  rw [s.coors]
  have hy : ∀ j : Fin 4, vtx (refine34 K m).coors r j
      = childPts K 4 edges34 [] tab34 4 (vtx m.coors row) 5 j := fun j => congrFun h2 j
  have hy0 := hy 0
  have hy1 := hy 1
  have hy2 := hy 2
  have hy3 := hy 3
  simp only [Fin.coe_ofNat_eq_mod, Nat.zero_mod, Nat.reduceMod, Nat.one_mod] at hy0 hy1 hy2 hy3
  rw [hy0, hy1, hy2, hy3]
  exact child5_shape (K := K) (vtx m.coors row)

/-- **The shapes of tetrahedrons degenerate** (the docstring of `refine_3_4`, refine.py:113-121, claims
that at most three congruence classes appear when the refinement is repeated): let `A`, `B`, `C` be the
edge vectors of any cell from its first vertex.  After `2 n` refinements there is a cell with the edge
vectors `A + n (C - B)`, `B`, `C`, all divided by `4^n`. -/
theorem C67_tetrahedrons_shapes {m : ℕ → RMesh V} (h : IsChain (refine34 K) 4 edges34 faces34 m)
    {i : ℕ} {row : List ℕ} (hr : (m 0).conn[i]? = some row) (n : ℕ) :
    let x := vtx (m 0).coors row
    ∃ (q : ℕ) (r : List ℕ), q / 8 ^ (2 * n) = i ∧ (m (2 * n)).conn[q]? = some r ∧
      let y := vtx (m (2 * n)).coors r
      y 1 - y 0 = ((1 : K) / 4 ^ n) • ((x 1 - x 0) + (n : K) • ((x 3 - x 0) - (x 2 - x 0))) ∧
      y 2 - y 0 = ((1 : K) / 4 ^ n) • (x 2 - x 0) ∧ y 3 - y 0 = ((1 : K) / 4 ^ n) • (x 3 - x 0) := by
  intro x
  induction n with
  | zero => exact ⟨i, row, by simp, hr, by simp [x]⟩
  | succ n ih =>
    obtain ⟨q, r, e, hq, y1, y2, y3⟩ := ih
    obtain ⟨r1, hq1, z1, z2, z3⟩ := step5 (chain_topo regular34 h (2 * n)).1 (h.step (2 * n)) hq
    obtain ⟨r2, hq2, u1, u2, u3⟩ := step5 (chain_topo regular34 h (2 * n + 1)).1 (h.step (2 * n + 1)) hq1
    refine ⟨8 * (8 * q + 5) + 5, r2, ?_, hq2, ?_, ?_, ?_⟩
    · rw [show 8 ^ (2 * (n + 1)) = 8 * (8 * 8 ^ (2 * n)) by rw [mul_add, pow_add]; ring,
        ← Nat.div_div_eq_div_mul, ← Nat.div_div_eq_div_mul, show (8 * (8 * q + 5) + 5) / 8 / 8 = q by omega,
        e]
    · change vtx (m (2 * n + 1 + 1)).coors r2 1 - vtx (m (2 * n + 1 + 1)).coors r2 0 = _
      rw [u1, z1, z2, y1, y2, y3, pow_succ]
      push_cast
      match_scalars <;> field_simp <;> ring
    · change vtx (m (2 * n + 1 + 1)).coors r2 2 - vtx (m (2 * n + 1 + 1)).coors r2 0 = _
      rw [u2, z3, y2, pow_succ]
      match_scalars <;> field_simp <;> ring
    · change vtx (m (2 * n + 1 + 1)).coors r2 3 - vtx (m (2 * n + 1 + 1)).coors r2 0 = _
      rw [u3, z2, y3, pow_succ]
      match_scalars <;> field_simp <;> ring

/-- **Unbounded degeneration**: in the repeated refinement of any cell of nonzero volume there are cells
with one edge arbitrarily long with respect to the volume: the squared length of an edge after `2 n`
refinements is more than `R / 16^n`, with the volume `1 / 64^n` of the original one.  So there are
infinitely many shapes. -/
theorem C67_tetrahedrons_degenerate [Archimedean K] {m : ℕ → RMesh (Fin 3 → K)}
    (h : IsChain (refine34 K) 4 edges34 faces34 m) {i : ℕ} {row : List ℕ}
    (hr : (m 0).conn[i]? = some row) (hv : tetVol6 (vtxs (m 0).coors row 4) ≠ 0) (R : K) :
    ∃ (n q : ℕ) (r : List ℕ), (m (2 * n)).conn[q]? = some r ∧
      64 ^ n * tetVol6 (vtxs (m (2 * n)).coors r 4) = tetVol6 (vtxs (m 0).coors row 4) ∧
      R < 16 ^ n * ∑ j, (vtx (m (2 * n)).coors r 1 j - vtx (m (2 * n)).coors r 0 j) ^ 2 := by
  set x := vtx (m 0).coors row with hx
  -- The vectors `B` and `C` differ.
  have hne : ∃ j : Fin 3, x 3 j - x 2 j ≠ 0 := by
    by_contra hcon
    push Not at hcon
    apply hv
    have e0 := hcon 0
    have e1 := hcon 1
    have e2 := hcon 2
    have : ∀ j : Fin 3, x 3 j = x 2 j := by intro j; fin_cases j <;> simp <;> linarith
    simp only [tetVol6, det3v, vtxs, Pi.sub_apply, Fin.coe_ofNat_eq_mod, Nat.zero_mod, Nat.reduceMod,
      Nat.one_mod, ← hx, this]
    ring
  obtain ⟨j, hj⟩ := hne
  set a := x 1 j - x 0 j with ha
  set d := x 3 j - x 2 j with hd
  have hd0 : 0 < |d| := abs_pos.2 hj
  obtain ⟨n, hn⟩ := Archimedean.arch (|a| + |R| + 1) hd0
  rw [nsmul_eq_mul] at hn
  obtain ⟨q, r, e, hq, y1, -, -⟩ := C67_tetrahedrons_shapes h hr n
  refine ⟨n, q, r, hq, ?_, ?_⟩
  · rw [(C67_measure (K := K) (2 * n)).2 m h q r row hq (by rw [e]; exact hr), pow_mul]
    field_simp
    norm_num
  · have hyj := congrFun y1 j
    simp only [Pi.sub_apply, Pi.smul_apply, Pi.add_apply, smul_eq_mul] at hyj
    have h1 : R < (a + n * d) ^ 2 := by
      have k1 : |R| + 1 ≤ |a + n * d| := by
        have t1 : |(n : K) * d| ≤ |a + n * d| + |a| := by
          calc |(n : K) * d| = |(a + n * d) - a| := by ring_nf
            _ ≤ _ := abs_sub _ _
        rw [abs_mul, Nat.abs_cast] at t1
        linarith
      have k2 : (|R| + 1) ^ 2 ≤ (a + n * d) ^ 2 := by
        rw [← sq_abs (a + n * d)]
        exact pow_le_pow_left₀ (by positivity) k1 2
      nlinarith [le_abs_self R, abs_nonneg R]
    have h2 : 16 ^ n * (vtx (m (2 * n)).coors r 1 j - vtx (m (2 * n)).coors r 0 j) ^ 2 =
        (a + n * d) ^ 2 := by
      rw [hyj]
      have : (16 : K) ^ n = (4 ^ n) ^ 2 := by rw [← pow_mul, mul_comm, pow_mul]; norm_num
      rw [this, ha, hd]
      field_simp
      ring
    calc R < (a + n * d) ^ 2 := h1
      _ = _ := h2.symm
      _ ≤ _ := by
        apply mul_le_mul_of_nonneg_left _ (by positivity)
        exact Finset.single_le_sum (f := fun j => (vtx (m (2 * n)).coors r 1 j -
          vtx (m (2 * n)).coors r 0 j) ^ 2) (fun j _ => sq_nonneg _) (Finset.mem_univ j)

end

end Verif.Mesh
