/-
C52: connectivities requested in any order, with any interleaved freeing, are the same.
-/
import Verif.CMesh.Topo
import Verif.CMesh.PropsPipeline

namespace Verif.CMesh

/-- Specification: the connectivities of a mesh, as functions of the cell vertices only. -/
structure Targets (r : Ref) (D : ℕ) (N : ℕ → ℕ) (T : ℕ → ℕ → Conn) : Prop where
  Dpos : 0 < D
  Npos : ∀ d ≤ D, 0 < N d
  num : ∀ d1 ≤ D, ∀ d2 ≤ D, (T d1 d2).num = N d1
  tr : ∀ d1 d2, d1 < d2 → d2 ≤ D → transpose (N d1) (N d2) (T d2 d1) = some (T d1 d2)
  int0 : intersect (N 0) (T 0 D) (T D 0) none = some (T 0 0)
  intd : ∀ d, 0 < d → d ≤ D → intersect (N d) (T d 0) (T 0 d) none = some (T d d)
  int : ∀ d1 d2, 0 < d2 → d2 < d1 → d1 < D →
    intersect (N d1) (T d1 0) (T 0 d2) (some (T d1 0, T d2 0)) = some (T d1 d2)
  build : ∀ d, 0 < d → d < D → ∃ s, meshBuild (N D) (if d = 1 then 2 else 4) (r.locs d) r.cellTypes
    (T D D) (T D 0) = some s ∧ s.cDd = T D d ∧ s.cd0 = T d 0 ∧ s.id = N d

/-- The invariant: every connectivity is either empty or the right one. -/
structure Good (D : ℕ) (N : ℕ → ℕ) (T : ℕ → ℕ → Conn) (t : Topo) : Prop where
  eqD : t.D = D
  num0 : t.num 0 = N 0
  numD : t.num D = N D
  numd : ∀ d, 0 < d → d < D → t.num d = (t.conn d 0).num
  conn : ∀ d1 ≤ D, ∀ d2 ≤ D, (t.conn d1 d2).num = 0 ∨ t.conn d1 d2 = T d1 d2
  cells : t.conn D 0 = T D 0
  pair : ∀ d, 0 < d → d < D → t.conn d 0 = T d 0 → t.conn D d = T D d

/-- Nothing that was computed is changed. -/
def Ext (D : ℕ) (T : ℕ → ℕ → Conn) (t t' : Topo) : Prop :=
  ∀ d1 ≤ D, ∀ d2 ≤ D, t.conn d1 d2 = T d1 d2 → t'.conn d1 d2 = T d1 d2

variable {r : Ref} {D : ℕ} {N : ℕ → ℕ} {T : ℕ → ℕ → Conn}

theorem Ext.refl (t : Topo) : Ext D T t t := fun _ _ _ _ h => h

theorem Ext.trans {t t' t'' : Topo} (h : Ext D T t t') (h' : Ext D T t' t'') : Ext D T t t'' :=
  fun d1 h1 d2 h2 hc => h' d1 h1 d2 h2 (h d1 h1 d2 h2 hc)

theorem Good.ne (hT : Targets r D N T) {t : Topo} (hG : Good D N T t) {d1 d2 : ℕ} (h1 : d1 ≤ D)
    (h2 : d2 ≤ D) : (t.conn d1 d2).num ≠ 0 ↔ t.conn d1 d2 = T d1 d2 := by
  constructor
  · intro h
    exact (hG.conn d1 h1 d2 h2).resolve_left h
  · intro h
    rw [h, hT.num d1 h1 d2 h2]
    exact (hT.Npos d1 h1).ne'

/-- The entities of the dimension `d` are available. -/
theorem Good.num_ne (hT : Targets r D N T) {t : Topo} (hG : Good D N T t) {d : ℕ} (hd : d ≤ D) :
    t.num d ≠ 0 ↔ t.num d = N d := by
  constructor
  · intro h
    rcases Nat.eq_zero_or_pos d with rfl | h0
    · exact hG.num0
    · rcases Nat.lt_or_ge d D with h1 | h1
      · rw [hG.numd d h0 h1] at h ⊢
        rw [(hG.ne hT hd (Nat.zero_le _)).1 h, hT.num d hd 0 (Nat.zero_le _)]
      · obtain rfl : d = D := by omega
        exact hG.numD
  · intro h
    rw [h]
    exact (hT.Npos d hd).ne'

theorem Good.conn_d0 (hT : Targets r D N T) {t : Topo} (hG : Good D N T t) {d : ℕ} (h0 : 0 < d)
    (hd : d ≤ D) (hn : t.num d ≠ 0) : t.conn d 0 = T d 0 := by
  rcases Nat.lt_or_ge d D with h1 | h1
  · rw [hG.numd d h0 h1] at hn
    exact (hG.ne hT hd (Nat.zero_le _)).1 hn
  · obtain rfl : d = D := by omega
    exact hG.cells

/-- Setting a connectivity that is not `d -> 0` or `D -> d` of a facet to its target. -/
theorem Good.setConn {t : Topo} (hG : Good D N T t) {d1 d2 : ℕ} (c : Conn) (hc : c = T d1 d2) :
    (d2 ≠ 0 ∨ d1 = D) → Good D N T (t.setConn d1 d2 c) ∧ Ext D T t (t.setConn d1 d2 c) ∧
      (t.setConn d1 d2 c).conn d1 d2 = T d1 d2 ∧ (t.setConn d1 d2 c).num = t.num := by
  intro hne
  subst hc
  refine ⟨⟨hG.eqD, hG.num0, hG.numD, ?_, ?_, ?_, ?_⟩, ?_, by simp [Topo.setConn], rfl⟩
  · intro d h0 hd
    simp only [Topo.setConn]
    rw [if_neg (by omega)]
    exact hG.numd d h0 hd
  · intro a ha b hb
    simp only [Topo.setConn]
    split
    · rename_i h; right; rw [h.1, h.2]
    · exact hG.conn a ha b hb
  · simp only [Topo.setConn]
    split
    · rename_i h; rw [← h.1, ← h.2]
    · exact hG.cells
  · intro d h0 hd
    simp only [Topo.setConn]
    rw [if_neg (by omega)]
    intro h
    split
    · rename_i h'; rw [← h'.1, ← h'.2]
    · exact hG.pair d h0 hd h
  · intro a _ b _ h
    simp only [Topo.setConn]
    split
    · rename_i h'; rw [h'.1, h'.2]
    · exact h

/-- What a request does. -/
def Spec (D : ℕ) (N : ℕ → ℕ) (T : ℕ → ℕ → Conn) (t : Topo) (d1 d2 : ℕ) (res : Option Topo) : Prop :=
  ∃ t', res = some t' ∧ Good D N T t' ∧ Ext D T t t' ∧ t'.conn d1 d2 = T d1 d2

theorem Ext.num {t t' : Topo} (hT : Targets r D N T) (hG : Good D N T t) (hG' : Good D N T t')
    (hE : Ext D T t t') {d : ℕ} (hd : d ≤ D) (h : t.num d ≠ 0) : t'.num d ≠ 0 := by
  rcases Nat.eq_zero_or_pos d with rfl | h0
  · rw [hG'.num0]; exact (hT.Npos 0 (by omega)).ne'
  · rcases Nat.lt_or_ge d D with h1 | h1
    · rw [hG'.numd d h0 h1]
      exact (hG'.ne hT hd (Nat.zero_le _)).2 (hE d hd 0 (Nat.zero_le _) (hG.conn_d0 hT h0 hd h))
    · obtain rfl : d = D := by omega
      rw [hG'.numD]; exact (hT.Npos d hd).ne'

/-- An available connectivity. -/
theorem setup_have (n : ℕ) {t : Topo} {d1 d2 : ℕ} (h1 : t.num d1 ≠ 0) (h2 : t.num d2 ≠ 0)
    (hc : (t.conn d1 d2).num ≠ 0) : setupConn r (n + 1) t d1 d2 = some t := by
  unfold setupConn
  simp [h1, h2, hc]

/-- Requests after the entities of both the dimensions are available. -/
theorem setup_avail (n : ℕ) {t : Topo} {d1 d2 : ℕ} (h1 : t.num d1 ≠ 0) (h2 : t.num d2 ≠ 0) :
    setupConn r (n + 1) t d1 d2 =
      if (t.conn d1 d2).num ≠ 0 then some t
      else if d1 < d2 then
        (setupConn r n t d2 d1).bind fun t =>
          (transpose (t.num d1) (t.num d2) (t.conn d2 d1)).map fun c => t.setConn d1 d2 c
      else if 0 < d1 ∧ d2 = 0 then none
      else
        (setupConn r n t d1 (if d1 = 0 ∧ d2 = 0 then t.D else 0)).bind fun t' =>
        (setupConn r n t' (if d1 = 0 ∧ d2 = 0 then t.D else 0) d2).bind fun t'' =>
          (intersect (t''.num d1) (t''.conn d1 (if d1 = 0 ∧ d2 = 0 then t.D else 0))
            (t''.conn (if d1 = 0 ∧ d2 = 0 then t.D else 0) d2)
            (if d1 = d2 then none else some (t''.conn d1 0, t''.conn d2 0))).map
              fun c => t''.setConn d1 d2 c := by
  conv_lhs => unfold setupConn
  simp only [h1, h2, if_false, Option.bind_eq_bind, Option.pure_def, Option.bind_some,
    Option.map_eq_bind, Function.comp_def]

/-- `0 -> d`. -/
theorem setup_0d (hT : Targets r D N T) (n : ℕ) {t : Topo} (hG : Good D N T t) {d : ℕ} (h0 : 0 < d)
    (hd : d ≤ D) (hn : t.num d ≠ 0) : Spec D N T t 0 d (setupConn r (n + 2) t 0 d) := by
  have hn0 : t.num 0 ≠ 0 := by rw [hG.num0]; exact (hT.Npos 0 (by omega)).ne'
  rw [setup_avail (n + 1) hn0 hn]
  by_cases hc : (t.conn 0 d).num = 0
  · have hd0 := hG.conn_d0 hT h0 hd hn
    rw [if_neg (by simpa using hc), if_pos h0,
      setup_have n hn hn0 ((hG.ne hT hd (Nat.zero_le _)).2 hd0), Option.bind_some,
      (hG.num_ne hT (Nat.zero_le _)).1 hn0, (hG.num_ne hT hd).1 hn, hd0, hT.tr 0 d h0 hd,
      Option.map_some]
    obtain ⟨g1, g2, g3, -⟩ := hG.setConn (T 0 d) rfl (Or.inl h0.ne')
    exact ⟨_, rfl, g1, g2, g3⟩
  · rw [if_pos hc]
    exact ⟨t, rfl, hG, Ext.refl t, (hG.ne hT (Nat.zero_le _) hd).1 hc⟩

/-- `d -> d`, `d > 0`. -/
theorem setup_dd (hT : Targets r D N T) (n : ℕ) {t : Topo} (hG : Good D N T t) {d : ℕ} (h0 : 0 < d)
    (hd : d ≤ D) (hn : t.num d ≠ 0) : Spec D N T t d d (setupConn r (n + 3) t d d) := by
  have hn0 : t.num 0 ≠ 0 := by rw [hG.num0]; exact (hT.Npos 0 (by omega)).ne'
  rw [setup_avail (n + 2) hn hn]
  by_cases hc : (t.conn d d).num = 0
  · have hd0 := hG.conn_d0 hT h0 hd hn
    rw [if_neg (by simpa using hc), if_neg (by omega), if_neg (by omega), if_neg (by omega),
      setup_have (n + 1) hn hn0 ((hG.ne hT hd (Nat.zero_le _)).2 hd0), Option.bind_some]
    obtain ⟨t1, e1, hG1, hE1, hc1⟩ := setup_0d hT n hG h0 hd hn
    rw [e1, Option.bind_some, if_pos rfl, hc1, hE1 d hd 0 (Nat.zero_le _) hd0,
      (hG1.num_ne hT hd).1 (hE1.num hT hG hG1 hd hn), hT.intd d h0 hd, Option.map_some]
    obtain ⟨g1, g2, g3, -⟩ := hG1.setConn (T d d) rfl (Or.inl h0.ne')
    exact ⟨_, rfl, g1, hE1.trans g2, g3⟩
  · rw [if_pos hc]
    exact ⟨t, rfl, hG, Ext.refl t, (hG.ne hT hd hd).1 hc⟩

/-- The construction of the facets. -/
theorem build_spec (hT : Targets r D N T) (n : ℕ) {t : Topo} (hG : Good D N T t) {d : ℕ} (h0 : 0 < d)
    (hd : d < D) : ∃ t', buildDim r (setupConn r (n + 3)) t d = some t' ∧ Good D N T t' ∧
      Ext D T t t' ∧ t'.num d ≠ 0 := by
  have hnD : t.num D ≠ 0 := by rw [hG.numD]; exact (hT.Npos D le_rfl).ne'
  obtain ⟨s, hs, e1, e2, e3⟩ := hT.build d h0 hd
  have key : ∀ t1, Good D N T t1 → t1.conn D D = T D D →
      (do
        let s ← meshBuild (t1.num t1.D) (if d = 1 then 2 else 4) (r.locs d) r.cellTypes
          (t1.conn t1.D t1.D) (t1.conn t1.D 0)
        return ((t1.setConn t1.D d s.cDd).setConn d 0 s.cd0).setNum d s.id)
      = some (((t1.setConn D d (T D d)).setConn d 0 (T d 0)).setNum d (N d)) ∧
      Good D N T (((t1.setConn D d (T D d)).setConn d 0 (T d 0)).setNum d (N d)) ∧
      Ext D T t1 (((t1.setConn D d (T D d)).setConn d 0 (T d 0)).setNum d (N d)) := by
    intro t1 hG1 hDD
    refine ⟨?_, ⟨hG1.eqD, ?_, ?_, ?_, ?_, ?_, ?_⟩, ?_⟩
    · rw [hG1.eqD, hG1.numD, hDD, hG1.cells, hs, ← e1, ← e2, ← e3]
      rfl
    · simp only [Topo.setNum, Topo.setConn]
      rw [if_neg (by omega)]; exact hG1.num0
    · simp only [Topo.setNum, Topo.setConn]
      rw [if_neg (by omega)]; exact hG1.numD
    · intro d' h0' hd'
      simp only [Topo.setNum, Topo.setConn]
      by_cases h : d' = d
      · subst h
        simp only [and_self, if_true]
        rw [hT.num d' (by omega) 0 (by omega)]
      · rw [if_neg h, if_neg (by omega), if_neg (by omega)]
        exact hG1.numd d' h0' hd'
    · intro a ha b hb
      simp only [Topo.setNum, Topo.setConn]
      split
      · rename_i h; right; rw [h.1, h.2]
      · split
        · rename_i h; right; rw [h.1, h.2]
        · exact hG1.conn a ha b hb
    · simp only [Topo.setNum, Topo.setConn]
      rw [if_neg (by omega), if_neg (by omega)]
      exact hG1.cells
    · intro d' h0' hd'
      simp only [Topo.setNum, Topo.setConn]
      by_cases h : d' = d
      · subst h
        intro _
        rw [if_neg (by omega), if_pos (by simp)]
      · rw [if_neg (by omega), if_neg (by omega), if_neg (by omega), if_neg (by omega)]
        exact hG1.pair d' h0' hd'
    · intro a ha b hb h
      simp only [Topo.setNum, Topo.setConn]
      split
      · rename_i h'; rw [h'.1, h'.2]
      · split
        · rename_i h'; rw [h'.1, h'.2]
        · exact h
  have hnum : ∀ t1 : Topo, (((t1.setConn D d (T D d)).setConn d 0 (T d 0)).setNum d (N d)).num d ≠ 0 := by
    intro t1
    simp only [Topo.setNum, if_true]
    exact (hT.Npos d hd.le).ne'
  unfold buildDim
  by_cases hc : (t.conn D D).num = 0
  · obtain ⟨t1, e4, hG1, hE1, hc1⟩ := setup_dd hT n hG hT.Dpos le_rfl hnD
    obtain ⟨k1, k2, k3⟩ := key t1 hG1 hc1
    refine ⟨_, ?_, k2, hE1.trans k3, hnum t1⟩
    rw [hG.eqD, if_pos hc, e4]
    exact k1
  · obtain ⟨k1, k2, k3⟩ := key t hG ((hG.ne hT le_rfl le_rfl).1 hc)
    refine ⟨_, ?_, k2, k3, hnum t⟩
    rw [hG.eqD, if_neg hc]
    exact k1

/-- `d1 -> d2`, `d1 > d2 > 0`. -/
theorem setup_down (hT : Targets r D N T) (n : ℕ) {t : Topo} (hG : Good D N T t) {d1 d2 : ℕ}
    (h0 : 0 < d2) (h21 : d2 < d1) (hd : d1 ≤ D) (hn1 : t.num d1 ≠ 0) (hn2 : t.num d2 ≠ 0) :
    Spec D N T t d1 d2 (setupConn r (n + 3) t d1 d2) := by
  have hn0 : t.num 0 ≠ 0 := by rw [hG.num0]; exact (hT.Npos 0 (by omega)).ne'
  rw [setup_avail (n + 2) hn1 hn2]
  have hd20 := hG.conn_d0 hT h0 (by omega) hn2
  by_cases hc : (t.conn d1 d2).num = 0
  · have hlt : d1 < D := by
      rcases Nat.lt_or_ge d1 D with h | h
      · exact h
      · obtain rfl : d1 = D := by omega
        exact absurd hc ((hG.ne hT hd (by omega)).2 (hG.pair d2 h0 h21 hd20))
    have hd0 := hG.conn_d0 hT (by omega) hd hn1
    rw [if_neg (by simpa using hc), if_neg (by omega), if_neg (by omega), if_neg (by omega),
      setup_have (n + 1) hn1 hn0 ((hG.ne hT hd (Nat.zero_le _)).2 hd0), Option.bind_some]
    obtain ⟨t1, e1, hG1, hE1, hc1⟩ := setup_0d hT n hG h0 (by omega) hn2
    rw [e1, Option.bind_some, if_neg (by omega), hc1, hE1 d1 hd 0 (Nat.zero_le _) hd0,
      hE1 d2 (by omega) 0 (Nat.zero_le _) hd20,
      (hG1.num_ne hT hd).1 (hE1.num hT hG hG1 hd hn1), hT.int d1 d2 h0 h21 hlt, Option.map_some]
    obtain ⟨g1, g2, g3, -⟩ := hG1.setConn (T d1 d2) rfl (Or.inl h0.ne')
    exact ⟨_, rfl, g1, hE1.trans g2, g3⟩
  · rw [if_pos hc]
    exact ⟨t, rfl, hG, Ext.refl t, (hG.ne hT hd (by omega)).1 hc⟩

/-- A request when the entities of both the dimensions are available. -/
theorem setup_both (hT : Targets r D N T) (n : ℕ) {t : Topo} (hG : Good D N T t) {d1 d2 : ℕ}
    (h1 : d1 ≤ D) (h2 : d2 ≤ D) (hn1 : t.num d1 ≠ 0) (hn2 : t.num d2 ≠ 0) :
    Spec D N T t d1 d2 (setupConn r (n + 4) t d1 d2) := by
  have hn0 : t.num 0 ≠ 0 := by rw [hG.num0]; exact (hT.Npos 0 (by omega)).ne'
  have hnD : t.num D ≠ 0 := by rw [hG.numD]; exact (hT.Npos D le_rfl).ne'
  rcases Nat.lt_trichotomy d1 d2 with h | h | h
  · rcases Nat.eq_zero_or_pos d1 with rfl | hp
    · exact setup_0d hT (n + 2) hG h h2 hn2
    · rw [setup_avail (n + 3) hn1 hn2]
      by_cases hc : (t.conn d1 d2).num = 0
      · rw [if_neg (by simpa using hc), if_pos h]
        obtain ⟨t1, e1, hG1, hE1, hc1⟩ := setup_down hT n hG hp h h2 hn2 hn1
        rw [e1, Option.bind_some, hc1, (hG1.num_ne hT h1).1 (hE1.num hT hG hG1 h1 hn1),
          (hG1.num_ne hT h2).1 (hE1.num hT hG hG1 h2 hn2), hT.tr d1 d2 h h2, Option.map_some]
        obtain ⟨g1, g2, g3, -⟩ := hG1.setConn (T d1 d2) rfl (Or.inl (by omega : d2 ≠ 0))
        exact ⟨_, rfl, g1, hE1.trans g2, g3⟩
      · rw [if_pos hc]
        exact ⟨t, rfl, hG, Ext.refl t, (hG.ne hT h1 h2).1 hc⟩
  · subst h
    rcases Nat.eq_zero_or_pos d1 with rfl | hp
    · rw [setup_avail (n + 3) hn1 hn2]
      by_cases hc : (t.conn 0 0).num = 0
      · simp only [hc, ne_eq, not_true_eq_false, if_false, lt_irrefl, false_and, and_self, if_true,
          hG.eqD]
        obtain ⟨t1, e1, hG1, hE1, hc1⟩ := setup_0d hT (n + 1) hG hT.Dpos le_rfl hnD
        have hn0' : t1.num 0 ≠ 0 := by rw [hG1.num0]; exact (hT.Npos 0 (by omega)).ne'
        have hnD' : t1.num D ≠ 0 := by rw [hG1.numD]; exact (hT.Npos D le_rfl).ne'
        rw [e1, Option.bind_some, setup_have (n + 2) hnD' hn0'
          ((hG1.ne hT le_rfl (Nat.zero_le _)).2 hG1.cells), Option.bind_some, hc1, hG1.cells, hG1.num0,
          hT.int0, Option.map_some]
        -- `0 -> 0` is neither a facet nor a cell connectivity.
        refine ⟨_, rfl, ⟨hG1.eqD, hG1.num0, hG1.numD, ?_, ?_, ?_, ?_⟩, hE1.trans ?_,
          by simp [Topo.setConn]⟩
        · intro d h0 hd
          simp only [Topo.setConn]
          rw [if_neg (by omega)]
          exact hG1.numd d h0 hd
        · intro a ha b hb
          simp only [Topo.setConn]
          split
          · rename_i h; right; rw [h.1, h.2]
          · exact hG1.conn a ha b hb
        · have := hT.Dpos
          simp only [Topo.setConn]
          rw [if_neg (by omega)]
          exact hG1.cells
        · intro d h0 hd
          simp only [Topo.setConn]
          rw [if_neg (by omega), if_neg (by omega)]
          exact hG1.pair d h0 hd
        · intro a _ b _ h
          simp only [Topo.setConn]
          split
          · rename_i h'; rw [h'.1, h'.2]
          · exact h
      · rw [if_pos hc]
        exact ⟨t, rfl, hG, Ext.refl t, (hG.ne hT h1 h2).1 hc⟩
    · exact setup_dd hT (n + 1) hG hp h1 hn1
  · rcases Nat.eq_zero_or_pos d2 with rfl | hp
    · have hc := hG.conn_d0 hT h h1 hn1
      rw [setup_have (n + 3) hn1 hn2 ((hG.ne hT h1 h2).2 hc)]
      exact ⟨t, rfl, hG, Ext.refl t, hc⟩
    · exact setup_down hT (n + 1) hG hp h h1 hn1 hn2

/-- The entities of both the dimensions are built first. -/
theorem setup_builds (hT : Targets r D N T) (n : ℕ) {t : Topo} (hG : Good D N T t) {d1 d2 : ℕ}
    (h1 : d1 ≤ D) (h2 : d2 ≤ D) : ∃ t2, setupConn r (n + 4) t d1 d2 = setupConn r (n + 4) t2 d1 d2 ∧
      Good D N T t2 ∧ Ext D T t t2 ∧ t2.num d1 ≠ 0 ∧ t2.num d2 ≠ 0 := by
  have hne : ∀ {t : Topo}, Good D N T t → ∀ {d}, d ≤ D → t.num d = 0 → 0 < d ∧ d < D := by
    intro t hG d hd h
    have h3 := hT.Npos 0 (Nat.zero_le _)
    have h4 := hT.Npos D le_rfl
    have h5 := hG.num0
    have h6 := hG.numD
    constructor
    · rcases Nat.eq_zero_or_pos d with rfl | h0
      · omega
      · exact h0
    · rcases Nat.lt_or_ge d D with h0 | h0
      · exact h0
      · obtain rfl : d = D := by omega
        omega
  -- The entities of the first dimension.
  obtain ⟨t1, e1, hG1, hE1, hn1⟩ : ∃ t1, (if t.num d1 = 0 then buildDim r (setupConn r (n + 3)) t d1
      else some t) = some t1 ∧ Good D N T t1 ∧ Ext D T t t1 ∧ t1.num d1 ≠ 0 := by
    by_cases h : t.num d1 = 0
    · rw [if_pos h]
      obtain ⟨h0, hd⟩ := hne hG h1 h
      exact build_spec hT n hG h0 hd
    · rw [if_neg h]
      exact ⟨t, rfl, hG, Ext.refl t, h⟩
  obtain ⟨t2, e2, hG2, hE2, hn2⟩ : ∃ t2, (if t1.num d2 = 0 then buildDim r (setupConn r (n + 3)) t1 d2
      else some t1) = some t2 ∧ Good D N T t2 ∧ Ext D T t1 t2 ∧ t2.num d2 ≠ 0 := by
    by_cases h : t1.num d2 = 0
    · rw [if_pos h]
      obtain ⟨h0, hd⟩ := hne hG1 h2 h
      exact build_spec hT n hG1 h0 hd
    · rw [if_neg h]
      exact ⟨t1, rfl, hG1, Ext.refl t1, h⟩
  have hn1' := hE2.num hT hG1 hG2 h1 hn1
  have hres : setupConn r (n + 4) t d1 d2 = setupConn r (n + 4) t2 d1 d2 := by
    conv_lhs => unfold setupConn
    conv_rhs => unfold setupConn
    by_cases c1 : t.num d1 = 0
    · rw [if_pos c1] at e1
      by_cases c2 : t1.num d2 = 0
      · rw [if_pos c2] at e2
        simp only [Option.pure_def, Option.bind_eq_bind, Option.bind_some, if_pos c1, e1, if_pos c2, e2,
          if_neg hn1', if_neg hn2]
      · rw [if_neg c2] at e2
        obtain rfl := Option.some.inj e2
        simp only [Option.pure_def, Option.bind_eq_bind, Option.bind_some, if_pos c1, e1, if_neg hn1',
          if_neg hn2]
    · rw [if_neg c1] at e1
      obtain rfl := Option.some.inj e1
      by_cases c2 : t.num d2 = 0
      · rw [if_pos c2] at e2
        simp only [Option.pure_def, Option.bind_eq_bind, Option.bind_some, if_neg c1, if_pos c2, e2,
          if_neg hn1', if_neg hn2]
      · rw [if_neg c2] at e2
        obtain rfl := Option.some.inj e2
        rfl
  exact ⟨t2, hres, hG2, hE1.trans hE2, hn1', hn2⟩

/-- C52: a request in any state reached by requests and freeing: it succeeds within four levels of
recursion, the requested connectivity is the right one, no available connectivity is changed. -/
theorem C52_setup (hT : Targets r D N T) (n : ℕ) {t : Topo} (hG : Good D N T t) {d1 d2 : ℕ}
    (h1 : d1 ≤ D) (h2 : d2 ≤ D) : Spec D N T t d1 d2 (setupConn r (n + 4) t d1 d2) := by
  obtain ⟨t2, hres, hG2, hE2, hn1, hn2⟩ := setup_builds hT n hG h1 h2
  rw [hres]
  obtain ⟨t3, e3, hG3, hE3, hc3⟩ := setup_both hT n hG2 h1 h2 hn1 hn2
  exact ⟨t3, e3, hG3, hE2.trans hE3, hc3⟩

/-- After a request the entities of both the dimensions are available. -/
theorem C52_setup_num (hT : Targets r D N T) (n : ℕ) {t : Topo} (hG : Good D N T t) {d1 d2 : ℕ}
    (h1 : d1 ≤ D) (h2 : d2 ≤ D) : ∃ t', setupConn r (n + 4) t d1 d2 = some t' ∧ t'.num d1 ≠ 0 ∧
      t'.num d2 ≠ 0 := by
  obtain ⟨t2, hres, hG2, -, hn1, hn2⟩ := setup_builds hT n hG h1 h2
  obtain ⟨t3, e3, hG3, hE3, -⟩ := setup_both hT n hG2 h1 h2 hn1 hn2
  exact ⟨t3, by rw [hres]; exact e3, hE3.num hT hG2 hG3 h1 hn1, hE3.num hT hG2 hG3 h2 hn2⟩

/-- Freeing. -/
theorem freeConn_good (hT : Targets r D N T) {t : Topo} (hG : Good D N T t) {d1 d2 : ℕ}
    (h1 : d1 ≤ D) (h2 : d2 ≤ D) (hne : ¬ (d1 = D ∧ d2 = 0)) : Good D N T (freeConn t d1 d2) ∧
      ((freeConn t d1 d2).conn d1 d2).num = 0 := by
  have hDp := hT.Dpos
  -- The effect of the freeing of one connectivity, without the pairs.
  have hone : ∀ (t : Topo) a b, t.D = D → (freeOne t a b).D = D ∧
      (¬ (0 < (0 : ℕ)) → (freeOne t a b).num 0 = t.num 0) ∧ (freeOne t a b).num D = t.num D ∧
      (∀ d, 0 < d → d < D → (freeOne t a b).num d = ((freeOne t a b).conn d 0).num) ∧
      (∀ x y, (freeOne t a b).conn x y = if x = a ∧ y = b then emptyConn else t.conn x y) := by
    intro t a b hD
    simp only [freeOne, Topo.setConn, hD]
    refine ⟨trivial, ?_, ?_, ?_, fun x y => trivial⟩
    · intro _; simp
    · rw [if_neg (by omega)]
    · intro d h0 hd
      rw [if_pos ⟨h0, hd⟩]
  unfold freeConn
  by_cases hc : (t.conn d1 d2).num = 0
  · rw [if_pos hc]
    exact ⟨hG, hc⟩
  · rw [if_neg hc]
    obtain ⟨a1, a2, a3, a4, a5⟩ := hone t d1 d2 hG.eqD
    have a2' := a2 (by omega)
    simp only [a1]
    by_cases hA : 0 < d1 ∧ d1 < D ∧ d2 = 0
    · rw [if_pos hA]
      obtain ⟨hA1, hA2, rfl⟩ := hA
      -- `D -> d1` was available with `d1 -> 0`.
      have hp := hG.pair d1 hA1 hA2 ((hG.ne hT h1 h2).1 hc)
      have hx : (freeOne t d1 0).conn D d1 = T D d1 := by rw [a5, if_neg (by omega)]; exact hp
      rw [if_neg (by rw [hx, hT.num D le_rfl d1 h1]; exact (hT.Npos D le_rfl).ne')]
      obtain ⟨b1, b2, b3, b4, b5⟩ := hone (freeOne t d1 0) D d1 a1
      have b2' := b2 (by omega)
      refine ⟨⟨b1, by rw [b2', a2', hG.num0], by rw [b3, a3, hG.numD], b4, ?_, ?_, ?_⟩, ?_⟩
      · intro x hx y hy
        rw [b5, a5]
        split
        · left; rfl
        · split
          · left; rfl
          · exact hG.conn x hx y hy
      · rw [b5, a5, if_neg (by omega), if_neg (by omega)]
        exact hG.cells
      · intro d h0 hd
        rw [b5, a5, b5, a5, if_neg (by omega)]
        by_cases h : d = d1
        · subst h
          rw [if_pos (by simp)]
          intro h'
          have h3 := congrArg Conn.num h'
          rw [hT.num d h1 0 (by omega)] at h3
          have := hT.Npos d h1
          simp only [emptyConn] at h3
          omega
        · rw [if_neg (by omega), if_neg (by omega), if_neg (by omega)]
          exact hG.pair d h0 hd
      · rw [b5, a5, if_neg (by omega), if_pos (by simp)]
        rfl
    · rw [if_neg hA]
      by_cases hB : d1 = D ∧ 0 < d2 ∧ d2 < D
      · rw [if_pos hB]
        obtain ⟨rfl, hB1, hB2⟩ := hB
        by_cases hcd : ((freeOne t d1 d2).conn d2 0).num = 0
        · rw [if_pos hcd]
          refine ⟨⟨a1, by rw [a2', hG.num0], by rw [a3, hG.numD], a4, ?_, ?_, ?_⟩, ?_⟩
          · intro x hx y hy
            rw [a5]
            split
            · left; rfl
            · exact hG.conn x hx y hy
          · rw [a5, if_neg (by omega)]
            exact hG.cells
          · intro d h0 hd h'
            by_cases h : d = d2
            · subst h
              rw [h', hT.num d h2 0 (by omega)] at hcd
              have := hT.Npos d h2
              omega
            · rw [a5, if_neg (by omega)] at h'
              rw [a5, if_neg (by omega)]
              exact hG.pair d h0 hd h'
          · rw [a5, if_pos (by simp)]
            rfl
        · rw [if_neg hcd]
          obtain ⟨b1, b2, b3, b4, b5⟩ := hone (freeOne t d1 d2) d2 0 a1
          have b2' := b2 (by omega)
          refine ⟨⟨b1, by rw [b2', a2', hG.num0], by rw [b3, a3, hG.numD], b4, ?_, ?_, ?_⟩, ?_⟩
          · intro x hx y hy
            rw [b5, a5]
            split
            · left; rfl
            · split
              · left; rfl
              · exact hG.conn x hx y hy
          · rw [b5, a5, if_neg (by omega), if_neg (by omega)]
            exact hG.cells
          · intro d h0 hd
            rw [b5, a5, b5, a5]
            by_cases h : d = d2
            · subst h
              rw [if_pos (by simp)]
              intro h'
              have h3 := congrArg Conn.num h'
              rw [hT.num d h2 0 (by omega)] at h3
              have := hT.Npos d h2
              simp only [emptyConn] at h3
              omega
            · rw [if_neg (by omega), if_neg (by omega), if_neg (by omega), if_neg (by omega)]
              exact hG.pair d h0 hd
          · rw [b5, a5, if_neg (by omega), if_pos (by simp)]
            rfl
      · rw [if_neg hB]
        refine ⟨⟨a1, by rw [a2', hG.num0], by rw [a3, hG.numD], a4, ?_, ?_, ?_⟩, ?_⟩
        · intro x hx y hy
          rw [a5]
          split
          · left; rfl
          · exact hG.conn x hx y hy
        · rw [a5, if_neg (by omega)]
          exact hG.cells
        · intro d h0 hd
          rw [a5, a5, if_neg (by omega), if_neg (by omega)]
          exact hG.pair d h0 hd
        · rw [a5, if_pos (by simp)]
          rfl

/-- The requests that keep the cell vertices. -/
def TopoOp.ok (D : ℕ) : TopoOp → Prop
  | .setup d1 d2 => d1 ≤ D ∧ d2 ≤ D
  | .free d1 d2 => d1 ≤ D ∧ d2 ≤ D ∧ ¬ (d1 = D ∧ d2 = 0)

theorem initTopo_good (hT : Targets r D N T) : Good D N T (initTopo D (N 0) (N D) (T D 0)) := by
  have hD := hT.Dpos
  refine ⟨rfl, by simp [initTopo], ?_, ?_, ?_, by simp [initTopo], ?_⟩
  · simp only [initTopo]; rw [if_neg (by omega), if_pos trivial]
  · intro d h0 hd
    simp only [initTopo]
    rw [if_neg (by omega), if_neg (by omega), if_neg (by omega)]
    rfl
  · intro a ha b hb
    simp only [initTopo]
    split
    · rename_i h; right; rw [h.1, h.2]
    · left; rfl
  · intro d h0 hd
    simp only [initTopo]
    rw [if_neg (by omega)]
    intro h
    have h3 := congrArg Conn.num h
    rw [hT.num d (by omega) 0 (by omega)] at h3
    have := hT.Npos d (by omega)
    simp only [emptyConn] at h3
    omega

/-- C52: any sequence of requests and freeing, starting with the cell vertices only, succeeds; then
every connectivity `d1 -> d2` is either empty or `T d1 d2`, which does not depend on the
sequence. -/
theorem C52_history (hT : Targets r D N T) (n : ℕ) (ops : List TopoOp) (hok : ∀ o ∈ ops, o.ok D) :
    ∃ t, ops.foldlM (TopoOp.run r (n + 4)) (initTopo D (N 0) (N D) (T D 0)) = some t ∧
      (∀ d1 ≤ D, ∀ d2 ≤ D, (t.conn d1 d2).num = 0 ∨ t.conn d1 d2 = T d1 d2) ∧ Good D N T t := by
  suffices h : ∀ t0, Good D N T t0 → ∃ t, ops.foldlM (TopoOp.run r (n + 4)) t0 = some t ∧
      Good D N T t by
    obtain ⟨t, h1, h2⟩ := h _ (initTopo_good hT)
    exact ⟨t, h1, h2.conn, h2⟩
  induction ops with
  | nil => intro t0 h; exact ⟨t0, rfl, h⟩
  | cons o ops ih =>
    intro t0 h
    rw [List.foldlM_cons]
    have ho := hok o (by simp)
    have hok' : ∀ o ∈ ops, o.ok D := fun o h => hok o (by simp [h])
    cases o with
    | setup d1 d2 =>
      obtain ⟨t1, e1, hG1, -, -⟩ := C52_setup hT n h ho.1 ho.2
      simp only [TopoOp.run]
      rw [e1]
      exact ih hok' t1 hG1
    | free d1 d2 =>
      have := (freeConn_good hT h ho.1 ho.2.1 ho.2.2).1
      exact ih hok' _ this

end Verif.CMesh
