/-
C67: refinement of quadrilaterals and hexahedrons.
-/
import Verif.Mesh.PropsRefineGeo

namespace Verif.Mesh

section

variable {K V : Type} [Field K] [LinearOrder K] [IsStrictOrderedRing K] [AddCommGroup V] [Module K V]

/-- Origins and directions of the four subdivisions of the unit square. -/
def o24 : ℕ → K × K
  | 0 => (0, 0) | 1 => (1, 0) | 2 => (1, 1) | _ => (0, 1)
def a24 : ℕ → K × K
  | 0 => (1 / 2, 0) | 1 => (0, 1 / 2) | 2 => (-1 / 2, 0) | _ => (0, -1 / 2)
def b24 : ℕ → K × K
  | 0 => (0, 1 / 2) | 1 => (-1 / 2, 0) | 2 => (0, -1 / 2) | _ => (1 / 2, 0)

theorem tiling24 : SquareTiling (K := K) 4 o24 a24 b24 := by
  refine ⟨?_, ?_, ?_, ?_⟩
  · intro k hk
    rcases lt4 hk with rfl | rfl | rfl | rfl <;> norm_num [a24, b24]
  · intro k hk s t h1 h2 h3 h4
    rcases lt4 hk with rfl | rfl | rfl | rfl <;>
    · simp only [o24, a24, b24, Prod.smul_mk, Prod.mk_add_mk, smul_eq_mul]
      refine ⟨⟨?_, ?_⟩, ⟨?_, ?_⟩⟩ <;> linarith
  · intro p q h1 h2 h3 h4
    rcases le_total p (1 / 2) with c1 | c1 <;> rcases le_total q (1 / 2) with c2 | c2
    · refine ⟨0, by omega, 2 * p, 2 * q, by linarith, by linarith, by linarith, by linarith, ?_⟩
      simp only [o24, a24, b24, Prod.smul_mk, Prod.mk_add_mk, smul_eq_mul, Prod.mk.injEq]
      constructor <;> ring
    · refine ⟨3, by omega, 2 - 2 * q, 2 * p, by linarith, by linarith, by linarith, by linarith, ?_⟩
      simp only [o24, a24, b24, Prod.smul_mk, Prod.mk_add_mk, smul_eq_mul, Prod.mk.injEq]
      constructor <;> ring
    · refine ⟨1, by omega, 2 * q, 2 - 2 * p, by linarith, by linarith, by linarith, by linarith, ?_⟩
      simp only [o24, a24, b24, Prod.smul_mk, Prod.mk_add_mk, smul_eq_mul, Prod.mk.injEq]
      constructor <;> ring
    · refine ⟨2, by omega, 2 - 2 * p, 2 - 2 * q, by linarith, by linarith, by linarith, by linarith, ?_⟩
      simp only [o24, a24, b24, Prod.smul_mk, Prod.mk_add_mk, smul_eq_mul, Prod.mk.injEq]
      constructor <;> ring
  · intro k hk l hl s t s' t' h1 h2 h3 h4 h5 h6 h7 h8 e
    rcases lt4 hk with rfl | rfl | rfl | rfl <;> rcases lt4 hl with rfl | rfl | rfl | rfl <;>
      first
      | rfl
      | (exfalso
         simp only [o24, a24, b24, Prod.smul_mk, Prod.mk_add_mk, smul_eq_mul, Prod.mk.injEq] at e
         obtain ⟨e1, e2⟩ := e
         linarith)

omit [LinearOrder K] [IsStrictOrderedRing K] in
theorem child24 (x : ℕ → V) :
    childPts K 4 edges24 [] tab24 4 x 0 = ![x 0, (1 / 2 : K) • (x 0 + x 1),
      (1 / 4 : K) • (x 0 + x 1 + x 2 + x 3), (1 / 2 : K) • (x 3 + x 0)] ∧
    childPts K 4 edges24 [] tab24 4 x 1 = ![x 1, (1 / 2 : K) • (x 1 + x 2),
      (1 / 4 : K) • (x 0 + x 1 + x 2 + x 3), (1 / 2 : K) • (x 0 + x 1)] ∧
    childPts K 4 edges24 [] tab24 4 x 2 = ![x 2, (1 / 2 : K) • (x 2 + x 3),
      (1 / 4 : K) • (x 0 + x 1 + x 2 + x 3), (1 / 2 : K) • (x 1 + x 2)] ∧
    childPts K 4 edges24 [] tab24 4 x 3 = ![x 3, (1 / 2 : K) • (x 3 + x 0),
      (1 / 4 : K) • (x 0 + x 1 + x 2 + x 3), (1 / 2 : K) • (x 2 + x 3)] := by
  refine ⟨?_, ?_, ?_, ?_⟩ <;>
  · funext c
    fin_cases c <;>
      simp only [childPts, tab24, ptPos, edges24, List.getD_cons_zero, List.getD_cons_succ, meanOf_two,
        meanOf_range4,
        Fin.zero_eta, Fin.mk_one, Fin.reduceFinMk, Fin.isValue, Matrix.cons_val_zero,
        Matrix.cons_val_one, Matrix.cons_val, Nat.reduceMul, Nat.reduceAdd, zero_mul, one_mul,
        Nat.zero_add, Nat.add_zero]

theorem bilinear24 (x : ℕ → V) {t : ℕ} (ht : t < 4) (s u : K) :
    bilinear (childPts K 4 edges24 [] tab24 4 x t) s u =
      bilinear (fun v : Fin 4 => x v) (o24 t + s • a24 t + u • b24 t : K × K).1
        (o24 t + s • a24 t + u • b24 t : K × K).2 := by
  obtain ⟨h0, h1, h2, h3⟩ := child24 (K := K) x
  rcases lt4 ht with rfl | rfl | rfl | rfl
  all_goals
    first
    | rw [h0]
    | rw [h1]
    | rw [h2]
    | rw [h3]
    simp only [bilinear, o24, a24, b24, Prod.smul_mk, Prod.mk_add_mk, smul_eq_mul,
      Matrix.cons_val_zero, Matrix.cons_val_one, Matrix.cons_val,
      Fin.coe_ofNat_eq_mod, Nat.zero_mod, Nat.reduceMod, Nat.one_mod]
    module

/-- **Refinement of quadrilaterals.**  The unit square is tiled by the images of itself in four affine
maps with the determinant 1/4, the same for all meshes and cells; the bilinear map of the child `t` of
a cell is the bilinear map of the cell after the affine map `t`.  The children have the group of the
cell. -/
theorem C67_quadrilaterals : ∃ o a b : ℕ → K × K, SquareTiling 4 o a b ∧
    ∀ (m : RMesh V), Topo 4 edges24 [] m → ∀ (i : ℕ) (row : List ℕ), m.conn[i]? = some row →
      ∀ t < 4, ∃ r, (refine24 K m).conn[4 * i + t]? = some r ∧
        (refine24 K m).groups[4 * i + t]? = m.groups[i]? ∧
        ∀ s u : K, bilinear (vtxs (refine24 K m).coors r 4) s u =
          bilinear (vtxs m.coors row 4) (o t + s • a t + u • b t).1 (o t + s • a t + u • b t).2 := by
  refine ⟨o24, a24, b24, tiling24, ?_⟩
  intro m h i row hr t ht
  obtain ⟨r, h1, h2⟩ := refine24_child (K := K) h hr ht
  refine ⟨r, h1, ?_, ?_⟩
  · have hi : i < m.groups.length := by
      rw [h.groups]; exact (List.getElem?_eq_some_iff.1 hr).1
    rw [List.getElem?_eq_getElem hi]
    exact groupsRepeat_get ht (List.getElem?_eq_getElem hi)
  · intro s u
    rw [h2, bilinear24 _ ht]
    rfl

/-! ### Hexahedrons -/

def o38 : ℕ → K × K × K
  | 0 => (0, 0, 0) | 1 => (1, 0, 0) | 2 => (1, 1, 0) | 3 => (0, 1, 0)
  | 4 => (0, 0, 1) | 5 => (1, 0, 1) | 6 => (1, 1, 1) | _ => (0, 1, 1)
def a38 : ℕ → K × K × K
  | 0 => (1 / 2, 0, 0) | 1 => (0, 1 / 2, 0) | 2 => (-1 / 2, 0, 0) | 3 => (0, -1 / 2, 0)
  | 4 => (0, 1 / 2, 0) | 5 => (-1 / 2, 0, 0) | 6 => (0, -1 / 2, 0) | _ => (1 / 2, 0, 0)
def b38 : ℕ → K × K × K
  | 0 => (0, 1 / 2, 0) | 1 => (-1 / 2, 0, 0) | 2 => (0, -1 / 2, 0) | 3 => (1 / 2, 0, 0)
  | 4 => (1 / 2, 0, 0) | 5 => (0, 1 / 2, 0) | 6 => (-1 / 2, 0, 0) | _ => (0, -1 / 2, 0)
def c38 : ℕ → K × K × K
  | 0 => (0, 0, 1 / 2) | 1 => (0, 0, 1 / 2) | 2 => (0, 0, 1 / 2) | 3 => (0, 0, 1 / 2)
  | _ => (0, 0, -1 / 2)

theorem half38 {k : ℕ} (hk : k < 8) {s t u : K} (h1 : 0 < s) (h2 : s < 1) (h3 : 0 < t) (h4 : t < 1)
    (h5 : 0 < u) (h6 : u < 1) :
    ((o38 k + s • a38 k + t • b38 k + u • c38 k : K × K × K).1 < 1 / 2 ↔
      k = 0 ∨ k = 3 ∨ k = 4 ∨ k = 7) ∧
    ((o38 k + s • a38 k + t • b38 k + u • c38 k : K × K × K).2.1 < 1 / 2 ↔
      k = 0 ∨ k = 1 ∨ k = 4 ∨ k = 5) ∧
    ((o38 k + s • a38 k + t • b38 k + u • c38 k : K × K × K).2.2 < 1 / 2 ↔ k < 4) := by
  rcases lt8 hk with rfl | rfl | rfl | rfl | rfl | rfl | rfl | rfl <;>
  · simp only [o38, a38, b38, c38, Prod.smul_mk, Prod.mk_add_mk, smul_eq_mul]
    refine ⟨?_, ?_, ?_⟩ <;>
      first
      | exact iff_of_true (by linarith) (by simp)
      | exact iff_of_false (by linarith) (by simp)

theorem tiling38 : CubeTiling (K := K) 8 o38 a38 b38 c38 := by
  refine ⟨?_, ?_, ?_, ?_⟩
  · intro k hk
    rcases lt8 hk with rfl | rfl | rfl | rfl | rfl | rfl | rfl | rfl <;> norm_num [a38, b38, c38]
  · intro k hk s t u h1 h2 h3 h4 h5 h6
    rcases lt8 hk with rfl | rfl | rfl | rfl | rfl | rfl | rfl | rfl <;>
    · simp only [o38, a38, b38, c38, Prod.smul_mk, Prod.mk_add_mk, smul_eq_mul]
      refine ⟨⟨?_, ?_⟩, ⟨?_, ?_⟩, ⟨?_, ?_⟩⟩ <;> linarith
  · intro p q r h1 h2 h3 h4 h5 h6
    have mk : ∀ k < 8, ∀ s t u : K, 0 ≤ s ∧ s ≤ 1 ∧ 0 ≤ t ∧ t ≤ 1 ∧ 0 ≤ u ∧ u ≤ 1 →
        o38 k + s • a38 k + t • b38 k + u • c38 k = (p, q, r) →
        ∃ k < 8, ∃ s t u : K, 0 ≤ s ∧ s ≤ 1 ∧ 0 ≤ t ∧ t ≤ 1 ∧ 0 ≤ u ∧ u ≤ 1 ∧
          o38 k + s • a38 k + t • b38 k + u • c38 k = (p, q, r) := by
      rintro k hk s t u ⟨k1, k2, k3, k4, k5, k6⟩ e
      exact ⟨k, hk, s, t, u, k1, k2, k3, k4, k5, k6, e⟩
    rcases le_total p (1 / 2) with c1 | c1 <;> rcases le_total q (1 / 2) with c2 | c2 <;>
      rcases le_total r (1 / 2) with c3 | c3
    · refine mk 0 (by omega) (2 * p) (2 * q) (2 * r) (by refine ⟨?_, ?_, ?_, ?_, ?_, ?_⟩ <;> linarith) ?_
      simp only [o38, a38, b38, c38, Prod.smul_mk, Prod.mk_add_mk, smul_eq_mul, Prod.mk.injEq]
      refine ⟨?_, ?_, ?_⟩ <;> ring
    · refine mk 4 (by omega) (2 * q) (2 * p) (2 - 2 * r)
        (by refine ⟨?_, ?_, ?_, ?_, ?_, ?_⟩ <;> linarith) ?_
      simp only [o38, a38, b38, c38, Prod.smul_mk, Prod.mk_add_mk, smul_eq_mul, Prod.mk.injEq]
      refine ⟨?_, ?_, ?_⟩ <;> ring
    · refine mk 3 (by omega) (2 - 2 * q) (2 * p) (2 * r)
        (by refine ⟨?_, ?_, ?_, ?_, ?_, ?_⟩ <;> linarith) ?_
      simp only [o38, a38, b38, c38, Prod.smul_mk, Prod.mk_add_mk, smul_eq_mul, Prod.mk.injEq]
      refine ⟨?_, ?_, ?_⟩ <;> ring
    · refine mk 7 (by omega) (2 * p) (2 - 2 * q) (2 - 2 * r)
        (by refine ⟨?_, ?_, ?_, ?_, ?_, ?_⟩ <;> linarith) ?_
      simp only [o38, a38, b38, c38, Prod.smul_mk, Prod.mk_add_mk, smul_eq_mul, Prod.mk.injEq]
      refine ⟨?_, ?_, ?_⟩ <;> ring
    · refine mk 1 (by omega) (2 * q) (2 - 2 * p) (2 * r)
        (by refine ⟨?_, ?_, ?_, ?_, ?_, ?_⟩ <;> linarith) ?_
      simp only [o38, a38, b38, c38, Prod.smul_mk, Prod.mk_add_mk, smul_eq_mul, Prod.mk.injEq]
      refine ⟨?_, ?_, ?_⟩ <;> ring
    · refine mk 5 (by omega) (2 - 2 * p) (2 * q) (2 - 2 * r)
        (by refine ⟨?_, ?_, ?_, ?_, ?_, ?_⟩ <;> linarith) ?_
      simp only [o38, a38, b38, c38, Prod.smul_mk, Prod.mk_add_mk, smul_eq_mul, Prod.mk.injEq]
      refine ⟨?_, ?_, ?_⟩ <;> ring
    · refine mk 2 (by omega) (2 - 2 * p) (2 - 2 * q) (2 * r)
        (by refine ⟨?_, ?_, ?_, ?_, ?_, ?_⟩ <;> linarith) ?_
      simp only [o38, a38, b38, c38, Prod.smul_mk, Prod.mk_add_mk, smul_eq_mul, Prod.mk.injEq]
      refine ⟨?_, ?_, ?_⟩ <;> ring
    · refine mk 6 (by omega) (2 - 2 * q) (2 - 2 * p) (2 - 2 * r)
        (by refine ⟨?_, ?_, ?_, ?_, ?_, ?_⟩ <;> linarith) ?_
      simp only [o38, a38, b38, c38, Prod.smul_mk, Prod.mk_add_mk, smul_eq_mul, Prod.mk.injEq]
      refine ⟨?_, ?_, ?_⟩ <;> ring
  · intro k hk l hl s t u s' t' u' h1 h2 h3 h4 h5 h6 g1 g2 g3 g4 g5 g6 e
    obtain ⟨p1, p2, p3⟩ := half38 hk h1 h2 h3 h4 h5 h6
    obtain ⟨q1, q2, q3⟩ := half38 hl g1 g2 g3 g4 g5 g6
    rw [e] at p1 p2 p3
    rw [p1] at q1
    rw [p2] at q2
    rw [p3] at q3
    omega

omit [LinearOrder K] [IsStrictOrderedRing K] in
theorem pts38b (x : ℕ → V) :
    ptPos K 8 edges38 faces38 x .b
      = (1 / 8 : K) • (x 0 + x 1 + x 2 + x 3 + x 4 + x 5 + x 6 + x 7) := meanOf_eight x

omit [LinearOrder K] [IsStrictOrderedRing K] in
theorem pts38c (x : ℕ → V) (v : ℕ) : ptPos K 8 edges38 faces38 x (.c v) = x v := rfl

omit [LinearOrder K] [IsStrictOrderedRing K] in
theorem pts38e (x : ℕ → V) (j : ℕ) :
    ptPos K 8 edges38 faces38 x (.e j) = meanOf K x (edges38.getD j []) := rfl

omit [LinearOrder K] [IsStrictOrderedRing K] in
theorem pts38f (x : ℕ → V) (j : ℕ) :
    ptPos K 8 edges38 faces38 x (.f j) = meanOf K x (faces38.getD j []) := rfl

theorem trilinear38 (x : ℕ → V) {t : ℕ} (ht : t < 8) (s u v : K) :
    trilinear (childPts K 8 edges38 faces38 tab38 8 x t) s u v =
      trilinear (fun v : Fin 8 => x v) (o38 t + s • a38 t + u • b38 t + v • c38 t : K × K × K).1
        (o38 t + s • a38 t + u • b38 t + v • c38 t : K × K × K).2.1
        (o38 t + s • a38 t + u • b38 t + v • c38 t : K × K × K).2.2 := by
  rcases lt8 ht with rfl | rfl | rfl | rfl | rfl | rfl | rfl | rfl
  all_goals
    simp only [trilinear, o38, a38, b38, c38, Prod.smul_mk, Prod.mk_add_mk, smul_eq_mul,
      childPts, tab38, List.getD_cons_zero, List.getD_cons_succ, pts38b, pts38c, pts38e, pts38f,
      Nat.reduceMul, Nat.reduceAdd, zero_mul, one_mul, Nat.zero_add, Nat.add_zero,
      Fin.coe_ofNat_eq_mod, Nat.zero_mod, Nat.reduceMod, Nat.one_mod]
    simp only [edges38, faces38, List.getD_cons_zero, List.getD_cons_succ, meanOf_two, meanOf_four]
    module

/-- **Refinement of hexahedrons**, as `C67_quadrilaterals`, with eight children, the trilinear maps and
the determinants 1/8. -/
theorem C67_hexahedrons : ∃ o a b c : ℕ → K × K × K, CubeTiling 8 o a b c ∧
    ∀ (m : RMesh V), Topo 8 edges38 faces38 m → ∀ (i : ℕ) (row : List ℕ), m.conn[i]? = some row →
      ∀ t < 8, ∃ r, (refine38 K m).conn[8 * i + t]? = some r ∧
        (refine38 K m).groups[8 * i + t]? = m.groups[i]? ∧
        ∀ s u v : K, trilinear (vtxs (refine38 K m).coors r 8) s u v =
          trilinear (vtxs m.coors row 8) (o t + s • a t + u • b t + v • c t).1
            (o t + s • a t + u • b t + v • c t).2.1 (o t + s • a t + u • b t + v • c t).2.2 := by
  refine ⟨o38, a38, b38, c38, tiling38, ?_⟩
  intro m h i row hr t ht
  obtain ⟨r, h1, h2⟩ := refine38_child (K := K) h hr ht
  refine ⟨r, h1, ?_, ?_⟩
  · have hi : i < m.groups.length := by
      rw [h.groups]; exact (List.getElem?_eq_some_iff.1 hr).1
    rw [List.getElem?_eq_getElem hi]
    exact groupsRepeat_get ht (List.getElem?_eq_getElem hi)
  · intro s u v
    rw [h2, trilinear38 _ ht]
    rfl

end

end Verif.Mesh
