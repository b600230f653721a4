/-
C70: mirrored meshes.
-/
import Mathlib.Tactic.FieldSimp
import Mathlib.Tactic.LinearCombination
import Verif.Mesh.PropsTools
import Verif.Mesh.SpecRefine

namespace Verif.Mesh

/-- The scalar product. -/
def dot3 (a b : Fin 3 → ℝ) : ℝ := a 0 * b 0 + a 1 * b 1 + a 2 * b 2

/-- The vector product. -/
def cross3 (a b : Fin 3 → ℝ) : Fin 3 → ℝ :=
  ![a 1 * b 2 - a 2 * b 1, a 2 * b 0 - a 0 * b 2, a 0 * b 1 - a 1 * b 0]

/-- The normalised normal vector. -/
noncomputable def unitV (v : Fin 3 → ℝ) : Fin 3 → ℝ := fun i => v i / Real.sqrt (dot3 v v)

theorem unitV_dot {v : Fin 3 → ℝ} (hv : v ≠ 0) : dot3 (unitV v) (unitV v) = 1 := by
  have hpos : 0 < dot3 v v := by
    by_contra hn
    apply hv
    unfold dot3 at hn
    have h0 : v 0 = 0 := by nlinarith [mul_self_nonneg (v 0), mul_self_nonneg (v 1), mul_self_nonneg (v 2)]
    have h1 : v 1 = 0 := by nlinarith [mul_self_nonneg (v 0), mul_self_nonneg (v 1), mul_self_nonneg (v 2)]
    have h2 : v 2 = 0 := by nlinarith [mul_self_nonneg (v 0), mul_self_nonneg (v 1), mul_self_nonneg (v 2)]
    funext i
    fin_cases i <;> assumption
  have hs := Real.mul_self_sqrt hpos.le
  have hs0 : Real.sqrt (dot3 v v) ≠ 0 := by
    intro h; rw [h] at hs; linarith
  unfold unitV
  rw [dot3]
  field_simp
  rw [pow_two (Real.sqrt _), hs]
  unfold dot3
  ring

theorem mirrorPt_eq (p v x : Fin 3 → ℝ) : mirrorPt p v x = x - (2 * dot3 (x - p) (unitV v)) • unitV v := by
  have e : (∑ j, v j ^ 2) = dot3 v v := by
    rw [Fin.sum_univ_three]; unfold dot3; ring
  funext i
  simp only [mirrorPt, e, Fin.sum_univ_three, Pi.sub_apply, Pi.smul_apply, smul_eq_mul, dot3, unitV]

/-- **The mirror image of a point**: on the normal line, the centre is in the plane; the plane is fixed,
and only the plane; images of images are the points; distances are kept. -/
theorem C70_mirror_point (p : Fin 3 → ℝ) {v : Fin 3 → ℝ} (hv : v ≠ 0) (x y : Fin 3 → ℝ) :
    (∃ t : ℝ, mirrorPt p v x - x = t • v) ∧
    dot3 ((1 / 2 : ℝ) • (x + mirrorPt p v x) - p) v = 0 ∧
    (mirrorPt p v x = x ↔ dot3 (x - p) v = 0) ∧
    mirrorPt p v (mirrorPt p v x) = x ∧
    dot3 (mirrorPt p v x - mirrorPt p v y) (mirrorPt p v x - mirrorPt p v y) = dot3 (x - y) (x - y) := by
  have hu := unitV_dot hv
  have hs0 : Real.sqrt (dot3 v v) ≠ 0 := by
    intro h
    have : unitV v = 0 := by
      funext i; simp [unitV, h]
    rw [this] at hu
    simp [dot3] at hu
  have hv' : v = Real.sqrt (dot3 v v) • unitV v := by
    funext i
    simp only [Pi.smul_apply, smul_eq_mul, unitV]
    field_simp
  have hd : ∀ z, dot3 z v = Real.sqrt (dot3 v v) * dot3 z (unitV v) := by
    intro z
    conv_lhs => rw [hv']
    simp only [dot3, Pi.smul_apply, smul_eq_mul]
    ring
  have hm := mirrorPt_eq p v
  generalize Real.sqrt (dot3 v v) = s at *
  generalize unitV v = w at *
  have hw : w 0 * w 0 + w 1 * w 1 + w 2 * w 2 = 1 := hu
  refine ⟨⟨-(2 * dot3 (x - p) w) / s, ?_⟩, ?_, ?_, ?_, ?_⟩
  · rw [hm, hv', smul_smul, div_mul_cancel₀ _ hs0, neg_smul]
    abel
  · rw [hd, hm]
    simp only [dot3, Pi.smul_apply, smul_eq_mul, Pi.add_apply, Pi.sub_apply]
    linear_combination (-s * ((x 0 - p 0) * w 0 + (x 1 - p 1) * w 1 + (x 2 - p 2) * w 2)) * hw
  · rw [hd, hm]
    constructor
    · intro h
      have h2 : (2 * dot3 (x - p) w) • w = 0 := by
        have := sub_eq_self.1 h; exact this
      have h3 : dot3 ((2 * dot3 (x - p) w) • w) w = 0 := by rw [h2]; simp [dot3]
      have h4 : dot3 ((2 * dot3 (x - p) w) • w) w = 2 * dot3 (x - p) w := by
        simp only [dot3, Pi.smul_apply, smul_eq_mul]
        linear_combination (2 * ((x - p) 0 * w 0 + (x - p) 1 * w 1 + (x - p) 2 * w 2)) * hw
      rw [h4] at h3
      rw [show dot3 (x - p) w = 0 by linarith, mul_zero]
    · intro h
      rcases mul_eq_zero.1 h with h | h
      · exact absurd h hs0
      · rw [h]; simp
  · rw [hm, hm]
    funext i
    simp only [dot3, Pi.smul_apply, smul_eq_mul, Pi.sub_apply]
    linear_combination (4 * ((x 0 - p 0) * w 0 + (x 1 - p 1) * w 1 + (x 2 - p 2) * w 2) * w i) * hw
  · rw [hm, hm]
    simp only [dot3, Pi.smul_apply, smul_eq_mul, Pi.sub_apply]
    linear_combination (4 * ((x 0 - y 0) * w 0 + (x 1 - y 1) * w 1 + (x 2 - y 2) * w 2) ^ 2) * hw

/-! ### Orientation -/

/-- The vertices of a mirrored cell. -/
noncomputable def mirrorCell (p v : Fin 3 → ℝ) (perm : List ℕ) {n : ℕ} (x : Fin n → Fin 3 → ℝ) (y : Fin n → Fin 3 → ℝ) :
    Prop := ∀ k j : Fin n, perm[(k : ℕ)]? = some (j : ℕ) → y k = mirrorPt p v (x j)

theorem mirrorPt_affine (p v : Fin 3 → ℝ) {n : ℕ} (w : Fin n → ℝ) (hw : ∑ i, w i = 1) (x : Fin n → Fin 3 → ℝ) :
    mirrorPt p v (∑ i, w i • x i) = ∑ i, w i • mirrorPt p v (x i) := by
  simp only [mirrorPt_eq]
  simp only [smul_sub, Finset.sum_sub_distrib, smul_smul]
  congr 1
  rw [← Finset.sum_smul]
  congr 1
  have e : ∑ i, w i * (2 * dot3 (x i - p) (unitV v)) =
      2 * dot3 (∑ i, w i • x i - (∑ i, w i) • p) (unitV v) := by
    rw [Finset.sum_smul, ← Finset.sum_sub_distrib]
    simp only [dot3, Finset.sum_apply, Finset.sum_mul, ← Finset.sum_add_distrib, Finset.mul_sum, Pi.sub_apply,
      Pi.smul_apply, smul_eq_mul]
    exact Finset.sum_congr rfl fun i _ => by ring
  rw [e, hw, one_smul]

/-- **Mirrored cells** have the same volume, the same sign included, for tetrahedrons; the normal vector
of a triangle is mirrored (so it is kept if the normal of the mirror is in the plane of the triangle);
the reference map of quadrilaterals and hexahedrons is mirrored, with one reversed reference
coordinate. -/
theorem C70_mirror_orientation (p : Fin 3 → ℝ) {v : Fin 3 → ℝ} (hv : v ≠ 0) :
    (∀ (perm : List ℕ) (x y : Fin 4 → Fin 3 → ℝ), mirrorMap 3 4 = some perm → mirrorCell p v perm x y →
      tetVol6 y = tetVol6 x) ∧
    (∀ (perm : List ℕ) (x y : Fin 3 → Fin 3 → ℝ), mirrorMap 2 3 = some perm → mirrorCell p v perm x y →
      cross3 (y 1 - y 0) (y 2 - y 0) = mirrorPt 0 v (cross3 (x 1 - x 0) (x 2 - x 0))) ∧
    (∀ (perm : List ℕ) (x y : Fin 4 → Fin 3 → ℝ), mirrorMap 2 4 = some perm → mirrorCell p v perm x y →
      ∀ s t : ℝ, bilinear y s t = mirrorPt p v (bilinear x (1 - s) t)) ∧
    (∀ (perm : List ℕ) (x y : Fin 8 → Fin 3 → ℝ), mirrorMap 3 8 = some perm → mirrorCell p v perm x y →
      ∀ s t u : ℝ, trilinear y s t u = mirrorPt p v (trilinear x (1 - s) t u)) := by
  have hu := unitV_dot hv
  have hm := mirrorPt_eq p v
  refine ⟨?_, ?_, ?_, ?_⟩
  · intro perm x y hp hc
    cases hp
    rw [show tetVol6 y = tetVol6 ![mirrorPt p v (x 1), mirrorPt p v (x 0), mirrorPt p v (x 2), mirrorPt p v (x 3)] by
      unfold tetVol6
      rw [hc 0 1 rfl, hc 1 0 rfl, hc 2 2 rfl, hc 3 3 rfl]; rfl]
    simp only [hm]
    generalize unitV v = w at *
    have hw : w 0 * w 0 + w 1 * w 1 + w 2 * w 2 = 1 := hu
    simp only [tetVol6, det3v, dot3, Matrix.cons_val_zero, Matrix.cons_val_one, Matrix.cons_val, Pi.smul_apply,
      Pi.add_apply, Pi.sub_apply, smul_eq_mul]
    linear_combination (2 * ((x 1 0 - x 0 0) * ((x 2 1 - x 0 1) * (x 3 2 - x 0 2) - (x 2 2 - x 0 2) * (x 3 1 - x 0 1)) -
      (x 1 1 - x 0 1) * ((x 2 0 - x 0 0) * (x 3 2 - x 0 2) - (x 2 2 - x 0 2) * (x 3 0 - x 0 0)) +
      (x 1 2 - x 0 2) * ((x 2 0 - x 0 0) * (x 3 1 - x 0 1) - (x 2 1 - x 0 1) * (x 3 0 - x 0 0)))) * hw
  · intro perm x y hp hc
    cases hp
    rw [hc 0 1 rfl, hc 1 0 rfl, hc 2 2 rfl]
    rw [mirrorPt_eq 0]
    simp only [hm]
    generalize unitV v = w at *
    have hw : w 0 * w 0 + w 1 * w 1 + w 2 * w 2 = 1 := hu
    funext i
    fin_cases i
    · simp only [cross3, dot3, Matrix.cons_val_zero, Matrix.cons_val_one, Matrix.cons_val, Pi.smul_apply,
        Pi.add_apply, Pi.sub_apply, Pi.zero_apply, smul_eq_mul, Fin.zero_eta]
      linear_combination (2 * ((x 1 1 - x 0 1) * (x 2 2 - x 0 2) - (x 1 2 - x 0 2) * (x 2 1 - x 0 1))) * hw
    · simp only [cross3, dot3, Matrix.cons_val_zero, Matrix.cons_val_one, Matrix.cons_val, Pi.smul_apply,
        Pi.add_apply, Pi.sub_apply, Pi.zero_apply, smul_eq_mul, Fin.mk_one]
      linear_combination (2 * ((x 1 2 - x 0 2) * (x 2 0 - x 0 0) - (x 1 0 - x 0 0) * (x 2 2 - x 0 2))) * hw
    · simp only [cross3, dot3, Matrix.cons_val_zero, Matrix.cons_val_one, Matrix.cons_val, Pi.smul_apply,
        Pi.add_apply, Pi.sub_apply, Pi.zero_apply, smul_eq_mul, Fin.reduceFinMk]
      linear_combination (2 * ((x 1 0 - x 0 0) * (x 2 1 - x 0 1) - (x 1 1 - x 0 1) * (x 2 0 - x 0 0))) * hw
  · intro perm x y hp hc s t
    cases hp
    have h := mirrorPt_affine p v ![(s * (1 - t)), ((1 - s) * (1 - t)), ((1 - s) * t), (s * t)]
      (by simp [Fin.sum_univ_four]; ring) x
    rw [Fin.sum_univ_four, Fin.sum_univ_four] at h
    simp only [Matrix.cons_val_zero, Matrix.cons_val_one, Matrix.cons_val] at h
    unfold bilinear
    rw [hc 0 1 rfl, hc 1 0 rfl, hc 2 3 rfl, hc 3 2 rfl, sub_sub_cancel, h]
    abel
  · intro perm x y hp hc s t u
    cases hp
    have h := mirrorPt_affine p v ![s * (1 - t) * (1 - u), (1 - s) * (1 - t) * (1 - u), (1 - s) * t * (1 - u),
      s * t * (1 - u), s * (1 - t) * u, (1 - s) * (1 - t) * u, (1 - s) * t * u, s * t * u]
      (by simp [Fin.sum_univ_eight]; ring) x
    rw [Fin.sum_univ_eight, Fin.sum_univ_eight] at h
    simp only [Matrix.cons_val_zero, Matrix.cons_val_one, Matrix.cons_val] at h
    unfold trilinear
    rw [hc 0 1 rfl, hc 1 0 rfl, hc 2 3 rfl, hc 3 2 rfl, hc 4 5 rfl, hc 5 4 rfl, hc 6 7 rfl, hc 7 6 rfl,
      sub_sub_cancel, h]
    abel

/-! ### The mesh -/

theorem mapM_get {A B : Type} {f : A → Option B} {l : List A} {r : List B} (h : l.mapM f = some r) :
    r.length = l.length ∧ ∀ (i : ℕ) (a : A), l[i]? = some a → ∃ b, f a = some b ∧ r[i]? = some b := by
  induction l generalizing r with
  | nil =>
    simp only [List.mapM_nil, pure, Option.some.injEq] at h
    subst h
    simp
  | cons x l ih =>
    rw [List.mapM_cons] at h
    cases hx : f x with
    | none => rw [hx] at h; simp at h
    | some y =>
      cases hl : l.mapM f with
      | none => rw [hx, hl] at h; simp at h
      | some t =>
        rw [hx, hl] at h
        simp only [Option.bind_eq_bind, Option.bind_some, pure, Option.some.injEq] at h
        subst h
        obtain ⟨h1, h2⟩ := ih hl
        refine ⟨by simp [h1], ?_⟩
        intro i a hi
        cases i with
        | zero =>
          have : x = a := by simpa using hi
          subst this
          exact ⟨y, hx, by simp⟩
        | succ i => simpa using h2 i a (by simpa using hi)

/-- **Mirrored meshes**: the mesh before merging of nodes.  The nodes `v` and `v + n` are a node and its
mirror image; the first half of cells are the given cells, the second half have the mirrored vertices,
permuted; groups are kept. -/
theorem C70_mirror_mesh {p v : Fin 3 → ℝ} {m r : KMesh (Fin 3 → ℝ)} (h : MeshOk m) (hr : mirrorRaw p v m = some r) :
    MeshOk r ∧
    r.coors.length = 2 * m.coors.length ∧
    (∀ (i : ℕ) (x : Fin 3 → ℝ) , m.coors[i]? = some x →
      r.coors[i]? = some x ∧ r.coors[i + m.coors.length]? = some (mirrorPt p v x) ∧
      r.vgroups[i]? = m.vgroups[i]? ∧ r.vgroups[i + m.coors.length]? = m.vgroups[i]?) ∧
    r.blocks.length = m.blocks.length ∧
    ∀ (k : ℕ) (b : Block), m.blocks[k]? = some b → ∃ (b' : Block) (perm : List ℕ),
      r.blocks[k]? = some b' ∧ mirrorMap b.dim b.nv = some perm ∧ b'.dim = b.dim ∧ b'.nv = b.nv ∧
      b'.conn.length = 2 * b.conn.length ∧
      ∀ (q : ℕ) (row : List ℕ), b.conn[q]? = some row →
        b'.conn[q]? = some row ∧ b'.mats[q]? = b.mats[q]? ∧ b'.mats[q + b.conn.length]? = b.mats[q]? ∧
        ∃ row' : List ℕ, b'.conn[q + b.conn.length]? = some row' ∧
          ∀ j < b.nv, ∀ x, (m.coors[row.getD (perm.getD j 0) 0]? = some x →
            r.coors[row'.getD j 0]? = some (mirrorPt p v x)) := by
  unfold mirrorRaw at hr
  cases hb : m.blocks.mapM (mirrorBlock m.coors.length) with
  | none => rw [hb] at hr; simp at hr
  | some bs =>
    rw [hb, Option.map_some, Option.some.injEq] at hr
    subst hr
    obtain ⟨hlen, hget⟩ := mapM_get hb
    have hnode : ∀ (i : ℕ) (x : Fin 3 → ℝ), m.coors[i]? = some x →
        (m.coors ++ m.coors.map (mirrorPt p v))[i + m.coors.length]? = some (mirrorPt p v x) := by
      intro i x hx
      rw [List.getElem?_append_right (by omega), Nat.add_sub_cancel, List.getElem?_map, hx]
      rfl
    have hperm : ∀ (b : Block) (perm : List ℕ), mirrorMap b.dim b.nv = some perm →
        perm.length = b.nv ∧ ∀ k ∈ perm, k < b.nv := by
      intro b perm hp
      unfold mirrorMap at hp
      split at hp <;> first | (cases hp; simp_all) | cases hp
    have hblk : ∀ (b : Block), b ∈ m.blocks → ∀ b', mirrorBlock m.coors.length b = some b' →
        b'.mats.length = b'.conn.length ∧
        ∀ row ∈ b'.conn, row.length = b'.nv ∧ ∀ w ∈ row, w < m.coors.length + m.coors.length := by
      intro b hbm b' hb'
      unfold mirrorBlock at hb'
      cases hp : mirrorMap b.dim b.nv with
      | none => rw [hp] at hb'; simp at hb'
      | some perm =>
        rw [hp, Option.map_some, Option.some.injEq] at hb'
        subst hb'
        obtain ⟨hp1, hp2⟩ := hperm b perm hp
        refine ⟨by simp [h.mats b hbm], ?_⟩
        intro row hrow
        simp only [List.mem_append, List.mem_map] at hrow
        rcases hrow with hrow | ⟨row0, hr0, rfl⟩
        · have := h.rows b hbm row hrow
          exact ⟨this.1, fun w hw => by have := this.2 w hw; omega⟩
        · have := h.rows b hbm row0 hr0
          refine ⟨by simp [hp1], ?_⟩
          intro w hw
          simp only [List.mem_map] at hw
          obtain ⟨u, ⟨k, hk, rfl⟩, rfl⟩ := hw
          have hk' : k < row0.length := by rw [this.1]; exact hp2 k hk
          have := this.2 (row0.getD k 0) (by
            rw [List.getD_eq_getElem?_getD, List.getElem?_eq_getElem hk']; exact List.getElem_mem hk')
          omega
    refine ⟨⟨?_, ?_, ?_⟩, ?_, ?_, hlen, ?_⟩
    · simp [h.vg]
    · intro b' hb'
      obtain ⟨k, hk⟩ := List.getElem?_of_mem hb'
      have hkl : k < m.blocks.length := by rw [← hlen]; exact (List.getElem?_eq_some_iff.1 hk).1
      obtain ⟨c, hc1, hc2⟩ := hget k _ (List.getElem?_eq_getElem hkl)
      have : c = b' := Option.some.inj (hc2.symm.trans hk)
      subst this
      exact (hblk _ (List.getElem_mem hkl) _ hc1).1
    · intro b' hb'
      obtain ⟨k, hk⟩ := List.getElem?_of_mem hb'
      have hkl : k < m.blocks.length := by rw [← hlen]; exact (List.getElem?_eq_some_iff.1 hk).1
      obtain ⟨c, hc1, hc2⟩ := hget k _ (List.getElem?_eq_getElem hkl)
      have : c = b' := Option.some.inj (hc2.symm.trans hk)
      subst this
      simpa using (hblk _ (List.getElem_mem hkl) _ hc1).2
    · simp; ring
    · intro i x hx
      have hi := (List.getElem?_eq_some_iff.1 hx).1
      refine ⟨?_, hnode i x hx, ?_, ?_⟩
      · rw [List.getElem?_append_left hi, hx]
      · rw [List.getElem?_append_left (by rw [h.vg]; exact hi)]
      · rw [List.getElem?_append_right (by rw [h.vg]; omega), h.vg, Nat.add_sub_cancel]
    · intro k b hk
      obtain ⟨b', hb', hk'⟩ := hget k b hk
      have hbm := List.mem_of_getElem? hk
      unfold mirrorBlock at hb'
      cases hp : mirrorMap b.dim b.nv with
      | none => rw [hp] at hb'; simp at hb'
      | some perm =>
        rw [hp, Option.map_some, Option.some.injEq] at hb'
        subst hb'
        obtain ⟨hp1, hp2⟩ := hperm b perm hp
        refine ⟨_, perm, hk', rfl, rfl, rfl, by simp; ring, ?_⟩
        intro q row hq
        have hql := (List.getElem?_eq_some_iff.1 hq).1
        have hqm : q < b.mats.length := by rw [h.mats b hbm]; exact hql
        refine ⟨?_, ?_, ?_, (perm.map fun k => row.getD k 0).map fun v => v + m.coors.length, ?_, ?_⟩
        · rw [List.getElem?_append_left hql, hq]
        · rw [List.getElem?_append_left hqm]
        · rw [List.getElem?_append_right (by rw [h.mats b hbm]; omega), h.mats b hbm, Nat.add_sub_cancel]
        · rw [List.getElem?_append_right (by omega), Nat.add_sub_cancel, List.getElem?_map, hq]
          rfl
        · intro j hj x hx
          have hjp : j < perm.length := by rw [hp1]; exact hj
          have e : ((perm.map fun k => row.getD k 0).map fun v => v + m.coors.length).getD j 0 =
              row.getD (perm.getD j 0) 0 + m.coors.length := by
            simp only [List.getD_eq_getElem?_getD, List.getElem?_map, List.getElem?_eq_getElem hjp,
              Option.map_some, Option.getD_some]
          rw [e]
          exact hnode _ _ hx

/-- The nodes in the plane of the mirror are not doubled. -/
theorem C70_mirror_plane {eps : ℝ} {p v : Fin 3 → ℝ} (hv : v ≠ 0) {m r s : KMesh (Fin 3 → ℝ)} (h : MeshOk m)
    (hr : mirrorRaw p v m = some r) {M : ℕ → ℕ} (hM : NodesMerged eps r s M) (i : ℕ) (x : Fin 3 → ℝ)
    (hx : m.coors[i]? = some x) (hp : dot3 (x - p) v = 0) : M i = M (i + m.coors.length) := by
  obtain ⟨-, hlen, hn, -⟩ := C70_mirror_mesh h hr
  obtain ⟨h1, h2, -⟩ := hn i x hx
  rw [((C70_mirror_point p hv x x).2.2.1).2 hp] at h2
  have hi := (List.getElem?_eq_some_iff.1 hx).1
  refine (hM.same i (by omega) _ (by omega)).2 (.rel _ _ ⟨x, x, h1, h2, near_self eps x⟩)

end Verif.Mesh
