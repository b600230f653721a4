/-
C70: extruded meshes.
-/
import Verif.Mesh.PropsMirror
import Verif.Mesh.PropsRefineConf

namespace Verif.Mesh

/-! ### Wedges -/

section

variable {K V : Type} [Field K] [LinearOrder K] [IsStrictOrderedRing K] [AddCommGroup V] [Module K V]

/-- The prism over a triangle: the triangle moved along `z`. -/
def Prism (x : Fin 3 → V) (z : V) : Set V :=
  {p | ∃ q ∈ Simplex (K := K) x, ∃ u : K, 0 ≤ u ∧ u ≤ 1 ∧ p = q + u • z}

/-- The vertices of a wedge: a triangle and the moved triangle. -/
def wedgeVtx (x : Fin 3 → V) (z : V) : ℕ → V
  | 0 => x 0
  | 1 => x 1
  | 2 => x 2
  | 3 => x 0 + z
  | 4 => x 1 + z
  | _ => x 2 + z

/-- The vertices of the tetrahedron `t` of a wedge. -/
def wedgeTet (x : Fin 3 → V) (z : V) (t : ℕ) : Fin 4 → V :=
  fun l => wedgeVtx x z ((wedgeTets.getD t []).getD l 0)

theorem wedgeTet_eq (x : Fin 3 → V) (z : V) :
    wedgeTet x z 0 = ![x 0, x 1, x 2, x 2 + z] ∧ wedgeTet x z 1 = ![x 0, x 1, x 2 + z, x 1 + z] ∧
    wedgeTet x z 2 = ![x 0, x 1 + z, x 2 + z, x 0 + z] := by
  refine ⟨?_, ?_, ?_⟩ <;> (funext l; fin_cases l <;> rfl)

/-- A point of a wedge tetrahedron in the coordinates of the prism. -/
theorem wedge_point (x : Fin 3 → V) (z : V) (w : Fin 4 → K) :
    ∑ i, w i • wedgeTet x z 0 i = w 0 • x 0 + w 1 • x 1 + (w 2 + w 3) • x 2 + w 3 • z ∧
    ∑ i, w i • wedgeTet x z 1 i = w 0 • x 0 + (w 1 + w 3) • x 1 + w 2 • x 2 + (w 2 + w 3) • z ∧
    ∑ i, w i • wedgeTet x z 2 i = (w 0 + w 3) • x 0 + w 1 • x 1 + w 2 • x 2 + (w 1 + w 2 + w 3) • z := by
  obtain ⟨e0, e1, e2⟩ := wedgeTet_eq x z
  rw [e0, e1, e2]
  simp only [Fin.sum_univ_four, Matrix.cons_val_zero, Matrix.cons_val_one, Matrix.cons_val]
  refine ⟨?_, ?_, ?_⟩ <;> module

theorem wedge_cover (x : Fin 3 → V) (z p : V) :
    p ∈ Prism (K := K) x z ↔ ∃ t < 3, p ∈ Simplex (K := K) (wedgeTet x z t) := by
  constructor
  · rintro ⟨q, ⟨w, hw, hs, rfl⟩, u, hu0, hu1, rfl⟩
    rw [Fin.sum_univ_three] at hs
    have h0 := hw 0
    have h1 := hw 1
    have h2 := hw 2
    rcases le_total u (w 2) with h | h
    · refine ⟨0, by omega, ![w 0, w 1, w 2 - u, u], ?_, ?_, ?_⟩
      · intro i; fin_cases i <;> simp <;> linarith
      · rw [Fin.sum_univ_four]; simp; linarith
      · rw [(wedge_point x z _).1, Fin.sum_univ_three]; simp
    · rcases le_total u (w 1 + w 2) with h' | h'
      · refine ⟨1, by omega, ![w 0, w 1 + w 2 - u, w 2, u - w 2], ?_, ?_, ?_⟩
        · intro i; fin_cases i <;> simp <;> linarith
        · rw [Fin.sum_univ_four]; simp; linarith
        · rw [(wedge_point x z _).2.1, Fin.sum_univ_three]; simp
      · refine ⟨2, by omega, ![w 0 + w 1 + w 2 - u, w 1, w 2, u - w 1 - w 2], ?_, ?_, ?_⟩
        · intro i; fin_cases i <;> simp <;> linarith
        · rw [Fin.sum_univ_four]; simp; linarith
        · rw [(wedge_point x z _).2.2, Fin.sum_univ_three]
          simp only [Matrix.cons_val_zero, Matrix.cons_val_one, Matrix.cons_val]
          module
  · rintro ⟨t, ht, w, hw, hs, rfl⟩
    rw [Fin.sum_univ_four] at hs
    have h0 := hw 0
    have h1 := hw 1
    have h2 := hw 2
    have h3 := hw 3
    have ht : t = 0 ∨ t = 1 ∨ t = 2 := by omega
    rcases ht with rfl | rfl | rfl
    · refine ⟨_, ⟨![w 0, w 1, w 2 + w 3], ?_, ?_, rfl⟩, w 3, h3, by linarith, ?_⟩
      · intro i; fin_cases i <;> simp <;> linarith
      · rw [Fin.sum_univ_three]; simp; linarith
      · rw [(wedge_point x z _).1, Fin.sum_univ_three]; simp
    · refine ⟨_, ⟨![w 0, w 1 + w 3, w 2], ?_, ?_, rfl⟩, w 2 + w 3, by linarith, by linarith, ?_⟩
      · intro i; fin_cases i <;> simp <;> linarith
      · rw [Fin.sum_univ_three]; simp; linarith
      · rw [(wedge_point x z _).2.1, Fin.sum_univ_three]; simp
    · refine ⟨_, ⟨![w 0 + w 3, w 1, w 2], ?_, ?_, rfl⟩, w 1 + w 2 + w 3, by linarith, by linarith, ?_⟩
      · intro i; fin_cases i <;> simp <;> linarith
      · rw [Fin.sum_univ_three]; simp; linarith
      · rw [(wedge_point x z _).2.2, Fin.sum_univ_three]; simp

/-- The triangle and the direction are in a general position. -/
def PrismIndep (K : Type) [Field K] [Module K V] (x : Fin 3 → V) (z : V) : Prop :=
  ∀ (w w' : Fin 3 → K) (u u' : K), ∑ i, w i = 1 → ∑ i, w' i = 1 →
    ∑ i, w i • x i + u • z = ∑ i, w' i • x i + u' • z → w = w' ∧ u = u'

theorem wedge_disjoint {x : Fin 3 → V} {z : V} (h : PrismIndep K x z) {t t' : ℕ} (ht : t < 3) (ht' : t' < 3)
    (hne : t ≠ t') (p : V) (h1 : p ∈ SimplexInt (K := K) (wedgeTet x z t)) :
    p ∉ SimplexInt (K := K) (wedgeTet x z t') := by
  rintro ⟨w', hw', hs', e'⟩
  obtain ⟨w, hw, hs, e⟩ := h1
  rw [e] at e'
  rw [Fin.sum_univ_four] at hs hs'
  have a0 := hw 0
  have a1 := hw 1
  have a2 := hw 2
  have a3 := hw 3
  have b0 := hw' 0
  have b1 := hw' 1
  have b2 := hw' 2
  have b3 := hw' 3
  have key : ∀ (v : Fin 4 → K), v 0 + v 1 + v 2 + v 3 = 1 → ∀ s < 3, ∃ (c : Fin 3 → K) (u : K), ∑ i, c i = 1 ∧
      ∑ i, v i • wedgeTet x z s i = ∑ i, c i • x i + u • z ∧
      (s = 0 → c 2 = v 2 + v 3 ∧ c 1 = v 1 ∧ u = v 3) ∧
      (s = 1 → c 2 = v 2 ∧ c 1 = v 1 + v 3 ∧ u = v 2 + v 3) ∧
      (s = 2 → c 2 = v 2 ∧ c 1 = v 1 ∧ u = v 1 + v 2 + v 3) := by
    intro v hv s hs
    have hs : s = 0 ∨ s = 1 ∨ s = 2 := by omega
    rcases hs with rfl | rfl | rfl
    · refine ⟨![v 0, v 1, v 2 + v 3], v 3, ?_, ?_, by simp, by simp, by simp⟩
      · rw [Fin.sum_univ_three]; simp; linarith
      · rw [(wedge_point x z _).1, Fin.sum_univ_three]; simp
    · refine ⟨![v 0, v 1 + v 3, v 2], v 2 + v 3, ?_, ?_, by simp, by simp, by simp⟩
      · rw [Fin.sum_univ_three]; simp; linarith
      · rw [(wedge_point x z _).2.1, Fin.sum_univ_three]; simp
    · refine ⟨![v 0 + v 3, v 1, v 2], v 1 + v 2 + v 3, ?_, ?_, by simp, by simp, by simp⟩
      · rw [Fin.sum_univ_three]; simp; linarith
      · rw [(wedge_point x z _).2.2, Fin.sum_univ_three]; simp
  obtain ⟨c, u, hc, hcu, k0, k1, k2⟩ := key w hs t ht
  obtain ⟨c', u', hc', hcu', l0, l1, l2⟩ := key w' hs' t' ht'
  rw [hcu, hcu'] at e'
  obtain ⟨rfl, rfl⟩ := h c c' u u' hc hc' e'
  have ht : t = 0 ∨ t = 1 ∨ t = 2 := by omega
  have ht' : t' = 0 ∨ t' = 1 ∨ t' = 2 := by omega
  rcases ht with rfl | rfl | rfl <;> rcases ht' with rfl | rfl | rfl <;> try exact hne rfl
  · obtain ⟨p1, p2, p3⟩ := k0 rfl; obtain ⟨q1, q2, q3⟩ := l1 rfl; linarith
  · obtain ⟨p1, p2, p3⟩ := k0 rfl; obtain ⟨q1, q2, q3⟩ := l2 rfl; linarith
  · obtain ⟨p1, p2, p3⟩ := k1 rfl; obtain ⟨q1, q2, q3⟩ := l0 rfl; linarith
  · obtain ⟨p1, p2, p3⟩ := k1 rfl; obtain ⟨q1, q2, q3⟩ := l2 rfl; linarith
  · obtain ⟨p1, p2, p3⟩ := k2 rfl; obtain ⟨q1, q2, q3⟩ := l0 rfl; linarith
  · obtain ⟨p1, p2, p3⟩ := k2 rfl; obtain ⟨q1, q2, q3⟩ := l1 rfl; linarith

theorem wedge_volume (x : Fin 3 → Fin 3 → K) (z : Fin 3 → K) {t : ℕ} (ht : t < 3) :
    tetVol6 (wedgeTet x z t) = det3v (x 1 - x 0) (x 2 - x 0) z := by
  obtain ⟨e0, e1, e2⟩ := wedgeTet_eq x z
  have ht : t = 0 ∨ t = 1 ∨ t = 2 := by omega
  rcases ht with rfl | rfl | rfl
  · rw [e0]
    simp only [tetVol6, det3v, Matrix.cons_val_zero, Matrix.cons_val_one, Matrix.cons_val, Pi.add_apply, Pi.sub_apply]
    ring
  · rw [e1]
    simp only [tetVol6, det3v, Matrix.cons_val_zero, Matrix.cons_val_one, Matrix.cons_val, Pi.add_apply, Pi.sub_apply]
    ring
  · rw [e2]
    simp only [tetVol6, det3v, Matrix.cons_val_zero, Matrix.cons_val_one, Matrix.cons_val, Pi.add_apply, Pi.sub_apply]
    ring

end

/-! ### Numbering -/

theorem getElem?_flatMapC {A B : Type} (l : List A) (f : A → List B) {c : ℕ} (hf : ∀ a ∈ l, (f a).length = c)
    {i t : ℕ} (ht : t < c) : (l.flatMap f)[c * i + t]? = (l[i]?).bind fun a => (f a)[t]? := by
  induction l generalizing i with
  | nil => simp
  | cons a l ih =>
    rw [List.flatMap_cons]
    have ha := hf a List.mem_cons_self
    cases i with
    | zero => rw [List.getElem?_append_left (by omega)]; simp
    | succ i =>
      rw [List.getElem?_append_right (by rw [ha, Nat.mul_succ]; omega)]
      have e : c * (i + 1) + t - (f a).length = c * i + t := by rw [ha, Nat.mul_succ]; omega
      rw [e, ih fun a ha => hf a (List.mem_cons_of_mem _ ha)]
      simp

theorem length_flatMapC {A B : Type} (l : List A) (f : A → List B) {c : ℕ} (hf : ∀ a ∈ l, (f a).length = c) :
    (l.flatMap f).length = l.length * c := by
  rw [List.length_flatMap, List.map_congr_left (g := fun _ => c) hf]
  simp

/-- A point over a point of the plane. -/
def lift3 (x : Fin 2 → ℝ) (z : ℝ) : Fin 3 → ℝ := ![x 0, x 1, z]

theorem meanCoor_z (l : List (Fin 2 → ℝ)) : meanCoor (l.map embed3) 2 = 0 := by
  unfold meanCoor
  have : (List.map (fun x => x 2) (l.map embed3)).sum = 0 := by
    induction l with
    | nil => simp
    | cons a l ih => simp only [List.map_cons, List.sum_cons, ih]; simp [embed3]
  rw [this, zero_div]

theorem embed3_sub (x : Fin 2 → ℝ) {c : Fin 3 → ℝ} (hz : c 2 = 0) : embed3 x - c = ![x 0 - c 0, x 1 - c 1, 0] := by
  funext i
  rw [Pi.sub_apply]
  fin_cases i
  · rfl
  · rfl
  · show x 0 * 0 - c 2 = 0
    rw [hz]; ring

theorem expand_coor (dz : ℝ) (nz : ℕ) (order : List (ℕ × ℕ)) (m : KMesh (Fin 2 → ℝ)) (hvg : m.vgroups.length = m.coors.length)
    {k : ℕ} (hk : k ≤ nz) {v : ℕ} (hv : v < m.coors.length) :
    (expand2d dz nz order m).coors[v + m.coors.length * k]? = (m.coors[v]?).map (fun x =>
      if 0 < dz ∨ k = 0 then lift3 x (k * dz) else lift3 ![x 0, 2 * meanCoor (m.coors.map embed3) 1 - x 1] (k * dz)) ∧
    (expand2d dz nz order m).vgroups[v + m.coors.length * k]? = m.vgroups[v]? := by
  have hz := meanCoor_z m.coors
  constructor
  · simp only [expand2d, extrudeCoors]
    generalize meanCoor (m.coors.map embed3) = c at hz
    have hl : (straightLine c dz nz).length = nz + 1 := by simp [straightLine]
    have hg : ∀ j ≤ nz, (straightLine c dz nz).getD j 0 = ![c 0, c 1, (j : ℝ) * dz] := by
      intro j hj
      simp [straightLine, List.getD_eq_getElem?_getD, List.getElem?_map, List.getElem?_range (show j < nz + 1 by omega)]
    cases k with
    | zero =>
      rw [Nat.mul_zero, Nat.add_zero, List.getElem?_append_left (by simpa using hv), hg 0 (by omega)]
      simp only [List.getElem?_map, List.getElem?_eq_getElem hv, Option.map_some, or_true, if_true]
      rw [embed3_sub _ hz]
      congr 1
      funext i
      fin_cases i <;> simp [lift3]
    | succ k =>
      have e : v + m.coors.length * (k + 1) = m.coors.length + (m.coors.length * k + v) := by
        rw [Nat.mul_succ]; omega
      rw [List.getElem?_append_right (by simp; rw [e]; omega), hl, e]
      simp only [List.length_map, Nat.add_sub_cancel_left, Nat.add_sub_cancel]
      rw [getElem?_flatMapC _ _ (c := m.coors.length) (by simp) hv, List.getElem?_range (by omega)]
      simp only [Option.bind_some, List.getElem?_map, List.getElem?_eq_getElem hv, Option.map_some,
        hg (k + 1) (by omega), Option.some.injEq]
      rw [embed3_sub _ hz]
      by_cases hd : 0 < dz
      · rw [if_pos (Or.inl hd)]
        funext i
        fin_cases i <;> simp [straightRot, hd, lift3]
      · rw [if_neg (by simp [hd])]
        funext i
        fin_cases i
        · simp [straightRot, hd, lift3]
        · simp [straightRot, hd, lift3]; ring
        · simp [straightRot, hd, lift3]
  · simp only [expand2d]
    have e : (List.replicate (nz + 1) m.vgroups).flatten = (List.range (nz + 1)).flatMap fun _ => m.vgroups := by
      generalize nz + 1 = n
      induction n with
      | zero => rfl
      | succ n ih =>
        rw [List.range_succ, List.flatMap_append, ← ih, List.replicate_succ', List.flatten_append]
        simp
    rw [e, Nat.add_comm v, getElem?_flatMapC _ _ (c := m.coors.length) (by simp [hvg]) hv,
      List.getElem?_range (by omega)]
    rfl

/-- **Nodes of expanded meshes**: `rep + 1` copies of the nodes, one above the other. -/
theorem C70_expand_nodes {dz : ℝ} (hdz : 0 < dz) (nz : ℕ) (order : List (ℕ × ℕ)) {m : KMesh (Fin 2 → ℝ)} (h : MeshOk m) :
    (expand2d dz nz order m).coors.length = m.coors.length * (nz + 1) ∧
    ∀ k ≤ nz, ∀ v < m.coors.length,
      (expand2d dz nz order m).coors[v + m.coors.length * k]? = (m.coors[v]?).map (fun x => lift3 x (k * dz)) ∧
      (expand2d dz nz order m).vgroups[v + m.coors.length * k]? = m.vgroups[v]? := by
  refine ⟨?_, ?_⟩
  · simp only [expand2d, extrudeCoors, List.length_append, List.length_map, straightLine, List.length_range]
    rw [length_flatMapC _ _ (c := m.coors.length) (by simp)]
    simp; ring
  · intro k hk v hv
    have := expand_coor dz nz order m h.vg hk hv
    simpa [hdz] using this

/-- The code is wrong for negative distances: all the layers but the first one are rotated around the
axis `x` through the centre. -/
theorem C70_expand_negative {dz : ℝ} (hdz : dz < 0) (nz : ℕ) (order : List (ℕ × ℕ)) {m : KMesh (Fin 2 → ℝ)} (h : MeshOk m)
    (k : ℕ) (hk : k + 1 ≤ nz) (v : ℕ) (x : Fin 2 → ℝ) (hv : m.coors[v]? = some x) :
    (expand2d dz nz order m).coors[v]? = some (lift3 x 0) ∧
    (expand2d dz nz order m).coors[v + m.coors.length * (k + 1)]? =
      some (lift3 ![x 0, 2 * meanCoor (m.coors.map embed3) 1 - x 1] ((k + 1 : ℕ) * dz)) := by
  have hvl := (List.getElem?_eq_some_iff.1 hv).1
  have h0 := (expand_coor dz nz order m h.vg (Nat.zero_le nz) hvl).1
  have h1 := (expand_coor dz nz order m h.vg hk hvl).1
  rw [hv] at h0 h1
  refine ⟨by simpa using h0, ?_⟩
  rw [h1, Option.map_some, if_neg]
  rintro (h | h)
  · linarith
  · omega

/-! ### Cells -/

theorem stack_single {bs : List Block} {d : ℕ × ℕ} (h : ∀ b ∈ bs, (b.dim, b.nv) = d) :
    stackDescs [d] bs =
      [{ dim := d.1, nv := d.2, conn := bs.flatMap fun b => b.conn, mats := bs.flatMap fun b => b.mats }] := by
  simp only [stackDescs, List.map_cons, List.map_nil]
  have : (bs.filter fun b => (b.dim, b.nv) == d) = bs := by
    rw [List.filter_eq_self]
    intro b hb
    rw [beq_iff_eq]; exact h b hb
  rw [this]

/-- The points above the points of a plane set, with the last coordinate in an interval. -/
def Above (S : Set (Fin 2 → ℝ)) (a b : ℝ) : Set (Fin 3 → ℝ) := {p | ![p 0, p 1] ∈ S ∧ a ≤ p 2 ∧ p 2 ≤ b}

theorem prism_above (x : Fin 3 → Fin 2 → ℝ) (a : ℝ) {dz : ℝ} (hdz : 0 < dz) :
    Prism (K := ℝ) (fun i => lift3 (x i) a) ![0, 0, dz] = Above (Simplex (K := ℝ) x) a (a + dz) := by
  ext p
  constructor
  · rintro ⟨q, ⟨w, hw, hs, rfl⟩, u, hu0, hu1, rfl⟩
    rw [Fin.sum_univ_three] at hs
    refine ⟨⟨w, hw, by rw [Fin.sum_univ_three]; exact hs, ?_⟩, ?_, ?_⟩
    · funext i
      rw [Fin.sum_univ_three, Fin.sum_univ_three]
      fin_cases i <;> simp [lift3]
    · rw [Fin.sum_univ_three]
      simp only [lift3, Pi.add_apply, Pi.smul_apply, smul_eq_mul, Matrix.cons_val]
      have e : w 0 * a + w 1 * a + w 2 * a = a := by rw [← add_mul, ← add_mul, hs, one_mul]
      rw [e]
      nlinarith
    · rw [Fin.sum_univ_three]
      simp only [lift3, Pi.add_apply, Pi.smul_apply, smul_eq_mul, Matrix.cons_val]
      have e : w 0 * a + w 1 * a + w 2 * a = a := by rw [← add_mul, ← add_mul, hs, one_mul]
      rw [e]
      nlinarith
  · rintro ⟨⟨w, hw, hs, hp⟩, h1, h2⟩
    have hs' := hs
    rw [Fin.sum_univ_three] at hs'
    refine ⟨_, ⟨w, hw, hs, rfl⟩, (p 2 - a) / dz, by apply div_nonneg <;> linarith, ?_, ?_⟩
    · rw [div_le_one hdz]; linarith
    · have h0 := congrFun hp 0
      have h1 := congrFun hp 1
      rw [Fin.sum_univ_three] at h0 h1
      rw [Fin.sum_univ_three]
      simp only [Pi.add_apply, Pi.smul_apply, smul_eq_mul, Matrix.cons_val_zero, Matrix.cons_val_one] at h0 h1
      funext i
      fin_cases i
      · simp [lift3]; exact h0
      · simp [lift3]; exact h1
      · simp only [lift3, Pi.add_apply, Pi.smul_apply, smul_eq_mul, Matrix.cons_val, Fin.reduceFinMk]
        have e : w 0 * a + w 1 * a + w 2 * a = a := by rw [← add_mul, ← add_mul, hs', one_mul]
        rw [e]
        field_simp
        ring

theorem prism_indep {x : Fin 3 → Fin 2 → ℝ} (h : AffIndep ℝ x) (a : ℝ) {dz : ℝ} (hdz : 0 < dz) :
    PrismIndep ℝ (fun i => lift3 (x i) a) ![0, 0, dz] := by
  intro w w' u u' hs hs' e
  have hw : w = w' := by
    refine h w w' hs hs' ?_
    funext i
    rw [Fin.sum_univ_three, Fin.sum_univ_three]
    rw [Fin.sum_univ_three, Fin.sum_univ_three] at e
    have e0 := congrFun e 0
    have e1 := congrFun e 1
    simp [lift3] at e0 e1
    fin_cases i
    · simpa using e0
    · simpa using e1
  subst hw
  refine ⟨rfl, ?_⟩
  have e2 := congrFun (add_left_cancel e) 2
  simp at e2
  rcases e2 with h | h
  · exact h
  · linarith

/-- The vertices of an extruded cell. -/
theorem expand_vtx {dz : ℝ} (hdz : 0 < dz) {nz : ℕ} (order : List (ℕ × ℕ)) {m : KMesh (Fin 2 → ℝ)} (h : MeshOk m)
    {k : ℕ} (hk : k < nz) {row : List ℕ} (hrow : ∀ v ∈ row, v < m.coors.length) {l : ℕ} (hl : l < row.length) :
    vtx (expand2d dz nz order m).coors (extrudeRow m.coors.length k row) l = lift3 (vtx m.coors row l) (k * dz) ∧
    vtx (expand2d dz nz order m).coors (extrudeRow m.coors.length k row) (row.length + l) =
      lift3 (vtx m.coors row l) ((k + 1) * dz) := by
  obtain ⟨-, hn⟩ := C70_expand_nodes hdz nz order h
  have hv := hrow _ (List.getElem_mem hl)
  constructor
  · have e : (extrudeRow m.coors.length k row).getD l 0 = row[l] + m.coors.length * k := by
      unfold extrudeRow
      rw [List.getD_eq_getElem?_getD, List.getElem?_append_left (by simpa using hl), List.getElem?_map,
        List.getElem?_eq_getElem hl]
      rfl
    unfold vtx
    rw [e, List.getD_eq_getElem?_getD, (hn k (by omega) _ hv).1]
    simp only [List.getD_eq_getElem?_getD, List.getElem?_eq_getElem hl, Option.getD_some, List.getElem?_eq_getElem hv,
      Option.map_some]
  · have e : (extrudeRow m.coors.length k row).getD (row.length + l) 0 = row[l] + m.coors.length * (k + 1) := by
      unfold extrudeRow
      rw [List.getD_eq_getElem?_getD, List.getElem?_append_right (by simp), List.getElem?_map, List.length_map,
        Nat.add_sub_cancel_left, List.getElem?_eq_getElem hl]
      rfl
    unfold vtx
    rw [e, List.getD_eq_getElem?_getD, (hn (k + 1) (by omega) _ hv).1]
    simp only [List.getD_eq_getElem?_getD, List.getElem?_eq_getElem hl, Option.getD_some, List.getElem?_eq_getElem hv,
      Option.map_some]
    push_cast
    rfl

theorem lift3_add (x : Fin 2 → ℝ) (a dz : ℝ) : lift3 x (a + dz) = lift3 x a + ![0, 0, dz] := by
  funext i
  fin_cases i <;> simp [lift3]

/-- **Expanded triangles**: the cell `q` in the layer `k` gives three tetrahedrons with the group of the
cell; they fill the prism above the triangle, do not overlap, and have the same (signed) volumes. -/
theorem C70_expand_triangles {dz : ℝ} (hdz : 0 < dz) (nz : ℕ) {m : KMesh (Fin 2 → ℝ)} {b : Block} (h : MeshOk m)
    (hb : m.blocks = [b]) (hnv : b.nv = 3) :
    ∃ b' : Block, (expand2d dz nz [(3, 4)] m).blocks = [b'] ∧ b'.dim = 3 ∧ b'.nv = 4 ∧
      b'.conn.length = 3 * (b.conn.length * nz) ∧
      ∀ k < nz, ∀ (q : ℕ) (row : List ℕ), b.conn[q]? = some row →
        ∃ r : ℕ → List ℕ, (∀ t < 3, b'.conn[3 * (b.conn.length * k + q) + t]? = some (r t)) ∧
          (∀ t < 3, b'.mats[3 * (b.conn.length * k + q) + t]? = b.mats[q]?) ∧
          (∀ p, p ∈ Above (Simplex (K := ℝ) (vtxs m.coors row 3)) (k * dz) ((k + 1) * dz) ↔
            ∃ t < 3, p ∈ Simplex (K := ℝ) (vtxs (expand2d dz nz [(3, 4)] m).coors (r t) 4)) ∧
          (AffIndep ℝ (vtxs m.coors row 3) → ∀ t < 3, ∀ t' < 3, t ≠ t' → ∀ p,
            p ∈ SimplexInt (K := ℝ) (vtxs (expand2d dz nz [(3, 4)] m).coors (r t) 4) →
            p ∉ SimplexInt (K := ℝ) (vtxs (expand2d dz nz [(3, 4)] m).coors (r t') 4)) ∧
          ∀ t < 3, tetVol6 (vtxs (expand2d dz nz [(3, 4)] m).coors (r t) 4) =
            triArea2 (vtxs m.coors row 3) * dz := by
  have hbm : b ∈ m.blocks := by rw [hb]; exact List.mem_cons_self
  have hrows := h.rows b hbm
  have hmats := h.mats b hbm
  have hblocks : (expand2d dz nz [(3, 4)] m).blocks =
      [{ dim := 3, nv := 4
         conn := (List.range nz).flatMap fun k => (b.conn.map (extrudeRow m.coors.length k)).flatMap fun row =>
           wedgeTets.map fun t => t.map fun l => row.getD l 0
         mats := (List.range nz).flatMap fun _ => b.mats.flatMap fun g => List.replicate 3 g }] := by
    simp only [expand2d]
    have e : extrudeBlocks true nz m = (List.range nz).map fun k =>
        { dim := 3, nv := 4
          conn := (b.conn.map (extrudeRow m.coors.length k)).flatMap fun row =>
            wedgeTets.map fun t => t.map fun l => row.getD l 0
          mats := b.mats.flatMap fun g => List.replicate 3 g } := by
      unfold extrudeBlocks
      rw [hb]
      simp only [List.map_cons, List.map_nil, List.flatMap_cons, List.flatMap_nil, List.append_nil]
      rw [← List.map_eq_flatMap]
      refine List.map_congr_left fun k _ => ?_
      unfold extrudeBlock
      rw [if_pos ⟨by rw [hnv], rfl⟩]
    rw [e, stack_single (by intro b hb; obtain ⟨k, _, rfl⟩ := List.mem_map.1 hb; rfl)]
    simp only [List.flatMap_map]
  have hcl : ∀ k, ((b.conn.map (extrudeRow m.coors.length k)).flatMap fun row =>
      wedgeTets.map fun t => t.map fun l => row.getD l 0).length = 3 * b.conn.length := by
    intro k
    rw [length_flatMapC _ _ (c := 3) (by simp [wedgeTets]), List.length_map, Nat.mul_comm]
  have hml : (b.mats.flatMap fun g => List.replicate 3 g).length = 3 * b.conn.length := by
    rw [length_flatMapC _ _ (c := 3) (by simp), hmats, Nat.mul_comm]
  refine ⟨_, hblocks, rfl, rfl, ?_, ?_⟩
  · rw [length_flatMapC _ _ (c := 3 * b.conn.length) (fun k _ => hcl k), List.length_range]; ring
  · intro k hk q row hq
    have hql := (List.getElem?_eq_some_iff.1 hq).1
    obtain ⟨hr3, hrlt⟩ := hrows row (List.mem_of_getElem? hq)
    rw [hnv] at hr3
    have hidx : ∀ t, 3 * (b.conn.length * k + q) + t = (3 * b.conn.length) * k + (3 * q + t) := by intro t; ring
    have hcell : ∀ t < 3, vtxs (expand2d dz nz [(3, 4)] m).coors
        ((wedgeTets.getD t []).map fun l => (extrudeRow m.coors.length k row).getD l 0) 4 =
        wedgeTet (fun i => lift3 (vtxs m.coors row 3 i) (k * dz)) ![0, 0, dz] t := by
      intro t ht
      have hv := fun l (hl : l < row.length) => expand_vtx hdz [(3, 4)] h hk hrlt hl
      rw [hr3] at hv
      have e1 : ((k : ℝ) + 1) * dz = k * dz + dz := by ring
      obtain ⟨a0, b0⟩ := hv 0 (by omega)
      obtain ⟨a1, b1⟩ := hv 1 (by omega)
      obtain ⟨a2, b2⟩ := hv 2 (by omega)
      rw [e1, lift3_add] at b0 b1 b2
      obtain ⟨e0, e1, e2⟩ := wedgeTet_eq (fun i => lift3 (vtxs m.coors row 3 i) (k * dz)) ![0, 0, dz]
      have ht : t = 0 ∨ t = 1 ∨ t = 2 := by omega
      rcases ht with rfl | rfl | rfl
      · rw [e0]
        funext l
        fin_cases l
        · exact a0
        · exact a1
        · exact a2
        · exact b2
      · rw [e1]
        funext l
        fin_cases l
        · exact a0
        · exact a1
        · exact b2
        · exact b1
      · rw [e2]
        funext l
        fin_cases l
        · exact a0
        · exact b1
        · exact b2
        · exact b0
    refine ⟨fun t => (wedgeTets.getD t []).map fun l => (extrudeRow m.coors.length k row).getD l 0, ?_, ?_, ?_, ?_, ?_⟩
    · intro t ht
      rw [hidx, getElem?_flatMapC _ _ (c := 3 * b.conn.length) (fun k _ => hcl k) (by omega),
        List.getElem?_range hk, Option.bind_some, getElem?_flatMapC _ _ (c := 3) (by simp [wedgeTets]) ht,
        List.getElem?_map, hq]
      have ht3 : t < wedgeTets.length := ht
      simp [List.getElem?_map, List.getElem?_eq_getElem ht3]
    · intro t ht
      rw [hidx, getElem?_flatMapC _ _ (c := 3 * b.conn.length) (fun k _ => hml) (by omega),
        List.getElem?_range hk, Option.bind_some, getElem?_flatMapC _ _ (c := 3) (by simp) ht]
      have hqm : q < b.mats.length := by rw [hmats]; exact hql
      rw [List.getElem?_eq_getElem hqm]
      rw [Option.bind_some, List.getElem?_replicate, if_pos ht]
    · intro p
      rw [show ((k : ℝ) + 1) * dz = k * dz + dz by ring, ← prism_above _ _ hdz, wedge_cover]
      constructor
      · rintro ⟨t, ht, hp⟩; exact ⟨t, ht, by rw [hcell t ht]; exact hp⟩
      · rintro ⟨t, ht, hp⟩; exact ⟨t, ht, by rw [hcell t ht] at hp; exact hp⟩
    · intro hx t ht t' ht' hne p h1 h2
      rw [hcell t ht] at h1
      rw [hcell t' ht'] at h2
      exact wedge_disjoint (prism_indep hx _ hdz) ht ht' hne p h1 h2
    · intro t ht
      rw [hcell t ht, wedge_volume _ _ ht]
      simp only [det3v, triArea2, lift3, Pi.sub_apply, Matrix.cons_val_zero, Matrix.cons_val_one, Matrix.cons_val]
      ring

/-- **Expanded quadrilaterals**: the cell `q` in the layer `k` gives a hexahedron, whose reference map is
the one of the quadrilateral and the height. -/
theorem C70_expand_quads {dz : ℝ} (hdz : 0 < dz) (nz : ℕ) {m : KMesh (Fin 2 → ℝ)} {b : Block} (h : MeshOk m)
    (hb : m.blocks = [b]) (hnv : b.nv = 4) :
    ∃ b' : Block, (expand2d dz nz [(3, 8)] m).blocks = [b'] ∧ b'.dim = 3 ∧ b'.nv = 8 ∧
      b'.conn.length = b.conn.length * nz ∧
      ∀ k < nz, ∀ (q : ℕ) (row : List ℕ), b.conn[q]? = some row →
        ∃ r : List ℕ, b'.conn[b.conn.length * k + q]? = some r ∧ b'.mats[b.conn.length * k + q]? = b.mats[q]? ∧
          ∀ s t u : ℝ, trilinear (vtxs (expand2d dz nz [(3, 8)] m).coors r 8) s t u =
            lift3 (bilinear (vtxs m.coors row 4) s t) ((k + u) * dz) := by
  have hbm : b ∈ m.blocks := by rw [hb]; exact List.mem_cons_self
  have hrows := h.rows b hbm
  have hmats := h.mats b hbm
  have hblocks : (expand2d dz nz [(3, 8)] m).blocks =
      [{ dim := 3, nv := 8
         conn := (List.range nz).flatMap fun k => b.conn.map (extrudeRow m.coors.length k)
         mats := (List.range nz).flatMap fun _ => b.mats }] := by
    simp only [expand2d]
    have e : extrudeBlocks true nz m = (List.range nz).map fun k =>
        { dim := 3, nv := 8, conn := b.conn.map (extrudeRow m.coors.length k), mats := b.mats } := by
      unfold extrudeBlocks
      rw [hb]
      simp only [List.map_cons, List.map_nil, List.flatMap_cons, List.flatMap_nil, List.append_nil]
      rw [← List.map_eq_flatMap]
      refine List.map_congr_left fun k _ => ?_
      unfold extrudeBlock
      rw [if_neg (by rw [hnv]; omega), hnv]
    rw [e, stack_single (by intro b hb; obtain ⟨k, _, rfl⟩ := List.mem_map.1 hb; rfl)]
    simp only [List.flatMap_map]
  refine ⟨_, hblocks, rfl, rfl, ?_, ?_⟩
  · rw [length_flatMapC _ _ (c := b.conn.length) (by simp), List.length_range]; ring
  · intro k hk q row hq
    have hql := (List.getElem?_eq_some_iff.1 hq).1
    obtain ⟨hr4, hrlt⟩ := hrows row (List.mem_of_getElem? hq)
    rw [hnv] at hr4
    refine ⟨extrudeRow m.coors.length k row, ?_, ?_, ?_⟩
    · rw [getElem?_flatMapC _ _ (c := b.conn.length) (by simp) hql, List.getElem?_range hk, Option.bind_some,
        List.getElem?_map, hq]
      rfl
    · rw [getElem?_flatMapC _ _ (c := b.conn.length) (by simp [hmats]) hql, List.getElem?_range hk, Option.bind_some]
    · intro s t u
      have hv := fun l (hl : l < row.length) => expand_vtx hdz [(3, 8)] h hk hrlt hl
      rw [hr4] at hv
      obtain ⟨a0, b0⟩ := hv 0 (by omega)
      obtain ⟨a1, b1⟩ := hv 1 (by omega)
      obtain ⟨a2, b2⟩ := hv 2 (by omega)
      obtain ⟨a3, b3⟩ := hv 3 (by omega)
      have e : vtxs (expand2d dz nz [(3, 8)] m).coors (extrudeRow m.coors.length k row) 8 =
          ![lift3 (vtxs m.coors row 4 0) (k * dz), lift3 (vtxs m.coors row 4 1) (k * dz),
            lift3 (vtxs m.coors row 4 2) (k * dz), lift3 (vtxs m.coors row 4 3) (k * dz),
            lift3 (vtxs m.coors row 4 0) ((k + 1) * dz), lift3 (vtxs m.coors row 4 1) ((k + 1) * dz),
            lift3 (vtxs m.coors row 4 2) ((k + 1) * dz), lift3 (vtxs m.coors row 4 3) ((k + 1) * dz)] := by
        funext l
        fin_cases l
        · exact a0
        · exact a1
        · exact a2
        · exact a3
        · exact b0
        · exact b1
        · exact b2
        · exact b3
      rw [e]
      funext i
      fin_cases i <;>
      · simp [trilinear, bilinear, lift3]
        ring

/-! ### Do the tetrahedrons fit together? -/

/-- All the facets of the tetrahedrons over a triangle in the layer `k`. -/
def wedgeFacets (n k : ℕ) (row : List ℕ) : List (List ℕ) :=
  wedgeTets.flatMap fun t => (List.range 4).map fun j =>
    facetOf faces34 (t.map fun l => (extrudeRow n k row).getD l 0) j

/-- A facet on the side of the prism above the edge `a`, `b`. -/
def OnSide (n k a b : ℕ) (f : List ℕ) : Prop :=
  ∀ x ∈ f, x = a + n * k ∨ x = b + n * k ∨ x = a + n * (k + 1) ∨ x = b + n * (k + 1)

/-- The facets by the local numbers of the vertices of the wedge. -/
def wedgeLocal : List (List ℕ) :=
  wedgeTets.flatMap fun t => (List.range 4).map fun j => facetOf faces34 t j

theorem wedgeFacets_eq (n k : ℕ) (row : List ℕ) :
    wedgeFacets n k row = wedgeLocal.map fun g => g.map fun l => (extrudeRow n k row).getD l 0 := by
  rfl

theorem wedge_local : ∀ j < 3, ∀ i < j,
    (∀ g ∈ wedgeLocal, (∀ l ∈ g, l ∈ [i, j, i + 3, j + 3]) → g.isPerm [i, j, j + 3] = true ∨ g.isPerm [i, i + 3, j + 3] = true) ∧
    (∃ g ∈ wedgeLocal, g.isPerm [i, j, j + 3] = true) ∧ (∃ g ∈ wedgeLocal, g.isPerm [i, i + 3, j + 3] = true) := by
  decide

theorem wedgeLocal_lt : ∀ g ∈ wedgeLocal, ∀ l ∈ g, l < 6 := by decide

theorem extrudeRow_get {n k : ℕ} {row : List ℕ} {l : ℕ} (hl : l < row.length) :
    (extrudeRow n k row).getD l 0 = row.getD l 0 + n * k ∧
    (extrudeRow n k row).getD (l + row.length) 0 = row.getD l 0 + n * (k + 1) := by
  constructor
  · unfold extrudeRow
    rw [List.getD_eq_getElem?_getD, List.getElem?_append_left (by simpa using hl), List.getElem?_map,
      List.getElem?_eq_getElem hl, List.getD_eq_getElem?_getD, List.getElem?_eq_getElem hl]
    rfl
  · unfold extrudeRow
    rw [List.getD_eq_getElem?_getD, List.getElem?_append_right (by simp), List.getElem?_map, List.length_map,
      Nat.add_sub_cancel, List.getElem?_eq_getElem hl, List.getD_eq_getElem?_getD, List.getElem?_eq_getElem hl]
    rfl

theorem extrudeRow_inj {n k : ℕ} {row : List ℕ} (h3 : row.length = 3) (hnd : row.Nodup) (hlt : ∀ v ∈ row, v < n)
    {l l' : ℕ} (hl : l < 6) (hl' : l' < 6) (e : (extrudeRow n k row).getD l 0 = (extrudeRow n k row).getD l' 0) :
    l = l' := by
  have hv : ∀ i < 3, row.getD i 0 < n := by
    intro i hi
    rw [← h3] at hi
    apply hlt
    rw [List.getD_eq_getElem?_getD, List.getElem?_eq_getElem hi]
    exact List.getElem_mem hi
  have hinj : ∀ i < 3, ∀ j < 3, row.getD i 0 = row.getD j 0 → i = j := by
    intro i hi j hj he
    rw [← h3] at hi hj
    rw [List.getD_eq_getElem?_getD, List.getElem?_eq_getElem hi, List.getD_eq_getElem?_getD,
      List.getElem?_eq_getElem hj] at he
    exact (List.Nodup.getElem_inj_iff hnd).1 he
  have hcase : ∀ l < 6, (l < 3 ∧ (extrudeRow n k row).getD l 0 = row.getD l 0 + n * k) ∨
      (3 ≤ l ∧ (extrudeRow n k row).getD l 0 = row.getD (l - 3) 0 + (n * k + n)) := by
    intro l hl
    by_cases h : l < 3
    · exact Or.inl ⟨h, (extrudeRow_get (by omega)).1⟩
    · right
      refine ⟨by omega, ?_⟩
      have := (extrudeRow_get (n := n) (k := k) (row := row) (l := l - 3) (by omega)).2
      rw [h3, show l - 3 + 3 = l by omega] at this
      rw [this, Nat.mul_succ]
  rcases hcase l hl with ⟨a1, a2⟩ | ⟨a1, a2⟩ <;> rcases hcase l' hl' with ⟨b1, b2⟩ | ⟨b1, b2⟩ <;>
    rw [a2, b2] at e
  · exact hinj l a1 l' b1 (by omega)
  · have := hv l a1; omega
  · have := hv l' b1; omega
  · have := hinj (l - 3) (by omega) (l' - 3) (by omega) (by omega); omega

/-- **The side above an edge** is divided by the diagonal from the vertex that is first in the cell to the
other one above: these are the only facets on the side. -/
theorem C70_wedge_side {n k : ℕ} {row : List ℕ} (h3 : row.length = 3) (hnd : row.Nodup) (hlt : ∀ v ∈ row, v < n)
    {i j : ℕ} (hij : i < j) (hj : j < 3) (f : List ℕ) :
    ((∃ g ∈ wedgeFacets n k row, f.Perm g) ∧ OnSide n k (row.getD i 0) (row.getD j 0) f) ↔
      (f.Perm [row.getD i 0 + n * k, row.getD j 0 + n * k, row.getD j 0 + n * (k + 1)] ∨
       f.Perm [row.getD i 0 + n * k, row.getD i 0 + n * (k + 1), row.getD j 0 + n * (k + 1)]) := by
  obtain ⟨L1, L2, L3⟩ := wedge_local j hj i hij
  obtain ⟨i1, i2⟩ := extrudeRow_get (n := n) (k := k) (row := row) (l := i) (by omega)
  obtain ⟨j1, j2⟩ := extrudeRow_get (n := n) (k := k) (row := row) (l := j) (by omega)
  rw [h3] at i2 j2
  rw [wedgeFacets_eq]
  constructor
  · rintro ⟨⟨g, hg, hfg⟩, hside⟩
    obtain ⟨g0, hg0, rfl⟩ := List.mem_map.1 hg
    have hloc : ∀ l ∈ g0, l ∈ [i, j, i + 3, j + 3] := by
      intro l hl
      have hl6 := wedgeLocal_lt g0 hg0 l hl
      have := hside _ (hfg.mem_iff.2 (List.mem_map.2 ⟨l, hl, rfl⟩))
      rw [← i1, ← j1, ← i2, ← j2] at this
      rcases this with h | h | h | h
      · rw [extrudeRow_inj h3 hnd hlt hl6 (by omega) h]; simp
      · rw [extrudeRow_inj h3 hnd hlt hl6 (by omega) h]; simp
      · rw [extrudeRow_inj h3 hnd hlt hl6 (by omega) h]; simp
      · rw [extrudeRow_inj h3 hnd hlt hl6 (by omega) h]; simp
    rcases L1 g0 hg0 hloc with hp | hp
    · left
      have := (List.isPerm_iff.1 hp).map fun l => (extrudeRow n k row).getD l 0
      simp only [List.map_cons, List.map_nil, i1, j1, j2] at this
      exact hfg.trans this
    · right
      have := (List.isPerm_iff.1 hp).map fun l => (extrudeRow n k row).getD l 0
      simp only [List.map_cons, List.map_nil, i1, i2, j2] at this
      exact hfg.trans this
  · rintro (hf | hf)
    · obtain ⟨g, hg, hp⟩ := L2
      have := (List.isPerm_iff.1 hp).map fun l => (extrudeRow n k row).getD l 0
      simp only [List.map_cons, List.map_nil, i1, j1, j2] at this
      refine ⟨⟨_, List.mem_map.2 ⟨g, hg, rfl⟩, hf.trans this.symm⟩, ?_⟩
      intro x hx
      have := hf.mem_iff.1 hx
      simp only [List.mem_cons, List.not_mem_nil, or_false] at this
      tauto
    · obtain ⟨g, hg, hp⟩ := L3
      have := (List.isPerm_iff.1 hp).map fun l => (extrudeRow n k row).getD l 0
      simp only [List.map_cons, List.map_nil, i1, i2, j2] at this
      refine ⟨⟨_, List.mem_map.2 ⟨g, hg, rfl⟩, hf.trans this.symm⟩, ?_⟩
      intro x hx
      have := hf.mem_iff.1 hx
      simp only [List.mem_cons, List.not_mem_nil, or_false] at this
      tauto

theorem onSide_symm {n k a b : ℕ} {f : List ℕ} : OnSide n k a b f ↔ OnSide n k b a f := by
  unfold OnSide
  constructor <;>
  · intro h x hx
    have := h x hx
    tauto

/-- **Neighbours in an expanded triangular mesh**: two triangles with a common edge have the same facets
on the side above the edge if the vertices of the edge are in the same order in both of them, and they
have no common facet there if the order is opposite: the mesh does not conform. -/
theorem C70_expand_conforming {n k : ℕ} {r r' : List ℕ} (h3 : r.length = 3) (hnd : r.Nodup) (hlt : ∀ v ∈ r, v < n)
    (h3' : r'.length = 3) (hnd' : r'.Nodup) (hlt' : ∀ v ∈ r', v < n) {i j i' j' : ℕ} (hij : i < j) (hj : j < 3)
    (hij' : i' < j') (hj' : j' < 3) :
    (r.getD i 0 = r'.getD i' 0 ∧ r.getD j 0 = r'.getD j' 0 → ∀ f, OnSide n k (r.getD i 0) (r.getD j 0) f →
      ((∃ g ∈ wedgeFacets n k r, f.Perm g) ↔ ∃ g ∈ wedgeFacets n k r', f.Perm g)) ∧
    (r.getD i 0 = r'.getD j' 0 ∧ r.getD j 0 = r'.getD i' 0 → ∀ f, OnSide n k (r.getD i 0) (r.getD j 0) f →
      (∃ g ∈ wedgeFacets n k r, f.Perm g) → ¬ ∃ g ∈ wedgeFacets n k r', f.Perm g) := by
  have hs := C70_wedge_side (k := k) h3 hnd hlt hij hj
  have hs' := C70_wedge_side (k := k) h3' hnd' hlt' hij' hj'
  constructor
  · rintro ⟨e1, e2⟩ f hf
    have h1 := hs f
    have h2 := hs' f
    rw [← e1, ← e2] at h2
    constructor
    · intro hg; exact (h2.2 (h1.1 ⟨hg, hf⟩)).1
    · intro hg; exact (h1.2 (h2.1 ⟨hg, hf⟩)).1
  · rintro ⟨e1, e2⟩ f hf hg hg'
    have h1 := (hs f).1 ⟨hg, hf⟩
    have h2 := (hs' f).1 ⟨hg', by rw [← e1, ← e2]; exact onSide_symm.1 hf⟩
    rw [← e1, ← e2] at h2
    have hne : r.getD i 0 ≠ r.getD j 0 := by
      intro he
      have hi : i < r.length := by omega
      have hj : j < r.length := by omega
      rw [List.getD_eq_getElem?_getD, List.getElem?_eq_getElem hi, List.getD_eq_getElem?_getD,
        List.getElem?_eq_getElem hj] at he
      have := (List.Nodup.getElem_inj_iff hnd).1 he
      omega
    have hvi : r.getD i 0 < n := by
      have hi : i < r.length := by omega
      apply hlt
      rw [List.getD_eq_getElem?_getD, List.getElem?_eq_getElem hi]; exact List.getElem_mem hi
    have hvj : r.getD j 0 < n := by
      have hj : j < r.length := by omega
      apply hlt
      rw [List.getD_eq_getElem?_getD, List.getElem?_eq_getElem hj]; exact List.getElem_mem hj
    -- the diagonals
    have d1 : r.getD i 0 + n * k ∈ f ∧ r.getD j 0 + n * (k + 1) ∈ f := by
      rcases h1 with h | h <;> exact ⟨h.mem_iff.2 (by simp), h.mem_iff.2 (by simp)⟩
    have d2 : r.getD j 0 + n * k ∈ f ∧ r.getD i 0 + n * (k + 1) ∈ f := by
      rcases h2 with h | h <;> exact ⟨h.mem_iff.2 (by simp), h.mem_iff.2 (by simp)⟩
    have hmul : n * (k + 1) = n * k + n := Nat.mul_succ n k
    rcases h1 with h | h
    · have := h.mem_iff.1 d2.2
      simp only [List.mem_cons, List.not_mem_nil, or_false] at this
      omega
    · have := h.mem_iff.1 d2.1
      simp only [List.mem_cons, List.not_mem_nil, or_false] at this
      omega

/-- The code is wrong for meshes with triangles and other cells: the groups of all the cells are used for
the tetrahedrons, the numbers of groups and cells differ. -/
theorem C70_extrude_groups_mixed {V : Type} [Zero V] {m : KMesh V} (h : MeshOk m) {b : Block} (hb : b ∈ m.blocks) (hnv : b.nv = 3)
    (k : ℕ) :
    let e := extrudeBlock true m.coors.length (m.blocks.flatMap fun b => b.mats) k b
    e.conn.length = 3 * b.conn.length ∧ e.mats.length = 3 * (m.blocks.map fun b => b.conn.length).sum := by
  intro e
  have he : e = { dim := 3, nv := 4
                  conn := (b.conn.map (extrudeRow m.coors.length k)).flatMap fun row =>
                    wedgeTets.map fun t => t.map fun l => row.getD l 0
                  mats := (m.blocks.flatMap fun b => b.mats).flatMap fun g => List.replicate 3 g } := by
    show extrudeBlock _ _ _ _ _ = _
    unfold extrudeBlock
    rw [if_pos ⟨by rw [hnv], rfl⟩]
  rw [he]
  constructor
  · simp only
    rw [length_flatMapC _ _ (c := 3) (by simp [wedgeTets]), List.length_map, Nat.mul_comm]
  · simp only
    rw [length_flatMapC _ _ (c := 3) (by simp), Nat.mul_comm, List.length_flatMap]
    congr 2
    exact List.map_congr_left fun b hb => h.mats b hb

end Verif.Mesh
