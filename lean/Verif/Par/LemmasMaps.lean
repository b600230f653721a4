import Verif.Par.Maps
import Mathlib.Data.List.Flatten
import Mathlib.Data.List.Nodup

/-!
# Lemmas about the distribution of DOFs
-/

namespace Par

open Verif.Np

/-- The facet `f` separates the task `k` from another one. -/
def InterOf (m : FEMesh) (ct : ℕ → ℕ) (k f : ℕ) : Prop :=
  f < m.nFacet ∧ ∃ a b, m.fc f = [a, b] ∧ ct a ≠ ct b ∧ (ct a = k ∨ ct b = k)

theorem mem_expandDofs {nc : ℕ} {l : List ℕ} {x : ℕ} :
    x ∈ expandDofs nc l ↔ 0 < nc ∧ x / nc ∈ l := by
  simp only [expandDofs, List.mem_flatMap, List.mem_map, List.mem_range]
  constructor
  · rintro ⟨d, hd, k, hk, rfl⟩
    have : 0 < nc := by omega
    refine ⟨this, ?_⟩
    rwa [Nat.mul_add_div this, Nat.div_eq_of_lt hk, Nat.add_zero]
  · rintro ⟨h, hx⟩
    exact ⟨x / nc, hx, x % nc, Nat.mod_lt _ h, Nat.div_add_mod x nc⟩

theorem nodup_expandDofs {nc : ℕ} {l : List ℕ} (h : l.Nodup) : (expandDofs nc l).Nodup := by
  unfold expandDofs
  rw [List.nodup_flatMap]
  refine ⟨fun d _ => ?_, ?_⟩
  · refine List.Nodup.map (fun a b hab => ?_) List.nodup_range
    simpa using hab
  · refine List.Pairwise.imp ?_ h
    intro a b hab x hx hy
    obtain ⟨k, hk, rfl⟩ := List.mem_map.1 hx
    obtain ⟨k', hk', e⟩ := List.mem_map.1 hy
    have hk := List.mem_range.1 hk
    have hk' := List.mem_range.1 hk'
    apply hab
    have h1 : (nc * a + k) / nc = a := by
      rw [Nat.mul_add_div (by omega), Nat.div_eq_of_lt hk, Nat.add_zero]
    have h2 : (nc * b + k') / nc = b := by
      rw [Nat.mul_add_div (by omega), Nat.div_eq_of_lt hk', Nat.add_zero]
    rw [← h1, ← h2, e]

theorem length_expandDofs (nc : ℕ) (l : List ℕ) : (expandDofs nc l).length = nc * l.length := by
  unfold expandDofs
  induction l with
  | nil => simp
  | cons a r ih => rw [List.flatMap_cons, List.length_append, ih]; simp [Nat.mul_add, Nat.add_comm]

/-- All owned DOFs of all tasks. -/
def allOwned (d : Dict DMap) : List ℕ := d.flatMap fun p => p.2.owned

/-- The invariant of the first loop; `done` are the processed tasks. -/
structure Inv (ov : Bool) (m : FEMesh) (ct : ℕ → ℕ) (nc : ℕ) (done : List ℕ) (s : St) : Prop where
  keys : (dkeys s.maps).Nodup
  nodup : (allOwned s.maps).Nodup
  mark : ∀ d, s.mark d = if d ∈ allOwned s.maps then 1 else 0
  count : ∀ k v, dget s.maps k = some v → v.n = v.owned.length
  own : ∀ k v, dget s.maps k = some v → ∀ d ∈ v.own.flatten, ∃ f, InterOf m ct k f ∧ 0 < nc ∧
    d / nc ∈ m.fdofs f ∧ (ov = true → ∀ x ∈ m.fverts f, ∀ c ∈ m.vcells x, c ∈ v.ovl.flatten)
  inner : ∀ k v, dget s.maps k = some v → ∀ l, v.inner = some l → ∀ d ∈ l, 0 < nc ∧
    (∃ c < m.nCell, ct c = k ∧ d / nc ∈ m.econn c) ∧
    ∀ f, InterOf m ct k f → d / nc ∉ m.fdofs f
  done : ∀ k, k ∈ done ↔ ∃ v, dget s.maps k = some v ∧ v.inner.isSome

theorem mem_allOwned {d : Dict DMap} (h : (dkeys d).Nodup) {x : ℕ} :
    x ∈ allOwned d ↔ ∃ k v, dget d k = some v ∧ x ∈ v.owned := by
  simp only [allOwned, List.mem_flatMap]
  constructor
  · rintro ⟨⟨k, v⟩, hp, hx⟩
    exact ⟨k, v, (dget_eq_some h).2 hp, hx⟩
  · rintro ⟨k, v, hd, hx⟩
    exact ⟨(k, v), (dget_eq_some h).1 hd, hx⟩

variable {ov : Bool} {m : FEMesh} {ct : ℕ → ℕ} {nc : ℕ} {done : List ℕ} {s : St}

theorem Inv.marked_iff (h : Inv ov m ct nc done s) {d : ℕ} : s.mark d ≠ 0 ↔ d ∈ allOwned s.maps := by
  rw [h.mark]; split <;> simp_all

theorem dget_dupd_cases {α : Type _} {d : Dict α} {k : ℕ} {dflt : α} {f : α → α} {j : ℕ} {v : α}
    (h : dget (dupd d k dflt f) j = some v) :
    (j = k ∧ v = f ((dget d k).getD dflt)) ∨ (j ≠ k ∧ dget d j = some v) := by
  rw [dget_dupd] at h
  by_cases hj : j = k
  · left; simp only [hj, if_true, Option.some.injEq] at h; exact ⟨hj, h.symm⟩
  · right; simp only [hj, if_false] at h; exact ⟨hj, h⟩

theorem dget_getD_cases {α : Type _} (d : Dict α) (k : ℕ) (dflt : α) :
    (∃ w, dget d k = some w ∧ (dget d k).getD dflt = w) ∨
      (dget d k = none ∧ (dget d k).getD dflt = dflt) := by
  rcases h : dget d k with _ | w
  · right; simp
  · left; exact ⟨w, rfl, rfl⟩

theorem ensure_inv (h : Inv ov m ct nc done s) (t : ℕ) :
    Inv ov m ct nc done (ensure s t) ∧ (∀ d, (ensure s t).mark d = s.mark d) ∧
      (∀ k, k ∈ dkeys (ensure s t).maps ↔ k = t ∨ k ∈ dkeys s.maps) := by
  have hp : (allOwned (ensure s t).maps).Perm (allOwned s.maps) := by
    have := dupd_flatMap_perm DMap.owned s.maps t DMap.empty id [] rfl (by simp)
    simpa [allOwned, ensure] using this
  refine ⟨⟨nodup_dkeys_dupd _ _ _ _ h.keys, hp.nodup_iff.2 h.nodup, ?_, ?_, ?_, ?_, ?_⟩,
    fun _ => rfl, fun k => mem_dkeys_dupd _ _ _ _ _⟩
  · intro d
    show s.mark d = _
    rw [h.mark]
    simp only [hp.mem_iff]
  · intro k v hv
    rcases dget_dupd_cases hv with ⟨rfl, rfl⟩ | ⟨_, hv⟩
    · rcases dget_getD_cases s.maps k DMap.empty with ⟨w, hw, e⟩ | ⟨_, e⟩
      · rw [e]; exact h.count k w hw
      · rw [e]; rfl
    · exact h.count k v hv
  · intro k v hv
    rcases dget_dupd_cases hv with ⟨rfl, rfl⟩ | ⟨_, hv⟩
    · rcases dget_getD_cases s.maps k DMap.empty with ⟨w, hw, e⟩ | ⟨_, e⟩
      · rw [e]; exact h.own k w hw
      · rw [e]; intro d hd; simp [DMap.empty] at hd
    · exact h.own k v hv
  · intro k v hv
    rcases dget_dupd_cases hv with ⟨rfl, rfl⟩ | ⟨_, hv⟩
    · rcases dget_getD_cases s.maps k DMap.empty with ⟨w, hw, e⟩ | ⟨_, e⟩
      · rw [e]; exact h.inner k w hw
      · rw [e]; intro l hl; simp [DMap.empty] at hl
    · exact h.inner k v hv
  · intro k
    rw [h.done k]
    show _ ↔ ∃ v, dget (dupd s.maps t DMap.empty id) k = some v ∧ _
    rw [dget_dupd]
    by_cases hk : k = t
    · subst hk
      rcases dget_getD_cases s.maps k DMap.empty with ⟨w, hw, e⟩ | ⟨hn, e⟩
      · simp [hw]
      · simp [hn, DMap.empty]
    · simp [hk]

theorem claim_inv (h : Inv ov m ct nc done s) (t : ℕ) (fs : List ℕ)
    (hfs : ∀ f ∈ fs, InterOf m ct t f) :
    Inv ov m ct nc done (claim ov m nc s t fs) ∧
      (∀ d, s.mark d ≠ 0 → (claim ov m nc s t fs).mark d ≠ 0) ∧
      (∀ f ∈ fs, ∀ d, 0 < nc → d / nc ∈ m.fdofs f → (claim ov m nc s t fs).mark d ≠ 0) ∧
      (∀ k ∈ dkeys (claim ov m nc s t fs).maps, k = t ∨ k ∈ dkeys s.maps) ∧
      (∀ k ∈ dkeys s.maps, k ∈ dkeys (claim ov m nc s t fs).maps) := by
  unfold claim
  simp only
  generalize hnew : (expandDofs nc (unique (fs.flatMap m.fdofs))).filter
    (fun d => decide (s.mark d = 0)) = new
  have hmem : ∀ d, d ∈ new ↔ (0 < nc ∧ ∃ f ∈ fs, d / nc ∈ m.fdofs f) ∧ s.mark d = 0 := by
    intro d
    rw [← hnew, List.mem_filter, mem_expandDofs, mem_unique, List.mem_flatMap]
    simp
  have hcov : ∀ f ∈ fs, ∀ d, 0 < nc → d / nc ∈ m.fdofs f → s.mark d ≠ 0 ∨ d ∈ new := by
    intro f hf d hnc hd
    by_cases hm : s.mark d = 0
    · right; exact (hmem d).2 ⟨⟨hnc, f, hf, hd⟩, hm⟩
    · left; exact hm
  by_cases hl : new.length = 0
  · rw [if_pos hl]
    have hnil : new = [] := List.length_eq_zero_iff.1 hl
    refine ⟨h, fun d hd => hd, ?_, fun k hk => Or.inr hk, fun k hk => hk⟩
    intro f hf d hnc hd
    rcases hcov f hf d hnc hd with h1 | h1
    · exact h1
    · simp [hnil] at h1
  rw [if_neg hl]
  have hnd : new.Nodup := by rw [← hnew]; exact (nodup_expandDofs (nodup_unique _)).filter _
  set F : DMap → DMap := fun v =>
    { v with own := v.own ++ [new], n := v.n + new.length,
             ovl := if ov then v.ovl ++ [incidentCells m fs] else v.ovl } with hF
  have hFo : ∀ v : DMap, (F v).owned = v.owned ++ new := by
    intro v; simp [hF, DMap.owned, List.flatten_append]
  have hp : (allOwned (dupd s.maps t DMap.empty F)).Perm (allOwned s.maps ++ new) :=
    dupd_flatMap_perm DMap.owned s.maps t DMap.empty F new rfl (by rw [hFo])
  have hdisj : ∀ d ∈ allOwned s.maps, d ∉ new := by
    intro d hd hn
    have := ((hmem d).1 hn).2
    rw [h.mark, if_pos hd] at this
    exact absurd this (by simp)
  refine ⟨⟨nodup_dkeys_dupd _ _ _ _ h.keys, ?_, ?_, ?_, ?_, ?_, ?_⟩, ?_, ?_,
    fun k hk => (mem_dkeys_dupd _ _ _ _ _).1 hk, fun k hk => (mem_dkeys_dupd _ _ _ _ _).2 (Or.inr hk)⟩
  · rw [hp.nodup_iff]
    exact List.nodup_append.2 ⟨h.nodup, hnd, fun a ha b hb e => hdisj a ha (e ▸ hb)⟩
  · intro d
    show scatterConst s.mark new 1 d = _
    rw [scatterConst_apply, h.mark]
    simp only [hp.mem_iff, List.mem_append]
    by_cases h1 : d ∈ new <;> by_cases h2 : d ∈ allOwned s.maps <;> simp [h1, h2]
  · intro k v hv
    rcases dget_dupd_cases hv with ⟨rfl, rfl⟩ | ⟨_, hv⟩
    · rw [hFo, List.length_append]
      show _ + new.length = _
      rcases dget_getD_cases s.maps k DMap.empty with ⟨w, hw, e⟩ | ⟨_, e⟩
      · rw [e, h.count k w hw]
      · rw [e]; rfl
    · exact h.count k v hv
  · intro k v hv
    rcases dget_dupd_cases hv with ⟨rfl, rfl⟩ | ⟨_, hv⟩
    · intro d hd
      have hd' : d ∈ ((dget s.maps k).getD DMap.empty).own.flatten ∨ d ∈ new := by
        simpa [hF, List.flatten_append] using hd
      rcases hd' with hd' | hd'
      · rcases dget_getD_cases s.maps k DMap.empty with ⟨w, hw, e⟩ | ⟨_, e⟩
        · rw [e] at hd'
          obtain ⟨f, h1, h2, h3, h4⟩ := h.own k w hw d hd'
          refine ⟨f, h1, h2, h3, ?_⟩
          intro hov x hx c hc
          have := h4 hov x hx c hc
          rw [e]
          simp only [hF, hov, if_true, List.flatten_append, List.mem_append]
          exact Or.inl this
        · rw [e] at hd'; simp [DMap.empty] at hd'
      · obtain ⟨⟨hnc, f, hf, hdf⟩, _⟩ := (hmem d).1 hd'
        refine ⟨f, hfs f hf, hnc, hdf, ?_⟩
        intro hov x hx c hc
        simp only [hF, hov, if_true, List.flatten_append, List.mem_append]
        right
        simp only [incidentCells, List.flatten_cons, List.flatten_nil, List.append_nil,
          List.mem_flatMap]
        exact ⟨x, ⟨f, hf, hx⟩, hc⟩
    · exact h.own k v hv
  · intro k v hv
    rcases dget_dupd_cases hv with ⟨rfl, rfl⟩ | ⟨_, hv⟩
    · rcases dget_getD_cases s.maps k DMap.empty with ⟨w, hw, e⟩ | ⟨_, e⟩
      · rw [e]; exact h.inner k w hw
      · rw [e]; intro l hl; simp [hF, DMap.empty] at hl
    · exact h.inner k v hv
  · intro k
    rw [h.done k]
    show _ ↔ ∃ v, dget (dupd s.maps t DMap.empty F) k = some v ∧ _
    rw [dget_dupd]
    by_cases hk : k = t
    · subst hk
      rcases dget_getD_cases s.maps k DMap.empty with ⟨w, hw, e⟩ | ⟨hn, e⟩
      · simp [hw, hF]
      · simp [hn, DMap.empty, hF]
    · simp [hk]
  · intro d hd
    show scatterConst s.mark new 1 d ≠ 0
    rw [scatterConst_apply]
    split <;> simp_all
  · intro f hf d hnc hd
    show scatterConst s.mark new 1 d ≠ 0
    rw [scatterConst_apply]
    rcases hcov f hf d hnc hd with h1 | h1
    · split <;> simp_all
    · simp [h1]

theorem pairStep_inv (h : Inv ov m ct nc done s) (ir : ℕ) (p : ℕ × List ℕ)
    (hfs : ∀ f ∈ p.2, InterOf m ct ir f ∧ InterOf m ct p.1 f) :
    Inv ov m ct nc done (pairStep ov m nc ir s p) ∧
      (∀ d, s.mark d ≠ 0 → (pairStep ov m nc ir s p).mark d ≠ 0) ∧
      (∀ f ∈ p.2, ∀ d, 0 < nc → d / nc ∈ m.fdofs f → (pairStep ov m nc ir s p).mark d ≠ 0) ∧
      (∀ k ∈ dkeys (pairStep ov m nc ir s p).maps, k = ir ∨ k = p.1 ∨ k ∈ dkeys s.maps) ∧
      (∀ k ∈ dkeys s.maps, k ∈ dkeys (pairStep ov m nc ir s p).maps) := by
  unfold pairStep
  simp only
  generalize max (p.2.length / 2) 1 = ii2
  obtain ⟨h1, e1, e2⟩ := ensure_inv h p.1
  obtain ⟨h2, m2, c2, k2, k2'⟩ := claim_inv h1 ir (p.2.take ii2)
    (fun f hf => (hfs f (List.mem_of_mem_take hf)).1)
  obtain ⟨h3, m3, c3, k3, k3'⟩ := claim_inv h2 p.1 (p.2.drop ii2)
    (fun f hf => (hfs f (List.mem_of_mem_drop hf)).2)
  refine ⟨h3, fun d hd => m3 d (m2 d (by rw [e1]; exact hd)), ?_, ?_, ?_⟩
  · intro f hf d hnc hd
    rw [← List.take_append_drop ii2 p.2] at hf
    rcases List.mem_append.1 hf with hf | hf
    · exact m3 d (c2 f hf d hnc hd)
    · exact c3 f hf d hnc hd
  · intro k hk
    rcases k3 k hk with hk | hk
    · exact Or.inr (Or.inl hk)
    · rcases k2 k hk with hk | hk
      · exact Or.inl hk
      · rcases (e2 k).1 hk with hk | hk
        · exact Or.inr (Or.inl hk)
        · exact Or.inr (Or.inr hk)
  · intro k hk
    exact k3' k (k2' k ((e2 k).2 (Or.inr hk)))

theorem pairs_inv (ir : ℕ) (l : List (ℕ × List ℕ)) (h : Inv ov m ct nc done s)
    (hfs : ∀ p ∈ l, ∀ f ∈ p.2, InterOf m ct ir f ∧ InterOf m ct p.1 f) :
    Inv ov m ct nc done (l.foldl (pairStep ov m nc ir) s) ∧
      (∀ d, s.mark d ≠ 0 → (l.foldl (pairStep ov m nc ir) s).mark d ≠ 0) ∧
      (∀ p ∈ l, ∀ f ∈ p.2, ∀ d, 0 < nc → d / nc ∈ m.fdofs f →
        (l.foldl (pairStep ov m nc ir) s).mark d ≠ 0) ∧
      (∀ k ∈ dkeys (l.foldl (pairStep ov m nc ir) s).maps,
        k = ir ∨ (∃ p ∈ l, k = p.1) ∨ k ∈ dkeys s.maps) ∧
      (∀ k ∈ dkeys s.maps, k ∈ dkeys (l.foldl (pairStep ov m nc ir) s).maps) := by
  induction l generalizing s with
  | nil => exact ⟨h, fun _ hd => hd, by simp, fun k hk => Or.inr (Or.inr hk), fun _ hk => hk⟩
  | cons p r ih =>
    obtain ⟨h1, m1, c1, k1, k1'⟩ := pairStep_inv h ir p (hfs p List.mem_cons_self)
    obtain ⟨h2, m2, c2, k2, k2'⟩ := ih h1 (fun q hq => hfs q (List.mem_cons_of_mem _ hq))
    rw [List.foldl_cons]
    refine ⟨h2, fun d hd => m2 d (m1 d hd), ?_, ?_, fun k hk => k2' k (k1' k hk)⟩
    · intro q hq f hf d hnc hd
      rcases List.mem_cons.1 hq with rfl | hq
      · exact m2 d (c1 f hf d hnc hd)
      · exact c2 q hq f hf d hnc hd
    · intro k hk
      rcases k2 k hk with hk | ⟨q, hq, hk⟩ | hk
      · exact Or.inl hk
      · exact Or.inr (Or.inl ⟨q, List.mem_cons_of_mem _ hq, hk⟩)
      · rcases k1 k hk with hk | hk | hk
        · exact Or.inl hk
        · exact Or.inr (Or.inl ⟨p, List.mem_cons_self, hk⟩)
        · exact Or.inr (Or.inr hk)

end Par
