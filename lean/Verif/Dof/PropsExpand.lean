import Verif.Dof.Model
import Mathlib.Data.List.Nodup
/-
C03: `expand_nodes_to_equations`.
-/
namespace Verif.Dof
open Verif.Np

theorem strideAssign_hit (eq : Nat → Nat) (ii nc : Nat) (vals : List Nat) (k : Nat)
    (hk : k < vals.length) (hnc : 0 < nc) :
    strideAssign eq ii nc vals (ii + nc * k) = vals[k] := by
  unfold strideAssign
  apply scatter_eq
  · refine ⟨(ii + nc * k, vals[k]), List.mem_map.2 ⟨(vals[k], k), ?_, rfl⟩, rfl⟩
    rw [List.mem_zipIdx_iff_getElem?]
    simp [hk]
  · intro p hp e
    obtain ⟨⟨x, k'⟩, hq, rfl⟩ := List.mem_map.1 hp
    rw [List.mem_zipIdx_iff_getElem?] at hq
    simp only at e hq ⊢
    have : k' = k := by
      have h1 : nc * k' = nc * k := by omega
      exact Nat.eq_of_mul_eq_mul_left hnc h1
    subst this
    rw [List.getElem?_eq_getElem hk] at hq
    exact (Option.some.inj hq).symm

theorem strideAssign_miss (eq : Nat → Nat) (ii nc : Nat) (vals : List Nat) (j : Nat)
    (h : ∀ k, k < vals.length → j ≠ ii + nc * k) : strideAssign eq ii nc vals j = eq j := by
  unfold strideAssign
  apply scatter_of_not_mem
  intro p hp e
  obtain ⟨⟨x, k'⟩, hq, rfl⟩ := List.mem_map.1 hp
  rw [List.mem_zipIdx_iff_getElem?] at hq
  simp only at e hq
  have hk : k' < vals.length := by
    rcases Nat.lt_or_ge k' vals.length with h' | h'
    · exact h'
    · rw [List.getElem?_eq_none h'] at hq; cases hq
  exact h k' hk e.symm

theorem idxOf?_of_mem {all : List String} {d : String} (h : d ∈ all) :
    all.idxOf? d = some (all.idxOf d) := by
  induction all with
  | nil => simp at h
  | cons a l ih =>
    rw [List.idxOf?_cons, List.idxOf_cons]
    by_cases e : a = d
    · simp [e]
    · have hd : d ∈ l := by
        rcases List.mem_cons.1 h with h | h
        · exact absurd h.symm e
        · exact h
      have : (a == d) = false := by simpa using e
      simp [ih hd, this]

theorem idxOf?_of_not_mem {all : List String} {d : String} (h : d ∉ all) :
    all.idxOf? d = none := by
  simpa using h

theorem expandLoop_ok (nods : List Nat) (all : List String) (nc : Nat) (hnc : 0 < nc)
    (L : List (String × Nat)) (eq : Nat → Nat)
    (hall : ∀ p ∈ L, p.1 ∈ all) (hlt : ∀ p ∈ L, p.2 < nc) (hnd : (L.map (·.2)).Nodup) :
    ∃ eq', expandLoop nods all nc L eq = .ok eq' ∧
      (∀ p ∈ L, ∀ k (hk : k < nods.length),
        eq' (p.2 + nc * k) = all.length * nods[k] + all.idxOf p.1) ∧
      (∀ j, (∀ p ∈ L, ∀ k, k < nods.length → j ≠ p.2 + nc * k) → eq' j = eq j) := by
  induction L generalizing eq with
  | nil => exact ⟨eq, rfl, by simp, by simp⟩
  | cons q L ih =>
    obtain ⟨d, ii⟩ := q
    simp only [expandLoop, idxOf?_of_mem (hall (d, ii) List.mem_cons_self)]
    simp only [List.map_cons, List.nodup_cons] at hnd
    obtain ⟨eq', h1, h2, h3⟩ := ih
      (strideAssign eq ii nc (nods.map fun nod => all.length * nod + all.idxOf d))
      (fun p hp => hall p (List.mem_cons_of_mem _ hp))
      (fun p hp => hlt p (List.mem_cons_of_mem _ hp)) hnd.2
    refine ⟨eq', h1, ?_, ?_⟩
    · intro p hp k hk
      rcases List.mem_cons.1 hp with rfl | hp
      · simp only
        rw [h3]
        · rw [strideAssign_hit _ _ _ _ _ (by simpa using hk) hnc]; simp
        · intro p' hp' k' _ e
          have hl1 := hlt (d, ii) List.mem_cons_self
          have hl2 := hlt p' (List.mem_cons_of_mem _ hp')
          simp only at hl1
          have e1 : (ii + nc * k) % nc = ii := by
            rw [Nat.add_mul_mod_self_left]; exact Nat.mod_eq_of_lt hl1
          have e2 : (p'.2 + nc * k') % nc = p'.2 := by
            rw [Nat.add_mul_mod_self_left]; exact Nat.mod_eq_of_lt hl2
          rw [e] at e1
          exact hnd.1 (by rw [← e1, e2]; exact List.mem_map.2 ⟨p', hp', rfl⟩)
      · exact h2 p hp k hk
    · intro j hj
      rw [h3 j (fun p hp k hk => hj p (List.mem_cons_of_mem _ hp) k hk)]
      apply strideAssign_miss
      intro k hk
      exact hj (d, ii) List.mem_cons_self k (by simpa using hk)

theorem expandLoop_err (nods : List Nat) (all : List String) (nc : Nat)
    (L : List (String × Nat)) (eq : Nat → Nat) (h : ∃ p ∈ L, p.1 ∉ all) :
    expandLoop nods all nc L eq = .error .valueError := by
  induction L generalizing eq with
  | nil => simp at h
  | cons q L ih =>
    obtain ⟨d, ii⟩ := q
    by_cases hd : d ∈ all
    · simp only [expandLoop, idxOf?_of_mem hd]
      apply ih
      obtain ⟨p, hp, hn⟩ := h
      rcases List.mem_cons.1 hp with rfl | hp
      · exact absurd hd hn
      · exact ⟨p, hp, hn⟩
    · simp [expandLoop, idxOf?_of_not_mem hd]

theorem zipIdx_snd {α} (l : List α) : l.zipIdx.map (·.2) = List.range l.length := by
  rw [List.range_eq_range']
  exact List.zipIdx_map_snd 0 l

/-- The returned array has `len(nods) * len(dof_names)` entries in node-by-node order:
entry `nc * k + i` is `dpn * nods[k] + index(dof_names[i])`, whatever the
uninitialised memory contained. -/
theorem C03_expand_spec (garbage : Nat → Nat) (nods : List Nat) (dofNames all : List String)
    (hall : ∀ d ∈ dofNames, d ∈ all) :
    ∃ eq, expandNodesToEquations garbage nods dofNames all
        = .ok (nods.length * dofNames.length, eq) ∧
      ∀ k (hk : k < nods.length) i (hi : i < dofNames.length),
        eq (dofNames.length * k + i) = all.length * nods[k] + all.idxOf dofNames[i] := by
  unfold expandNodesToEquations
  rcases Nat.eq_zero_or_pos dofNames.length with h0 | hpos
  · have : dofNames = [] := List.length_eq_zero_iff.1 h0
    subst this
    exact ⟨garbage, rfl, by simp⟩
  · obtain ⟨eq, h1, h2, _⟩ := expandLoop_ok nods all dofNames.length hpos dofNames.zipIdx garbage
      (by
        intro p hp
        rw [List.mem_zipIdx_iff_getElem?] at hp
        exact hall _ (List.mem_of_getElem? hp))
      (by
        intro p hp
        rw [List.mem_zipIdx_iff_getElem?] at hp
        rcases Nat.lt_or_ge p.2 dofNames.length with h' | h'
        · exact h'
        · rw [List.getElem?_eq_none h'] at hp; cases hp)
      (by rw [zipIdx_snd]; exact List.nodup_range)
    refine ⟨eq, by simp [h1], ?_⟩
    intro k hk i hi
    have := h2 (dofNames[i], i) (by
      rw [List.mem_zipIdx_iff_getElem?]; simp [hi]) k hk
    simp only at this
    rw [Nat.add_comm, this]

/-- An unknown component name raises ValueError. -/
theorem C03_expand_unknown (garbage : Nat → Nat) (nods : List Nat) (dofNames all : List String)
    (h : ∃ d ∈ dofNames, d ∉ all) :
    expandNodesToEquations garbage nods dofNames all = .error .valueError := by
  obtain ⟨d, hd, hn⟩ := h
  obtain ⟨i, hi, rfl⟩ := List.getElem_of_mem hd
  simp only [expandNodesToEquations]
  rw [expandLoop_err]
  exact ⟨(dofNames[i], i), by rw [List.mem_zipIdx_iff_getElem?]; simp [hi], hn⟩

theorem idxOf_inj_of_mem {all : List String} {a b : String} (ha : a ∈ all) (hb : b ∈ all)
    (h : all.idxOf a = all.idxOf b) : a = b := by
  have h1 := List.idxOf_lt_length_of_mem ha
  have h2 := List.idxOf_lt_length_of_mem hb
  have e1 := List.getElem_idxOf (x := a) h1
  have e2 := List.getElem_idxOf (x := b) h2
  rw [← e1, ← e2]
  congr 1

/-- Distinct nodes and distinct component names give pairwise distinct DOFs. -/
theorem C03_expand_injective (garbage : Nat → Nat) (nods : List Nat)
    (dofNames all : List String) (hall : ∀ d ∈ dofNames, d ∈ all)
    (hn : nods.Nodup) (hd : dofNames.Nodup) (len : Nat) (eq : Nat → Nat)
    (he : expandNodesToEquations garbage nods dofNames all = .ok (len, eq)) :
    ∀ a b, a < len → b < len → eq a = eq b → a = b := by
  obtain ⟨eq', h1, h2⟩ := C03_expand_spec garbage nods dofNames all hall
  rw [h1] at he
  simp only [Except.ok.injEq, Prod.mk.injEq] at he
  obtain ⟨hlen, rfl⟩ := he
  intro a b ha hb heq
  have hnc : 0 < dofNames.length := by
    rcases Nat.eq_zero_or_pos dofNames.length with h0 | h0
    · rw [← hlen, h0] at ha; simp at ha
    · exact h0
  have hka : a / dofNames.length < nods.length := by
    rw [Nat.div_lt_iff_lt_mul hnc, hlen]; exact ha
  have hkb : b / dofNames.length < nods.length := by
    rw [Nat.div_lt_iff_lt_mul hnc, hlen]; exact hb
  have hia := Nat.mod_lt a hnc
  have hib := Nat.mod_lt b hnc
  have ea := h2 _ hka _ hia
  have eb := h2 _ hkb _ hib
  rw [Nat.div_add_mod] at ea eb
  rw [ea, eb] at heq
  have la := List.idxOf_lt_length_of_mem (hall _ (List.getElem_mem hia))
  have lb := List.idxOf_lt_length_of_mem (hall _ (List.getElem_mem hib))
  have hpos : 0 < all.length := Nat.lt_of_le_of_lt (Nat.zero_le _) la
  have hm : all.idxOf dofNames[a % dofNames.length] = all.idxOf dofNames[b % dofNames.length] := by
    have := congrArg (· % all.length) heq
    simpa [Nat.mod_eq_of_lt la, Nat.mod_eq_of_lt lb, Nat.mul_add_mod] using this
  have hq : nods[a / dofNames.length] = nods[b / dofNames.length] := by
    rw [hm] at heq
    exact Nat.eq_of_mul_eq_mul_left hpos (Nat.add_right_cancel heq)
  have e1 : a / dofNames.length = b / dofNames.length := (List.Nodup.getElem_inj_iff hn).1 hq
  have e2 : a % dofNames.length = b % dofNames.length :=
    (List.Nodup.getElem_inj_iff hd).1
      (idxOf_inj_of_mem (hall _ (List.getElem_mem hia)) (hall _ (List.getElem_mem hib)) hm)
  rw [← Nat.div_add_mod a dofNames.length, ← Nat.div_add_mod b dofNames.length, e1, e2]

/-- Listing all nodes `0..n-1` and all components gives every DOF `0..n*dpn-1` at its
own position: the global numbering is node-by-node and complete. -/
theorem C03_expand_all (garbage : Nat → Nat) (n : Nat) (all : List String) (hd : all.Nodup) :
    ∃ eq, expandNodesToEquations garbage (List.range n) all all = .ok (n * all.length, eq) ∧
      ∀ j, j < n * all.length → eq j = j := by
  obtain ⟨eq, h1, h2⟩ := C03_expand_spec garbage (List.range n) all all (fun d h => h)
  refine ⟨eq, by simpa using h1, ?_⟩
  intro j hj
  have hnc : 0 < all.length := by
    rcases Nat.eq_zero_or_pos all.length with h0 | h0
    · rw [h0] at hj; simp at hj
    · exact h0
  have hk : j / all.length < (List.range n).length := by
    rw [List.length_range, Nat.div_lt_iff_lt_mul hnc]; exact hj
  have hi := Nat.mod_lt j hnc
  have e := h2 _ hk _ hi
  rw [Nat.div_add_mod] at e
  rw [e, List.getElem_range, List.Nodup.idxOf_getElem hd, Nat.div_add_mod]

/-- Non-vacuity: nodes 5 and 2, components u.1 and u.0 out of three. -/
example : (∀ d ∈ ["u.1", "u.0"], d ∈ ["u.0", "u.1", "u.2"]) ∧ [5, 2].Nodup ∧
    ["u.1", "u.0"].Nodup ∧ (∃ d ∈ ["u.1", "u.7"], d ∉ ["u.0", "u.1", "u.2"]) := by decide

end Verif.Dof
