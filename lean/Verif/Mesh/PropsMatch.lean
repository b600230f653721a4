/-
C68: matching of coordinates for periodic boundary conditions.
-/
import Mathlib.Data.List.Forall2
import Mathlib.Data.List.Perm.Subperm
import Mathlib.Tactic.Abel
import Verif.Mesh.PropsMerge

namespace Verif.Mesh

section

variable {d : ℕ} {K : Type} [Field K] [LinearOrder K]

theorem dist2_add (a b s : Fin d → K) : dist2 (a + s) (b + s) = dist2 a b := by
  unfold dist2
  exact Finset.sum_congr rfl fun c _ => by simp

theorem near_add {eps : K} {a b s : Fin d → K} : Near eps (a + s) (b + s) ↔ Near eps a b := by
  unfold Near; rw [dist2_add]

theorem sep_add {eps : K} {x : List (Fin d → K)} (s : Fin d → K) (h : Sep eps x) :
    Sep eps (x.map fun z => z + s) := by
  intro i j a b hij ha hb hn
  rw [List.getElem?_map, Option.map_eq_some_iff] at ha hb
  obtain ⟨a', ha, rfl⟩ := ha
  obtain ⟨b', hb, rfl⟩ := hb
  exact h i j a' b' hij ha hb (near_add.1 hn)

theorem planeAux_eq {eps : K} {x1 x2 aux : List (Fin d → K)} {dir : Option (Fin d → K)}
    (h : planeAux eps x1 x2 dir = some aux) : ∃ s : Fin d → K, aux = x2.map (fun z => z + s) ∧
      (dir = none → s = 0) ∧ ∀ u, dir = some u → offLine2 u s < eps ^ 2 ∧
        ∃ y ∈ x2, s = x1.getD 0 0 - y := by
  cases dir with
  | none =>
    simp only [planeAux, Option.some.injEq] at h
    exact ⟨0, by simp [h], fun _ => rfl, by simp⟩
  | some u =>
    simp only [planeAux] at h
    split at h
    · exact absurd h (by simp)
    · next y hy =>
      refine ⟨x1.getD 0 0 - y, (Option.some.inj h).symm, by simp, ?_⟩
      intro u' hu
      rw [← Option.some.inj hu]
      exact ⟨by simpa using List.find?_some hy, y, List.mem_of_find?_eq_some hy, rfl⟩

variable [IsStrictOrderedRing K]

theorem sep_mono {e e' : K} (h0 : 0 ≤ e) (h : e ≤ e') {x : List (Fin d → K)} (hs : Sep e' x) : Sep e x := by
  intro i j a b hij ha hb hn
  refine hs i j a b hij ha hb ?_
  unfold Near at *
  nlinarith

theorem perm_range {l : List ℕ} {n : ℕ} (hnd : l.Nodup) (hlt : ∀ i ∈ l, i < n) (hl : l.length = n) :
    l.Perm (List.range n) := by
  have hs : l.Subperm (List.range n) :=
    List.subperm_of_subset hnd fun i hi => List.mem_range.2 (hlt i hi)
  exact hs.perm_of_length_le (by simp [hl])

/-- **Matching of planes is a bijection**: if the points of each of the two sets are more than twice
the tolerance of the search apart, the result are two permutations, and with one common shift,
along the direction up to `periodic.eps`, the matched points are near. -/
theorem C68_match_plane {eps epsM : K} (he : 0 ≤ epsM) {query : List (Fin d → K) → List (ℕ × ℕ)}
    (hq : ∀ x, IsPairs epsM x (query x)) {x1 x2 : List (Fin d → K)} {dir : Option (Fin d → K)}
    {i1 : List ℕ} {i2 : List ℤ} (h : matchPlane eps query x1 x2 dir = some (i1, i2))
    (h1 : Sep (2 * epsM) x1) (h2 : Sep (2 * epsM) x2) :
    i1.Perm (List.range x1.length) ∧
    ∃ (i2' : List ℕ) (s : Fin d → K), i2 = i2'.map (fun j : ℕ => (j : ℤ)) ∧
      i2'.Perm (List.range x2.length) ∧ (dir = none → s = 0) ∧
      (∀ u, dir = some u → offLine2 u s < eps ^ 2) ∧
      ∀ (k i j : ℕ) (a b : Fin d → K), i1[k]? = some i → i2'[k]? = some j → x1[i]? = some a →
        x2[j]? = some b → Near epsM a (b + s) := by
  unfold matchPlane at h
  split at h
  · exact absurd h (by simp)
  next hlen =>
  have hlen : x1.length = x2.length := not_not.1 hlen
  split at h
  · exact absurd h (by simp)
  next aux haux =>
  obtain ⟨s, rfl, hs0, hsu⟩ := planeAux_eq haux
  split at h
  · exact absurd h (by simp)
  next cmap hcm =>
  split at h
  · exact absurd h (by simp)
  next hcl =>
  have hcl : cmap.length = x1.length := not_not.1 hcl
  have hr := Option.some.inj h
  have e1 : i1 = cmap.map Prod.fst := (Prod.mk.inj hr).1.symm
  have e2 : i2 = cmap.map Prod.snd := (Prod.mk.inj hr).2.symm
  obtain ⟨hnd, hmem⟩ := (C68_find_map (hq _)).2 cmap hcm
  have hget : ∀ (j : ℕ) (b : Fin d → K), (x2.map fun z => z + s)[j]? = some b → ∃ b', x2[j]? = some b' ∧
      b = b' + s := by
    intro j b hb
    rw [List.getElem?_map, Option.map_eq_some_iff] at hb
    obtain ⟨b', hb, rfl⟩ := hb
    exact ⟨b', hb, rfl⟩
  have nd1 : (cmap.map Prod.fst).Nodup := by
    refine hnd.map_on ?_
    rintro ⟨i, k⟩ hp ⟨i', k'⟩ hp' e
    simp only at e
    subst e
    obtain ⟨j, a, b, rfl, ha, hb, hn⟩ := (hmem _ _).1 hp
    obtain ⟨j', a', b', rfl, ha', hb', hn'⟩ := (hmem _ _).1 hp'
    rw [ha] at ha'
    have := Option.some.inj ha'
    subst this
    by_contra hne
    refine sep_add s h2 j j' b b' ?_ hb hb' (near_trans (near_comm.1 hn) hn')
    rintro rfl
    exact hne rfl
  have nd2 : (cmap.map Prod.snd).Nodup := by
    refine hnd.map_on ?_
    rintro ⟨i, k⟩ hp ⟨i', k'⟩ hp' e
    simp only at e
    subst e
    obtain ⟨j, a, b, rfl, ha, hb, hn⟩ := (hmem _ _).1 hp
    obtain ⟨j', a', b', e', ha', hb', hn'⟩ := (hmem _ _).1 hp'
    have : j = j' := by omega
    subst this
    rw [hb] at hb'
    have := Option.some.inj hb'
    subst this
    by_contra hne
    refine h1 i i' a a' ?_ ha ha' (near_trans hn (near_comm.1 hn'))
    rintro rfl
    exact hne rfl
  refine ⟨?_, cmap.map fun p => p.2.toNat, s, ?_, ?_, hs0, fun u hu => (hsu u hu).1, ?_⟩
  · rw [e1]
    refine perm_range nd1 ?_ (by simp [hcl])
    intro i hi
    obtain ⟨⟨i', k⟩, hp, rfl⟩ := List.mem_map.1 hi
    obtain ⟨j, a, b, -, ha, -⟩ := (hmem _ _).1 hp
    exact (List.getElem?_eq_some_iff.1 ha).1
  · rw [e2, List.map_map]
    refine List.map_congr_left ?_
    rintro ⟨i, k⟩ hp
    obtain ⟨j, a, b, rfl, -⟩ := (hmem _ _).1 hp
    simp
  · refine perm_range ?_ ?_ (by simp [hcl, hlen])
    · refine List.Nodup.map_on ?_ hnd
      rintro ⟨i, k⟩ hp ⟨i', k'⟩ hp' e
      obtain ⟨j, a, b, rfl, -⟩ := (hmem _ _).1 hp
      obtain ⟨j', a', b', rfl, -⟩ := (hmem _ _).1 hp'
      simp only [Int.toNat_natCast] at e
      subst e
      exact List.inj_on_of_nodup_map nd2 hp hp' rfl
    · intro j hj
      obtain ⟨⟨i', k⟩, hp, rfl⟩ := List.mem_map.1 hj
      obtain ⟨j, a, b, rfl, -, hb, -⟩ := (hmem _ _).1 hp
      have := (List.getElem?_eq_some_iff.1 hb).1
      simpa using this
  · intro k i j a b hi hj ha hb
    rw [e1, List.getElem?_map, Option.map_eq_some_iff] at hi
    rw [List.getElem?_map, Option.map_eq_some_iff] at hj
    obtain ⟨p, hp, rfl⟩ := hi
    obtain ⟨p', hp', rfl⟩ := hj
    rw [hp] at hp'
    have := Option.some.inj hp'
    subst this
    obtain ⟨j, a', b', e', ha', hb', hn⟩ := (hmem p.1 p.2).1 (List.mem_of_getElem? hp)
    obtain ⟨b'', hb'', rfl⟩ := hget j b' hb'
    rw [e', Int.toNat_natCast, hb''] at hb
    rw [ha'] at ha
    rw [← Option.some.inj ha, ← Option.some.inj hb]
    exact hn

/-- **Translated points are matched**: if all the points of `x1` are translated by `- s` in `x2`, the
points are more than twice the tolerance apart, and (with a direction) no other point of `x2` is on
the line from the first point of `x1`, the matching succeeds and pairs exactly the translated
points. -/
theorem C68_match_plane_complete {eps epsM : K} (he : 0 ≤ epsM)
    {query : List (Fin d → K) → List (ℕ × ℕ)} (hq : ∀ x, IsPairs epsM x (query x))
    {x1 x2 : List (Fin d → K)} {dir : Option (Fin d → K)} (hlen : x1.length = x2.length)
    {s : Fin d → K} (hs : ∀ a ∈ x1, a - s ∈ x2)
    (hdir : dir = none ∧ s = 0 ∨ ∃ u, dir = some u ∧ x1 ≠ [] ∧ offLine2 u s < eps ^ 2 ∧
      ∀ y ∈ x2, offLine2 u (x1.getD 0 0 - y) < eps ^ 2 → x1.getD 0 0 - y = s)
    (h1 : Sep (2 * epsM) x1) (h2 : Sep (2 * epsM) x2) :
    ∃ i1 i2 : List ℕ, matchPlane eps query x1 x2 dir = some (i1, i2.map fun j : ℕ => (j : ℤ)) ∧
      i1.Perm (List.range x1.length) ∧ i2.Perm (List.range x2.length) ∧
      ∀ (k i j : ℕ) (a b : Fin d → K), i1[k]? = some i → i2[k]? = some j → x1[i]? = some a →
        x2[j]? = some b → b = a - s := by
  have haux : planeAux eps x1 x2 dir = some (x2.map fun z => z + s) := by
    rcases hdir with ⟨rfl, rfl⟩ | ⟨u, rfl, hne, hus, huniq⟩
    · simp [planeAux]
    · simp only [planeAux]
      have hx0 : x1.getD 0 0 ∈ x1 := by
        cases x1 with
        | nil => exact absurd rfl hne
        | cons a l => simp
      split
      · next hnone =>
        rw [List.find?_eq_none] at hnone
        have := hnone _ (hs _ hx0)
        simp only [sub_sub_cancel, decide_eq_true_eq] at this
        exact absurd hus this
      · next y hy =>
        have := huniq y (List.mem_of_find?_eq_some hy) (by simpa using List.find?_some hy)
        rw [this]
  have hS1 : Sep epsM x1 := sep_mono he (by linarith) h1
  have hS2 : Sep epsM (x2.map fun z => z + s) := sep_mono he (by linarith) (sep_add s h2)
  obtain ⟨hnone, hspec⟩ := C68_find_map (hq (x1 ++ x2.map fun z => z + s))
  cases hcm : findMap x1.length (query (x1 ++ x2.map fun z => z + s)) false with
  | none => exact absurd ⟨hS1, hS2⟩ (hnone.1 hcm)
  | some cmap =>
    obtain ⟨hnd, hmem⟩ := hspec cmap hcm
    -- Every point of `x1` has exactly one partner.
    have hpart : ∀ (i : ℕ) (a : Fin d → K), x1[i]? = some a → ∃ j : ℕ, x2[j]? = some (a - s) ∧
        (i, (j : ℤ)) ∈ cmap := by
      intro i a ha
      obtain ⟨j, hj⟩ := List.getElem?_of_mem (hs a (List.mem_of_getElem? ha))
      refine ⟨j, hj, (hmem _ _).2 ⟨j, a, a, rfl, ha, ?_, near_self _ _⟩⟩
      rw [List.getElem?_map, hj]
      simp
    have huniq : ∀ (i j : ℕ) (a b : Fin d → K), (i, (j : ℤ)) ∈ cmap → x1[i]? = some a → x2[j]? = some b →
        b = a - s := by
      intro i j a b hp ha hb
      obtain ⟨j', a', b', e', ha', hb', hn⟩ := (hmem _ _).1 hp
      have : j = j' := by omega
      subst this
      rw [ha] at ha'
      have := Option.some.inj ha'
      subst this
      rw [List.getElem?_map, hb] at hb'
      have := Option.some.inj hb'
      subst this
      obtain ⟨j2, hj2, -⟩ := hpart i a ha
      by_contra hne
      refine h2 j j2 b (a - s) ?_ hb hj2 ?_
      · rintro rfl
        rw [hb] at hj2
        exact hne (Option.some.inj hj2)
      · rw [← near_add (s := s), sub_add_cancel]
        have : Near epsM (b + s) a := near_comm.1 hn
        unfold Near at this ⊢
        nlinarith
    have nd1 : (cmap.map Prod.fst).Nodup := by
      refine hnd.map_on ?_
      rintro ⟨i, k⟩ hp ⟨i', k'⟩ hp' e
      simp only at e
      subst e
      obtain ⟨j, a, b, rfl, ha, hb, hn⟩ := (hmem _ _).1 hp
      obtain ⟨j', a', b', rfl, ha', hb', hn'⟩ := (hmem _ _).1 hp'
      rw [ha] at ha'
      have := Option.some.inj ha'
      subst this
      by_contra hne
      refine sep_add s h2 j j' b b' ?_ hb hb' (near_trans (near_comm.1 hn) hn')
      rintro rfl
      exact hne rfl
    have hcl : cmap.length = x1.length := by
      have hp : (cmap.map Prod.fst).Perm (List.range x1.length) := by
        rw [List.perm_ext_iff_of_nodup nd1 List.nodup_range]
        intro i
        rw [List.mem_range]
        constructor
        · intro hi
          obtain ⟨⟨i', k⟩, hp, rfl⟩ := List.mem_map.1 hi
          obtain ⟨j, a, b, -, ha, -⟩ := (hmem _ _).1 hp
          exact (List.getElem?_eq_some_iff.1 ha).1
        · intro hi
          obtain ⟨j, -, hj⟩ := hpart i _ (List.getElem?_eq_getElem hi)
          exact List.mem_map.2 ⟨_, hj, rfl⟩
      simpa using hp.length_eq
    have hres : matchPlane eps query x1 x2 dir = some (cmap.map Prod.fst, cmap.map Prod.snd) := by
      unfold matchPlane
      rw [if_neg (not_not.2 hlen), haux]
      simp only [hcm]
      rw [if_neg (not_not.2 hcl)]
    obtain ⟨p1, i2', s', e2, p2, -⟩ := C68_match_plane he hq hres h1 h2
    refine ⟨cmap.map Prod.fst, i2', by rw [hres, e2], p1, p2, ?_⟩
    intro k i j a b hi hj ha hb
    rw [List.getElem?_map, Option.map_eq_some_iff] at hi
    obtain ⟨p, hp, rfl⟩ := hi
    have hk : (cmap.map Prod.snd)[k]? = some (j : ℤ) := by
      rw [e2, List.getElem?_map, hj]; rfl
    rw [List.getElem?_map, hp] at hk
    have hk : p.2 = (j : ℤ) := Option.some.inj hk
    refine huniq p.1 j a b ?_ ha hb
    rw [← hk]
    exact List.mem_of_getElem? hp

theorem offLine2_along {u : Fin d → K} (hu : ∑ c, u c * u c = 1) (t : K) : offLine2 u (t • u) = 0 := by
  unfold offLine2
  refine Finset.sum_eq_zero fun c _ => ?_
  have : ∑ c', (t • u) c' * u c' = t := by
    simp only [Pi.smul_apply, smul_eq_mul, mul_assoc]
    rw [← Finset.mul_sum, hu, mul_one]
  rw [this]
  simp

/-! ### Lines -/

theorem countP_le_of_forall2 {A B : Type} {R : A → B → Prop} {p : A → Bool} {q : B → Bool}
    (h : ∀ a b, R a b → p a = true → q b = true) {l : List A} {l' : List B} (hl : List.Forall₂ R l l') :
    l.countP p ≤ l'.countP q := by
  induction hl with
  | nil => simp
  | @cons a b l l' hab _ ih =>
    rw [List.countP_cons, List.countP_cons]
    have := h a b hab
    split <;> split <;> first | omega | (rename_i h1 h2; exact absurd (this h1) h2)

theorem count_ge {l : List K} (hs : l.Pairwise (· ≤ ·)) {k : ℕ} (hk : k < l.length) :
    l.length - k ≤ l.countP fun x => decide (l[k] ≤ x) := by
  have hspl : (l.countP fun x => decide (l[k] ≤ x)) = (l.take k).countP (fun x => decide (l[k] ≤ x)) +
      (l.drop k).countP (fun x => decide (l[k] ≤ x)) := by
    rw [← List.countP_append, List.take_append_drop]
  rw [hspl]
  have : (l.drop k).countP (fun x => decide (l[k] ≤ x)) = (l.drop k).length := by
    rw [List.countP_eq_length]
    intro x hx
    obtain ⟨m, hm, rfl⟩ := List.getElem_of_mem hx
    rw [List.getElem_drop, decide_eq_true_eq]
    rw [List.length_drop] at hm
    rcases Nat.eq_zero_or_pos m with rfl | hm0
    · exact le_of_eq (by simp)
    · exact List.pairwise_iff_getElem.1 hs k (k + m) hk (by omega) (by omega)
  rw [this, List.length_drop]
  omega

theorem count_lt {l : List K} (hs : l.Pairwise (· ≤ ·)) {k : ℕ} (hk : k < l.length) :
    (l.countP fun x => decide (l[k] < x)) ≤ l.length - (k + 1) := by
  have hspl : (l.countP fun x => decide (l[k] < x)) = (l.take (k + 1)).countP (fun x => decide (l[k] < x)) +
      (l.drop (k + 1)).countP (fun x => decide (l[k] < x)) := by
    rw [← List.countP_append, List.take_append_drop]
  rw [hspl]
  have : (l.take (k + 1)).countP (fun x => decide (l[k] < x)) = 0 := by
    rw [List.countP_eq_zero]
    intro x hx
    obtain ⟨m, hm, rfl⟩ := List.getElem_of_mem hx
    rw [List.getElem_take, decide_eq_true_eq, not_lt]
    rw [List.length_take] at hm
    rcases Nat.eq_or_lt_of_le (show m ≤ k by omega) with rfl | hmk
    · exact le_rfl
    · exact List.pairwise_iff_getElem.1 hs m k (by omega) hk hmk
  rw [this, Nat.zero_add]
  refine le_trans List.countP_le_length ?_
  rw [List.length_drop]

/-- Sorted sequences of values with a matching with the tolerance `eps` match item by item. -/
theorem sorted_match {eps : K} {s1 s2 c1 c2 l : List K} (h1 : s1.Pairwise (· ≤ ·)) (h2 : s2.Pairwise (· ≤ ·))
    (p1 : s1.Perm c1) (p2 : s2.Perm c2) (hl : l.Perm c2) (hm : List.Forall₂ (fun a b => |a - b| < eps) c1 l)
    {k : ℕ} (hk1 : k < s1.length) (hk2 : k < s2.length) : s1[k] - s2[k] < eps := by
  by_contra hcon
  push Not at hcon
  have hlen : s1.length = s2.length := by
    rw [p1.length_eq, hm.length_eq, hl.length_eq, p2.length_eq]
  have e1 := count_ge h1 hk1
  have e2 := count_lt h2 hk2
  have e3 : (c1.countP fun x => decide (s1[k] ≤ x)) ≤ l.countP fun x => decide (s2[k] < x) := by
    refine countP_le_of_forall2 ?_ hm
    intro a b hab ha
    have ha : s1[k] ≤ a := by simpa using ha
    have hab := abs_lt.1 hab
    rw [decide_eq_true_eq]
    linarith [hab.2]
  rw [← p1.countP_eq] at e3
  rw [hl.countP_eq, ← p2.countP_eq] at e3
  omega

theorem argsort_perm {c : List K} {i : List ℕ} (h : IsArgsort c i) : (i.map fun j => c.getD j 0).Perm c := by
  have := h.perm.map fun j => c.getD j 0
  refine this.trans (List.Perm.of_eq ?_)
  apply List.ext_getElem (by simp)
  intro n h1 h2
  simp [List.getD_eq_getElem?_getD, h2]

theorem argsort_sorted {c : List K} {i : List ℕ} (h : IsArgsort c i) :
    (i.map fun j => c.getD j 0).Pairwise (· ≤ ·) := by
  rw [List.pairwise_map]
  exact h.sorted

/-- **Matching of lines**: it succeeds iff there is a one-to-one correspondence of the points with the
differences of the coordinates less than `eps`; the result are two permutations that give such a
correspondence.  (For any `argsort`.) -/
theorem C68_match_line {eps : K} {sort : List K → List ℕ} (hs : ∀ c, IsArgsort c (sort c))
    {x1 x2 : List (Fin d → K)} (which : Fin d) :
    ((∃ r, matchLine eps sort x1 x2 which = some r) ↔
      ∃ l, l.Perm (x2.map fun x => x which) ∧
        List.Forall₂ (fun a b => |a - b| < eps) (x1.map fun x => x which) l) ∧
    ∀ i1 i2, matchLine eps sort x1 x2 which = some (i1, i2) →
      i1.Perm (List.range x1.length) ∧ i2.Perm (List.range x2.length) ∧ x1.length = x2.length ∧
      ∀ (k i j : ℕ) (a b : Fin d → K), i1[k]? = some i → i2[k]? = some j → x1[i]? = some a →
        x2[j]? = some b → |a which - b which| < eps := by
  set c1 := x1.map fun x => x which with hc1
  set c2 := x2.map fun x => x which with hc2
  have q1 := (hs c1).perm
  have q2 := (hs c2).perm
  have l1 : c1.length = x1.length := by simp [hc1]
  have l2 : c2.length = x2.length := by simp [hc2]
  have hsucc : ∀ r, matchLine eps sort x1 x2 which = some r → r = (sort c1, sort c2) ∧
      x1.length = x2.length ∧ ∀ p ∈ List.zip (sort c1) (sort c2), |c1.getD p.1 0 - c2.getD p.2 0| < eps := by
    intro r h
    unfold matchLine at h
    split at h
    · exact absurd h (by simp)
    next hlen =>
    simp only at h
    split at h
    · next hall =>
      refine ⟨(Option.some.inj h).symm, not_not.1 hlen, ?_⟩
      intro p hp
      exact of_decide_eq_true (List.all_eq_true.1 hall p hp)
    · exact absurd h (by simp)
  refine ⟨⟨?_, ?_⟩, ?_⟩
  · rintro ⟨r, h⟩
    obtain ⟨-, hlen, hall⟩ := hsucc r h
    -- The correspondence: sort `x1` back.
    have hf : List.Forall₂ (fun a b => |a - b| < eps) ((sort c1).map fun j => c1.getD j 0)
        ((sort c2).map fun j => c2.getD j 0) := by
      rw [List.forall₂_iff_zip]
      refine ⟨by simp [q1.length_eq, q2.length_eq, l1, l2, hlen], ?_⟩
      intro a b hab
      rw [List.zip_map, List.mem_map] at hab
      obtain ⟨p, hp, e⟩ := hab
      simp only [Prod.map, Prod.mk.injEq] at e
      rw [← e.1, ← e.2]
      exact hall p hp
    obtain ⟨l, hl1, hl2⟩ := List.perm_comp_forall₂ (argsort_perm (hs c1)).symm hf
    exact ⟨l, hl2.trans (argsort_perm (hs c2)), hl1⟩
  · rintro ⟨l, hl, hm⟩
    have hlen : x1.length = x2.length := by
      rw [← l1, ← l2, hm.length_eq, hl.length_eq]
    refine ⟨(sort c1, sort c2), ?_⟩
    unfold matchLine
    rw [if_neg (not_not.2 hlen)]
    simp only [← hc1, ← hc2]
    rw [if_pos]
    rw [List.all_eq_true]
    rintro ⟨i, j⟩ hp
    rw [decide_eq_true_eq]
    simp only
    obtain ⟨k, hk, ek⟩ := List.getElem_of_mem hp
    rw [List.length_zip] at hk
    rw [List.getElem_zip] at ek
    have ei := (Prod.mk.inj ek).1
    have ej := (Prod.mk.inj ek).2
    have hk1 : k < ((sort c1).map fun j => c1.getD j 0).length := by simp; omega
    have hk2 : k < ((sort c2).map fun j => c2.getD j 0).length := by simp; omega
    have b1 := sorted_match (argsort_sorted (hs c1)) (argsort_sorted (hs c2)) (argsort_perm (hs c1))
      (argsort_perm (hs c2)) hl hm hk1 hk2
    -- The other way.
    obtain ⟨l', hl'1, hl'2⟩ := List.perm_comp_forall₂ hl.symm (List.Forall₂.flip hm)
    have hm' : List.Forall₂ (fun a b => |a - b| < eps) c2 l' := by
      refine List.Forall₂.imp ?_ hl'1
      intro a b hab
      rw [abs_sub_comm]
      exact hab
    have b2 := sorted_match (argsort_sorted (hs c2)) (argsort_sorted (hs c1)) (argsort_perm (hs c2))
      (argsort_perm (hs c1)) hl'2 hm' hk2 hk1
    simp only [List.getElem_map, ei, ej] at b1 b2
    rw [abs_lt]
    constructor <;> linarith
  · intro i1 i2 h
    obtain ⟨e, hlen, hall⟩ := hsucc _ h
    have e1 := (Prod.mk.inj e).1
    have e2 := (Prod.mk.inj e).2
    subst e1 e2
    refine ⟨l1 ▸ q1, l2 ▸ q2, hlen, ?_⟩
    intro k i j a b hi hj ha hb
    have hz : (i, j) ∈ List.zip (sort c1) (sort c2) := by
      refine List.mem_iff_getElem?.2 ⟨k, ?_⟩
      rw [List.getElem?_zip_eq_some]
      exact ⟨hi, hj⟩
    have := hall _ hz
    simpa [hc1, hc2, List.getD_eq_getElem?_getD, ha, hb] using this

end

/-! ### The cache -/

/-- A call of a matching function: the key, `get_saved`, the result without the cache. -/
structure MCall (Key R : Type) where
  key : Key
  getSaved : Bool
  compute : Option R

/-- A history of calls, with their results. -/
def runCalls {Key R : Type} [DecidableEq Key] : List (Key × R) → List (MCall Key R) → List (Option R)
  | _, [] => []
  | cache, c :: cs =>
    let r := cached cache c.key c.getSaved c.compute
    r.2 :: runCalls r.1 cs

theorem runCalls_eq {Key R : Type} [DecidableEq Key] (f : Key → Option R) (cs : List (MCall Key R))
    (cache : List (Key × R)) (h : ∀ k r, cache.lookup k = some r → f k = some r)
    (hc : ∀ c ∈ cs, c.compute = f c.key) : runCalls cache cs = cs.map fun c => c.compute := by
  induction cs generalizing cache with
  | nil => rfl
  | cons c cs ih =>
    have hcc := hc c List.mem_cons_self
    have hcs : ∀ c ∈ cs, c.compute = f c.key := fun c' h' => hc c' (List.mem_cons_of_mem _ h')
    have hupd : ∀ r, c.compute = some r → ∀ k r', ((c.key, r) :: cache).lookup k = some r' →
        f k = some r' := by
      intro r hr k r' hk
      rw [List.lookup_cons] at hk
      split at hk
      · next e =>
        have e : k = c.key := by simpa using e
        rw [e, ← hcc, hr]
        exact hk
      · exact h k r' hk
    simp only [runCalls, List.map_cons]
    unfold cached
    split
    · next r hl _ =>
      rw [ih cache h hcs, hcc, h _ _ hl]
    · split
      · next e => rw [ih cache h hcs, e]
      · next r e => rw [ih _ (hupd r e) hcs, e]

/-- **The cache is right for one set of coordinates per key**: if in a history of calls the calls with
the same key have the same coordinates (so the same results without the cache), all the results are
those without the cache, for any use of `get_saved`. -/
theorem C68_cache_consistent {Key R : Type} [DecidableEq Key] (f : Key → Option R)
    (cs : List (MCall Key R)) (hc : ∀ c ∈ cs, c.compute = f c.key) :
    runCalls [] cs = cs.map fun c => c.compute :=
  runCalls_eq f cs [] (by simp) hc

/-- Calls with `get_saved = False` do not depend on the history. -/
theorem C68_cache_fresh {Key R : Type} [DecidableEq Key] (cs : List (MCall Key R)) (cache : List (Key × R))
    (hc : ∀ c ∈ cs, c.getSaved = false) : runCalls cache cs = cs.map fun c => c.compute := by
  induction cs generalizing cache with
  | nil => rfl
  | cons c cs ih =>
    have h1 := hc c List.mem_cons_self
    have h2 := fun cache => ih cache fun c' h' => hc c' (List.mem_cons_of_mem _ h')
    simp only [runCalls, List.map_cons, cached, h1]
    cases c.compute <;> simp [h2]

/-- **The cache ignores the coordinates**: after a successful matching of `x1`, `x2`, the matching of
any other coordinates of the same shape along the same axis gives the indices for the first ones. -/
theorem C68_cache_stale {d : ℕ} {K : Type} [Field K] [LinearOrder K] {eps : K} {sort : List K → List ℕ}
    {x1 x2 y1 y2 : List (Fin d → K)} {which : Fin d} {r : List ℕ × List ℕ}
    (h : matchLine eps sort x1 x2 which = some r) (h1 : y1.length = x1.length)
    (h2 : y2.length = x2.length) :
    (matchGridLine eps sort (matchGridLine eps sort [] x1 x2 which true).1 y1 y2 which true).2 = some r := by
  have hlen : x1.length = x2.length := by
    unfold matchLine at h
    split at h
    · exact absurd h (by simp)
    · next e => exact not_not.1 e
  unfold matchGridLine
  rw [if_neg (by omega), if_neg (by omega), h]
  have hk : lineKey y1 which = lineKey x1 which := by simp [lineKey, h1]
  rw [hk]
  simp [cached]

end Verif.Mesh
