import Verif.Hang.Model
import Verif.Fem.PropsContTensor
import Verif.Fem.PropsLagTensor
import Mathlib.Algebra.Polynomial.Eval.Degree
import Mathlib.Algebra.Polynomial.Degree.Lemmas
import Mathlib.Tactic.FieldSimp
import Mathlib.Tactic.Ring
import Mathlib.Tactic.LinearCombination
import Mathlib.Tactic.Linarith

/-!
# Continuity across an edge with a hanging node (C127)
-/

namespace Verif.Hang

open Verif.Fem Finset

/-! ## Specification -/

/-- The node number `a = 0..o` along the edge `k`, from its first to its second vertex. -/
def edgeNode (o : ℕ) : ℕ → ℕ → Nd
  | 0, a => (a, 0)
  | 1, a => (o, a)
  | 2, a => (o - a, o)
  | _, a => (0, o - a)

/-- The point of the edge `k` of the reference quadrilateral at the parameter `s = 0..1`. -/
def edgePt {K : Type} [Field K] : ℕ → K → K × K
  | 0, s => (s, 0)
  | 1, s => (1, s)
  | 2, s => (1 - s, 1)
  | _, s => (0, 1 - s)

/-- What the substitutions must satisfy; `e` is the connectivity before the substitution.
`kind`: as produced by the table of edges (C126).  `inj1`, `inj2`: a fine cell is the first (second) fine
cell of one coarse edge only.  `chain1`, `chain2`: an edge with a hanging node is no neighbour of an edge
that is itself substituted (one level of hanging).  `corner1`, `corner2`: the ends of the coarse edge are
vertices of the fine cells (a conforming numbering of vertices, before the substitution). -/
structure Ok (o : ℕ) (e : ℕ → Nd → ℕ) (subs : List Sub) : Prop where
  order : 1 ≤ o
  kind : ∀ s ∈ subs, s.fc < 4 ∧ s.k1 = 0 ∧ s.k2 = 3
  inj1 : ∀ s ∈ subs, ∀ t ∈ subs, s.f1 = t.f1 → s = t
  inj2 : ∀ s ∈ subs, ∀ t ∈ subs, s.f2 = t.f2 → s = t
  chain1 : ∀ s ∈ subs, ∀ t ∈ subs, s.c = t.f1 → s.fc = 2 ∨ s.fc = 3
  chain2 : ∀ s ∈ subs, ∀ t ∈ subs, s.c = t.f2 → s.fc = 0 ∨ s.fc = 1
  corner1 : ∀ s ∈ subs, e s.f1 (0, 0) = e s.c (edgeNode o s.fc o)
  corner2 : ∀ s ∈ subs, e s.f2 (0, 0) = e s.c (edgeNode o s.fc 0)

/-! ## Substitution of the DOFs -/

def posList (o : ℕ) : List ℕ := 0 :: o :: (List.range (o - 1)).map (· + 1)

theorem mem_posList {o : ℕ} (ho : 1 ≤ o) (a : ℕ) : a ∈ posList o ↔ a ≤ o := by
  simp only [posList, List.mem_cons, List.mem_map, List.mem_range]
  constructor
  · rintro (h | h | ⟨b, hb, rfl⟩) <;> omega
  · intro h
    by_cases h0 : a = 0
    · exact Or.inl h0
    · by_cases h1 : a = o
      · exact Or.inr (Or.inl h1)
      · exact Or.inr (Or.inr ⟨a - 1, by omega, by omega⟩)

theorem efaces_eq {o k : ℕ} (hk : k < 4) : efaces o k = (posList o).map (edgeNode o k) := by
  have : k = 0 ∨ k = 1 ∨ k = 2 ∨ k = 3 := by omega
  rcases this with rfl | rfl | rfl | rfl <;> simp [efaces, posList, edgeNode, Function.comp_def]

theorem mem_efaces {o k : ℕ} (ho : 1 ≤ o) (hk : k < 4) (n : Nd) : n ∈ efaces o k ↔ ∃ a ≤ o, n = edgeNode o k a := by
  rw [efaces_eq hk, List.mem_map]
  constructor
  · rintro ⟨a, ha, rfl⟩; exact ⟨a, (mem_posList ho a).1 ha, rfl⟩
  · rintro ⟨a, ha, rfl⟩; exact ⟨a, (mem_posList ho a).2 ha, rfl⟩

theorem mem_efaces0 {o : ℕ} (ho : 1 ≤ o) (n : Nd) : n ∈ efaces o 0 ↔ n.1 ≤ o ∧ n.2 = 0 := by
  rw [mem_efaces ho (by omega)]
  constructor
  · rintro ⟨a, ha, rfl⟩; exact ⟨ha, rfl⟩
  · rintro ⟨h1, h2⟩; exact ⟨n.1, h1, by ext <;> simp [edgeNode, h2]⟩

theorem mem_efaces3 {o : ℕ} (ho : 1 ≤ o) (n : Nd) : n ∈ efaces o 3 ↔ n.1 = 0 ∧ n.2 ≤ o := by
  rw [mem_efaces ho (by omega)]
  constructor
  · rintro ⟨a, ha, rfl⟩; exact ⟨rfl, by simp [edgeNode]⟩
  · rintro ⟨h1, h2⟩; exact ⟨o - n.2, by omega, by ext <;> simp [edgeNode, h1]; omega⟩

theorem swap_posList (o : ℕ) : swapEdge (posList o) = (posList o).map (o - ·) := by
  simp only [posList, swapEdge, List.map_cons, Nat.sub_zero, Nat.sub_self, List.map_map]
  congr 2
  apply List.ext_getElem
  · simp
  · intro i h1 h2
    simp at h1 h2 ⊢
    omega

theorem swapEdge_map {α β : Type*} (f : α → β) (l : List α) : swapEdge (l.map f) = (swapEdge l).map f := by
  rcases l with _ | ⟨a, _ | ⟨b, l⟩⟩ <;> simp [swapEdge]

theorem setRow_of_mem (e : ℕ → Nd → ℕ) (cell : ℕ) (l : List (Nd × ℕ)) (n : Nd) (v : ℕ)
    (hv : ∀ p ∈ l, p.1 = n → p.2 = v) (h : (∃ p ∈ l, p.1 = n) ∨ e cell n = v) : setRow e cell l cell n = v := by
  induction l generalizing e with
  | nil =>
    rcases h with ⟨p, hp, -⟩ | h
    · simp at hp
    · exact h
  | cons p l ih =>
    rw [setRow, List.foldl_cons]
    refine ih _ (fun q hq => hv q (List.mem_cons_of_mem _ hq)) ?_
    by_cases hp : p.1 = n
    · right
      simp [hp, hv p List.mem_cons_self hp]
    · rcases h with ⟨q, hq, hqn⟩ | h
      · rcases List.mem_cons.1 hq with rfl | hq
        · exact absurd hqn hp
        · exact Or.inl ⟨q, hq, hqn⟩
      · right
        simp [Ne.symm hp, h]

theorem setRow_of_not (e : ℕ → Nd → ℕ) (cell : ℕ) (l : List (Nd × ℕ)) (c : ℕ) (n : Nd)
    (h : c = cell → ∀ p ∈ l, p.1 ≠ n) : setRow e cell l c n = e c n := by
  induction l generalizing e with
  | nil => rfl
  | cons p l ih =>
    rw [setRow, List.foldl_cons]
    rw [← setRow, ih _ (fun hc q hq => h hc q (List.mem_cons_of_mem _ hq))]
    refine if_neg ?_
    rintro ⟨hc, hn⟩
    exact h hc p List.mem_cons_self hn.symm

theorem edgeNode_inj {o k a b : ℕ} (hk : k < 4) (ha : a ≤ o) (hb : b ≤ o) (h : edgeNode o k a = edgeNode o k b) :
    a = b := by
  have : k = 0 ∨ k = 1 ∨ k = 2 ∨ k = 3 := by omega
  rcases this with rfl | rfl | rfl | rfl <;> simp [edgeNode] at h <;> omega

/-- The pairs assigned to an edge of a fine cell. -/
theorem pairs_eq (o : ℕ) (e : ℕ → Nd → ℕ) (s : Sub) {k : ℕ} (hk : k < 4) (hf : s.fc < 4) :
    (efaces o k).zip ((swapEdge (efaces o s.fc)).map (e s.c)) =
      (posList o).map fun a => (edgeNode o k a, e s.c (edgeNode o s.fc (o - a))) := by
  rw [efaces_eq hk, efaces_eq hf, swapEdge_map, swap_posList, List.map_map, List.map_map, List.zip_map']
  rfl

theorem setEdge_on {o : ℕ} (ho : 1 ≤ o) (e e' : ℕ → Nd → ℕ) (s : Sub) (cell : ℕ) {k a : ℕ} (hk : k < 4)
    (hf : s.fc < 4) (ha : a ≤ o) :
    setRow e' cell ((efaces o k).zip ((swapEdge (efaces o s.fc)).map (e s.c))) cell (edgeNode o k a) =
      e s.c (edgeNode o s.fc (o - a)) := by
  rw [pairs_eq o e s hk hf]
  refine setRow_of_mem _ _ _ _ _ ?_ (Or.inl ⟨_, List.mem_map.2 ⟨a, (mem_posList ho a).2 ha, rfl⟩, rfl⟩)
  intro p hp hpn
  obtain ⟨b, hb, rfl⟩ := List.mem_map.1 hp
  rw [edgeNode_inj hk ((mem_posList ho b).1 hb) ha hpn]

theorem setEdge_off {o : ℕ} (e e' : ℕ → Nd → ℕ) (s : Sub) (cell : ℕ) {k : ℕ} (hk : k < 4)
    (hf : s.fc < 4) (c : ℕ) (n : Nd) (h : ¬ (c = cell ∧ n ∈ efaces o k)) :
    setRow e' cell ((efaces o k).zip ((swapEdge (efaces o s.fc)).map (e s.c))) c n = e' c n := by
  refine setRow_of_not _ _ _ _ _ fun hc p hp hpn => h ⟨hc, ?_⟩
  rw [← hpn]
  exact (List.of_mem_zip hp).1

variable {o : ℕ} {e : ℕ → Nd → ℕ} {subs : List Sub}

/-- The node `n` of the cell `c` has a substituted DOF (other than in a vertex of the coarse edge). -/
def Slave (subs : List Sub) (c : ℕ) (n : Nd) : Prop :=
  ∃ t ∈ subs, (c = t.f1 ∧ n.2 = 0 ∧ 1 ≤ n.1) ∨ (c = t.f2 ∧ n.1 = 0 ∧ 1 ≤ n.2)

theorem coarse_not_slave (H : Ok o e subs) {s : Sub} (hs : s ∈ subs) {a : ℕ} (ha : a ≤ o) :
    ¬ Slave subs s.c (edgeNode o s.fc a) := by
  have ho := H.order
  rintro ⟨t, ht, ⟨hc, h1, h2⟩ | ⟨hc, h1, h2⟩⟩
  · rcases H.chain1 s hs t ht hc with h | h <;> rw [h] at h1 h2 <;> simp [edgeNode] at h1 h2
    omega
  · rcases H.chain2 s hs t ht hc with h | h <;> rw [h] at h1 h2 <;> simp [edgeNode] at h1 h2
    omega

theorem substitute_spec (H : Ok o e subs) (p : List Sub) (hp : ∀ s ∈ p, s ∈ subs) :
    (∀ c n, ¬ Slave subs c n → substitute o e p c n = e c n) ∧
    ∀ s ∈ p, ∀ a ≤ o, substitute o e p s.f1 (a, 0) = e s.c (edgeNode o s.fc (o - a)) ∧
      substitute o e p s.f2 (0, o - a) = e s.c (edgeNode o s.fc (o - a)) := by
  have ho := H.order
  induction p using List.reverseRecOn with
  | nil => simp [substitute]
  | append_singleton p t ih =>
    have ht : t ∈ subs := hp t (by simp)
    obtain ⟨ih1, ih2⟩ := ih fun s hs => hp s (by simp [hs])
    obtain ⟨hfc, hk1, hk2⟩ := H.kind t ht
    have hsub : substitute o e (p ++ [t]) = applySub o (substitute o e p) t := by
      simp [substitute, List.foldl_append]
    set E := substitute o e p with hE
    have hm : ∀ a ≤ o, E t.c (edgeNode o t.fc a) = e t.c (edgeNode o t.fc a) := fun a ha =>
      ih1 _ _ (coarse_not_slave H ht ha)
    -- values of the pass
    have v2 : ∀ a ≤ o, applySub o E t t.f2 (0, o - a) = e t.c (edgeNode o t.fc (o - a)) := by
      intro a ha
      rw [← hm _ (Nat.sub_le o a)]
      have := setEdge_on ho E (setRow E t.f1 ((efaces o t.k1).zip ((swapEdge (efaces o t.fc)).map (E t.c)))) t t.f2
        (k := t.k2) (by omega) hfc ha
      rw [hk2] at this
      rw [applySub, hk2]
      exact this
    have v1 : ∀ a ≤ o, applySub o E t t.f1 (a, 0) = e t.c (edgeNode o t.fc (o - a)) := by
      intro a ha
      by_cases hov : t.f1 = t.f2 ∧ a = 0
      · obtain ⟨h12, rfl⟩ := hov
        have := v2 o le_rfl
        rw [Nat.sub_self] at this
        rw [h12, this, Nat.sub_zero, ← H.corner1 t ht, ← H.corner2 t ht, h12]
      · rw [applySub, setEdge_off _ _ _ _ (by omega) hfc, hk1, ← hm _ (Nat.sub_le o a)]
        · exact setEdge_on ho E E t t.f1 (k := 0) (by omega) hfc ha
        · rintro ⟨h12, hmem⟩
          rw [hk2, mem_efaces3 ho] at hmem
          exact hov ⟨h12, hmem.1⟩
    have voff : ∀ c n, ¬ (c = t.f1 ∧ n.1 ≤ o ∧ n.2 = 0) → ¬ (c = t.f2 ∧ n.1 = 0 ∧ n.2 ≤ o) →
        applySub o E t c n = E c n := by
      intro c n h1 h2
      rw [applySub, setEdge_off _ _ _ _ (by omega) hfc, setEdge_off _ _ _ _ (by omega) hfc]
      · rw [hk1, mem_efaces0 ho]; exact h1
      · rw [hk2, mem_efaces3 ho]; exact h2
    rw [hsub]
    have keep : ∀ c n, ¬ Slave subs c n → applySub o E t c n = e c n := by
      intro c n hn
      by_cases h1 : c = t.f1 ∧ n.1 ≤ o ∧ n.2 = 0
      · obtain ⟨rfl, h1, h2⟩ := h1
        have h0 : n.1 = 0 := by
          by_contra hc
          exact hn ⟨t, ht, Or.inl ⟨rfl, h2, by omega⟩⟩
        obtain ⟨n1, n2⟩ := n
        simp only at h0 h2
        subst h0 h2
        rw [v1 0 (by omega), H.corner1 t ht, Nat.sub_zero]
      · by_cases h2 : c = t.f2 ∧ n.1 = 0 ∧ n.2 ≤ o
        · obtain ⟨rfl, h3, h4⟩ := h2
          have h0 : n.2 = 0 := by
            by_contra hc
            exact hn ⟨t, ht, Or.inr ⟨rfl, h3, by omega⟩⟩
          obtain ⟨n1, n2⟩ := n
          simp only at h0 h3
          subst h0 h3
          have := v2 o le_rfl
          rw [Nat.sub_self] at this
          rw [this, H.corner2 t ht]
        · rw [voff c n h1 h2, ih1 c n hn]
    refine ⟨keep, fun s hs a ha => ?_⟩
    have hs' : s ∈ subs := hp s hs
    have hsp : s = t ∨ s ∈ p := by
      rcases List.mem_append.1 hs with h | h
      · exact Or.inr h
      · exact Or.inl (by simpa using h)
    by_cases hst : s = t
    · subst hst
      exact ⟨v1 a ha, v2 a ha⟩
    · have hsp' : s ∈ p := hsp.resolve_left hst
      constructor
      · by_cases h0 : a = 0
        · subst h0
          rw [keep, H.corner1 s hs', Nat.sub_zero]
          rintro ⟨r, hr, ⟨-, -, h⟩ | ⟨-, -, h⟩⟩ <;> simp at h
        · rw [voff]
          · exact (ih2 s hsp' a ha).1
          · rintro ⟨h, -⟩; exact hst (H.inj1 s hs' t ht h)
          · rintro ⟨-, h, -⟩; exact h0 h
      · by_cases h0 : a = o
        · subst h0
          rw [Nat.sub_self, keep, H.corner2 s hs']
          rintro ⟨r, hr, ⟨-, -, h⟩ | ⟨-, -, h⟩⟩ <;> simp at h
        · rw [voff]
          · exact (ih2 s hsp' a ha).2
          · rintro ⟨-, -, h⟩; simp at h; omega
          · rintro ⟨h, -⟩; exact hst (H.inj2 s hs' t ht h)

/-! ## Transformation of the basis -/

variable {K : Type} [Field K]

theorem transform_eq (p : List Sub) (c : ℕ) (j i : Nd) :
    ((∃ s ∈ p, (c = s.f1 ∧ j ∈ efaces o s.k1 ∧ i ∈ efaces o s.k1) ∨ (c = s.f2 ∧ j ∈ efaces o s.k2 ∧ i ∈ efaces o s.k2)) →
      transform (K := K) o p c j i = halfVal o j i) ∧
    ((¬ ∃ s ∈ p, (c = s.f1 ∧ j ∈ efaces o s.k1 ∧ i ∈ efaces o s.k1) ∨ (c = s.f2 ∧ j ∈ efaces o s.k2 ∧ i ∈ efaces o s.k2)) →
      transform (K := K) o p c j i = if j = i then 1 else 0) := by
  induction p using List.reverseRecOn with
  | nil => simp [transform]
  | append_singleton p t ih =>
    have h : transform (K := K) o (p ++ [t]) =
        assignBlock o (assignBlock o (transform o p) t.f1 t.k1) t.f2 t.k2 := by
      simp [transform, List.foldl_append]
    rw [h, assignBlock, assignBlock]
    constructor
    · rintro ⟨s, hs, hc⟩
      by_cases h2 : c = t.f2 ∧ j ∈ efaces o t.k2 ∧ i ∈ efaces o t.k2
      · rw [if_pos h2]
      · rw [if_neg h2]
        by_cases h1 : c = t.f1 ∧ j ∈ efaces o t.k1 ∧ i ∈ efaces o t.k1
        · rw [if_pos h1]
        · rw [if_neg h1]
          apply ih.1
          rcases List.mem_append.1 hs with hs | hs
          · exact ⟨s, hs, hc⟩
          · rw [List.mem_singleton] at hs
            subst hs
            exact absurd hc (by tauto)
    · intro hn
      rw [if_neg, if_neg]
      · exact ih.2 fun ⟨s, hs, hc⟩ => hn ⟨s, by simp [hs], hc⟩
      · exact fun hc => hn ⟨t, by simp, Or.inl hc⟩
      · exact fun hc => hn ⟨t, by simp, Or.inr hc⟩

variable [CharZero K]

theorem qVal_eq (x y : K) {n : Nd} : qVal o x y n = lag1 o x n.1 * lag1 o y n.2 := by
  rw [qVal, tenVal_eq]
  simp [prod_range_succ, lag2, lag1]

theorem lag1_one {a : ℕ} (ha : a ≤ o) : lag1 o (1 : K) a = if a = o then 1 else 0 := by
  have h := lag1_symm (K := K) (Nat.sub_le o a) 1
  rw [Nat.sub_sub_self ha, sub_self, lag1_zero ha] at h
  have h2 := lag1_symm (K := K) ha (1 : K)
  rw [sub_self, lag1_zero (Nat.sub_le o a)] at h2
  rw [← h2]
  congr 1
  simp; omega

theorem ch_poly (α β : K) (n : ℕ) : ∃ P : Polynomial K, P.natDegree ≤ n ∧ ∀ t, P.eval t = ch (α + β * t) n := by
  induction n with
  | zero => exact ⟨1, by simp, by simp⟩
  | succ n ih =>
    obtain ⟨P, hd, hP⟩ := ih
    refine ⟨P * (Polynomial.C (β / (n + 1)) * Polynomial.X + Polynomial.C ((α - n) / (n + 1))), ?_, ?_⟩
    · refine le_trans Polynomial.natDegree_mul_le (Nat.add_le_add hd ?_)
      exact Polynomial.natDegree_linear_le
    · intro t
      rw [ch_succ, Polynomial.eval_mul, hP]
      simp only [Polynomial.eval_add, Polynomial.eval_mul, Polynomial.eval_C, Polynomial.eval_X]
      have : (n : K) + 1 ≠ 0 := by exact_mod_cast Nat.succ_ne_zero n
      field_simp
      ring

/-- Interpolation of a basis function in the nodes of the half interval. -/
theorem lag1_half (ho : 1 ≤ o) (x : K) {b : ℕ} (hb : b ≤ o) :
    ∑ a ∈ range (o + 1), lag1 o ((a : K) / o / 2) b * lag1 o x a = lag1 o (x / 2) b := by
  obtain ⟨P, hPd, hP⟩ := ch_poly (o : K) (-(o : K) / 2) (o - b)
  obtain ⟨Q, hQd, hQ⟩ := ch_poly (0 : K) ((o : K) / 2) b
  have hl : ∀ t : K, lag1 o (t / 2) b = (P * Q).eval t := by
    intro t
    rw [Polynomial.eval_mul, hP, hQ, lag1]
    congr 2 <;> ring
  have hd : (P * Q).natDegree < o + 1 := by
    have := Polynomial.natDegree_mul_le (p := P) (q := Q)
    omega
  have hmono : ∀ k ≤ o, ∑ a ∈ range (o + 1), ((a : K) / o) ^ k * lag1 o x a = x ^ k := by
    intro k hk
    have := repro_1d o ho (fun i => if i = 0 then 1 - x else x) (by simp) (fun i => if i = 0 then (0 : K) else 1) k hk
    simpa [lag1] using this
  rw [hl]
  have h2 : ∀ a : ℕ, lag1 o ((a : K) / o / 2) b = ∑ k ∈ range (o + 1), (P * Q).coeff k * ((a : K) / o) ^ k := by
    intro a
    rw [hl, Polynomial.eval_eq_sum_range' hd]
  simp only [h2, sum_mul]
  rw [sum_comm, Polynomial.eval_eq_sum_range' hd]
  refine sum_congr rfl fun k hk => ?_
  rw [← hmono k (by rw [mem_range] at hk; omega), mul_sum]
  exact sum_congr rfl fun a _ => by ring

/-- Trace on an edge. -/
theorem sum_edge {k : ℕ} (hk : k < 4) (f : Nd → K) (s : K) :
    ∑ i ∈ grid o, f i * qVal o (edgePt k s).1 (edgePt k s).2 i =
      ∑ a ∈ range (o + 1), f (edgeNode o k a) * lag1 o s a := by
  simp only [qVal_eq, grid, sum_product]
  have z : ∀ g : ℕ → K, ∑ a ∈ range (o + 1), g a * lag1 o (0 : K) a = g 0 := by
    intro g
    rw [sum_eq_single 0]
    · simp [lag1_zero (K := K) (Nat.zero_le o)]
    · intro a ha h0
      rw [lag1_zero (by rw [mem_range] at ha; omega), if_neg h0, mul_zero]
    · simp
  have w : ∀ g : ℕ → K, ∑ a ∈ range (o + 1), g a * lag1 o (1 : K) a = g o := by
    intro g
    rw [sum_eq_single o]
    · simp [lag1_one (K := K) (le_refl o)]
    · intro a ha h0
      rw [lag1_one (by rw [mem_range] at ha; omega), if_neg h0, mul_zero]
    · simp
  have r : ∀ g : ℕ → K, ∑ a ∈ range (o + 1), g a * lag1 o (1 - s) a =
      ∑ a ∈ range (o + 1), g (o - a) * lag1 o s a := by
    intro g
    rw [← sum_range_reflect]
    refine sum_congr rfl fun a ha => ?_
    have ha' : a ≤ o := by rw [mem_range] at ha; omega
    rw [show o + 1 - 1 - a = o - a by omega, lag1_symm ha']
  have : k = 0 ∨ k = 1 ∨ k = 2 ∨ k = 3 := by omega
  rcases this with rfl | rfl | rfl | rfl <;> simp only [edgePt, edgeNode]
  · refine sum_congr rfl fun a _ => ?_
    simp only [← mul_assoc]
    rw [z]
  · rw [sum_comm]
    refine sum_congr rfl fun b _ => ?_
    rw [← w fun a => f (a, b) * lag1 o s b]
    exact sum_congr rfl fun a _ => by ring
  · rw [← r fun a => f (a, o)]
    refine sum_congr rfl fun a _ => ?_
    simp only [← mul_assoc]
    rw [w]
  · rw [← r fun a => f (0, a), sum_comm]
    refine sum_congr rfl fun b _ => ?_
    rw [← z fun a => f (a, b) * lag1 o (1 - s) b]
    exact sum_congr rfl fun a _ => by ring

/-! ## Nodal values -/

theorem evalField_eq (E : ℕ → Nd → ℕ) (T : ℕ → Nd → Nd → K) (u : ℕ → K) (c : ℕ) (x y : K) :
    evalField o E T u c x y = ∑ i ∈ grid o, restored o E T u c i * qVal o x y i := by
  simp only [evalField, restored, mul_sum, sum_mul]
  rw [sum_comm]
  exact sum_congr rfl fun i _ => sum_congr rfl fun j _ => by ring

theorem halfVal_zero {j : Nd} (hj : j ∈ grid o) : halfVal (K := K) o j (0, 0) = if j = (0, 0) then 1 else 0 := by
  rw [grid, mem_product, mem_range, mem_range] at hj
  rw [halfVal, qVal_eq]
  simp only [Nat.cast_zero, zero_div]
  rw [lag1_zero (by omega), lag1_zero (by omega)]
  obtain ⟨a, b⟩ := j
  by_cases h1 : a = 0 <;> by_cases h2 : b = 0 <;> simp [h1, h2]

theorem mem_grid {n : Nd} : n ∈ grid o ↔ n.1 ≤ o ∧ n.2 ≤ o := by
  rw [grid, mem_product, mem_range, mem_range]; omega

/-- The nodes that are not substituted. -/
theorem restored_free (H : Ok o e subs) (u : ℕ → K) {c : ℕ} {i : Nd} (hi : i ∈ grid o) (h : ¬ Slave subs c i) :
    restored o (substitute o e subs) (transform o subs) u c i = u (e c i) := by
  have ho := H.order
  rw [restored, ← (substitute_spec H subs fun _ h => h).1 c i h]
  have hT : ∀ j ∈ grid o, transform (K := K) o subs c j i = if j = i then 1 else 0 := by
    intro j hj
    by_cases hex : ∃ s ∈ subs, (c = s.f1 ∧ j ∈ efaces o s.k1 ∧ i ∈ efaces o s.k1) ∨
        (c = s.f2 ∧ j ∈ efaces o s.k2 ∧ i ∈ efaces o s.k2)
    · rw [(transform_eq subs c j i).1 hex]
      obtain ⟨s, hs, hc⟩ := hex
      obtain ⟨-, hk1, hk2⟩ := H.kind s hs
      have h00 : i = (0, 0) := by
        rcases hc with ⟨hc, -, h2⟩ | ⟨hc, -, h2⟩
        · rw [hk1, mem_efaces0 ho] at h2
          have : i.1 = 0 := by
            by_contra hn
            exact h ⟨s, hs, Or.inl ⟨hc, h2.2, by omega⟩⟩
          exact Prod.ext this h2.2
        · rw [hk2, mem_efaces3 ho] at h2
          have : i.2 = 0 := by
            by_contra hn
            exact h ⟨s, hs, Or.inr ⟨hc, h2.1, by omega⟩⟩
          exact Prod.ext h2.1 this
      rw [h00, halfVal_zero hj]
    · exact (transform_eq subs c j i).2 hex
  rw [sum_eq_single_of_mem i hi]
  · rw [hT i hi, if_pos rfl, one_mul]
  · intro j hj hji
    rw [hT j hj, if_neg hji, zero_mul]

/-- The field on the coarse edge. -/
theorem coarse_trace (H : Ok o e subs) (u : ℕ → K) {s : Sub} (hs : s ∈ subs) (x : K) :
    evalField o (substitute o e subs) (transform o subs) u s.c (edgePt s.fc x).1 (edgePt s.fc x).2 =
      ∑ a ∈ range (o + 1), u (e s.c (edgeNode o s.fc a)) * lag1 o x a := by
  rw [evalField_eq, sum_edge (H.kind s hs).1]
  refine sum_congr rfl fun a ha => ?_
  have ha' : a ≤ o := by rw [mem_range] at ha; omega
  rw [restored_free H u ?_ (coarse_not_slave H hs ha')]
  rw [mem_grid]
  have h4 := (H.kind s hs).1
  have : s.fc = 0 ∨ s.fc = 1 ∨ s.fc = 2 ∨ s.fc = 3 := by omega
  rcases this with h | h | h | h <;> rw [h] <;> simp [edgeNode] <;> omega

theorem transform_col1 (H : Ok o e subs) {s : Sub} (hs : s ∈ subs) {a : ℕ} (ha : a ≤ o) {j : Nd} (hj : j ∈ grid o) :
    transform (K := K) o subs s.f1 j (a, 0) = if j.2 = 0 then lag1 o ((a : K) / o / 2) j.1 else 0 := by
  have ho := H.order
  have hg := mem_grid.1 hj
  obtain ⟨-, hk1, hk2⟩ := H.kind s hs
  by_cases h2 : j.2 = 0
  · rw [if_pos h2, (transform_eq subs s.f1 j (a, 0)).1 ⟨s, hs, Or.inl ⟨rfl, ?_, ?_⟩⟩, halfVal, qVal_eq, h2]
    · simp only [Nat.cast_zero, zero_div]
      rw [lag1_zero (Nat.zero_le o), if_pos rfl, mul_one]
    · rw [hk1, mem_efaces0 ho]; exact ⟨hg.1, h2⟩
    · rw [hk1, mem_efaces0 ho]; exact ⟨ha, rfl⟩
  · rw [if_neg h2]
    by_cases hex : ∃ t ∈ subs, (s.f1 = t.f1 ∧ j ∈ efaces o t.k1 ∧ (a, 0) ∈ efaces o t.k1) ∨
        (s.f1 = t.f2 ∧ j ∈ efaces o t.k2 ∧ (a, 0) ∈ efaces o t.k2)
    · rw [(transform_eq subs s.f1 j (a, 0)).1 hex, halfVal, qVal_eq]
      simp only [Nat.cast_zero, zero_div]
      rw [lag1_zero (o := o) (a := j.2) hg.2, if_neg h2, mul_zero]
    · rw [(transform_eq subs s.f1 j (a, 0)).2 hex, if_neg]
      rintro rfl; exact h2 rfl

theorem transform_col2 (H : Ok o e subs) {s : Sub} (hs : s ∈ subs) {b : ℕ} (hb : b ≤ o) {j : Nd} (hj : j ∈ grid o) :
    transform (K := K) o subs s.f2 j (0, b) = if j.1 = 0 then lag1 o ((b : K) / o / 2) j.2 else 0 := by
  have ho := H.order
  have hg := mem_grid.1 hj
  obtain ⟨-, hk1, hk2⟩ := H.kind s hs
  by_cases h1 : j.1 = 0
  · rw [if_pos h1, (transform_eq subs s.f2 j (0, b)).1 ⟨s, hs, Or.inr ⟨rfl, ?_, ?_⟩⟩, halfVal, qVal_eq, h1]
    · simp only [Nat.cast_zero, zero_div]
      rw [lag1_zero (Nat.zero_le o), if_pos rfl, one_mul]
    · rw [hk2, mem_efaces3 ho]; exact ⟨h1, hg.2⟩
    · rw [hk2, mem_efaces3 ho]; exact ⟨rfl, hb⟩
  · rw [if_neg h1]
    by_cases hex : ∃ t ∈ subs, (s.f2 = t.f1 ∧ j ∈ efaces o t.k1 ∧ (0, b) ∈ efaces o t.k1) ∨
        (s.f2 = t.f2 ∧ j ∈ efaces o t.k2 ∧ (0, b) ∈ efaces o t.k2)
    · rw [(transform_eq subs s.f2 j (0, b)).1 hex, halfVal, qVal_eq]
      simp only [Nat.cast_zero, zero_div]
      rw [lag1_zero (o := o) (a := j.1) hg.1, if_neg h1, zero_mul]
    · rw [(transform_eq subs s.f2 j (0, b)).2 hex, if_neg]
      rintro rfl; exact h1 rfl

theorem restored1 (H : Ok o e subs) (u : ℕ → K) {s : Sub} (hs : s ∈ subs) {a : ℕ} (ha : a ≤ o) :
    restored o (substitute o e subs) (transform o subs) u s.f1 (a, 0) =
      ∑ b ∈ range (o + 1), u (e s.c (edgeNode o s.fc (o - b))) * lag1 o ((a : K) / o / 2) b := by
  rw [restored, sum_congr rfl fun j hj => by rw [transform_col1 H hs ha hj], grid, sum_product]
  refine sum_congr rfl fun b hb => ?_
  have hb' : b ≤ o := by rw [mem_range] at hb; omega
  rw [sum_eq_single 0]
  · rw [if_pos rfl, ((substitute_spec H subs fun _ h => h).2 s hs b hb').1, mul_comm]
  · intro k _ hk
    rw [if_neg hk, zero_mul]
  · simp

theorem restored2 (H : Ok o e subs) (u : ℕ → K) {s : Sub} (hs : s ∈ subs) {a : ℕ} (ha : a ≤ o) :
    restored o (substitute o e subs) (transform o subs) u s.f2 (0, a) =
      ∑ b ∈ range (o + 1), u (e s.c (edgeNode o s.fc b)) * lag1 o ((a : K) / o / 2) b := by
  rw [restored, sum_congr rfl fun j hj => by rw [transform_col2 H hs ha hj], grid, sum_product, sum_comm]
  refine sum_congr rfl fun b hb => ?_
  have hb' : b ≤ o := by rw [mem_range] at hb; omega
  rw [sum_eq_single 0]
  · have := ((substitute_spec H subs fun _ h => h).2 s hs (o - b) (Nat.sub_le _ _)).2
    rw [Nat.sub_sub_self hb'] at this
    rw [if_pos rfl, this, mul_comm]
  · intro k _ hk
    rw [if_neg hk, zero_mul]
  · simp

/-! ## C127 -/

/-- C127: the field is continuous across an edge with a hanging node: on the edge 0 of the first fine cell
it equals the field of the coarse cell on the second half of its edge (run backwards), on the edge 3 of the
second fine cell that on the first half; for all orders, DOF values and points. -/
theorem C127_continuous (H : Ok o e subs) (u : ℕ → K) {s : Sub} (hs : s ∈ subs) (x : K) :
    evalField o (substitute o e subs) (transform o subs) u s.f1 x 0 =
      evalField o (substitute o e subs) (transform o subs) u s.c (edgePt s.fc (1 - x / 2)).1
        (edgePt s.fc (1 - x / 2)).2 ∧
    evalField o (substitute o e subs) (transform o subs) u s.f2 0 x =
      evalField o (substitute o e subs) (transform o subs) u s.c (edgePt s.fc (x / 2)).1
        (edgePt s.fc (x / 2)).2 := by
  have ho := H.order
  have refl : ∀ (g : ℕ → K) (t : K), ∑ a ∈ range (o + 1), g a * lag1 o (1 - t) a =
      ∑ a ∈ range (o + 1), g (o - a) * lag1 o t a := by
    intro g t
    rw [← sum_range_reflect]
    refine sum_congr rfl fun a ha => ?_
    have ha' : a ≤ o := by rw [mem_range] at ha; omega
    rw [show o + 1 - 1 - a = o - a by omega, lag1_symm ha']
  rw [coarse_trace H u hs, coarse_trace H u hs]
  constructor
  · have h0 := sum_edge (o := o) (k := 0) (by omega)
      (restored o (substitute o e subs) (transform o subs) u s.f1) x
    simp only [edgePt, edgeNode] at h0
    rw [evalField_eq, h0, refl fun a => u (e s.c (edgeNode o s.fc a))]
    rw [sum_congr rfl fun a ha => by
      rw [restored1 H u hs (show a ≤ o by rw [mem_range] at ha; omega), sum_mul]]
    rw [sum_comm]
    refine sum_congr rfl fun b hb => ?_
    rw [← lag1_half ho x (show b ≤ o by rw [mem_range] at hb; omega), mul_sum]
    exact sum_congr rfl fun a _ => by ring
  · have h0 := sum_edge (o := o) (k := 3) (by omega)
      (restored o (substitute o e subs) (transform o subs) u s.f2) (1 - x)
    simp only [edgePt, edgeNode, sub_sub_cancel] at h0
    rw [evalField_eq, h0, refl fun a => restored o (substitute o e subs) (transform o subs) u s.f2 (0, o - a)]
    rw [sum_congr rfl fun a ha => by
      rw [Nat.sub_sub_self (show a ≤ o by rw [mem_range] at ha; omega),
        restored2 H u hs (show a ≤ o by rw [mem_range] at ha; omega), sum_mul]]
    rw [sum_comm]
    refine sum_congr rfl fun b hb => ?_
    rw [← lag1_half ho x (show b ≤ o by rw [mem_range] at hb; omega), mul_sum]
    exact sum_congr rfl fun a _ => by ring

/-- C127: the values given back for the DOFs of the fine cells (`restore_substituted`) are the nodal
values: they define the same field with the usual basis, in every cell and point. -/
theorem C127_restored (H : Ok o e subs) (u : ℕ → K) (c : ℕ) (x y : K) :
    evalField o (substitute o e subs) (transform o subs) u c x y =
      ∑ i ∈ grid o, restored o (substitute o e subs) (transform o subs) u c i * qVal o x y i ∧
    ∀ i ∈ grid o, ¬ Slave subs c i →
      restored o (substitute o e subs) (transform o subs) u c i = u (e c i) :=
  ⟨evalField_eq _ _ _ _ _ _, fun _ hi h => restored_free H u hi h⟩

/-- C127: the edge between the two fine cells, which ends in the hanging vertex, stays continuous. -/
theorem C127_fine_fine (H : Ok o e subs) (u : ℕ → K) {s : Sub} (hs : s ∈ subs)
    (hconf : ∀ b ≤ o, e s.f1 (o, b) = e s.f2 (b, o)) (y : K) :
    evalField o (substitute o e subs) (transform o subs) u s.f1 1 y =
      evalField o (substitute o e subs) (transform o subs) u s.f2 y 1 := by
  have ho := H.order
  have h1 := sum_edge (o := o) (k := 1) (by omega) (restored o (substitute o e subs) (transform o subs) u s.f1) y
  have h2 := sum_edge (o := o) (k := 2) (by omega) (restored o (substitute o e subs) (transform o subs) u s.f2) (1 - y)
  simp only [edgePt, edgeNode, sub_sub_cancel] at h1 h2
  rw [evalField_eq, evalField_eq, h1, h2, ← sum_range_reflect]
  refine sum_congr rfl fun a ha => ?_
  have ha' : a ≤ o := by rw [mem_range] at ha; omega
  rw [show o + 1 - 1 - a = o - a by omega, ← lag1_symm (K := K) (Nat.sub_le o a) y, Nat.sub_sub_self ha']
  congr 1
  by_cases h0 : a = o
  · subst h0
    rw [Nat.sub_self, restored1 H u hs le_rfl, restored2 H u hs le_rfl]
    have hne : (a : K) ≠ 0 := Nat.cast_ne_zero.2 (by omega)
    rw [div_self hne, ← sum_range_reflect]
    refine sum_congr rfl fun b hb => ?_
    have hb' : b ≤ a := by rw [mem_range] at hb; omega
    rw [show a + 1 - 1 - b = a - b by omega, Nat.sub_sub_self hb', ← lag1_symm hb' (1 / 2 : K)]
    norm_num
  · rw [restored_free H u, restored_free H u, hconf _ (Nat.sub_le o a)]
    · rw [mem_grid]; exact ⟨Nat.sub_le _ _, le_rfl⟩
    · rintro ⟨t, ht, ⟨-, h, -⟩ | ⟨-, h, -⟩⟩ <;> simp at h <;> omega
    · rw [mem_grid]; exact ⟨le_rfl, Nat.sub_le _ _⟩
    · rintro ⟨t, ht, ⟨-, h, -⟩ | ⟨-, h, -⟩⟩ <;> simp at h <;> omega

end Verif.Hang
