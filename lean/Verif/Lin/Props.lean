import Verif.Lin.Model
import Mathlib.Data.List.Sort
import Mathlib.Data.List.GetD
import Mathlib.Tactic.Ring
import Mathlib.Tactic.Linarith

/-!
# C120: the linearized output mesh covers every element

A finest-level reference sub-element (a "leaf") of element `e` is a number `q < factor ^ max_level`; it
lies in sub-element `q / factor ^ (max_level - l)` of level `l`.
-/

namespace Verif.Lin

/-- The output cell contains leaf `q` of element `e`. -/
def Covers (factor maxLevel e q : ℕ) (c : Cell) : Prop :=
  c.1 ≤ maxLevel ∧ c.2.1 = e ∧ c.2.2 = q / factor ^ (maxLevel - c.1)

instance (factor maxLevel e q : ℕ) (c : Cell) : Decidable (Covers factor maxLevel e q c) := by
  unfold Covers; infer_instance

section aux
variable {factor minLevel maxLevel : ℕ} {crit : ℕ → List ℕ → ℕ → ℕ → Bool}

/-- The flag of one sub-element after the overrides. -/
def fl (minLevel maxLevel : ℕ) (crit : ℕ → List ℕ → ℕ → ℕ → Bool) (l : ℕ) (iels : List ℕ) (e p : ℕ) :
    Bool :=
  if l < minLevel then true else if l = maxLevel then false else crit l iels e p

theorem override_eq (l : ℕ) (iels : List ℕ) :
    overrideFlag minLevel maxLevel l (flagRows factor crit l iels) =
      iels.map fun e => (List.range (factor ^ l)).map (fl minLevel maxLevel crit l iels e) := by
  unfold overrideFlag flagRows fl
  split_ifs <;> simp [List.map_map, Function.comp_def]

theorem repeatRow_getD (r : List Bool) (d : Bool) (i : ℕ) (hi : i < r.length * factor) :
    (repeatRow factor r).getD i d = r.getD (i / factor) d := by
  have hF : 0 < factor := by
    rcases Nat.eq_zero_or_pos factor with h | h
    · subst h; simp at hi
    · exact h
  induction r generalizing i with
  | nil => simp at hi
  | cons b r ih =>
    unfold repeatRow at *
    rw [List.flatMap_cons]
    by_cases h : i < factor
    · rw [List.getD_append _ _ _ _ (by simpa using h)]
      rw [Nat.div_eq_of_lt h]
      simp [h]
    · have h : factor ≤ i := not_lt.mp h
      rw [List.getD_append_right _ _ _ _ (by simpa using h)]
      rw [List.length_replicate, ih (i - factor) (by
        simp only [List.length_cons, Nat.succ_mul] at hi; omega)]
      rw [Nat.div_eq_sub_div hF h, List.getD_cons_succ]

theorem repeatRow_length (r : List Bool) : (repeatRow factor r).length = r.length * factor := by
  unfold repeatRow; simp

theorem searchsorted_spec : ∀ (a : List ℕ), a.Pairwise (· < ·) → ∀ (i : ℕ) (hi : i < a.length),
    searchsorted a (a[i]) = i := by
  intro a
  induction a with
  | nil => intro _ i hi; simp at hi
  | cons b a ih =>
    intro hs i hi
    rw [List.pairwise_cons] at hs
    unfold searchsorted at *
    cases i with
    | zero =>
      simp only [List.getElem_cons_zero, List.countP_cons]
      have : a.countP (fun y => decide (y < b)) = 0 := by
        rw [List.countP_eq_zero]; intro y hy; simpa using (hs.1 y hy).le
      simp [this]
    | succ i =>
      simp only [List.getElem_cons_succ, List.countP_cons]
      have hi' : i < a.length := by simpa using hi
      rw [ih hs.2 i hi']
      simp [hs.1 _ (List.getElem_mem hi')]

theorem toRefine_eq (iels : List ℕ) (g : ℕ → List Bool) :
    toRefine iels (iels.map g) = iels.filter fun e => (g e).any id := by
  unfold toRefine
  induction iels with
  | nil => rfl
  | cons e t ih =>
    simp only [List.map_cons, List.zip_cons_cons, List.filter_cons]
    split_ifs <;> simp [ih]

/-- The row of `expand_flag0` of a processed element. -/
theorem expand_row (iels0 iels : List ℕ) (hs : iels0.Pairwise (· < ·)) (hsub : ∀ e ∈ iels, e ∈ iels0)
    (g : ℕ → List Bool) (fl' : List (List Bool)) :
    expandFlag factor (some (iels0, iels0.map g)) iels fl' = iels.map fun e => repeatRow factor (g e) := by
  unfold expandFlag
  apply List.map_congr_left
  intro e he
  obtain ⟨i, hi, rfl⟩ := List.getElem_of_mem (hsub e he)
  rw [searchsorted_spec _ hs i hi]
  simp [hi]

theorem mem_finished (l : ℕ) (iels : List ℕ) (g x : ℕ → List Bool) (c : Cell) :
    c ∈ finished l iels (iels.map g) (iels.map x) ↔
      c.1 = l ∧ c.2.1 ∈ iels ∧ c.2.2 < (g c.2.1).length ∧ (g c.2.1).getD c.2.2 true = false ∧
        (x c.2.1).getD c.2.2 false = true := by
  obtain ⟨cl, ce, cp⟩ := c
  unfold finished whereRow
  simp only [List.mem_flatMap, List.mem_range, List.mem_map, List.mem_filter, Prod.mk.injEq]
  constructor
  · rintro ⟨ie, hie, ir, ⟨h1, h2⟩, rfl, rfl, rfl⟩
    have e1 : (iels.map g).getD ie [] = g iels[ie] := by simp [hie]
    have e2 : (iels.map x).getD ie [] = x iels[ie] := by simp [hie]
    have e3 : iels.getD ie 0 = iels[ie] := by simp [hie]
    rw [e1] at h1 h2
    rw [e2] at h2
    rw [e3]
    simp only [Bool.and_eq_true, beq_iff_eq] at h2
    exact ⟨rfl, List.getElem_mem hie, h1, h2.1, h2.2⟩
  · rintro ⟨rfl, he, h1, h2, h3⟩
    obtain ⟨ie, hie, rfl⟩ := List.getElem_of_mem he
    have e1 : (iels.map g).getD ie [] = g iels[ie] := by simp [hie]
    have e2 : (iels.map x).getD ie [] = x iels[ie] := by simp [hie]
    have e3 : iels.getD ie 0 = iels[ie] := by simp [hie]
    refine ⟨ie, hie, cp, ⟨by rw [e1]; exact h1, ?_⟩, rfl, e3, rfl⟩
    rw [e1, e2]
    simp only [Bool.and_eq_true, beq_iff_eq]
    exact ⟨h2, h3⟩

theorem nodup_finished (l : ℕ) (iels : List ℕ) (hn : iels.Nodup) (f x : List (List Bool)) :
    (finished l iels f x).Nodup := by
  unfold finished
  rw [List.nodup_flatMap]
  constructor
  · intro ie _
    apply List.Nodup.map
    · intro a b h; simpa using h
    · exact (List.nodup_range).filter _
  · have : (List.range iels.length).Pairwise (· ≠ ·) := List.nodup_range
    refine List.Pairwise.imp_of_mem ?_ this
    intro a b ha hb hab
    rw [List.mem_range] at ha hb
    simp only [Function.onFun, List.disjoint_left, List.mem_map]
    rintro _ ⟨i, _, rfl⟩ ⟨j, _, h⟩
    simp only [Prod.mk.injEq, true_and] at h
    have : iels[b] = iels[a] := by simpa [ha, hb] using h.1
    exact hab ((hn.getElem_inj_iff).mp this).symm

/-- The abstract loop state: what `expand_flag0` says of sub-element `p` of element `e`. -/
def Prev (factor l : ℕ) (iels : List ℕ) (prev : Option (List ℕ × List (List Bool)))
    (pend : ℕ → ℕ → Bool) : Prop :=
  ∀ g : ℕ → ℕ → Bool, ∃ x : ℕ → List Bool,
    expandFlag factor prev iels (iels.map fun e => (List.range (factor ^ l)).map (g e)) = iels.map x ∧
    ∀ e ∈ iels, ∀ p < factor ^ l, (x e).getD p false = pend e p

theorem prev_none (iels : List ℕ) : Prev factor 0 iels none fun _ _ => true := by
  intro g
  refine ⟨fun e => (List.range (factor ^ 0)).map fun _ => true, ?_, ?_⟩
  · simp [expandFlag, List.map_map, Function.comp_def]
  · intro e _ p hp
    simp at hp; subst hp; rfl

theorem prev_some (l : ℕ) (iels0 iels : List ℕ) (hs : iels0.Pairwise (· < ·))
    (hsub : ∀ e ∈ iels, e ∈ iels0) (f : ℕ → ℕ → Bool) :
    Prev factor (l + 1) iels
      (some (iels0, iels0.map fun e => (List.range (factor ^ l)).map (f e))) fun e p => f e (p / factor) := by
  intro g
  refine ⟨_, expand_row iels0 iels hs hsub _ _, ?_⟩
  intro e _ p hp
  rw [repeatRow_getD _ _ _ (by simpa [pow_succ] using hp)]
  have hd : p / factor < factor ^ l := by
    apply Nat.div_lt_of_lt_mul; rw [mul_comm]; simpa [pow_succ] using hp
  simp [hd]

/-- The membership form of one loop pass. -/
theorem mem_step (l : ℕ) (iels : List ℕ) (prev : Option (List ℕ × List (List Bool)))
    (pend : ℕ → ℕ → Bool) (hp : Prev factor l iels prev pend) (c : Cell) :
    c ∈ finished l iels (overrideFlag minLevel maxLevel l (flagRows factor crit l iels))
        (expandFlag factor prev iels (overrideFlag minLevel maxLevel l (flagRows factor crit l iels))) ↔
      c.1 = l ∧ c.2.1 ∈ iels ∧ c.2.2 < factor ^ l ∧
        fl minLevel maxLevel crit l iels c.2.1 c.2.2 = false ∧ pend c.2.1 c.2.2 = true := by
  rw [override_eq]
  obtain ⟨x, hx, hx'⟩ := hp (fl minLevel maxLevel crit l iels)
  rw [hx, mem_finished]
  constructor
  · rintro ⟨h1, h2, h3, h4, h5⟩
    have h3' : c.2.2 < factor ^ l := by simpa using h3
    refine ⟨h1, h2, h3', ?_, ?_⟩
    · simpa [h3'] using h4
    · rw [← hx' _ h2 _ h3']; exact h5
  · rintro ⟨h1, h2, h3, h4, h5⟩
    refine ⟨h1, h2, by simpa using h3, by simpa [h3] using h4, ?_⟩
    rw [hx' _ h2 _ h3]; exact h5

/-- The cells output on one level, as the loop computes them. -/
def stepOut (factor minLevel maxLevel : ℕ) (crit : ℕ → List ℕ → ℕ → ℕ → Bool) (l : ℕ) (iels : List ℕ)
    (prev : Option (List ℕ × List (List Bool))) : List Cell :=
  finished l iels (overrideFlag minLevel maxLevel l (flagRows factor crit l iels))
    (expandFlag factor prev iels (overrideFlag minLevel maxLevel l (flagRows factor crit l iels)))

/-- The elements kept for the next level. -/
def nextIels (factor minLevel maxLevel : ℕ) (crit : ℕ → List ℕ → ℕ → ℕ → Bool) (l : ℕ) (iels : List ℕ) :
    List ℕ :=
  iels.filter fun e => ((List.range (factor ^ l)).map (fl minLevel maxLevel crit l iels e)).any id

theorem mem_nextIels (l : ℕ) (iels : List ℕ) (e : ℕ) :
    e ∈ nextIels factor minLevel maxLevel crit l iels ↔
      e ∈ iels ∧ ∃ p < factor ^ l, fl minLevel maxLevel crit l iels e p = true := by
  unfold nextIels
  simp [List.mem_filter]

/-- One pass of the loop: either it stops with no flag set, or it stops at the last level, or it goes on
with the flagged elements. -/
theorem loop_cases (fuel l : ℕ) (iels : List ℕ) (prev : Option (List ℕ × List (List Bool))) :
    (loop factor minLevel maxLevel crit fuel l iels prev =
        [stepOut factor minLevel maxLevel crit l iels prev] ∧
      (fuel = 0 ∨ ∀ e ∈ iels, ∀ p < factor ^ l, fl minLevel maxLevel crit l iels e p = false)) ∨
    ∃ f', fuel = f' + 1 ∧ loop factor minLevel maxLevel crit fuel l iels prev =
        stepOut factor minLevel maxLevel crit l iels prev ::
          loop factor minLevel maxLevel crit f' (l + 1) (nextIels factor minLevel maxLevel crit l iels)
            (some (iels, iels.map fun e =>
              (List.range (factor ^ l)).map (fl minLevel maxLevel crit l iels e))) := by
  have hl : loop factor minLevel maxLevel crit fuel l iels prev =
      let flag := overrideFlag minLevel maxLevel l (flagRows factor crit l iels)
      let out := finished l iels flag (expandFlag factor prev iels flag)
      if flag.any (fun r => r.any id) then
        match fuel with
        | 0 => [out]
        | fuel + 1 => out :: loop factor minLevel maxLevel crit fuel (l + 1) (toRefine iels flag)
            (some (iels, flag))
      else [out] := loop.eq_def .. 
  rw [hl]
  by_cases ha : (overrideFlag minLevel maxLevel l (flagRows factor crit l iels)).any (fun r => r.any id)
  · simp only [ha, if_true]
    cases fuel with
    | zero => left; exact ⟨rfl, Or.inl rfl⟩
    | succ f' =>
      right
      refine ⟨f', rfl, ?_⟩
      simp only [stepOut, nextIels, override_eq, toRefine_eq]
  · left
    refine ⟨by simp only [ha]; rfl, Or.inr ?_⟩
    rw [override_eq] at ha
    intro e he p hp
    by_contra hc
    apply ha
    simp only [List.any_map, List.any_eq_true, Function.comp, id]
    exact ⟨e, he, p, by simpa using hp, by simpa using hc⟩

theorem fl_last (hmm : minLevel ≤ maxLevel) (iels : List ℕ) (e p : ℕ) :
    fl minLevel maxLevel crit maxLevel iels e p = false := by
  unfold fl; simp [not_lt.mpr hmm]

theorem sorted_next (l : ℕ) (iels : List ℕ) (hs : iels.Pairwise (· < ·)) :
    (nextIels factor minLevel maxLevel crit l iels).Pairwise (· < ·) := hs.filter _

theorem leaf_lt {l fuel q : ℕ} (h : l + fuel = maxLevel) (hq : q < factor ^ maxLevel) :
    q / factor ^ fuel < factor ^ l := by
  apply Nat.div_lt_of_lt_mul
  rw [← pow_add, add_comm, h]; exact hq

theorem leaf_parent (fuel q : ℕ) : q / factor ^ (fuel + 1) = q / factor ^ fuel / factor := by
  rw [Nat.div_div_eq_div_mul, pow_succ]

theorem covers_aux (hmm : minLevel ≤ maxLevel) (fuel : ℕ) : ∀ (l : ℕ) (iels : List ℕ)
    (prev : Option (List ℕ × List (List Bool))) (pend : ℕ → ℕ → Bool), l + fuel = maxLevel →
    iels.Pairwise (· < ·) → Prev factor l iels prev pend → ∀ e ∈ iels, ∀ q < factor ^ maxLevel,
    pend e (q / factor ^ fuel) = true →
    ∃ c ∈ (loop factor minLevel maxLevel crit fuel l iels prev).flatten,
      Covers factor maxLevel e q c := by
  induction fuel with
  | zero =>
    intro l iels prev pend hl hs hp e he q hq hpend
    simp only [Nat.add_zero] at hl
    subst hl
    refine ⟨(l, e, q / factor ^ 0), ?_, le_refl _, rfl, by simp⟩
    rcases loop_cases (factor := factor) (minLevel := minLevel) (maxLevel := l) (crit := crit) 0 l iels prev
      with ⟨h, _⟩ | ⟨f', hf, _⟩
    · rw [h, List.flatten_singleton]
      rw [stepOut, mem_step l iels prev pend hp]
      exact ⟨rfl, he, leaf_lt rfl hq, fl_last hmm _ _ _, hpend⟩
    · omega
  | succ fuel ih =>
    intro l iels prev pend hl hs hp e he q hq hpend
    by_cases hf : fl minLevel maxLevel crit l iels e (q / factor ^ (fuel + 1)) = false
    · have hm : (l, e, q / factor ^ (fuel + 1)) ∈ stepOut factor minLevel maxLevel crit l iels prev := by
        rw [stepOut, mem_step l iels prev pend hp]
        exact ⟨rfl, he, leaf_lt hl hq, hf, hpend⟩
      refine ⟨(l, e, q / factor ^ (fuel + 1)), ?_, by simp only; omega, rfl, ?_⟩
      · rcases loop_cases (factor := factor) (minLevel := minLevel) (maxLevel := maxLevel) (crit := crit)
          (fuel + 1) l iels prev with ⟨h, _⟩ | ⟨f', _, h⟩
        · rw [h]; simpa using hm
        · rw [h, List.flatten_cons]; exact List.mem_append_left _ hm
      · simp only; congr 2; omega
    · have hf' : fl minLevel maxLevel crit l iels e (q / factor ^ (fuel + 1)) = true := by simpa using hf
      rcases loop_cases (factor := factor) (minLevel := minLevel) (maxLevel := maxLevel) (crit := crit)
          (fuel + 1) l iels prev with ⟨_, h0 | h⟩ | ⟨f', hf0, h⟩
      · omega
      · exact absurd (h e he _ (leaf_lt hl hq)) hf
      · have : f' = fuel := by omega
        subst this
        have hn : e ∈ nextIels factor minLevel maxLevel crit l iels :=
          (mem_nextIels l iels e).mpr ⟨he, _, leaf_lt hl hq, hf'⟩
        obtain ⟨c, hc, hcov⟩ := ih (l + 1) _ _ _ (by omega) (sorted_next l iels hs)
          (prev_some l iels _ hs (fun e h => ((mem_nextIels l iels e).mp h).1) _) e hn q hq
          (by rw [← leaf_parent]; exact hf')
        rw [h, List.flatten_cons]
        exact ⟨c, List.mem_append_right _ hc, hcov⟩

/-- The step form of the monotonicity actually needed. -/
def MonoStep (factor maxLevel : ℕ) (crit : ℕ → List ℕ → ℕ → ℕ → Bool) : Prop :=
  ∀ l iels iels' e p, 1 ≤ l → l + 1 < maxLevel →
    crit l iels e (p / factor) = false → crit (l + 1) iels' e p = false

theorem keep_step (hm : MonoStep factor maxLevel crit) (l : ℕ) (hl : l + 1 ≤ maxLevel)
    (iels : List ℕ) (e p : ℕ) (he : e ∈ nextIels factor minLevel maxLevel crit l iels)
    (hp : p < factor ^ (l + 1)) (h : fl minLevel maxLevel crit l iels e (p / factor) = false)
    (iels' : List ℕ) : fl minLevel maxLevel crit (l + 1) iels' e p = false := by
  have hpd : p / factor < factor ^ l := by
    apply Nat.div_lt_of_lt_mul; rw [mul_comm, ← pow_succ]; exact hp
  rcases Nat.eq_zero_or_pos l with h0 | h0
  · subst h0
    obtain ⟨_, p0, hp0, hp1⟩ := (mem_nextIels _ _ _).mp he
    simp only [pow_zero, Nat.lt_one_iff] at hp0 hpd
    rw [hpd] at h; rw [hp0, h] at hp1; simp at hp1
  · unfold fl at h ⊢
    have h1 : ¬ l < minLevel := by intro hc; simp [hc] at h
    have h2 : ¬ l + 1 < minLevel := by omega
    have h3 : l ≠ maxLevel := by omega
    simp only [h1, if_false, h3] at h
    simp only [h2, if_false]
    split_ifs with h4
    · rfl
    · exact hm l _ _ e p h0 (by omega) h

/-- `expand_flag0` false implies `flag` false, for the processed sub-elements. -/
def Keep (factor minLevel maxLevel : ℕ) (crit : ℕ → List ℕ → ℕ → ℕ → Bool) (l : ℕ) (iels : List ℕ)
    (pend : ℕ → ℕ → Bool) : Prop :=
  ∀ e ∈ iels, ∀ p < factor ^ l, pend e p = false → fl minLevel maxLevel crit l iels e p = false

theorem count_step (l : ℕ) (iels : List ℕ) (prev : Option (List ℕ × List (List Bool)))
    (pend : ℕ → ℕ → Bool) (hs : iels.Pairwise (· < ·)) (hp : Prev factor l iels prev pend)
    (e q fuel : ℕ) (hl : l + fuel = maxLevel) (hq : q < factor ^ maxLevel) :
    (stepOut factor minLevel maxLevel crit l iels prev).countP
        (fun c => decide (Covers factor maxLevel e q c)) =
      if e ∈ iels ∧ fl minLevel maxLevel crit l iels e (q / factor ^ fuel) = false ∧
        pend e (q / factor ^ fuel) = true then 1 else 0 := by
  have hmem := mem_step (minLevel := minLevel) (maxLevel := maxLevel) (crit := crit) l iels prev pend hp
  have hcov : ∀ c ∈ stepOut factor minLevel maxLevel crit l iels prev,
      Covers factor maxLevel e q c ↔ c = (l, e, q / factor ^ fuel) := by
    rintro ⟨cl, ce, cp⟩ hc
    rw [stepOut, hmem] at hc
    have h1 : cl = l := hc.1
    subst h1
    have : maxLevel - cl = fuel := by omega
    unfold Covers
    simp only [this, Prod.mk.injEq, true_and]
    constructor
    · exact fun h => h.2
    · exact fun h => ⟨by omega, h⟩
  have h1 : (stepOut factor minLevel maxLevel crit l iels prev).countP
        (fun c => decide (Covers factor maxLevel e q c)) =
      (stepOut factor minLevel maxLevel crit l iels prev).count (l, e, q / factor ^ fuel) := by
    rw [List.count]
    apply List.countP_congr
    intro c hc
    simp [hcov c hc]
  rw [h1]
  have hn : (stepOut factor minLevel maxLevel crit l iels prev).Nodup :=
    nodup_finished l iels (hs.imp (fun h => ne_of_lt h)) _ _
  split_ifs with hc
  · apply List.count_eq_one_of_mem hn
    rw [stepOut, hmem]
    exact ⟨rfl, hc.1, leaf_lt hl hq, hc.2.1, hc.2.2⟩
  · apply List.count_eq_zero_of_not_mem
    rw [stepOut, hmem]
    rintro ⟨_, h2, _, h4, h5⟩
    exact hc ⟨h2, h4, h5⟩

theorem prev_next (l : ℕ) (iels : List ℕ) (hs : iels.Pairwise (· < ·)) :
    Prev factor (l + 1) (nextIels factor minLevel maxLevel crit l iels)
      (some (iels, iels.map fun e => (List.range (factor ^ l)).map (fl minLevel maxLevel crit l iels e)))
      fun e p => fl minLevel maxLevel crit l iels e (p / factor) :=
  prev_some l iels _ hs (fun e h => ((mem_nextIels l iels e).mp h).1) _

theorem keep_next (hm : MonoStep factor maxLevel crit) (l : ℕ) (hl : l + 1 ≤ maxLevel) (iels : List ℕ) :
    Keep factor minLevel maxLevel crit (l + 1) (nextIels factor minLevel maxLevel crit l iels)
      fun e p => fl minLevel maxLevel crit l iels e (p / factor) :=
  fun e he p hp h => keep_step hm l hl iels e p he hp h _

theorem count_done (hm : MonoStep factor maxLevel crit) (fuel : ℕ) : ∀ (l : ℕ) (iels : List ℕ)
    (prev : Option (List ℕ × List (List Bool))) (pend : ℕ → ℕ → Bool), l + fuel = maxLevel →
    iels.Pairwise (· < ·) → Prev factor l iels prev pend → Keep factor minLevel maxLevel crit l iels pend →
    ∀ e, ∀ q < factor ^ maxLevel, (e ∈ iels → pend e (q / factor ^ fuel) = false) →
    (loop factor minLevel maxLevel crit fuel l iels prev).flatten.countP
        (fun c => decide (Covers factor maxLevel e q c)) = 0 := by
  induction fuel with
  | zero =>
    intro l iels prev pend hl hs hp hk e q hq hpend
    rcases loop_cases (factor := factor) (minLevel := minLevel) (maxLevel := maxLevel) (crit := crit) 0 l
      iels prev with ⟨h, _⟩ | ⟨f', hf, _⟩
    · rw [h, List.flatten_singleton, count_step l iels prev pend hs hp e q 0 hl hq, if_neg]
      rintro ⟨h1, _, h3⟩
      rw [hpend h1] at h3; simp at h3
    · omega
  | succ fuel ih =>
    intro l iels prev pend hl hs hp hk e q hq hpend
    have h0 : (stepOut factor minLevel maxLevel crit l iels prev).countP
        (fun c => decide (Covers factor maxLevel e q c)) = 0 := by
      rw [count_step l iels prev pend hs hp e q (fuel + 1) hl hq, if_neg]
      rintro ⟨h1, _, h3⟩
      rw [hpend h1] at h3; simp at h3
    rcases loop_cases (factor := factor) (minLevel := minLevel) (maxLevel := maxLevel) (crit := crit)
      (fuel + 1) l iels prev with ⟨h, _⟩ | ⟨f', hf, h⟩
    · rw [h, List.flatten_singleton, h0]
    · have : f' = fuel := by omega
      subst this
      rw [h, List.flatten_cons, List.countP_append, h0, Nat.zero_add]
      refine ih (l + 1) _ _ _ (by omega) (sorted_next l iels hs) (prev_next l iels hs)
        (keep_next hm l (by omega) iels) e q hq ?_
      intro he
      have he' := ((mem_nextIels l iels e).mp he).1
      show fl minLevel maxLevel crit l iels e (q / factor ^ f' / factor) = false
      rw [← leaf_parent]
      exact hk e he' _ (leaf_lt hl hq) (hpend he')

theorem count_once (hmm : minLevel ≤ maxLevel) (hm : MonoStep factor maxLevel crit) (fuel : ℕ) :
    ∀ (l : ℕ) (iels : List ℕ) (prev : Option (List ℕ × List (List Bool))) (pend : ℕ → ℕ → Bool),
    l + fuel = maxLevel → iels.Pairwise (· < ·) → Prev factor l iels prev pend →
    Keep factor minLevel maxLevel crit l iels pend →
    ∀ e ∈ iels, ∀ q < factor ^ maxLevel, pend e (q / factor ^ fuel) = true →
    (loop factor minLevel maxLevel crit fuel l iels prev).flatten.countP
        (fun c => decide (Covers factor maxLevel e q c)) = 1 := by
  induction fuel with
  | zero =>
    intro l iels prev pend hl hs hp hk e he q hq hpend
    rcases loop_cases (factor := factor) (minLevel := minLevel) (maxLevel := maxLevel) (crit := crit) 0 l
      iels prev with ⟨h, _⟩ | ⟨f', hf, _⟩
    · rw [h, List.flatten_singleton, count_step l iels prev pend hs hp e q 0 hl hq, if_pos]
      have : l = maxLevel := by omega
      subst this
      exact ⟨he, fl_last hmm _ _ _, hpend⟩
    · omega
  | succ fuel ih =>
    intro l iels prev pend hl hs hp hk e he q hq hpend
    have h0 := count_step (minLevel := minLevel) (crit := crit) l iels prev pend hs hp e q (fuel + 1) hl hq
    rcases loop_cases (factor := factor) (minLevel := minLevel) (maxLevel := maxLevel) (crit := crit)
      (fuel + 1) l iels prev with ⟨h, hz | hz⟩ | ⟨f', hf, h⟩
    · omega
    · rw [h, List.flatten_singleton, h0, if_pos]
      exact ⟨he, hz e he _ (leaf_lt hl hq), hpend⟩
    · have : f' = fuel := by omega
      subst this
      rw [h, List.flatten_cons, List.countP_append, h0]
      by_cases hfl : fl minLevel maxLevel crit l iels e (q / factor ^ (f' + 1)) = false
      · rw [if_pos ⟨he, hfl, hpend⟩]
        rw [count_done hm f' (l + 1) _ _ _ (by omega) (sorted_next l iels hs) (prev_next l iels hs)
          (keep_next hm l (by omega) iels) e q hq (by intro _; rw [← leaf_parent]; exact hfl)]
      · rw [if_neg (by rintro ⟨_, h2, _⟩; exact hfl h2), Nat.zero_add]
        have hfl' : fl minLevel maxLevel crit l iels e (q / factor ^ (f' + 1)) = true := by simpa using hfl
        exact ih (l + 1) _ _ _ (by omega) (sorted_next l iels hs) (prev_next l iels hs)
          (keep_next hm l (by omega) iels) e
          ((mem_nextIels l iels e).mpr ⟨he, _, leaf_lt hl hq, hfl'⟩) q hq
          (by rw [← leaf_parent]; exact hfl')

theorem range_aux (fuel : ℕ) : ∀ (l : ℕ) (iels : List ℕ)
    (prev : Option (List ℕ × List (List Bool))) (pend : ℕ → ℕ → Bool), l + fuel = maxLevel →
    iels.Pairwise (· < ·) → Prev factor l iels prev pend →
    ∀ c ∈ (loop factor minLevel maxLevel crit fuel l iels prev).flatten,
      (minLevel ≤ c.1) ∧ c.1 ≤ maxLevel ∧ c.2.1 ∈ iels ∧ c.2.2 < factor ^ c.1 := by
  have key : ∀ (fuel l : ℕ) (iels : List ℕ) (prev : Option (List ℕ × List (List Bool)))
      (pend : ℕ → ℕ → Bool), l + fuel = maxLevel → Prev factor l iels prev pend →
      ∀ c ∈ stepOut factor minLevel maxLevel crit l iels prev,
      (minLevel ≤ c.1) ∧ c.1 ≤ maxLevel ∧ c.2.1 ∈ iels ∧ c.2.2 < factor ^ c.1 := by
    intro fuel l iels prev pend hl hp c hc
    rw [stepOut, mem_step l iels prev pend hp] at hc
    obtain ⟨h1, h2, h3, h4, _⟩ := hc
    refine ⟨?_, by omega, h2, by rw [h1]; exact h3⟩
    by_contra hlt
    unfold fl at h4
    rw [if_pos (by omega)] at h4
    simp at h4
  induction fuel with
  | zero =>
    intro l iels prev pend hl hs hp c hc
    rcases loop_cases (factor := factor) (minLevel := minLevel) (maxLevel := maxLevel) (crit := crit) 0 l
      iels prev with ⟨h, _⟩ | ⟨f', hf, _⟩
    · rw [h, List.flatten_singleton] at hc
      exact key 0 l iels prev pend hl hp c hc
    · omega
  | succ fuel ih =>
    intro l iels prev pend hl hs hp c hc
    rcases loop_cases (factor := factor) (minLevel := minLevel) (maxLevel := maxLevel) (crit := crit)
      (fuel + 1) l iels prev with ⟨h, _⟩ | ⟨f', hf, h⟩
    · rw [h, List.flatten_singleton] at hc
      exact key _ l iels prev pend hl hp c hc
    · have : f' = fuel := by omega
      subst this
      rw [h, List.flatten_cons, List.mem_append] at hc
      rcases hc with hc | hc
      · exact key _ l iels prev pend hl hp c hc
      · obtain ⟨h1, h2, h3, h4⟩ := ih (l + 1) _ _ _ (by omega) (sorted_next l iels hs)
          (prev_next l iels hs) c hc
        exact ⟨h1, h2, ((mem_nextIels l iels _).mp h3).1, h4⟩

end aux

/-- **C120 (full coverage).**  Whatever the error criterion says, every part of every element is
contained in at least one cell of the output: for each element `e` and each finest-level leaf `q` some
output cell covers `q`.  (`min_level ≤ max_level`: otherwise nothing at all is output.) -/
theorem C120_covered (factor nEl minLevel maxLevel : ℕ) (crit : ℕ → List ℕ → ℕ → ℕ → Bool)
    (hmm : minLevel ≤ maxLevel) (e : ℕ) (he : e < nEl) (q : ℕ) (hq : q < factor ^ maxLevel) :
    ∃ c ∈ (createOutput factor nEl minLevel maxLevel crit).flatten, Covers factor maxLevel e q c :=
  covers_aux hmm maxLevel 0 _ _ _ (by omega) List.pairwise_lt_range (prev_none _) e
    (List.mem_range.mpr he) q hq rfl

/-- **C120 (only existing cells, levels within bounds).**  Every output cell is a sub-element of an
existing element at a refinement level between `min_level` and `max_level`. -/
theorem C120_in_range (factor nEl minLevel maxLevel : ℕ) (crit : ℕ → List ℕ → ℕ → ℕ → Bool)
    (c : Cell) (hc : c ∈ (createOutput factor nEl minLevel maxLevel crit).flatten) :
    minLevel ≤ c.1 ∧ c.1 ≤ maxLevel ∧ c.2.1 < nEl ∧ c.2.2 < factor ^ c.1 := by
  have := range_aux maxLevel 0 _ _ _ (by omega) List.pairwise_lt_range (prev_none _) c hc
  exact ⟨this.1, this.2.1, List.mem_range.mp this.2.2.1, this.2.2.2⟩

/-- **C120 (no overlap).**  If the criterion never flags a child of an unflagged sub-element (only
levels `1 ≤ l`, `l + 1 < max_level` matter), the output is a partition: every leaf is in exactly one
output cell. -/
theorem C120_exactly_once (factor nEl minLevel maxLevel : ℕ) (crit : ℕ → List ℕ → ℕ → ℕ → Bool)
    (hmm : minLevel ≤ maxLevel)
    (hmono : ∀ l iels iels' e p, 1 ≤ l → l + 1 < maxLevel →
      crit l iels e (p / factor) = false → crit (l + 1) iels' e p = false)
    (e : ℕ) (he : e < nEl) (q : ℕ) (hq : q < factor ^ maxLevel) :
    (createOutput factor nEl minLevel maxLevel crit).flatten.countP
      (fun c => decide (Covers factor maxLevel e q c)) = 1 :=
  count_once hmm hmono maxLevel 0 _ _ _ (by omega) List.pairwise_lt_range (prev_none _)
    (fun _ _ _ _ h => by simp at h) e (List.mem_range.mpr he) q hq rfl

/-- **C120 (default levels).**  With `max_level ≤ 2` (the default is 2) the output is a partition for
every criterion. -/
theorem C120_exactly_once_default (factor nEl minLevel maxLevel : ℕ)
    (crit : ℕ → List ℕ → ℕ → ℕ → Bool) (hmm : minLevel ≤ maxLevel) (h2 : maxLevel ≤ 2)
    (e : ℕ) (he : e < nEl) (q : ℕ) (hq : q < factor ^ maxLevel) :
    (createOutput factor nEl minLevel maxLevel crit).flatten.countP
      (fun c => decide (Covers factor maxLevel e q c)) = 1 :=
  C120_exactly_once factor nEl minLevel maxLevel crit hmm
    (fun _ _ _ _ _ h1 h3 => by omega) e he q hq

/-- **C120 (finding).**  With `max_level = 3` a criterion that flags a child of a finished sub-element
makes the output overlap: the leaf below is written twice, once with the finished sub-element of level
1 and once on level 3 - the flag is not masked with `expand_flag0` before it is carried on. -/
theorem C120_overlap_counterexample : ∃ crit : ℕ → List ℕ → ℕ → ℕ → Bool,
    (createOutput 4 1 0 3 crit).flatten.countP (fun c => decide (Covers 4 3 0 17 c)) = 2 :=
  ⟨fun l _ _ p => l == 0 || (l == 1 && p == 0) || (l == 2 && p == 4), by decide +kernel⟩

theorem outConn_aux (np : ℕ) (outs : List (List Cell)) : ∀ k0 : ℕ,
    outConn np (k0 * np) outs =
      (List.range outs.flatten.length).map fun c => (List.range np).map fun v => (k0 + c) * np + v := by
  induction outs with
  | nil => intro k0; simp [outConn]
  | cons o t ih =>
    intro k0
    rw [outConn, ← Nat.add_mul, ih (k0 + o.length), List.flatten_cons, List.length_append,
      List.range_add, List.map_append, List.map_map]
    congr 1
    · apply List.map_congr_left; intro c _
      apply List.map_congr_left; intro v _
      ring
    · apply List.map_congr_left; intro c _
      apply List.map_congr_left; intro v _
      ring

/-- **C120 (connectivity).**  The output mesh has one cell per output sub-element, in output order, and
cell number `k` owns the vertices `k * np .. k * np + np - 1`: no vertex is shared between cells, none is
missing and none is out of the range of the stacked coordinates. -/
theorem C120_connectivity (np factor nEl minLevel maxLevel : ℕ) (crit : ℕ → List ℕ → ℕ → ℕ → Bool) :
    outConn np 0 (createOutput factor nEl minLevel maxLevel crit) =
      (List.range (createOutput factor nEl minLevel maxLevel crit).flatten.length).map
        fun k => (List.range np).map fun v => k * np + v := by
  have := outConn_aux np (createOutput factor nEl minLevel maxLevel crit) 0
  simpa using this

/-! ### Non-vacuity -/

/-- Element 1 of 3 is refined once, its sub-element 2 twice: 2 + 3 + 4 cells. -/
example : (createOutput 4 3 0 2 fun l _ e p => e == 1 && (l == 0 || (l == 1 && p == 2))) =
    [[(0, 0, 0), (0, 2, 0)], [(1, 1, 0), (1, 1, 1), (1, 1, 3)],
      [(2, 1, 8), (2, 1, 9), (2, 1, 10), (2, 1, 11)]] := by decide +kernel

/-- A monotone criterion with `max_level = 3`. -/
example : ∀ l (iels iels' : List ℕ) (e p : ℕ), 1 ≤ l → l + 1 < 3 →
    (fun l (_ : List ℕ) (_ p : ℕ) => decide (p / 4 ^ l = 0 ∧ p = 0)) l iels e (p / 4) = false →
    (fun l (_ : List ℕ) (_ p : ℕ) => decide (p / 4 ^ l = 0 ∧ p = 0)) (l + 1) iels' e p = false := by
  intro l _ _ _ p _ _ h
  simp only [decide_eq_false_iff_not] at h ⊢
  rintro ⟨_, rfl⟩
  exact h ⟨by simp, by simp⟩

example : outConn 3 0 (createOutput 4 2 0 2 fun l _ e _ => e == 1 && l == 0) =
    [[0, 1, 2], [3, 4, 5], [6, 7, 8], [9, 10, 11], [12, 13, 14]] := by decide +kernel

end Verif.Lin
