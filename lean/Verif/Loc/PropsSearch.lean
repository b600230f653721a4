/-
The general strategy: which cell is returned for a point, with which status and coordinates.
-/
import Verif.Loc.Model

namespace Verif.Loc

variable {K : Type} [Field K] [LinearOrder K]

/-- A candidate is accepted: its coordinates were found and the point is in the cell up to the tolerance. -/
def Accepted (qpEps : K) (r : XiDist K) : Prop := r.ok = true ∧ r.dist < qpEps

theorem search_none (qpEps : K) (xd : ℕ → XiDist K) (l : List ℕ) (s : Search K)
    (h : ∀ c ∈ l, ¬ Accepted qpEps (xd c)) : (searchLoop qpEps xd l s).ok = s.ok := by
  induction l generalizing s with
  | nil => rfl
  | cons c cs ih =>
    have hc := h c (by simp)
    have ih' := fun s => ih s fun c' hc' => h c' (by simp [hc'])
    unfold searchLoop
    simp only
    split
    · rename_i h1
      rw [if_neg fun h2 => hc ⟨h1, h2⟩]
      split <;> rw [ih']
    · split <;> rw [ih']

theorem search_some (qpEps : K) (xd : ℕ → XiDist K) (l : List ℕ) (s : Search K)
    (h : ∃ c ∈ l, Accepted qpEps (xd c)) :
    ∃ pre c post, l = pre ++ c :: post ∧ (∀ c' ∈ pre, ¬ Accepted qpEps (xd c')) ∧ Accepted qpEps (xd c) ∧
      (searchLoop qpEps xd l s).ok = true ∧ (searchLoop qpEps xd l s).imin = c ∧
      (searchLoop qpEps xd l s).xi = (xd c).xi := by
  induction l generalizing s with
  | nil => simp at h
  | cons c cs ih =>
    by_cases hc : Accepted qpEps (xd c)
    · refine ⟨[], c, cs, rfl, by simp, hc, ?_⟩
      unfold searchLoop
      simp [hc.1, hc.2]
    · have h' : ∃ c ∈ cs, Accepted qpEps (xd c) := by
        obtain ⟨c', hc', ha⟩ := h
        rcases List.mem_cons.1 hc' with rfl | hm
        · exact absurd ha hc
        · exact ⟨c', hm, ha⟩
      have key : ∃ s', searchLoop qpEps xd (c :: cs) s = searchLoop qpEps xd cs s' := by
        conv => enter [1, s', 1]; unfold searchLoop
        simp only
        split
        · rename_i h1
          rw [if_neg fun h2 => hc ⟨h1, h2⟩]
          split <;> exact ⟨_, rfl⟩
        · split <;> exact ⟨_, rfl⟩
      obtain ⟨s', hs'⟩ := key
      obtain ⟨pre, c', post, e, hp, ha, h1, h2, h3⟩ := ih s' h'
      refine ⟨c :: pre, c', post, by rw [e]; rfl, ?_, ha, by rw [hs', h1], by rw [hs', h2], by rw [hs', h3]⟩
      intro d hd
      rcases List.mem_cons.1 hd with rfl | hm
      · exact hc
      · exact hp d hm

/-- One step that accepts nothing. -/
theorem search_step (qpEps : K) (xd : ℕ → XiDist K) (c : ℕ) (cs : List ℕ) (s : Search K)
    (hc : ¬ Accepted qpEps (xd c)) :
    searchLoop qpEps xd (c :: cs) s = searchLoop qpEps xd cs
      { ok := s.ok, imin := if (xd c).dist < s.dmin then c else s.imin,
        dmin := if (xd c).dist < s.dmin then (xd c).dist else s.dmin, xi := (xd c).xi, xiOk := (xd c).ok } := by
  conv => lhs; unfold searchLoop
  simp only
  split
  · rename_i h1
    rw [if_neg fun h2 => hc ⟨h1, h2⟩]
    split <;> simp_all
  · split <;> simp_all

/-- The coordinates and the flag are those of the last candidate. -/
theorem search_last (qpEps : K) (xd : ℕ → XiDist K) (l : List ℕ) (hl : l ≠ []) (s : Search K)
    (h : ∀ c ∈ l, ¬ Accepted qpEps (xd c)) :
    (searchLoop qpEps xd l s).xi = (xd (l.getLast hl)).xi ∧
      (searchLoop qpEps xd l s).xiOk = (xd (l.getLast hl)).ok := by
  induction l generalizing s with
  | nil => exact absurd rfl hl
  | cons c cs ih =>
    rw [search_step qpEps xd c cs s (h c (by simp))]
    cases cs with
    | nil => exact ⟨rfl, rfl⟩
    | cons c' cs' =>
      rw [List.getLast_cons (by simp)]
      exact ih (by simp) _ fun d hd => h d (List.mem_cons_of_mem _ hd)

/-- The smallest distance. -/
theorem search_min (qpEps : K) (xd : ℕ → XiDist K) (l : List ℕ) (s : Search K)
    (h : ∀ c ∈ l, ¬ Accepted qpEps (xd c)) :
    (searchLoop qpEps xd l s).dmin ≤ s.dmin ∧ (∀ c ∈ l, (searchLoop qpEps xd l s).dmin ≤ (xd c).dist) ∧
      (((searchLoop qpEps xd l s).imin = s.imin ∧ (searchLoop qpEps xd l s).dmin = s.dmin) ∨
        ((searchLoop qpEps xd l s).imin ∈ l ∧
          (searchLoop qpEps xd l s).dmin = (xd (searchLoop qpEps xd l s).imin).dist)) := by
  induction l generalizing s with
  | nil => exact ⟨le_rfl, by simp, Or.inl ⟨rfl, rfl⟩⟩
  | cons c cs ih =>
    rw [search_step qpEps xd c cs s (h c (by simp))]
    obtain ⟨s', hs'⟩ : ∃ s' : Search K, s' = Search.mk s.ok (if (xd c).dist < s.dmin then c else s.imin)
        (if (xd c).dist < s.dmin then (xd c).dist else s.dmin) (xd c).xi (xd c).ok := ⟨_, rfl⟩
    rw [← hs']
    obtain ⟨h1, h2, h3⟩ := ih s' fun d hd => h d (List.mem_cons_of_mem _ hd)
    have hd : s'.dmin ≤ s.dmin ∧ s'.dmin ≤ (xd c).dist := by
      simp only [hs']
      split
      · rename_i hlt; exact ⟨hlt.le, le_rfl⟩
      · rename_i hlt; exact ⟨le_rfl, not_lt.1 hlt⟩
    refine ⟨h1.trans hd.1, ?_, ?_⟩
    · intro d hdm
      rcases List.mem_cons.1 hdm with rfl | hm
      · exact h1.trans hd.2
      · exact h2 d hm
    · rcases h3 with ⟨h3, h4⟩ | ⟨h3, h4⟩
      · rw [h3, h4]
        simp only [hs']
        by_cases hlt : (xd c).dist < s.dmin
        · right; simp [hlt]
        · left; simp [hlt]
      · exact Or.inr ⟨List.mem_cons_of_mem _ h3, h4⟩

variable (sqrt : K → K) (extrapolate : Bool) (qpEps closeLimit : K) (xd : ℕ → XiDist K) (xi0 : ℕ → K)

/-- The status of a point is 5 exactly when there are no candidates. -/
theorem C110_status_five (cands : List ℕ) :
    (findRefCoors sqrt extrapolate qpEps closeLimit xd xi0 cands).status = 5 ↔ cands = [] := by
  cases cands with
  | nil => simp [findRefCoors]
  | cons c cs =>
    simp only [findRefCoors, statusOf, reduceCtorEq, iff_false]
    split
    · decide
    · split
      · decide
      · split
        · split <;> decide
        · decide

/-- The status of a point is 0 exactly when a candidate is accepted. -/
theorem C110_status_zero (cands : List ℕ) :
    (findRefCoors sqrt extrapolate qpEps closeLimit xd xi0 cands).status = 0 ↔
      ∃ c ∈ cands, Accepted qpEps (xd c) := by
  cases cands with
  | nil => simp [findRefCoors]
  | cons c cs =>
    constructor
    · intro hs
      by_contra hne
      push Not at hne
      have := search_none qpEps xd (c :: cs)
        { ok := false, imin := c, dmin := 10 ^ 10, xi := xi0, xiOk := false } hne
      simp only [findRefCoors, statusOf, this] at hs
      revert hs
      simp only [Bool.false_eq_true, if_false]
      split
      · decide
      · split
        · split <;> decide
        · decide
    · intro h
      obtain ⟨_, _, _, _, _, _, h1, _, _⟩ := search_some qpEps xd (c :: cs)
        { ok := false, imin := c, dmin := 10 ^ 10, xi := xi0, xiOk := false } h
      simp only [findRefCoors, statusOf, h1, if_true]

/-- **C110.** When the status is 0, the cell is the first accepted candidate and the coordinates are those in
that cell. -/
theorem C110_first_accepted (cands : List ℕ)
    (h : (findRefCoors sqrt extrapolate qpEps closeLimit xd xi0 cands).status = 0) :
    ∃ pre post, cands = pre ++ (findRefCoors sqrt extrapolate qpEps closeLimit xd xi0 cands).cell :: post ∧
      (∀ c ∈ pre, ¬ Accepted qpEps (xd c)) ∧
      Accepted qpEps (xd (findRefCoors sqrt extrapolate qpEps closeLimit xd xi0 cands).cell) ∧
      (findRefCoors sqrt extrapolate qpEps closeLimit xd xi0 cands).xi =
        (xd (findRefCoors sqrt extrapolate qpEps closeLimit xd xi0 cands).cell).xi := by
  rw [C110_status_zero] at h
  cases cands with
  | nil => simp at h
  | cons c cs =>
    obtain ⟨pre, c', post, e, hp, ha, _, h2, h3⟩ := search_some qpEps xd (c :: cs)
      { ok := false, imin := c, dmin := 10 ^ 10, xi := xi0, xiOk := false } h
    refine ⟨pre, post, ?_, hp, ?_, ?_⟩
    · simp only [findRefCoors, h2]; exact e
    · simp only [findRefCoors, h2]; exact ha
    · simp only [findRefCoors, h2, h3]

/-- **C110.** When no candidate is accepted, the cell is a candidate closest to the point; the status is 4 when the
Newton iteration of the LAST candidate did not converge, otherwise 1 or 2 with extrapolation according to the distance
of the closest cell, or 3. -/
theorem C110_closest (cands : List ℕ) (hne : cands ≠ []) (h : ∀ c ∈ cands, ¬ Accepted qpEps (xd c))
    (hfar : ∃ c ∈ cands, (xd c).dist < 10 ^ 10) :
    let f := findRefCoors sqrt extrapolate qpEps closeLimit xd xi0 cands
    f.cell ∈ cands ∧ (∀ c ∈ cands, (xd f.cell).dist ≤ (xd c).dist) ∧
      f.xi = (xd (cands.getLast hne)).xi ∧
      f.status = if (xd (cands.getLast hne)).ok = false then 4
        else if extrapolate then (if sqrt (xd f.cell).dist < closeLimit then 1 else 2) else 3 := by
  cases cands with
  | nil => exact absurd rfl hne
  | cons c cs =>
    obtain ⟨s0, hs0⟩ : ∃ s0 : Search K, s0 = Search.mk false c (10 ^ 10) xi0 false := ⟨_, rfl⟩
    intro f
    have ef : f = Found.mk (searchLoop qpEps xd (c :: cs) s0).imin (statusOf sqrt extrapolate closeLimit
      (searchLoop qpEps xd (c :: cs) s0).ok (searchLoop qpEps xd (c :: cs) s0).xiOk
      (searchLoop qpEps xd (c :: cs) s0).dmin) (searchLoop qpEps xd (c :: cs) s0).xi := by rw [hs0]; rfl
    clear_value f
    subst ef
    obtain ⟨h1, h2⟩ := search_last qpEps xd (c :: cs) hne s0 h
    obtain ⟨h3, h4, h5⟩ := search_min qpEps xd (c :: cs) s0 h
    have h6 := search_none qpEps xd (c :: cs) s0 h
    obtain ⟨d, hd, hdl⟩ := hfar
    have h7 : (searchLoop qpEps xd (c :: cs) s0).imin ∈ c :: cs ∧
        (searchLoop qpEps xd (c :: cs) s0).dmin = (xd (searchLoop qpEps xd (c :: cs) s0).imin).dist := by
      rcases h5 with ⟨_, h5⟩ | h5
      · have : s0.dmin = (10 : K) ^ 10 := by rw [hs0]
        rw [this] at h5
        exact absurd (lt_of_le_of_lt (h5 ▸ h4 d hd) hdl) (lt_irrefl _)
      · exact h5
    refine ⟨h7.1, fun c' hc' => h7.2 ▸ h4 c' hc', h1, ?_⟩
    simp only [statusOf, h2, h6, ← h7.2]
    simp only [hs0, Bool.false_eq_true, if_false]
    cases (xd ((c :: cs).getLast hne)).ok <;> simp

/-- The value is zero where the status is above 1. -/
theorem C110_eval_not_found (basis : (ℕ → K) → ℕ → K) (econn : ℕ × ℕ → ℤ) (u : ℤ → K) (nNod : ℕ) (f : Found K)
    (h : 1 < f.status) : evaluateInRc basis econn u nNod f = 0 := by
  unfold evaluateInRc
  rw [if_neg (by omega)]

end Verif.Loc
