/-
C19: completion of region entities and finalization.
-/
import Verif.Region.Props
namespace Verif.Region

/-- The entities of dimension `d` of a region whose entities of dimension `e` are `S`. -/
def closureList (m : CMesh) (e : Nat) (S : List Nat) (d : Nat) : List Nat :=
  if d = e then S else unique (m.getIncident d S e)

/-- The highest available entities are `S` of dimension `e`, and everything below is either not
computed yet or derived from `S`. -/
structure Top (m : CMesh) (e : Nat) (S : List Nat) (r : Reg) : Prop where
  wf : WF r
  le : e ≤ kindTdim r.tdim r.kind
  le' : e ≤ r.tdim
  above : ∀ d, e < d → d ≤ r.tdim → (r.ent d).getD [] = []
  top : r.ent e = some S
  ne : S ≠ []
  below : ∀ d, d < e → can r.tdim r.kind d = true →
    r.ent d = none ∨ r.ent d = some (closureList m e S d)

theorem highest_aux (r : Reg) (e : Nat) (S : List Nat) (top : r.ent e = some S) (ne : S ≠ [])
    (n : Nat) (hn : e ≤ n) (above : ∀ d, e < d → d ≤ n → (r.ent d).getD [] = []) :
    r.highest n = some e := by
  induction n with
  | zero =>
    obtain rfl : e = 0 := by omega
    unfold Reg.highest
    rw [top]
    cases S with
    | nil => exact absurd rfl ne
    | cons a b => rfl
  | succ n ih =>
    unfold Reg.highest
    by_cases he : e = n + 1
    · subst he
      rw [top]
      cases S with
      | nil => exact absurd rfl ne
      | cons a b => rfl
    · have ha := above (n + 1) (by omega) (Nat.le_refl _)
      cases hx : r.ent (n + 1) with
      | none => exact ih (by omega) fun d h1 h2 => above d h1 (by omega)
      | some l =>
        rw [hx] at ha
        simp only [Option.getD_some] at ha
        subst ha
        exact ih (by omega) fun d h1 h2 => above d h1 (by omega)

theorem top_highest {m : CMesh} {e : Nat} {S : List Nat} {r : Reg} (h : Top m e S r) :
    r.highest r.tdim = some e :=
  highest_aux r e S h.top h.ne r.tdim h.le' h.above

theorem top_setup {m : CMesh} {e : Nat} {S : List Nat} {r : Reg} (h : Top m e S r) (d : Nat)
    (hd : d < e) (hc : can r.tdim r.kind d = true) (aL aE : Bool) :
    r.setupFromHighest m d aL aE = .ok (r.setEnt d (closureList m e S d)) := by
  unfold Reg.setupFromHighest
  rw [hc, top_highest h]
  simp only [Bool.true_eq_false, if_false, h.top, Option.getD_some]
  rw [if_neg (by omega)]
  unfold closureList
  rw [if_neg (by omega)]

theorem top_set {m : CMesh} {e : Nat} {S : List Nat} {r : Reg} (h : Top m e S r) (d : Nat)
    (hd : d < e) (hc : can r.tdim r.kind d = true) :
    Top m e S (r.setEnt d (closureList m e S d)) where
  wf := wf_setEnt r h.wf d _ hc
  le := h.le
  le' := h.le'
  above := by
    intro d' h1 h2
    have : d' ≠ d := by omega
    simp only [Reg.setEnt, if_neg this]
    exact h.above d' h1 h2
  top := by
    have : e ≠ d := by omega
    simp only [Reg.setEnt, if_neg this]; exact h.top
  ne := h.ne
  below := by
    intro d' h1 h2
    by_cases hdd : d' = d
    · subst hdd; right; simp [Reg.setEnt]
    · simp only [Reg.setEnt, if_neg hdd]; exact h.below d' h1 h2

/-- Reading the entities of a dimension below the top. -/
theorem top_access {m : CMesh} {e : Nat} {S : List Nat} :
    ∀ (fuel d : Nat) (r : Reg), Top m e S r → d ≤ e → e - d < fuel →
      ∃ r', r.access m fuel d = .ok r' ∧ Top m e S r' ∧ r'.kind = r.kind ∧ r'.tdim = r.tdim ∧
        r'.isEmpty = r.isEmpty ∧
        (can r.tdim r.kind d = true → r'.ent d = some (closureList m e S d)) ∧
        (∀ d', d' < d ∨ e < d' → r'.ent d' = r.ent d') := by
  intro fuel
  induction fuel with
  | zero => intro d r _ _ h; omega
  | succ fuel ih =>
    intro d r h hd hf
    unfold Reg.access
    cases hx : r.ent d with
    | some l =>
      refine ⟨r, rfl, h, rfl, rfl, rfl, ?_, fun _ _ => rfl⟩
      intro hc
      rw [hx]
      by_cases hde : d = e
      · subst hde
        rw [h.top] at hx
        cases hx
        simp [closureList]
      · rcases h.below d (by omega) hc with h0 | h0
        · rw [hx] at h0; cases h0
        · rw [← hx, h0]
    | none =>
      have hde : d ≠ e := by rintro rfl; rw [h.top] at hx; cases hx
      have hc : can r.tdim r.kind d = true := by
        cases hc : can r.tdim r.kind d with
        | true => rfl
        | false =>
          rw [h.wf.empty d (by have := h.le'; omega) hc] at hx; cases hx
      have hle := h.le
      have hle' := h.le'
      simp only
      rw [if_neg (by omega)]
      obtain ⟨r', e1, e2, e3, e4, e5, e6, e7⟩ := ih (d + 1) r h (by omega) (by omega)
      rw [e1]
      simp only
      have hc' : can r'.tdim r'.kind d = true := by rw [e3, e4]; exact hc
      rw [top_setup e2 d (by omega) hc']
      refine ⟨_, rfl, top_set e2 d (by omega) hc', e3, e4, e5, ?_, ?_⟩
      · intro _; simp [Reg.setEnt]
      · intro d' hd'
        have : d' ≠ d := by omega
        simp only [Reg.setEnt, if_neg this]
        exact e7 d' (by omega)

/-! ### Preservation of well-formedness -/

theorem wf_setupFromHighest (m : CMesh) (r r' : Reg) (h : WF r) (d : Nat) (aL aE : Bool)
    (he : r.setupFromHighest m d aL aE = .ok r') :
    WF r' ∧ r'.kind = r.kind ∧ r'.tdim = r.tdim := by
  unfold Reg.setupFromHighest at he
  split at he
  · cases he; exact ⟨h, rfl, rfl⟩
  · next hc =>
    have hc' : can r.tdim r.kind d = true := by
      cases hh : can r.tdim r.kind d <;> simp_all
    split at he
    · split at he
      · cases he
      · cases he
        refine ⟨⟨h.dim, h.norm, ?_⟩, rfl, rfl⟩
        intro x h1 h2
        simp only at h2 ⊢
        split
        · rfl
        · exact h.empty x h1 h2
    · split at he
      · split at he
        · cases he
        · split at he
          · cases he; exact ⟨wf_setEnt r h d _ hc', rfl, rfl⟩
          · cases he
            refine ⟨⟨h.dim, h.norm, ?_⟩, rfl, rfl⟩
            intro x h1 h2
            simp only [Reg.clearBelow] at h2 ⊢
            split
            · rfl
            · exact h.empty x h1 h2
      · cases he; exact ⟨wf_setEnt r h d _ hc', rfl, rfl⟩

theorem wf_access (m : CMesh) : ∀ (fuel d : Nat) (r r' : Reg), WF r →
    r.access m fuel d = .ok r' → WF r' ∧ r'.kind = r.kind ∧ r'.tdim = r.tdim := by
  intro fuel
  induction fuel with
  | zero => intro d r r' _ h; cases h
  | succ fuel ih =>
    intro d r r' hw h
    unfold Reg.access at h
    split at h
    · cases h; exact ⟨hw, rfl, rfl⟩
    · split at h
      · split at h
        · cases h; exact ⟨hw, rfl, rfl⟩
        · next hc =>
          split at h
          · cases h
          · next r1 h1 =>
            cases h
            obtain ⟨a, b, c⟩ := ih 0 r r1 hw h1
            refine ⟨wf_setEnt r1 a d _ ?_, b, c⟩
            rw [b, c]
            cases hh : can r.tdim r.kind d <;> simp_all
      · split at h
        · cases h
        · next r1 h1 =>
          obtain ⟨a, b, c⟩ := ih (d + 1) r r1 hw h1
          obtain ⟨a', b', c'⟩ := wf_setupFromHighest m r1 r' a d _ _ h
          exact ⟨a', b'.trans b, c'.trans c⟩

/-! ### Finalization -/

theorem finalizeLoop_top (m : CMesh) (aE : Bool) (e : Nat) (S : List Nat) :
    ∀ (n : Nat) (r : Reg), WF r → n ≤ e → e = kindTdim r.tdim r.kind → e ≤ r.tdim →
      r.ent e = some S → S ≠ [] →
      (∀ d, n ≤ d → d < e → can r.tdim r.kind d = true →
        r.ent d = none ∨ r.ent d = some (closureList m e S d)) →
      ∃ r', r.finalizeLoop m aE n = .ok r' ∧ Top m e S r' ∧ r'.kind = r.kind ∧
        r'.tdim = r.tdim ∧ r'.isEmpty = r.isEmpty := by
  intro n
  induction n with
  | zero =>
    intro r hw hn he he' htop hne hbelow
    refine ⟨r, rfl, ⟨hw, by omega, he', ?_, htop, hne, fun d h1 h2 => hbelow d (by omega) h1 h2⟩,
      rfl, rfl, rfl⟩
    intro d h1 h2
    rw [hw.empty d h2 (can_above _ hw.dim _ d (by omega) h2)]
    rfl
  | succ n ih =>
    intro r hw hn he he' htop hne hbelow
    have habove : ∀ d, e < d → d ≤ r.tdim → (r.ent d).getD [] = [] := by
      intro d h1 h2
      rw [hw.empty d h2 (can_above _ hw.dim _ d (by omega) h2)]
      rfl
    unfold Reg.finalizeLoop
    split
    · next hc =>
      have hs : r.setupFromHighest m n false aE = .ok (r.setEnt n (closureList m e S n)) := by
        unfold Reg.setupFromHighest
        rw [hc.1, highest_aux r e S htop hne r.tdim he' habove]
        simp only [Bool.true_eq_false, if_false, htop, Option.getD_some]
        rw [if_neg (by omega)]
        unfold closureList
        rw [if_neg (by omega)]
      rw [hs]
      simp only
      obtain ⟨r', h1, h2, h3, h4, h5⟩ := ih (r.setEnt n (closureList m e S n))
        (wf_setEnt r hw n _ hc.1) (by omega) he he'
        (by have : e ≠ n := by omega
            simp only [Reg.setEnt, if_neg this]; exact htop) hne
        (by
          intro d a b c
          by_cases hd : d = n
          · subst hd; right; simp [Reg.setEnt]
          · simp only [Reg.setEnt, if_neg hd]; exact hbelow d (by omega) b c)
      exact ⟨r', h1, h2, h3, h4, h5⟩
    · next hc =>
      apply ih r hw (by omega) he he' htop hne
      intro d a b c
      by_cases hd : d = n
      · subst hd
        left
        cases hx : r.ent d with
        | none => rfl
        | some l => exact absurd ⟨c, by simp [hx]⟩ hc
      · exact hbelow d (by omega) b c

/-- The result of a successful `create_region` without `allow_empty`. -/
theorem create_top (m : CMesh) (fuel : Nat) (r : Reg) (hw : WF r) (k : Kind)
    (hk : kindTdim r.tdim k ≤ r.tdim) (r' : Reg) (h : r.create m fuel k false = .ok r') :
    ∃ r1 E, (r.setKind k).access m fuel (kindTdim r.tdim k) = .ok r1 ∧
      r1.ent (kindTdim r.tdim k) = some E ∧
      Top m (kindTdim r.tdim k) E r' ∧ r'.tdim = r.tdim ∧ r'.kind = normKind r.tdim k := by
  have hw0 := wf_setKind r hw k
  have e1 : (r.setKind k).tdim = r.tdim := by unfold Reg.setKind; split <;> rfl
  have e2 : (r.setKind k).kind = normKind r.tdim k := by
    unfold Reg.setKind
    split
    · next h => subst h; exact hw.norm.symm
    · rfl
  have e3 : kindTdim (r.setKind k).tdim (r.setKind k).kind = kindTdim r.tdim k := by
    rw [e1, e2, kindTdim_norm _ hw.dim]
  unfold Reg.create Reg.finalize at h
  rw [e3] at h
  split at h
  · cases h
  · next r1 h1 =>
    obtain ⟨w1, k1, t1⟩ := wf_access m fuel _ _ r1 hw0 h1
    simp only [Bool.false_eq_true, if_false] at h
    split at h
    · cases h
    · next hne =>
      cases hE : r1.ent (kindTdim r.tdim k) with
      | none => rw [hE] at hne; simp at hne
      | some E =>
        rw [hE] at hne
        have hEne : E ≠ [] := by
          rintro rfl; simp at hne
        have hkk : kindTdim r1.tdim r1.kind = kindTdim r.tdim k := by rw [k1, t1, e3]
        obtain ⟨r2, a, b, c, d, _⟩ := finalizeLoop_top m false (kindTdim r.tdim k) E
          (kindTdim r.tdim k) r1 w1 (Nat.le_refl _) hkk.symm (by rw [t1, e1]; exact hk) hE hEne
          (fun d h1 h2 => by omega)
        rw [a] at h
        cases h
        exact ⟨r1, E, h1, hE, b, by rw [d, t1, e1], by rw [c, k1, e2]⟩

/-- Any number of reads. -/
def Reg.reads (m : CMesh) (fuel : Nat) (r : Reg) : List Nat → Except Err Reg
  | [] => .ok r
  | d :: ds => match r.access m fuel d with
    | .error e => .error e
    | .ok r' => r'.reads m fuel ds

theorem top_reads {m : CMesh} {e : Nat} {S : List Nat} {fuel : Nat} (hf : e < fuel) :
    ∀ (ds : List Nat) (r : Reg), (∀ d ∈ ds, d ≤ e) → Top m e S r →
      ∃ r', r.reads m fuel ds = .ok r' ∧ Top m e S r' ∧ r'.kind = r.kind ∧ r'.tdim = r.tdim := by
  intro ds
  induction ds with
  | nil => intro r _ h; exact ⟨r, rfl, h, rfl, rfl⟩
  | cons d ds ih =>
    intro r hds h
    obtain ⟨r1, a, b, c, c', _⟩ := top_access fuel d r h (hds d (by simp)) (by omega)
    obtain ⟨r2, p, q, s, t⟩ := ih r1 (fun x hx => hds x (by simp [hx])) b
    refine ⟨r2, ?_, q, s.trans c, t.trans c'⟩
    unfold Reg.reads
    rw [a]
    exact p

/-! ### C19 -/

/-- C19: a region created (of any kind, from anything) has some kind entities `E`, and whatever
is read afterwards, in whatever order, the entities of each lower dimension are exactly
those incident to members of `E` (sorted, no duplicates). -/
theorem C19_finalized (m : CMesh) (fuel : Nat) (r : Reg) (hw : WF r) (k : Kind)
    (hk : kindTdim r.tdim k ≤ r.tdim) (r' : Reg) (h : r.create m fuel k false = .ok r') :
    ∃ E, E ≠ [] ∧ r'.ent (kindTdim r.tdim k) = some E ∧
      ∀ (fuel' : Nat) (ds : List Nat), kindTdim r.tdim k < fuel' →
        (∀ d ∈ ds, d ≤ kindTdim r.tdim k) →
        ∃ r2, r'.reads m fuel' ds = .ok r2 ∧ r2.ent (kindTdim r.tdim k) = some E ∧
          ∀ d, d < kindTdim r.tdim k → can r.tdim k d = true →
            ∃ r3 l, r2.access m fuel' d = .ok r3 ∧ r3.ent d = some l ∧ StrictlySorted l ∧
              ∀ j, j ∈ l ↔ IncidentTo m d (kindTdim r.tdim k) E j := by
  obtain ⟨r1, E, _, _, ht, htd, hkd⟩ := create_top m fuel r hw k hk r' h
  refine ⟨E, ht.ne, ht.top, ?_⟩
  intro fuel' ds hf hds
  obtain ⟨r2, a, b, c, d⟩ := top_reads hf ds r' hds ht
  refine ⟨r2, a, b.top, ?_⟩
  intro dd hdd hcan
  obtain ⟨r3, p, q, _, _, _, s, _⟩ := top_access fuel' dd r2 b (by omega) (by omega)
  have hc : can r2.tdim r2.kind dd = true := by
    rw [c, d, htd, hkd, can_norm _ hw.dim]; exact hcan
  refine ⟨r3, closureList m (kindTdim r.tdim k) E dd, p, s hc, ?_, ?_⟩
  · unfold closureList; rw [if_neg (by omega)]; exact sorted_unique _
  · intro j
    unfold closureList; rw [if_neg (by omega)]; exact incident_mem m dd _ E j

/-- A region as it comes from a leaf or an operator: only the entities `S` of the dimension `e`
are given. -/
structure Given (r : Reg) (e : Nat) (S : List Nat) : Prop where
  wf : WF r
  ent : r.ent e = some S
  le : e ≤ r.tdim
  others : ∀ d, d ≤ r.tdim → d ≠ e → can r.tdim r.kind d = true → r.ent d = none

theorem given_top (m : CMesh) (r : Reg) (e : Nat) (S : List Nat) (h : Given r e S) (hne : S ≠ []) :
    Top m e S r := by
  have hc : can r.tdim r.kind e = true := by
    cases hc : can r.tdim r.kind e with
    | true => rfl
    | false =>
      have := h.wf.empty e h.le hc
      rw [h.ent] at this
      cases this; exact absurd rfl hne
  refine ⟨h.wf, ?_, h.le, ?_, h.ent, hne, fun d h1 h2 => .inl ?_⟩
  · rcases Nat.lt_or_ge (kindTdim r.tdim r.kind) e with hlt | hge
    · rw [can_above _ h.wf.dim _ e hlt h.le] at hc; cases hc
    · exact hge
  · intro d h1 h2
    cases hcd : can r.tdim r.kind d with
    | true => rw [h.others d h2 (by omega) hcd]; rfl
    | false => rw [h.wf.empty d h2 hcd]; rfl
  · exact h.others d (by have := h.le; omega) (by omega) h2

/-- Vertices of given entities. -/
theorem given_vertices (m : CMesh) (fuel : Nat) (r : Reg) (e : Nat) (S : List Nat)
    (h : Given r e S) (hne : S ≠ []) (hf : e < fuel) (hc : can r.tdim r.kind 0 = true) :
    ∃ r', r.access m fuel 0 = .ok r' ∧ r'.ent 0 = some (closureList m e S 0) := by
  obtain ⟨r', a, _, _, _, _, b, _⟩ := top_access fuel 0 r (given_top m r e S h hne) (by omega)
    (by omega)
  exact ⟨r', a, b hc⟩

/-- C19: creation of a region of kind `k` (with lower entities allowed, i.e. not an `_only` kind)
from given entities `S` of a dimension `e` not above that of the kind: if `e` is the kind
dimension, the kind entities are `S`; otherwise they are exactly the entities all of whose vertices
are vertices of `S`.  The creation fails exactly if there are none. -/
theorem C19_kind_entities (m : CMesh) (fuel : Nat) (r : Reg) (k : Kind) (e : Nat) (S : List Nat)
    (h : Given (r.setKind k) e S) (hw : WF r) (hne : S ≠ [])
    (hk : kindTdim r.tdim k ≤ r.tdim) (hv : can r.tdim k 0 = true) (hf : r.tdim + 1 < fuel)
    (hkc : can r.tdim k (kindTdim r.tdim k) = true) :
    (e = kindTdim r.tdim k → ∃ r', r.create m fuel k false = .ok r' ∧
      r'.ent (kindTdim r.tdim k) = some S) ∧
    (e ≠ kindTdim r.tdim k →
      ∃ V, (∀ v, v ∈ V ↔ if e = 0 then v ∈ S else IncidentTo m 0 e S v) ∧
        ((∃ i, CompleteIn m (kindTdim r.tdim k) 0 V i ∧ V ≠ []) →
          ∃ r' E, r.create m fuel k false = .ok r' ∧ r'.ent (kindTdim r.tdim k) = some E ∧
            StrictlySorted E ∧ ∀ i, i ∈ E ↔ CompleteIn m (kindTdim r.tdim k) 0 V i) ∧
        ((¬ ∃ i, CompleteIn m (kindTdim r.tdim k) 0 V i ∧ V ≠ []) →
          r.create m fuel k false = .error .noEntities)) := by
  have e1 : (r.setKind k).tdim = r.tdim := by unfold Reg.setKind; split <;> rfl
  have e2 : (r.setKind k).kind = normKind r.tdim k := by
    unfold Reg.setKind
    split
    · next h => subst h; exact hw.norm.symm
    · rfl
  have e3 : kindTdim (r.setKind k).tdim (r.setKind k).kind = kindTdim r.tdim k := by
    rw [e1, e2, kindTdim_norm _ hw.dim]
  have ecan : ∀ d, can (r.setKind k).tdim (r.setKind k).kind d = can r.tdim k d := by
    intro d; rw [e1, e2, can_norm _ hw.dim]
  have hw0 := h.wf
  have ht := given_top m _ e S h hne
  obtain ⟨fuel, rfl⟩ : ∃ f, fuel = f + 1 := ⟨fuel - 1, by omega⟩
  constructor
  · intro hek
    obtain ⟨r', a, b, _, _, _⟩ := finalizeLoop_top m false e S (kindTdim r.tdim k) (r.setKind k) hw0
      (by omega) (by omega) (by rw [e1]; omega) h.ent hne (fun d h1 h2 => by omega)
    refine ⟨r', ?_, by rw [← hek]; exact b.top⟩
    unfold Reg.create Reg.finalize
    have hacc : (r.setKind k).access m (fuel + 1) (kindTdim r.tdim k) = .ok (r.setKind k) := by
      unfold Reg.access
      rw [← hek, h.ent]
    rw [e3, hacc]
    simp only [Bool.false_eq_true, if_false]
    rw [if_neg, a]
    rw [← hek, h.ent]
    cases S with
    | nil => exact absurd rfl hne
    | cons x y => simp
  · intro hek
    have hle := ht.le
    have hle' := ht.le'
    rw [e3] at hle
    obtain ⟨rv, v1, v2⟩ := given_vertices m fuel _ e S h hne (by rw [e1] at hle'; omega)
      (by rw [ecan]; exact hv)
    refine ⟨closureList m e S 0, ?_, ?_⟩
    · intro v
      unfold closureList
      by_cases h0 : e = 0
      · subst h0; simp
      · rw [if_neg (by omega), if_neg h0]; exact incident_mem m 0 e S v
    · obtain ⟨wv, kv, tv⟩ := wf_access m fuel 0 _ rv hw0 v1
      let E := m.getComplete (kindTdim r.tdim k) (closureList m e S 0) 0
      have hnone : (r.setKind k).ent (kindTdim r.tdim k) = none :=
        h.others _ (by rw [e1]; exact hk) (by omega) (by rw [ecan]; exact hkc)
      have hacc : (r.setKind k).access m (fuel + 1) (kindTdim r.tdim k) =
          .ok (rv.setEnt (kindTdim r.tdim k) E) := by
        unfold Reg.access
        rw [hnone]
        simp only
        rw [if_pos (by rw [e3]; omega), ecan, hkc, v1]
        simp only [Bool.true_eq_false, if_false]
        rw [v2]
        rfl
      have hEmem : ∀ i, i ∈ E ↔ closureList m e S 0 ≠ [] ∧
          CompleteIn m (kindTdim r.tdim k) 0 (closureList m e S 0) i := fun i =>
        complete_mem m _ 0 _ i
      constructor
      · rintro ⟨i, hi, hV⟩
        have hEne : E ≠ [] := by
          intro hE
          have := (hEmem i).2 ⟨hV, hi⟩
          rw [hE] at this; simp at this
        have hkv : kindTdim rv.tdim rv.kind = kindTdim r.tdim k := by rw [kv, tv, e3]
        obtain ⟨r', a, b, _, _, _⟩ := finalizeLoop_top m false (kindTdim r.tdim k) E
          (kindTdim r.tdim k) (rv.setEnt (kindTdim r.tdim k) E)
          (wf_setEnt rv wv _ E (by rw [kv, tv, ecan]; exact hkc)) (Nat.le_refl _)
          hkv.symm (by show _ ≤ rv.tdim; rw [tv, e1]; exact hk) (by simp [Reg.setEnt]) hEne
          (fun d h1 h2 => by omega)
        refine ⟨r', E, ?_, b.top, complete_sorted m _ 0 _, ?_⟩
        · unfold Reg.create Reg.finalize
          rw [e3, hacc]
          simp only [Bool.false_eq_true, if_false]
          rw [if_neg, a]
          simp only [Reg.setEnt, if_true, Option.getD_some]
          cases hEE : E with
          | nil => exact absurd hEE hEne
          | cons x y => simp
        · intro i
          rw [hEmem]
          exact ⟨fun h => h.2, fun h => ⟨hV, h⟩⟩
      · intro hno
        have hE : E = [] := by
          cases hE : E with
          | nil => rfl
          | cons x y =>
            exfalso
            have := (hEmem x).1 (by rw [hE]; simp)
            exact hno ⟨x, this.2, this.1⟩
        unfold Reg.create Reg.finalize
        rw [e3, hacc]
        simp only [Bool.false_eq_true, if_false, Reg.setEnt, if_true, Option.getD_some]
        rw [hE]
        rfl

/-- C19 (cell regions): a region of kind `cell` created from vertices `V` has exactly the cells
with all vertices in `V`, and its vertices are then exactly the vertices of those cells. -/
theorem C19_cells_from_vertices (m : CMesh) (fuel tdim : Nat) (ht : DimOk tdim) (hf : 4 < fuel)
    (V : List Nat) (hV : V ≠ []) (r' : Reg)
    (h : ((Reg.new tdim .cell).setEnt 0 V).create m fuel .cell false = .ok r') :
    ∃ C, r'.ent tdim = some C ∧ (∀ c, c ∈ C ↔ CompleteIn m tdim 0 V c) ∧
      ∃ r2 W, r'.access m fuel 0 = .ok r2 ∧ r2.ent 0 = some W ∧
        (∀ v, v ∈ W ↔ ∃ c ∈ C, v ∈ m.inc tdim 0 c) ∧ ∀ v ∈ W, v ∈ V := by
  have hcell : normKind tdim .cell = .cell := by rcases ht with rfl | rfl | rfl <;> rfl
  have hkt : kindTdim tdim .cell = tdim := by rcases ht with rfl | rfl | rfl <;> rfl
  have hcan : ∀ d, d ≤ tdim → can tdim .cell d = true := by
    intro d hd
    have h3 : d = 0 ∨ d = 1 ∨ d = 2 ∨ d = 3 := by rcases ht with rfl | rfl | rfl <;> omega
    rcases ht with rfl | rfl | rfl <;> rcases h3 with rfl | rfl | rfl | rfl <;>
      first | rfl | (exfalso; omega)
  have hw : WF ((Reg.new tdim .cell).setEnt 0 V) :=
    wf_setEnt _ (wf_new tdim ht .cell) 0 V (by
      show can tdim (normKind tdim .cell) 0 = true
      rw [hcell]; exact hcan 0 (Nat.zero_le _))
  have hsk : ((Reg.new tdim .cell).setEnt 0 V).setKind .cell = (Reg.new tdim .cell).setEnt 0 V := by
    unfold Reg.setKind
    rw [if_pos]
    show Kind.cell = normKind tdim .cell
    rw [hcell]
  have htd : ((Reg.new tdim .cell).setEnt 0 V).tdim = tdim := rfl
  have hpos : 0 < tdim := by rcases ht with rfl | rfl | rfl <;> omega
  have hg : Given (((Reg.new tdim .cell).setEnt 0 V).setKind .cell) 0 V := by
    rw [hsk]
    refine ⟨hw, by simp [Reg.setEnt], Nat.zero_le _, ?_⟩
    intro d h1 h2 h3
    rw [htd] at h1
    simp only [Reg.setEnt, if_neg h2, Reg.new]
    rw [if_neg]
    rintro ⟨_, h4⟩
    rw [hcell, hcan d h1] at h4
    cases h4
  have hk := C19_kind_entities m fuel _ .cell 0 V hg hw hV (by rw [htd, hkt]; exact Nat.le_refl _)
    (hcan 0 (Nat.zero_le _)) (by rw [htd]; rcases ht with rfl | rfl | rfl <;> omega)
    (by rw [htd, hkt]; exact hcan tdim (Nat.le_refl _))
  rw [htd, hkt] at hk
  obtain ⟨V', hV', hyes, hno⟩ := hk.2 (by omega)
  have hVV : ∀ v, v ∈ V' ↔ v ∈ V := by intro v; simpa using hV' v
  by_cases hex : ∃ i, CompleteIn m tdim 0 V' i ∧ V' ≠ []
  · obtain ⟨r1, C, c1, c2, c3, c4⟩ := hyes hex
    rw [h] at c1
    cases c1
    have hC : ∀ c, c ∈ C ↔ CompleteIn m tdim 0 V c := by
      intro c
      rw [c4]
      unfold CompleteIn
      simp only [hVV]
    refine ⟨C, c2, hC, ?_⟩
    obtain ⟨E, _, hE, hread⟩ := C19_finalized m fuel _ hw .cell
      (by rw [htd, hkt]; exact Nat.le_refl _) r' h
    rw [htd, hkt] at hE hread
    rw [c2] at hE
    cases hE
    obtain ⟨r2, a, _, b⟩ := hread fuel [] (by rcases ht with rfl | rfl | rfl <;> omega) (by simp)
    cases a
    obtain ⟨r3, W, p, q, _, s⟩ := b 0 hpos (hcan 0 (Nat.zero_le _))
    refine ⟨r3, W, p, q, s, ?_⟩
    intro v hv
    obtain ⟨c, hc, hvc⟩ := (s v).1 hv
    exact ((hC c).1 hc).2 v hvc
  · rw [hno hex] at h
    cases h

/-! ### Empty regions -/

theorem finalizeLoop_empty (m : CMesh) (kd : Nat) :
    ∀ (n : Nat) (r : Reg), WF r → n ≤ kd → kd = kindTdim r.tdim r.kind → kd ≤ r.tdim →
      (∀ d, n ≤ d → d ≤ kd → can r.tdim r.kind d = true → (r.ent d).getD [] = []) →
      ∃ r', r.finalizeLoop m true n = .ok r' ∧
        (r'.kind = r.kind ∧ r'.tdim = r.tdim) ∧
        ∀ d, d ≤ r.tdim → (r'.ent d).getD [] = [] := by
  intro n
  induction n with
  | zero =>
    intro r hw hn hk hk' hall
    refine ⟨r, rfl, ⟨rfl, rfl⟩, ?_⟩
    intro d hd
    cases hc : can r.tdim r.kind d with
    | false => rw [hw.empty d hd hc]; rfl
    | true =>
      rcases Nat.lt_or_ge kd d with h1 | h1
      · rw [can_above _ hw.dim _ d (by omega) hd] at hc; cases hc
      · exact hall d (Nat.zero_le _) h1 hc
  | succ n ih =>
    intro r hw hn hk hk' hall
    unfold Reg.finalizeLoop
    split
    · next hc =>
      cases hs : r.setupFromHighest m n false true with
      | error e =>
        exfalso
        unfold Reg.setupFromHighest at hs
        rw [hc.1] at hs
        simp only [Bool.true_eq_false, if_false, Bool.true_or, Bool.false_or, Bool.not_true,
          Bool.false_eq_true] at hs
        split at hs
        · cases hs
        · split at hs <;> cases hs
      | ok r1 =>
        obtain ⟨w1, k1, t1⟩ := wf_setupFromHighest m r r1 hw n _ _ hs
        simp only
        obtain ⟨r', a, b, c⟩ := ih r1 w1 (by omega) (by rw [k1, t1]; exact hk) (by rw [t1]; exact hk')
          (by
            intro d h1 h2 h3
            rw [k1, t1] at h3
            unfold Reg.setupFromHighest at hs
            rw [hc.1] at hs
            simp only [Bool.true_eq_false, if_false, Bool.true_or, Bool.false_or, Bool.not_true,
              Bool.false_eq_true] at hs
            split at hs
            · next hnone =>
              cases hs
              simp only
              by_cases hdn : d = n
              · subst hdn
                obtain ⟨l, hl⟩ := Option.isSome_iff_exists.1 hc.2
                -- the entities are empty, because no highest dimension exists
                have : ∀ N, r.highest N = none → ∀ d ≤ N, (r.ent d).getD [] = [] := by
                  intro N
                  induction N with
                  | zero =>
                    intro h d hd
                    obtain rfl : d = 0 := by omega
                    unfold Reg.highest at h
                    cases hx : r.ent 0 with
                    | none => rfl
                    | some l =>
                      cases l with
                      | nil => rfl
                      | cons a b => rw [hx] at h; cases h
                  | succ N ihN =>
                    intro h d hd
                    unfold Reg.highest at h
                    cases hx : r.ent (N + 1) with
                    | none =>
                      rw [hx] at h
                      by_cases hdN : d = N + 1
                      · rw [hdN, hx]; rfl
                      · exact ihN h d (by omega)
                    | some l =>
                      cases l with
                      | nil =>
                        rw [hx] at h
                        by_cases hdN : d = N + 1
                        · rw [hdN, hx]; rfl
                        · exact ihN h d (by omega)
                      | cons a b => rw [hx] at h; cases h
                have h0 := this r.tdim hnone d (by omega)
                split
                · rfl
                · exact h0
              · rw [if_neg (by rintro ⟨h, _⟩; exact hdn h)]
                exact hall d (by omega) h2 h3
            · next idim hi =>
              split at hs
              · cases hs
                simp only [Reg.clearBelow]
                split
                · rfl
                · exact hall d (by omega) h2 h3
              · next hlt =>
                -- the highest dimension is above n: impossible, those are empty
                exfalso
                have hsome : ∀ N, r.highest N = some idim → idim ≤ N ∧ (r.ent idim).getD [] ≠ [] := by
                  intro N
                  induction N with
                  | zero =>
                    intro h
                    unfold Reg.highest at h
                    split at h
                    · next hx => cases h; rw [hx]; simp
                    · cases h
                  | succ N ihN =>
                    intro h
                    unfold Reg.highest at h
                    split at h
                    · next hx => cases h; rw [hx]; simp
                    · have := ihN h; exact ⟨by omega, this.2⟩
                have h9 := hsome _ hi
                apply h9.2
                cases hcd : can r.tdim r.kind idim with
                | false => rw [hw.empty idim h9.1 hcd]; rfl
                | true =>
                  rcases Nat.lt_or_ge kd idim with h7 | h7
                  · rw [can_above _ hw.dim _ idim (by omega) h9.1] at hcd; cases hcd
                  · exact hall idim (by omega) h7 hcd)
        refine ⟨r', a, ⟨b.1.trans k1, b.2.trans t1⟩, ?_⟩
        intro d hd
        exact c d (by rw [t1]; exact hd)
    · next hc =>
      apply ih r hw (by omega) hk hk'
      intro d h1 h2 h3
      by_cases hdn : d = n
      · subst hdn
        cases hx : r.ent d with
        | none => rfl
        | some l => exact absurd ⟨h3, by simp [hx]⟩ hc
      · exact hall d (by omega) h2 h3

/-- C19: with `allow_empty` a region without kind entities is created with no entities at all. -/
theorem C19_allow_empty (m : CMesh) (fuel : Nat) (r : Reg) (hw : WF r) (k : Kind)
    (hk : kindTdim r.tdim k ≤ r.tdim) (r1 : Reg)
    (h : (r.setKind k).access m fuel (kindTdim r.tdim k) = .ok r1)
    (he : (r1.ent (kindTdim r.tdim k)).getD [] = []) :
    ∃ r', r.create m fuel k true = .ok r' ∧ ∀ d, d ≤ r.tdim → (r'.ent d).getD [] = [] := by
  have hw0 := wf_setKind r hw k
  have e1 : (r.setKind k).tdim = r.tdim := by unfold Reg.setKind; split <;> rfl
  have e2 : (r.setKind k).kind = normKind r.tdim k := by
    unfold Reg.setKind
    split
    · next h => subst h; exact hw.norm.symm
    · rfl
  have e3 : kindTdim (r.setKind k).tdim (r.setKind k).kind = kindTdim r.tdim k := by
    rw [e1, e2, kindTdim_norm _ hw.dim]
  obtain ⟨w1, k1, t1⟩ := wf_access m fuel _ _ r1 hw0 h
  unfold Reg.create Reg.finalize
  rw [e3, h]
  simp only [if_true]
  obtain ⟨r', a, b, c⟩ := finalizeLoop_empty m (kindTdim r.tdim k) (kindTdim r.tdim k)
    { r1 with isEmpty := ((r1.ent (kindTdim r.tdim k)).getD []).isEmpty }
    ⟨w1.dim, w1.norm, w1.empty⟩ (Nat.le_refl _) (by show _ = kindTdim r1.tdim r1.kind; rw [k1, t1, e3])
    (by show _ ≤ r1.tdim; rw [t1, e1]; exact hk)
    (by
      intro d h1 h2 _
      have : d = kindTdim r.tdim k := by omega
      rw [this]; exact he)
  refine ⟨r', a, ?_⟩
  intro d hd
  exact c d (by show d ≤ r1.tdim; rw [t1, e1]; exact hd)

/-! ### Findings -/

/-- All entities that the kind allows are missing: reading anything never ends. -/
theorem access_recursion (m : CMesh) (r : Reg) (hd : 0 < kindTdim r.tdim r.kind)
    (hn : ∀ d, d ≤ kindTdim r.tdim r.kind → r.ent d = none ∧ can r.tdim r.kind d = true)
    (_hk : kindTdim r.tdim r.kind ≤ r.tdim) :
    ∀ (fuel d : Nat), d ≤ kindTdim r.tdim r.kind → r.access m fuel d = .error .recursion := by
  intro fuel
  induction fuel with
  | zero => intro d _; rfl
  | succ fuel ih =>
    intro d hdk
    unfold Reg.access
    rw [(hn d hdk).1]
    simp only
    split
    · rw [(hn d hdk).2, ih 0 (by omega)]; rfl
    · rw [ih (d + 1) (by omega)]

/-- C19, a finding: `create_region(name, 'cells of group g', 'facet')`, and any other region
given by cells only and requested as a facet (or edge) region in 2D or 3D, ends by infinite recursion: the
cells are forgotten by `set_kind`, and vertices, edges and facets are then looked for in
a circle. -/
theorem C19_counterexample_facets_of_cells (m : CMesh) (fuel tdim : Nat) (ht : tdim = 2 ∨ tdim = 3)
    (cells : List Nat) (k : Kind) (hk : k = .facet ∨ k = .edge) (aE : Bool) :
    ((Reg.new tdim .cell).setEnt tdim cells).create m fuel k aE = .error .recursion := by
  unfold Reg.create Reg.finalize
  rw [access_recursion]
  · rcases ht with rfl | rfl <;> rcases hk with rfl | rfl <;>
      first | exact (by decide : 0 < 1) | exact (by decide : 0 < 2)
  · intro d hd
    have hd' : d = 0 ∨ d = 1 ∨ d = 2 := by
      rcases ht with rfl | rfl <;> rcases hk with rfl | rfl
      · have : d ≤ 1 := hd
        omega
      · have : d ≤ 1 := hd
        omega
      · have : d ≤ 2 := hd
        omega
      · have : d ≤ 1 := hd
        omega
    rcases ht with rfl | rfl <;> rcases hk with rfl | rfl <;> rcases hd' with rfl | rfl | rfl <;>
      first
        | exact ⟨rfl, rfl⟩
        | exact absurd (show 2 ≤ 1 from hd) (by decide)
  · rcases ht with rfl | rfl <;> rcases hk with rfl | rfl <;>
      first | exact (by decide : 1 ≤ 2) | exact (by decide : 2 ≤ 3) | exact (by decide : 1 ≤ 3)
  · exact Nat.le_refl _

/-- C19, a finding: `vertices of surface` (facets of kind `facet`) requested as a region of kind
`vertex` (2D, 3D) or `cell` raises "has no entities", although the surface has vertices. -/
theorem C19_counterexample_surface_vertices (m : CMesh) (fuel tdim : Nat) (ht : tdim = 2 ∨ tdim = 3)
    (facets : List Nat) (k : Kind) (hk : k = .vertex ∨ k = .cell) :
    (((Reg.new tdim .cell).setKind .facet).setEnt (tdim - 1) facets).create m (fuel + 2) k false
      = .error .noEntities := by
  rcases ht with rfl | rfl <;> rcases hk with rfl | rfl <;> rfl

/-- C19, a finding: for a region of kind `cell` given by vertices, the facets are those of its
cells if it has any complete cell, but otherwise the facets all of whose vertices are given: adding
vertices may remove facets.  Mesh: one triangle `0 1 2` and its three edges. -/
theorem C19_counterexample_facets_not_monotone :
    ∃ (m : CMesh) (V W : List Nat), (∀ v ∈ V, v ∈ W) ∧
      ∃ l1 r1 l2 r2, ((Reg.new 2 .cell).setEnt 0 V).read m 10 .s = .ok (l1, r1) ∧
        ((Reg.new 2 .cell).setEnt 0 W).read m 10 .s = .ok (l2, r2) ∧ ∃ e, e ∈ l1 ∧ e ∉ l2 := by
  refine ⟨{ tdim := 2, num := fun d => [5, 5, 1].getD d 0
            inc := fun d1 d2 i =>
              if d1 = 2 ∧ d2 = 0 then [0, 1, 2]
              else if d1 = 1 ∧ d2 = 0 then [[0, 1], [1, 2], [2, 0], [1, 3], [3, 2]].getD i []
              else if d1 = 2 ∧ d2 = 1 then [0, 1, 2] else [] },
    [1, 3], [0, 1, 2, 3], by decide, _, _, _, _, rfl, rfl, 3, by decide, by decide⟩

/-! ### Non-vacuity -/

/-- Two triangles `0 1 2` and `1 3 2` with five edges. -/
def twoTriangles : CMesh where
  tdim := 2
  num := fun d => [4, 5, 2].getD d 0
  inc := fun d1 d2 i =>
    if d1 = 2 ∧ d2 = 0 then [[0, 1, 2], [1, 3, 2]].getD i []
    else if d1 = 2 ∧ d2 = 1 then [[0, 1, 2], [3, 4, 1]].getD i []
    else if d1 = 1 ∧ d2 = 0 then [[0, 1], [1, 2], [2, 0], [1, 3], [3, 2]].getD i []
    else []

example : ∃ r, ((Reg.new 2 .cell).setEnt 0 [0, 1, 2]).create twoTriangles 10 .cell false = .ok r ∧
    r.ent 2 = some [0] ∧ r.ent 0 = some [0, 1, 2] := ⟨_, rfl, by decide, by decide⟩

example : ∃ r, ((Reg.new 2 .cell).setEnt 0 [1, 2, 3]).create twoTriangles 10 .facet false = .ok r ∧
    r.ent 1 = some [1, 3, 4] := ⟨_, rfl, by decide⟩

example : ∃ r, ((Reg.new 2 .cell).setEnt 2 [0]).evalOp twoTriangles 10 .e .sub
    ((Reg.new 2 .cell).setEnt 2 [1]) = .ok r ∧ r.ent 1 = some [0, 2] := ⟨_, rfl, by decide⟩

example : ∃ r, ((Reg.new 2 .cell).setEnt 0 [0, 3]).create twoTriangles 10 .cell true = .ok r ∧
    r.ent 0 = some [] := ⟨_, rfl, by decide⟩

end Verif.Region
