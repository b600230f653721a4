/-
C42: creating a region leaves the previously created regions as they were.
-/
import Verif.Region.PropsComplete
import Verif.Region.Domain
namespace Verif.Region

/-! ### Small specification -/

/-- The region has been finalized: its kind entities are `E`. -/
def FinalizedWith (m : CMesh) (r : Reg) (E : List Nat) : Prop :=
  Top m (kindTdim r.tdim r.kind) E r

/-- Two states of a region object that no user can tell apart: the same name, kind and topological dimension,
and reading entities of any allowed dimension gives the same list. -/
def SameRegion (m : CMesh) (o o' : Obj) : Prop :=
  o'.name = o.name ∧ o'.reg.kind = o.reg.kind ∧ o'.reg.tdim = o.reg.tdim ∧
  ∀ (fuel d : Nat), kindTdim o.reg.tdim o.reg.kind < fuel → d ≤ kindTdim o.reg.tdim o.reg.kind →
    can o.reg.tdim o.reg.kind d = true →
    ∃ r1 r2 l, o.reg.access m fuel d = .ok r1 ∧ r1.ent d = some l ∧
      o'.reg.access m fuel d = .ok r2 ∧ r2.ent d = some l

/-- The value of the selector is a new object: its root is not a reference, or it is copied. -/
def FreshRoot (copy : Bool) : Sel → Prop
  | .leaf _ => True
  | .ref _ => copy = true
  | .op _ _ _ _ => True

/-! ### Proofs -/

theorem top_access_any {m : CMesh} {e : Nat} {S : List Nat} :
    ∀ (fuel d : Nat) (r r' : Reg), Top m e S r → d ≤ e → r.access m fuel d = .ok r' →
      Top m e S r' ∧ r'.kind = r.kind ∧ r'.tdim = r.tdim := by
  intro fuel
  induction fuel with
  | zero => intro d r r' _ _ h; cases h
  | succ fuel ih =>
    intro d r r' ht hd h
    unfold Reg.access at h
    cases hx : r.ent d with
    | some l => rw [hx] at h; cases h; exact ⟨ht, rfl, rfl⟩
    | none =>
      have hde : d ≠ e := by rintro rfl; rw [ht.top] at hx; cases hx
      have hc : can r.tdim r.kind d = true := by
        cases hc : can r.tdim r.kind d with
        | true => rfl
        | false =>
          rw [ht.wf.empty d (by have := ht.le'; omega) hc] at hx; cases hx
      have hle := ht.le
      have hle' := ht.le'
      rw [hx] at h
      simp only at h
      rw [if_neg (by omega)] at h
      cases h1 : Reg.access m fuel (d + 1) r with
      | error e => rw [h1] at h; cases h
      | ok r1 =>
        rw [h1] at h
        simp only at h
        obtain ⟨a, b, c⟩ := ih (d + 1) r r1 ht (by omega) h1
        have hc' : can r1.tdim r1.kind d = true := by rw [b, c]; exact hc
        rw [top_setup a d (by omega) hc'] at h
        cases h
        exact ⟨top_set a d (by omega) hc', b, c⟩

theorem finalized_access {m : CMesh} {r r' : Reg} {E : List Nat} (h : FinalizedWith m r E)
    (fuel d : Nat) (hd : d ≤ r.tdim) (ha : r.access m fuel d = .ok r') :
    FinalizedWith m r' E ∧ r'.kind = r.kind ∧ r'.tdim = r.tdim := by
  unfold FinalizedWith at h ⊢
  rcases Nat.lt_or_ge (kindTdim r.tdim r.kind) d with h1 | h1
  · have he := h.wf.empty d hd (can_above _ h.wf.dim _ d h1 hd)
    cases fuel with
    | zero => cases ha
    | succ f =>
      unfold Reg.access at ha
      rw [he] at ha
      cases ha
      exact ⟨h, rfl, rfl⟩
  · obtain ⟨a, b, c⟩ := top_access_any fuel d r r' h h1 ha
    rw [b, c]
    exact ⟨a, rfl, rfl⟩

theorem letter_dim_le (tdim : Nat) (x : Letter) (d : Nat)
    (h : x.dim tdim = some d) : d ≤ tdim := by
  cases x <;> simp only [Letter.dim] at h
  · cases h; omega
  · split at h
    · cases h
    · cases h; omega
  · split at h
    · cases h
    · cases h; omega
  · cases h; omega
  · cases h; omega

/-- What an evaluation preserves. -/
structure Keeps (m : CMesh) (d d' : Dom) : Prop where
  regions : d'.regions = d.regions
  len : d.heap.length ≤ d'.heap.length
  objs : ∀ (a : Nat) (o : Obj) (E : List Nat), d.heap[a]? = some o → FinalizedWith m o.reg E →
    ∃ o' : Obj, d'.heap[a]? = some o' ∧ o'.name = o.name ∧ o'.reg.kind = o.reg.kind ∧
      o'.reg.tdim = o.reg.tdim ∧ FinalizedWith m o'.reg E

theorem keeps_refl (m : CMesh) (d : Dom) : Keeps m d d :=
  ⟨rfl, Nat.le_refl _, fun _ o _ h1 h2 => ⟨o, h1, rfl, rfl, rfl, h2⟩⟩

theorem keeps_trans {m : CMesh} {d1 d2 d3 : Dom} (h : Keeps m d1 d2) (h' : Keeps m d2 d3) :
    Keeps m d1 d3 := by
  refine ⟨h'.regions.trans h.regions, Nat.le_trans h.len h'.len, ?_⟩
  intro a o E h1 h2
  obtain ⟨o2, a1, a2, a3, a4, a5⟩ := h.objs a o E h1 h2
  obtain ⟨o3, b1, b2, b3, b4, b5⟩ := h'.objs a o2 E a1 a5
  exact ⟨o3, b1, b2.trans a2, b3.trans a3, b4.trans a4, b5⟩

theorem keeps_alloc (m : CMesh) (d : Dom) (n : String) (r : Reg) : Keeps m d (d.alloc n r).2 := by
  refine ⟨rfl, by simp [Dom.alloc], ?_⟩
  intro a o E h1 h2
  refine ⟨o, ?_, rfl, rfl, rfl, h2⟩
  have : a < d.heap.length := (List.getElem?_eq_some_iff.1 h1).1
  simp only [Dom.alloc]
  rw [List.getElem?_append_left this, h1]

theorem keeps_setReg (m : CMesh) (d : Dom) (a : Nat) (r : Reg) (o : Obj) (ho : d.heap[a]? = some o)
    (h : ∀ E, FinalizedWith m o.reg E →
      FinalizedWith m r E ∧ r.kind = o.reg.kind ∧ r.tdim = o.reg.tdim) :
    Keeps m d (d.setReg a r) := by
  refine ⟨rfl, by simp [Dom.setReg], ?_⟩
  intro b p E h1 h2
  simp only [Dom.setReg]
  by_cases hab : a = b
  · subst hab
    rw [ho] at h1
    cases h1
    obtain ⟨x, y, z⟩ := h E h2
    refine ⟨{ o with reg := r }, ?_, rfl, y, z, x⟩
    rw [List.getElem?_modify_eq, ho]
    rfl
  · refine ⟨p, ?_, rfl, rfl, rfl, h2⟩
    rw [List.getElem?_modify_ne _ _ hab, h1]

theorem keeps_readAt (m : CMesh) (fuel : Nat) (d d' : Dom) (a : Nat) (x : Letter) (l : List Nat)
    (h : d.readAt m fuel a x = .ok (l, d')) : Keeps m d d' := by
  unfold Dom.readAt at h
  split at h
  · cases h
  · next o ho =>
    split at h
    · cases h
    · next l' r' hr =>
      cases h
      apply keeps_setReg m d a r' o ho
      intro E hE
      unfold Reg.read at hr
      split at hr
      · cases hr
      · next dd hdd =>
        split at hr
        · cases hr
        · next r2 h2 =>
          cases hr
          exact finalized_access hE fuel dd (letter_dim_le _ x dd hdd) h2

theorem finalized_kd_le {m : CMesh} {r : Reg} {E : List Nat} (h : FinalizedWith m r E) :
    kindTdim r.tdim r.kind ≤ r.tdim := h.le'

theorem keeps_eval (m : CMesh) (fuel : Nat) (copy : Bool) : ∀ (s : Sel) (d d' : Dom) (a : Nat),
    Dom.evalSel m fuel copy s d = .ok (a, d') →
      Keeps m d d' ∧ (FreshRoot copy s → d.heap.length ≤ a) := by
  intro s
  induction s with
  | leaf r =>
    intro d d' a h
    simp only [Dom.evalSel] at h
    have h' : d.alloc "leaf" r = (a, d') := by injection h
    have h1 : d' = (d.alloc "leaf" r).2 := by rw [h']
    have h2 : a = (d.alloc "leaf" r).1 := by rw [h']
    refine ⟨by rw [h1]; exact keeps_alloc m d _ r, fun _ => by rw [h2]; exact Nat.le_refl _⟩
  | ref n =>
    intro d d' a h
    simp only [Dom.evalSel] at h
    split at h
    · cases h
    · next b hb =>
      split at h
      · split at h
        · cases h
        · next o ho =>
          split at h
          · cases h
          · next r' hr =>
            have hk : Keeps m d (d.setReg b r') := by
              apply keeps_setReg m d b r' o ho
              intro E hE
              exact finalized_access hE fuel _ hE.le' hr
            have h' := (Except.ok.inj h)
            have h1 : d' = ((d.setReg b r').alloc "copy" ((Reg.new o.reg.tdim o.reg.kind).setEnt
                (kindTdim o.reg.tdim o.reg.kind)
                ((r'.ent (kindTdim o.reg.tdim o.reg.kind)).getD []))).2 := by rw [h']
            have h2 : a = ((d.setReg b r').alloc "copy" ((Reg.new o.reg.tdim o.reg.kind).setEnt
                (kindTdim o.reg.tdim o.reg.kind)
                ((r'.ent (kindTdim o.reg.tdim o.reg.kind)).getD []))).1 := by rw [h']
            refine ⟨by rw [h1]; exact keeps_trans hk (keeps_alloc m _ _ _), fun _ => ?_⟩
            rw [h2]
            exact hk.len
      · next hc =>
        cases h
        exact ⟨keeps_refl m d, fun hf => absurd hf hc⟩
  | op x o s1 s2 ih1 ih2 =>
    intro d d' a h
    simp only [Dom.evalSel] at h
    split at h
    · cases h
    · next a2 d2 e2 =>
      split at h
      · cases h
      · next a1 d1 e1 =>
        split at h
        · cases h
        · next l1 d3 e3 =>
          split at h
          · cases h
          · next l2 d4 e4 =>
            have hk : Keeps m d d4 :=
              keeps_trans (ih2 d d2 a2 e2).1 (keeps_trans (ih1 d2 d1 a1 e1).1
                (keeps_trans (keeps_readAt m fuel _ _ _ _ _ e3) (keeps_readAt m fuel _ _ _ _ _ e4)))
            split at h
            · cases h
            · next o1 ho1 =>
              split at h
              · cases h
              · next dd hdd =>
                split at h
                · have h' := (Except.ok.inj h)
                  have h1 : d' = (d4.alloc "op" ((Reg.new o1.reg.tdim o1.reg.kind).setEnt dd
                    (o.fn l1 l2))).2 := by rw [h']
                  have h2 : a = (d4.alloc "op" ((Reg.new o1.reg.tdim o1.reg.kind).setEnt dd
                    (o.fn l1 l2))).1 := by rw [h']
                  refine ⟨by rw [h1]; exact keeps_trans hk (keeps_alloc m _ _ _), fun _ => ?_⟩
                  rw [h2]
                  exact hk.len
                · cases h

theorem same_of_finalized {m : CMesh} {o o' : Obj} {E : List Nat} (hn : o'.name = o.name)
    (hk : o'.reg.kind = o.reg.kind) (ht : o'.reg.tdim = o.reg.tdim) (h : FinalizedWith m o.reg E)
    (h' : FinalizedWith m o'.reg E) : SameRegion m o o' := by
  refine ⟨hn, hk, ht, ?_⟩
  intro fuel d hf hd hc
  unfold FinalizedWith at h h'
  rw [hk, ht] at h'
  obtain ⟨r1, a1, _, _, _, _, b1, _⟩ := top_access fuel d o.reg h hd (by omega)
  obtain ⟨r2, a2, _, _, _, _, b2, _⟩ := top_access fuel d o'.reg h' hd (by omega)
  exact ⟨r1, r2, _, a1, b1 hc, a2, b2 (by rw [hk, ht]; exact hc)⟩

theorem keeps_create (m : CMesh) (fuel : Nat) (d d' : Dom) (name : String) (copy : Bool) (s : Sel)
    (k : Kind) (aE : Bool) (a : Nat) (hs : FreshRoot copy s)
    (h : d.create m fuel name copy s k aE = .ok (a, d')) :
    (∀ (b : Nat) (o : Obj) (E : List Nat), d.heap[b]? = some o → FinalizedWith m o.reg E →
      ∃ o' : Obj, d'.heap[b]? = some o' ∧ o'.name = o.name ∧ o'.reg.kind = o.reg.kind ∧
        o'.reg.tdim = o.reg.tdim ∧ FinalizedWith m o'.reg E) ∧
    d'.regions = d.regions ++ [a] ∧ d.heap.length ≤ a ∧
    ∃ o, d'.heap[a]? = some o ∧ o.name = name := by
  unfold Dom.create at h
  split at h
  · cases h
  · next a1 d1 e1 =>
    obtain ⟨hk, hf⟩ := keeps_eval m fuel copy s d d1 a1 e1
    split at h
    · cases h
    · next o ho =>
      split at h
      · cases h
      · next r hr =>
        cases h
        refine ⟨?_, by simp [hk.regions], hf hs, ?_⟩
        · intro b p E h1 h2
          obtain ⟨o', b1, b2, b3, b4, b5⟩ := hk.objs b p E h1 h2
          refine ⟨o', ?_, b2, b3, b4, b5⟩
          have hlt : b < d.heap.length := (List.getElem?_eq_some_iff.1 h1).1
          have hne : a ≠ b := by have := hf hs; omega
          simp only
          rw [List.getElem?_modify_ne _ _ hne, b1]
        · refine ⟨{ name := name, reg := r }, ?_, rfl⟩
          simp only
          rw [List.getElem?_modify_eq, ho]
          rfl

/-! ### C42 -/

/-- C42: creating a region with a selector whose value is a new object (a leaf, an operator
expression, or `copy ...`) leaves every finalized region as it was, whatever the selector
reads; the new region is a new object appended to the regions. -/
theorem C42_others_unchanged (m : CMesh) (fuel : Nat) (d d' : Dom) (name : String) (copy : Bool)
    (s : Sel) (k : Kind) (aE : Bool) (a : Nat) (hs : FreshRoot copy s)
    (h : d.create m fuel name copy s k aE = .ok (a, d')) :
    d'.regions = d.regions ++ [a] ∧ (∃ o, d'.heap[a]? = some o ∧ o.name = name) ∧
    (∀ b ∈ d.regions, b < d.heap.length → b ≠ a) ∧
    ∀ b ∈ d.regions, ∀ o E, d.heap[b]? = some o → FinalizedWith m o.reg E →
      ∃ o' : Obj, d'.heap[b]? = some o' ∧ SameRegion m o o' ∧ FinalizedWith m o'.reg E := by
  obtain ⟨h1, h2, h3, h4⟩ := keeps_create m fuel d d' name copy s k aE a hs h
  refine ⟨h2, h4, fun b _ hb => by omega, ?_⟩
  intro b _ o E ho hE
  obtain ⟨o', c1, c2, c3, c4, c5⟩ := h1 b o E ho hE
  exact ⟨o', c1, same_of_finalized c2 c3 c4 hE c5, c5⟩

/-- A `create_region` call. -/
structure Call where
  name : String
  copy : Bool
  sel : Sel
  kind : Kind
  allowEmpty : Bool

/-- A sequence of calls. -/
def Dom.createAll (m : CMesh) (fuel : Nat) : List Call → Dom → Except DomErr Dom
  | [], d => .ok d
  | c :: cs, d => match d.create m fuel c.name c.copy c.sel c.kind c.allowEmpty with
    | .error e => .error e
    | .ok (_, d') => Dom.createAll m fuel cs d'

/-- C42 for histories: a finalized region stays the same during any sequence of such calls. -/
theorem C42_history (m : CMesh) (fuel : Nat) (calls : List Call) (d d' : Dom)
    (hs : ∀ c ∈ calls, FreshRoot c.copy c.sel) (h : Dom.createAll m fuel calls d = .ok d')
    (b : Nat) (o : Obj) (E : List Nat) (ho : d.heap[b]? = some o) (hE : FinalizedWith m o.reg E) :
    ∃ o' : Obj, d'.heap[b]? = some o' ∧ SameRegion m o o' ∧ FinalizedWith m o'.reg E := by
  suffices H : ∀ (calls : List Call) (d : Dom) (o : Obj), (∀ c ∈ calls, FreshRoot c.copy c.sel) →
      Dom.createAll m fuel calls d = .ok d' → d.heap[b]? = some o → FinalizedWith m o.reg E →
      ∃ o' : Obj, d'.heap[b]? = some o' ∧ o'.name = o.name ∧ o'.reg.kind = o.reg.kind ∧
        o'.reg.tdim = o.reg.tdim ∧ FinalizedWith m o'.reg E by
    obtain ⟨o', c1, c2, c3, c4, c5⟩ := H calls d o hs h ho hE
    exact ⟨o', c1, same_of_finalized c2 c3 c4 hE c5, c5⟩
  intro calls
  induction calls with
  | nil => intro d o _ h ho hE; cases h; exact ⟨o, ho, rfl, rfl, rfl, hE⟩
  | cons c cs ih =>
    intro d o hs h ho hE
    unfold Dom.createAll at h
    split at h
    · cases h
    · next a d1 h1 =>
      obtain ⟨k1, _⟩ := keeps_create m fuel d d1 _ _ _ _ _ a (hs c (by simp)) h1
      obtain ⟨o1, c1, c2, c3, c4, c5⟩ := k1 b o E ho hE
      obtain ⟨o2, e1, e2, e3, e4, e5⟩ := ih d1 o1 (fun x hx => hs x (by simp [hx])) h c1 c5
      exact ⟨o2, e1, e2.trans c2, e3.trans c3, e4.trans c4, e5⟩

/-- C42: the created regions are finalized, so that the above applies to them. -/
theorem C42_created_finalized (m : CMesh) (fuel : Nat) (r : Reg) (hw : WF r) (k : Kind)
    (hk : kindTdim r.tdim k ≤ r.tdim) (r' : Reg) (h : r.create m fuel k false = .ok r') :
    ∃ E, FinalizedWith m r' E := by
  obtain ⟨_, E, _, _, ht, htd, hkd⟩ := create_top m fuel r hw k hk r' h
  refine ⟨E, ?_⟩
  unfold FinalizedWith
  rw [htd, hkd, kindTdim_norm _ hw.dim]
  exact ht

/-- C42, a finding: `create_region(name, 'r.A', kind)` without `copy` does not create a new
region: the returned region is the object `A` itself, renamed, of the new kind; it is listed
twice. -/
theorem C42_counterexample_bare_reference (m : CMesh) (fuel : Nat) (d d' : Dom) (name A : String)
    (k : Kind) (aE : Bool) (a b : Nat) (hA : d.find A = some a)
    (h : d.create m fuel name false (.ref A) k aE = .ok (b, d')) :
    b = a ∧ d'.regions = d.regions ++ [a] ∧ ∃ o, d'.heap[a]? = some o ∧ o.name = name := by
  unfold Dom.create at h
  simp only [Dom.evalSel, hA, Bool.false_eq_true, if_false] at h
  split at h
  · cases h
  · next o ho =>
    split at h
    · cases h
    · next r hr =>
      cases h
      refine ⟨rfl, rfl, { name := name, reg := r }, ?_, rfl⟩
      simp only
      rw [List.getElem?_modify_eq, ho]
      rfl

/-- A domain with the region `A` of the first of two triangles. -/
def domA : Dom :=
  { heap := [{ name := "A", reg := { tdim := 2, kind := .cell, isEmpty := false
                                     ent := fun d => [some [0, 1, 2], some [0, 1, 2], some [0]].getD d none } }]
    regions := [0] }

/-- The concrete effect: after `B = create_region('B', 'r.A', 'facet')` there is no region `A`, and
the object that was `A` has no cells. -/
theorem C42_counterexample_cells_lost :
    domA.find "A" = some 0 ∧
    ∃ d' : Dom, domA.create twoTriangles 10 "B" false (.ref "A") .facet false = .ok (0, d') ∧
      d'.find "A" = none ∧ d'.regions = [0, 0] ∧
      ∃ o, d'.heap[0]? = some o ∧ o.name = "B" ∧ o.reg.ent 2 = some [] :=
  ⟨by decide, _, rfl, by decide, rfl, _, rfl, rfl, rfl⟩

/-- Non-vacuity: creating `B = copy r.A` and `C = r.A -v r.B`. -/
example : ∃ d', Dom.createAll twoTriangles 10
    [{ name := "B", copy := true, sel := .ref "A", kind := .cell, allowEmpty := false },
     { name := "C", copy := false, sel := .op .v .add (.ref "A") (.leaf ((Reg.new 2 .cell).setEnt 0 [3])),
       kind := .cell, allowEmpty := false }] domA = .ok d' ∧
    d'.regions = [0, 1, 3] ∧ ∃ o, d'.heap[3]? = some o ∧ o.reg.ent 2 = some [0, 1] :=
  ⟨_, rfl, rfl, _, rfl, by decide⟩

end Verif.Region
