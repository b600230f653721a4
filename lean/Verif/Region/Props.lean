/-
C18, C19: the region operators and the completion of region entities.
-/
import Verif.Region.Model
namespace Verif.Region

/-! ### Small specification -/

/-- Sorted and without duplicates. -/
def StrictlySorted (l : List Nat) : Prop := l.Pairwise (· < ·)

/-- What the operators mean. -/
def SetOp.holds : SetOp → Prop → Prop → Prop
  | .add, p, q => p ∨ q
  | .sub, p, q => p ∧ ¬ q
  | .mul, p, q => p ∧ q

/-- `i` is an entity of dimension `d` all of whose incident entities of dimension `e` are in `S`. -/
def CompleteIn (m : CMesh) (d e : Nat) (S : List Nat) (i : Nat) : Prop :=
  i < m.num d ∧ ∀ v ∈ m.inc d e i, v ∈ S

/-- `j` of dimension `d` is incident to some member of `E` of dimension `e`. -/
def IncidentTo (m : CMesh) (d e : Nat) (E : List Nat) (j : Nat) : Prop :=
  ∃ i ∈ E, j ∈ m.inc e d i

/-- The dimension of the entities a letter stands for: vertices, edges (2D, 3D), faces (3D), facets and
cells. -/
inductive LetterMeans (tdim : Nat) : Letter → Nat → Prop where
  | v : LetterMeans tdim .v 0
  | e : 2 ≤ tdim → LetterMeans tdim .e 1
  | f : 3 ≤ tdim → LetterMeans tdim .f 2
  | s (d : Nat) : d + 1 = tdim → LetterMeans tdim .s d
  | c : LetterMeans tdim .c tdim

/-- The dimension of the entities a kind is about, and whether it is an `_only` kind. -/
inductive KindMeans (tdim : Nat) : Kind → Nat → Bool → Prop where
  | cell : KindMeans tdim .cell tdim false
  | facet (d : Nat) : d + 1 = tdim → KindMeans tdim .facet d false
  | face : 3 ≤ tdim → KindMeans tdim .face 2 false
  | edge : 2 ≤ tdim → KindMeans tdim .edge 1 false
  | vertex : KindMeans tdim .vertex 0 false
  | cellOnly : KindMeans tdim .cellOnly tdim true
  | facetOnly (d : Nat) : d + 1 = tdim → KindMeans tdim .facetOnly d true
  | faceOnly : 3 ≤ tdim → KindMeans tdim .faceOnly 2 true
  | edgeOnly : 2 ≤ tdim → KindMeans tdim .edgeOnly 1 true
  | vertexOnly : KindMeans tdim .vertexOnly 0 true

/-! ### Lists -/

theorem mem_insertU (x y : Nat) (l : List Nat) : y ∈ insertU x l ↔ y = x ∨ y ∈ l := by
  induction l with
  | nil => simp [insertU]
  | cons z r ih =>
    simp only [insertU]
    split
    · simp
    · split
      · next h => subst h; simp
      · simp only [List.mem_cons, ih]; exact or_left_comm

theorem sorted_insertU (x : Nat) (l : List Nat) (h : StrictlySorted l) :
    StrictlySorted (insertU x l) := by
  induction l with
  | nil => simp [insertU, StrictlySorted]
  | cons z r ih =>
    have h' := List.pairwise_cons.1 h
    simp only [insertU]
    split
    · next hx =>
      refine List.pairwise_cons.2 ⟨?_, h⟩
      intro a ha
      rcases List.mem_cons.1 ha with rfl | ha
      · exact hx
      · exact Nat.lt_trans hx (h'.1 a ha)
    · split
      · exact h
      · next h1 h2 =>
        refine List.pairwise_cons.2 ⟨?_, ih h'.2⟩
        intro a ha
        rcases (mem_insertU x a r).1 ha with rfl | ha
        · omega
        · exact h'.1 a ha

theorem mem_unique (y : Nat) (l : List Nat) : y ∈ unique l ↔ y ∈ l := by
  induction l with
  | nil => simp [unique]
  | cons x r ih =>
    have : unique (x :: r) = insertU x (unique r) := rfl
    rw [this, mem_insertU, ih, List.mem_cons]

theorem sorted_unique (l : List Nat) : StrictlySorted (unique l) := by
  induction l with
  | nil => exact List.Pairwise.nil
  | cons x r ih => exact sorted_insertU x _ ih

theorem sorted_filter (p : Nat → Bool) (l : List Nat) (h : StrictlySorted l) :
    StrictlySorted (l.filter p) := List.Pairwise.filter p h

theorem op_sorted (op : SetOp) (a b : List Nat) : StrictlySorted (op.fn a b) := by
  cases op
  · exact sorted_unique _
  · exact sorted_filter _ _ (sorted_unique _)
  · exact sorted_filter _ _ (sorted_unique _)

theorem op_mem (op : SetOp) (a b : List Nat) (x : Nat) :
    x ∈ op.fn a b ↔ op.holds (x ∈ a) (x ∈ b) := by
  cases op <;> simp [SetOp.fn, SetOp.holds, mem_unique]

theorem countMarked_le (S l : List Nat) : countMarked S l ≤ l.length := by
  induction l with
  | nil => simp [countMarked]
  | cons x r ih => simp only [countMarked, List.length_cons]; split <;> omega

theorem countMarked_eq (S l : List Nat) : countMarked S l = l.length ↔ ∀ v ∈ l, v ∈ S := by
  induction l with
  | nil => simp [countMarked]
  | cons x r ih =>
    have := countMarked_le S r
    simp only [countMarked, List.length_cons, List.forall_mem_cons, ← ih]
    split
    · next h => simp only [h, true_and]; omega
    · next h => simp only [h, false_and, iff_false]; omega

theorem complete_mem (m : CMesh) (d e : Nat) (S : List Nat) (i : Nat) :
    i ∈ m.getComplete d S e ↔ S ≠ [] ∧ CompleteIn m d e S i := by
  unfold CMesh.getComplete CompleteIn
  cases S with
  | nil => simp
  | cons a S =>
    simp only [List.isEmpty_cons, Bool.false_eq_true, if_false, List.mem_filter, List.mem_range,
      beq_iff_eq, countMarked_eq, ne_eq, reduceCtorEq, not_false_eq_true, true_and]

theorem complete_sorted (m : CMesh) (d e : Nat) (S : List Nat) :
    StrictlySorted (m.getComplete d S e) := by
  unfold CMesh.getComplete
  split
  · exact List.Pairwise.nil
  · exact sorted_filter _ _ List.pairwise_lt_range

theorem incident_mem (m : CMesh) (d e : Nat) (E : List Nat) (j : Nat) :
    j ∈ unique (m.getIncident d E e) ↔ IncidentTo m d e E j := by
  simp [mem_unique, CMesh.getIncident, IncidentTo]

/-! ### Kinds -/

/-- The dimensions in use. -/
def DimOk (tdim : Nat) : Prop := tdim = 1 ∨ tdim = 2 ∨ tdim = 3

theorem norm_trueKind (tdim : Nat) (h : DimOk tdim) (k : Kind) :
    trueKind tdim (normKind tdim k) = trueKind tdim k := by
  rcases h with rfl | rfl | rfl <;> cases k <;> rfl

theorem norm_norm (tdim : Nat) (h : DimOk tdim) (k : Kind) :
    normKind tdim (normKind tdim k) = normKind tdim k := by
  rcases h with rfl | rfl | rfl <;> cases k <;> rfl

theorem can_norm (tdim : Nat) (h : DimOk tdim) (k : Kind) (d : Nat) :
    can tdim (normKind tdim k) d = can tdim k d := by
  unfold can; rw [norm_trueKind tdim h]

theorem kindTdim_norm (tdim : Nat) (h : DimOk tdim) (k : Kind) :
    kindTdim tdim (normKind tdim k) = kindTdim tdim k := by
  unfold kindTdim; rw [norm_trueKind tdim h]

theorem can_above (tdim : Nat) (h : DimOk tdim) (k : Kind) (d : Nat)
    (h1 : kindTdim tdim k < d) (h2 : d ≤ tdim) : can tdim k d = false := by
  rcases h with rfl | rfl | rfl
  · obtain rfl | rfl : d = 0 ∨ d = 1 := by omega
    all_goals cases k <;> first | rfl | (exfalso; revert h1; decide)
  · obtain rfl | rfl | rfl : d = 0 ∨ d = 1 ∨ d = 2 := by omega
    all_goals cases k <;> first | rfl | (exfalso; revert h1; decide)
  · obtain rfl | rfl | rfl | rfl : d = 0 ∨ d = 1 ∨ d = 2 ∨ d = 3 := by omega
    all_goals cases k <;> first | rfl | (exfalso; revert h1; decide)

/-- Invariant of all regions: the kind name is normalized and entities that the kind cannot have
are empty. -/
structure WF (r : Reg) : Prop where
  dim : DimOk r.tdim
  norm : normKind r.tdim r.kind = r.kind
  empty : ∀ d, d ≤ r.tdim → can r.tdim r.kind d = false → r.ent d = some []

theorem wf_new (tdim : Nat) (h : DimOk tdim) (k : Kind) : WF (Reg.new tdim k) where
  dim := h
  norm := norm_norm tdim h k
  empty := by
    intro d h1 h2
    simp only [Reg.new] at h2 ⊢
    rw [if_pos ⟨h1, h2⟩]

theorem wf_setKind (r : Reg) (h : WF r) (k : Kind) : WF (r.setKind k) := by
  unfold Reg.setKind
  split
  · exact h
  · refine ⟨h.dim, norm_norm _ h.dim k, ?_⟩
    intro d h1 h2
    simp only at h2 ⊢
    rw [if_pos ⟨h1, h2⟩]

theorem wf_setEnt (r : Reg) (h : WF r) (d : Nat) (v : List Nat)
    (hc : can r.tdim r.kind d = true) : WF (r.setEnt d v) := by
  refine ⟨h.dim, h.norm, ?_⟩
  intro e h1 h2
  simp only [Reg.setEnt] at h2 ⊢
  have : e ≠ d := by rintro rfl; rw [hc] at h2; cases h2
  rw [if_neg this]
  exact h.empty e h1 h2

/-! ### C18 -/

/-- C18, C19: the entities a region of a given kind can have: those of the kind dimension, and
(except for the `_only` kinds) of all lower ones; the dimension of the kind. -/
theorem C18_kinds (tdim : Nat) (h : DimOk tdim) (k : Kind) (kd : Nat) (only : Bool)
    (hk : KindMeans tdim k kd only) :
    kindTdim tdim k = kd ∧ kd ≤ tdim ∧
      ∀ d, d ≤ tdim → (can tdim k d = true ↔ if only then d = kd else d ≤ kd) := by
  have h3 : ∀ d, d ≤ tdim → d = 0 ∨ d = 1 ∨ d = 2 ∨ d = 3 := by
    intro d hd; rcases h with rfl | rfl | rfl <;> omega
  cases hk with
  | cell =>
    refine ⟨by rcases h with rfl | rfl | rfl <;> rfl, by omega, ?_⟩
    intro d hd
    rcases h with rfl | rfl | rfl <;> rcases h3 d hd with rfl | rfl | rfl | rfl <;>
      first | (exfalso; omega) | decide
  | facet _ h0 =>
    obtain rfl : kd = tdim - 1 := by omega
    refine ⟨by rcases h with rfl | rfl | rfl <;> rfl, by omega, ?_⟩
    intro d hd
    rcases h with rfl | rfl | rfl <;> rcases h3 d hd with rfl | rfl | rfl | rfl <;>
      first | (exfalso; omega) | decide
  | face h0 =>
    obtain rfl : tdim = 3 := by rcases h with rfl | rfl | rfl <;> omega
    refine ⟨rfl, by omega, ?_⟩
    intro d hd
    rcases h3 d hd with rfl | rfl | rfl | rfl <;> decide
  | edge h0 =>
    refine ⟨by rcases h with rfl | rfl | rfl <;> rfl, by omega, ?_⟩
    intro d hd
    rcases h with rfl | rfl | rfl <;> rcases h3 d hd with rfl | rfl | rfl | rfl <;>
      first | (exfalso; omega) | decide
  | vertex =>
    refine ⟨by rcases h with rfl | rfl | rfl <;> rfl, by omega, ?_⟩
    intro d hd
    rcases h with rfl | rfl | rfl <;> rcases h3 d hd with rfl | rfl | rfl | rfl <;>
      first | (exfalso; omega) | decide
  | cellOnly =>
    refine ⟨by rcases h with rfl | rfl | rfl <;> rfl, by omega, ?_⟩
    intro d hd
    rcases h with rfl | rfl | rfl <;> rcases h3 d hd with rfl | rfl | rfl | rfl <;>
      first | (exfalso; omega) | decide
  | facetOnly _ h0 =>
    obtain rfl : kd = tdim - 1 := by omega
    refine ⟨by rcases h with rfl | rfl | rfl <;> rfl, by omega, ?_⟩
    intro d hd
    rcases h with rfl | rfl | rfl <;> rcases h3 d hd with rfl | rfl | rfl | rfl <;>
      first | (exfalso; omega) | decide
  | faceOnly h0 =>
    obtain rfl : tdim = 3 := by rcases h with rfl | rfl | rfl <;> omega
    refine ⟨rfl, by omega, ?_⟩
    intro d hd
    rcases h3 d hd with rfl | rfl | rfl | rfl <;> decide
  | edgeOnly h0 =>
    refine ⟨by rcases h with rfl | rfl | rfl <;> rfl, by omega, ?_⟩
    intro d hd
    rcases h with rfl | rfl | rfl <;> rcases h3 d hd with rfl | rfl | rfl | rfl <;>
      first | (exfalso; omega) | decide
  | vertexOnly =>
    refine ⟨by rcases h with rfl | rfl | rfl <;> rfl, by omega, ?_⟩
    intro d hd
    rcases h with rfl | rfl | rfl <;> rcases h3 d hd with rfl | rfl | rfl | rfl <;>
      first | (exfalso; omega) | decide

/-- The letters. -/
theorem letter_means (tdim : Nat) (h : DimOk tdim) (x : Letter) (d : Nat) :
    x.dim tdim = some d ↔ LetterMeans tdim x d := by
  constructor
  · intro hx
    cases x <;> simp only [Letter.dim] at hx
    · cases hx; exact .v
    · split at hx
      · cases hx
      · cases hx; exact .e (by omega)
    · split at hx
      · cases hx
      · cases hx; exact .f (by omega)
    · cases hx; exact .s _ (by rcases h with rfl | rfl | rfl <;> rfl)
    · cases hx; exact .c
  · intro hx
    cases hx with
    | v => rfl
    | e h => simp only [Letter.dim]; rw [if_neg (by omega)]
    | f h => simp only [Letter.dim]; rw [if_neg (by omega)]
    | s d h => simp only [Letter.dim]; congr 1; omega
    | c => rfl

/-- C18: what reading a property means: the entities of the dimension of the letter. -/
theorem C18_read (m : CMesh) (fuel : Nat) (r : Reg) (h : DimOk r.tdim) (x : Letter)
    (l : List Nat) (r' : Reg) :
    r.read m fuel x = .ok (l, r') ↔
      ∃ d, LetterMeans r.tdim x d ∧ r.access m fuel d = .ok r' ∧ l = (r'.ent d).getD [] := by
  unfold Reg.read
  constructor
  · intro hr
    split at hr
    · cases hr
    · next d hd =>
      split at hr
      · cases hr
      · next r1 h1 =>
        cases hr
        exact ⟨d, (letter_means _ h x d).1 hd, h1, rfl⟩
  · rintro ⟨d, h1, h2, rfl⟩
    rw [(letter_means _ h x d).2 h1]
    simp only
    rw [h2]

/-- C18: `r1 <op><X> r2`.  The operation succeeds iff both operands have the entities `X` and the
kind of `r1` allows them; the result has the kind of `r1`, and reading its entities `X`
returns the sorted duplicate-free list of the union, difference or intersection of the
entities `X` of the operands. -/
theorem C18_operator (m : CMesh) (fuel : Nat) (x : Letter) (op : SetOp) (r1 r2 : Reg)
    (h1 : WF r1) (t : Reg) :
    r1.evalOp m fuel x op r2 = .ok t →
      ∃ a r1' b r2' l, r1.read m fuel x = .ok (a, r1') ∧ r2.read m fuel x = .ok (b, r2') ∧
        t.kind = r1.kind ∧ t.tdim = r1.tdim ∧
        (∃ d, LetterMeans r1.tdim x d ∧ t.ent d = some l) ∧
        (∀ fuel', t.read m (fuel' + 1) x = .ok (l, t)) ∧
        StrictlySorted l ∧ ∀ e, e ∈ l ↔ op.holds (e ∈ a) (e ∈ b) := by
  intro h
  unfold Reg.evalOp at h
  split at h
  · cases h
  · next a r1' ha =>
    split at h
    · cases h
    · next b r2' hb =>
      split at h
      · cases h
      · next d hd =>
        split at h
        · next hc =>
          cases h
          refine ⟨a, r1', b, r2', op.fn a b, ha, hb, ?_, rfl,
            ⟨d, (letter_means _ h1.dim x d).1 hd, by simp [Reg.setEnt]⟩, ?_, op_sorted op a b,
            fun e => op_mem op a b e⟩
          · show normKind r1.tdim r1.kind = r1.kind
            exact h1.norm
          · intro f
            unfold Reg.read
            have e1 : (((Reg.new r1.tdim r1.kind).setEnt d (op.fn a b))).tdim = r1.tdim := rfl
            have e2 : (((Reg.new r1.tdim r1.kind).setEnt d (op.fn a b))).ent d
                = some (op.fn a b) := by simp [Reg.setEnt]
            rw [e1, hd]
            simp only [Reg.access]
            rw [e2]
            simp [e2]
        · cases h

/-- C18: when an operator application is accepted. -/
theorem C18_accepted_iff (m : CMesh) (fuel : Nat) (x : Letter) (op : SetOp) (r1 r2 : Reg) :
    (∃ t, r1.evalOp m fuel x op r2 = .ok t) ↔
      (∃ a, r1.read m fuel x = .ok a) ∧ (∃ b, r2.read m fuel x = .ok b) ∧
      ∃ d, x.dim r1.tdim = some d ∧ can r1.tdim r1.kind d = true := by
  unfold Reg.evalOp
  constructor
  · rintro ⟨t, h⟩
    split at h
    · cases h
    · next a ha =>
      split at h
      · cases h
      · next b hb =>
        split at h
        · cases h
        · next d hd =>
          split at h
          · next hc => exact ⟨⟨_, ha⟩, ⟨_, hb⟩, d, hd, hc⟩
          · cases h
  · rintro ⟨⟨⟨a, ra⟩, ha⟩, ⟨⟨b, rb⟩, hb⟩, d, hd, hc⟩
    simp only [ha, hb, hd, hc, if_true]
    exact ⟨_, rfl⟩

/-- The operators build well-formed regions. -/
theorem C18_result_wf (m : CMesh) (fuel : Nat) (x : Letter) (op : SetOp) (r1 r2 t : Reg)
    (h1 : WF r1) (h : r1.evalOp m fuel x op r2 = .ok t) : WF t := by
  unfold Reg.evalOp at h
  split at h
  · cases h
  · split at h
    · cases h
    · split at h
      · cases h
      · next d hd =>
        split at h
        · next hc =>
          cases h
          apply wf_setEnt _ (wf_new _ h1.dim _)
          show can r1.tdim (normKind r1.tdim r1.kind) d = true
          rw [h1.norm]; exact hc
        · cases h

end Verif.Region
