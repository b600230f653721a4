import Verif.Ml.Spec

/-!
# A closed form of the expressions made by the builder (proof only)
-/

namespace Ml

set_option linter.unusedSimpArgs false

/-- What an argument contributes to an expression: a material, the DOFs, the DOFs without the modifier, or the basis
functions only. -/
inductive Role
  | mat | dofs | plain | unit
  deriving DecidableEq

structure Ann where
  pos : ℕ
  arg : Arg
  node : Char
  aux : Char
  role : Role

abbrev Item := Opn × List Char × List (Option ℕ)

def basisItem (fe : Bool) (node : Char) (a : Arg) : Item :=
  if isDer a.ein then (.bfg a.name, ['c', 'q', e2 a.ein, node], [])
  else if fe then (.bf a.name true, ['c', 'q', node], [])
  else (.bf a.name false, ['q', node], [])

def dofsItem (node first : Char) (a : Arg) : Item :=
  if a.nc > 1 then (.dofs a.name, ['c', first, node], []) else (.dofs a.name, ['c', node], [])

def unitItem (aux : Char) (a : Arg) : Item :=
  match a.mod with
  | none => (.eye a.name, [e0 a.ein, aux], [])
  | some .s => (.psg a.name, [aux, e2 a.ein, e0 a.ein], [])
  | some .v => (.pvg a.name, [aux, e2 a.ein, e0 a.ein], [])

def groupItems (fe : Bool) (x : Ann) : List Item :=
  match x.role with
  | .mat => [(.mat x.arg.name, 'c' :: 'q' :: matLetters x.arg.ein, matComps x.arg.ein)]
  | .plain => [basisItem fe x.node x.arg, dofsItem x.node (e0 x.arg.ein) x.arg]
  | .dofs =>
    match x.arg.mod with
    | none => [basisItem fe x.node x.arg, dofsItem x.node (e0 x.arg.ein) x.arg]
    | some _ => [basisItem fe x.node x.arg, unitItem x.aux x.arg, dofsItem x.node x.aux x.arg]
  | .unit => basisItem fe x.node x.arg :: if x.arg.nc > 1 then [unitItem x.aux x.arg] else []

def outLetters (x : Ann) : List Char :=
  match x.role with
  | .unit => if x.arg.nc > 1 then [x.aux, x.node] else [x.node]
  | _ => []

/-- Whether the argument takes an auxiliary letter. -/
def takesAux (diff : Option ℕ) (a : Arg) : Bool :=
  match a.kind with
  | .ndarray => false
  | .virtual => decide (a.nc > 1)
  | .state => if diff ≠ some a.name then a.mod.isSome else decide (a.nc > 1)

def annOf (diff : Option ℕ) (k ia : ℕ) (aux : List Char) (x : ℕ × Arg) : Ann where
  pos := x.1
  arg := x.2
  node := nodeLetters.getD x.1 ' '
  aux := aux.headD ' '
  role := match x.2.kind with
    | .ndarray => .mat
    | .virtual => .unit
    | .state => if diff ≠ some x.2.name then .dofs else if k = ia then .unit else .plain

/-- The annotated arguments in the expression `k`. -/
def annotate (diff : Option ℕ) (k : ℕ) : List (ℕ × Arg) → ℕ → List Char → List Ann
  | [], _, _ => []
  | x :: xs, ia, aux =>
    annOf diff k ia aux x :: annotate diff k xs
      (if x.2.kind = .state ∧ diff = some x.2.name then ia + 1 else ia)
      (if takesAux diff x.2 then aux.tail else aux)

/-- The state of the builder represents the list of items in the expression `k`, with `m` surplus entries of the
components. -/
def Rep (b : B) (k : ℕ) (L : List Item) (m : ℕ) : Prop :=
  b.names k = L.map (fun i => i.1) ∧ b.subs k = L.map (fun i => i.2.1) ∧
    b.comps k = L.map (fun i => i.2.2) ++ List.replicate m []

theorem snoc_replicate (L : List (List (Option ℕ))) (m : ℕ) :
    L ++ List.replicate m [] ++ [[]] = (L ++ [[]]) ++ List.replicate m [] := by
  rw [List.append_assoc, List.append_assoc]
  congr 1
  rw [← List.replicate_succ', List.replicate_succ]
  rfl

theorem Rep.add_none {b : B} {k m : ℕ} {L : List Item} (h : Rep b k L m) (nm : Opn) (s : List Char) :
    Rep (b.add nm s none) k (L ++ [(nm, s, [])]) m := by
  obtain ⟨h1, h2, h3⟩ := h
  refine ⟨?_, ?_, ?_⟩ <;> simp only [B.add, appendAll, List.map_append, List.map_cons, List.map_nil]
  · rw [h1]
  · rw [h2]
  · rw [h3, snoc_replicate]

theorem Rep.add_self {b : B} {k m : ℕ} {L : List Item} (h : Rep b k L m) (nm : Opn) (s : List Char) :
    Rep (b.add nm s (some k)) k (L ++ [(nm, s, [])]) m := by
  obtain ⟨h1, h2, h3⟩ := h
  refine ⟨?_, ?_, ?_⟩ <;> simp only [B.add, appendAll, List.map_append, List.map_cons, List.map_nil, if_true]
  · rw [h1]
  · rw [h2]
  · rw [h3, snoc_replicate]

theorem Rep.add_other {b : B} {k m i : ℕ} {L : List Item} (h : Rep b k L m) (hi : k ≠ i) (nm : Opn) (s : List Char) :
    Rep (b.add nm s (some i)) k L (m + 1) := by
  obtain ⟨h1, h2, h3⟩ := h
  refine ⟨?_, ?_, ?_⟩ <;> simp only [B.add, appendAll, hi, if_false]
  · rw [h1]
  · rw [h2]
  · rw [h3, List.append_assoc, ← List.replicate_succ']

theorem Rep.congr {b b' : B} {k m : ℕ} {L : List Item} (h : Rep b k L m) (h1 : b'.names = b.names)
    (h2 : b'.subs = b.subs) (h3 : b'.comps = b.comps) : Rep b' k L m := by
  unfold Rep; rw [h1, h2, h3]; exact h

@[simp] theorem add_out (b : B) (nm : Opn) (s : List Char) (ii : Option ℕ) : (b.add nm s ii).out = b.out := rfl
@[simp] theorem add_ia (b : B) (nm : Opn) (s : List Char) (ii : Option ℕ) : (b.add nm s ii).ia = b.ia := rfl
@[simp] theorem add_aux (b : B) (nm : Opn) (s : List Char) (ii : Option ℕ) : (b.add nm s ii).aux = b.aux := rfl

theorem addBasis_spec (b : B) (fe : Bool) (node : Char) (a : Arg) :
    b.addBasis fe node a = b.add (basisItem fe node a).1 (basisItem fe node a).2.1 none ∧
      (basisItem fe node a).2.2 = [] := by
  unfold B.addBasis basisItem
  split <;> (try split) <;> simp

theorem addDofs_spec (b : B) (node first : Char) (a : Arg) (ii : Option ℕ) :
    b.addDofs node first a ii = b.add (dofsItem node first a).1 (dofsItem node first a).2.1 ii ∧
      (dofsItem node first a).2.2 = [] := by
  unfold B.addDofs dofsItem
  split <;> simp

theorem addUnit_spec {b b' : B} {aux : Char} {a : Arg} {ii : Option ℕ} (h : b.addUnit aux a ii = some b') :
    b' = b.add (unitItem aux a).1 (unitItem aux a).2.1 ii ∧ (unitItem aux a).2.2 = [] := by
  unfold B.addUnit at h
  unfold unitItem
  cases hm : a.mod with
  | none => rw [hm] at h; simp only [Option.some.injEq] at h; exact ⟨h.symm, rfl⟩
  | some m =>
    cases m with
    | s =>
      rw [hm] at h
      simp only at h
      split at h
      · simp only [Option.some.injEq] at h; exact ⟨h.symm, rfl⟩
      · simp at h
    | v => rw [hm] at h; simp only [Option.some.injEq] at h; exact ⟨h.symm, rfl⟩

theorem item_eta (i : Item) (h : i.2.2 = []) : (i.1, i.2.1, ([] : List (Option ℕ))) = i := by
  rw [← h]

/-- The loop over the expressions. -/
theorem diffLoop_spec (iin : Char) (iic : Option Char) (a : Arg) (hic : iic.isSome = decide (a.nc > 1)) (k : ℕ) :
    ∀ (ks : List ℕ) (b b' : B) (L : List Item) (m : ℕ), ks.Nodup → diffLoop iin iic a ks b = some b' →
      Rep b k L m →
      b'.out = b.out ∧ b'.ia = b.ia ∧ b'.aux = b.aux ∧
      ∃ m', (ks = [k] → m' = m) ∧ Rep b' k (L ++ if k ∈ ks then
        (if k = b.ia then (if a.nc > 1 then [unitItem (iic.getD ' ') a] else [])
          else [dofsItem iin (e0 a.ein) a]) else []) m' := by
  intro ks
  induction ks with
  | nil =>
    intro b b' L m _ h hr
    simp only [diffLoop, Option.some.injEq] at h
    subst h
    exact ⟨rfl, rfl, rfl, m, by simp, by simpa using hr⟩
  | cons i ks ih =>
    intro b b' L m hnd h hr
    rw [List.nodup_cons] at hnd
    rw [diffLoop.eq_def] at h
    simp only at h
    by_cases hi : i = b.ia
    · rw [if_neg (by simpa using hi)] at h
      cases iic with
      | none =>
        simp only at h
        have hnc : ¬ a.nc > 1 := by simpa using hic
        obtain ⟨e1, e2, e3, m', hm', hR⟩ := ih b b' L m hnd.2 h hr
        refine ⟨e1, e2, e3, ?_⟩
        by_cases hk : k = i
        · subst hk
          refine ⟨m', fun hks => ?_, ?_⟩
          · simp only [List.cons.injEq, true_and] at hks
            subst hks
            simp only [diffLoop, Option.some.injEq] at h
            subst h
            have := hr.2.2.symm.trans hR.2.2
            simpa using (congrArg List.length this).symm
          · simpa [hi, hnd.1, hnc] using hR
        · refine ⟨m', fun hks => ?_, ?_⟩
          · simp only [List.cons.injEq] at hks; exact absurd hks.1.symm hk
          · simpa [hk] using hR
      | some ic =>
        simp only at h
        have hnc : a.nc > 1 := by simpa using hic
        cases hu : b.addUnit ic a (some i) with
        | none => rw [hu] at h; simp at h
        | some b1 =>
          rw [hu] at h
          simp only at h
          obtain ⟨hb1, hc1⟩ := addUnit_spec hu
          by_cases hk : k = i
          · have hr1 : Rep b1 k (L ++ [unitItem ic a]) m := by
              have := hr.add_self (unitItem ic a).1 (unitItem ic a).2.1
              rw [item_eta _ hc1] at this
              rw [hb1, ← hk]
              exact this
            obtain ⟨e1, e2, e3, m', hm', hR⟩ := ih b1 b' _ m hnd.2 h hr1
            rw [hb1] at e1 e2 e3
            refine ⟨e1, e2, e3, m', fun hks => ?_, ?_⟩
            · simp only [List.cons.injEq] at hks
              rw [hks.2] at h
              simp only [diffLoop, Option.some.injEq] at h
              subst h
              have := hr1.2.2.symm.trans hR.2.2
              rw [hks.2] at this
              simpa using (congrArg List.length this).symm
            · have hkn : k ∉ ks := hk ▸ hnd.1
              rw [if_neg hkn, List.append_nil] at hR
              simpa [hk, hi, hnc] using hR
          · have hr1 : Rep b1 k L (m + 1) := by
              rw [hb1]; exact hr.add_other hk _ _
            obtain ⟨e1, e2, e3, m', hm', hR⟩ := ih b1 b' _ _ hnd.2 h hr1
            have eia : b1.ia = b.ia := by rw [hb1]; rfl
            rw [eia] at hR
            rw [hb1] at e1 e2 e3
            refine ⟨e1, e2, e3, m', fun hks => ?_, ?_⟩
            · simp only [List.cons.injEq] at hks; exact absurd hks.1.symm hk
            · simpa [hk] using hR
    · rw [if_pos (by simpa using hi)] at h
      obtain ⟨hd, hdc⟩ := addDofs_spec b iin (e0 a.ein) a (some i)
      by_cases hk : k = i
      · have hr1 : Rep (b.addDofs iin (e0 a.ein) a (some i)) k (L ++ [dofsItem iin (e0 a.ein) a]) m := by
          have := hr.add_self (dofsItem iin (e0 a.ein) a).1 (dofsItem iin (e0 a.ein) a).2.1
          rw [item_eta _ hdc] at this
          rw [hd, ← hk]
          exact this
        obtain ⟨e1, e2, e3, m', hm', hR⟩ := ih _ b' _ m hnd.2 h hr1
        rw [hd] at e1 e2 e3
        refine ⟨e1, e2, e3, m', fun hks => ?_, ?_⟩
        · simp only [List.cons.injEq] at hks
          rw [hks.2] at h
          simp only [diffLoop, Option.some.injEq] at h
          subst h
          have := hr1.2.2.symm.trans hR.2.2
          rw [hks.2] at this
          simpa using (congrArg List.length this).symm
        · have hkn : k ∉ ks := hk ▸ hnd.1
          rw [if_neg hkn, List.append_nil] at hR
          have : k ≠ b.ia := hk ▸ hi
          simpa [hk, this, hi] using hR
      · have hr1 : Rep (b.addDofs iin (e0 a.ein) a (some i)) k L (m + 1) := by
          rw [hd]; exact hr.add_other hk _ _
        obtain ⟨e1, e2, e3, m', hm', hR⟩ := ih _ b' _ _ hnd.2 h hr1
        have eia : (b.addDofs iin (e0 a.ein) a (some i)).ia = b.ia := by rw [hd]; rfl
        rw [eia] at hR
        rw [hd] at e1 e2 e3
        refine ⟨e1, e2, e3, m', fun hks => ?_, ?_⟩
        · simp only [List.cons.injEq] at hks; exact absurd hks.1.symm hk
        · simpa [hk] using hR

theorem Rep.basis {b : B} {k m : ℕ} {L : List Item} (h : Rep b k L m) (fe : Bool) (node : Char) (a : Arg) :
    Rep (b.addBasis fe node a) k (L ++ [basisItem fe node a]) m := by
  obtain ⟨e, hc⟩ := addBasis_spec b fe node a
  have := h.add_none (basisItem fe node a).1 (basisItem fe node a).2.1
  rw [item_eta _ hc] at this
  rw [e]; exact this

theorem Rep.dofs {b : B} {k m : ℕ} {L : List Item} (h : Rep b k L m) (node first : Char) (a : Arg) :
    Rep (b.addDofs node first a none) k (L ++ [dofsItem node first a]) m := by
  obtain ⟨e, hc⟩ := addDofs_spec b node first a none
  have := h.add_none (dofsItem node first a).1 (dofsItem node first a).2.1
  rw [item_eta _ hc] at this
  rw [e]; exact this

theorem Rep.unit {b b' : B} {k m : ℕ} {L : List Item} (h : Rep b k L m) (aux : Char) (a : Arg)
    (hu : b.addUnit aux a none = some b') : Rep b' k (L ++ [unitItem aux a]) m := by
  obtain ⟨e, hc⟩ := addUnit_spec hu
  have := h.add_none (unitItem aux a).1 (unitItem aux a).2.1
  rw [item_eta _ hc] at this
  rw [e]; exact this

@[simp] theorem addBasis_out (b : B) (fe : Bool) (node : Char) (a : Arg) : (b.addBasis fe node a).out = b.out := by
  rw [(addBasis_spec b fe node a).1]; rfl
@[simp] theorem addBasis_ia (b : B) (fe : Bool) (node : Char) (a : Arg) : (b.addBasis fe node a).ia = b.ia := by
  rw [(addBasis_spec b fe node a).1]; rfl
@[simp] theorem addBasis_aux (b : B) (fe : Bool) (node : Char) (a : Arg) : (b.addBasis fe node a).aux = b.aux := by
  rw [(addBasis_spec b fe node a).1]; rfl
@[simp] theorem addDofs_out (b : B) (node f : Char) (a : Arg) (ii : Option ℕ) :
    (b.addDofs node f a ii).out = b.out := by rw [(addDofs_spec b node f a ii).1]; rfl
@[simp] theorem addDofs_ia (b : B) (node f : Char) (a : Arg) (ii : Option ℕ) :
    (b.addDofs node f a ii).ia = b.ia := by rw [(addDofs_spec b node f a ii).1]; rfl
@[simp] theorem addDofs_aux (b : B) (node f : Char) (a : Arg) (ii : Option ℕ) :
    (b.addDofs node f a ii).aux = b.aux := by rw [(addDofs_spec b node f a ii).1]; rfl

theorem addUnit_fields {b b' : B} {aux : Char} {a : Arg} {ii : Option ℕ} (h : b.addUnit aux a ii = some b') :
    b'.out = b.out ∧ b'.ia = b.ia ∧ b'.aux = b.aux := by
  obtain ⟨e, _⟩ := addUnit_spec h
  rw [e]; exact ⟨rfl, rfl, rfl⟩

/-- One step: what an argument adds to the expression `k`. -/
structure Step (fe : Bool) (diff : Option ℕ) (b b' : B) (k : ℕ) (L : List Item) (m : ℕ) (x : ℕ × Arg) (nAdd : ℕ) :
    Prop where
  out : b'.out k = b.out k ++ outLetters (annOf diff k b.ia b.aux x)
  ia : b'.ia = if x.2.kind = .state ∧ diff = some x.2.name then b.ia + 1 else b.ia
  aux : b'.aux = if takesAux diff x.2 then b.aux.tail else b.aux
  auxne : takesAux diff x.2 → b.aux ≠ []
  node : x.2.kind ≠ .ndarray → x.1 < 5
  rep : ∃ m', (nAdd = 1 ∨ ¬(x.2.kind = .state ∧ diff = some x.2.name) → m' = m) ∧
    Rep b' k (L ++ groupItems fe (annOf diff k b.ia b.aux x)) m'

theorem getD_of_getElem? {pos : ℕ} {iin : Char} (hp : nodeLetters[pos]? = some iin) :
    nodeLetters[pos]?.getD ' ' = iin ∧ pos < 5 := by
  constructor
  · rw [hp]; rfl
  · obtain ⟨h, _⟩ := List.getElem?_eq_some_iff.mp hp
    exact h

theorem addVirtual_step {fe : Bool} {diff : Option ℕ} {b b' : B} {pos : ℕ} {a : Arg} (hv : a.kind = .virtual)
    (h : addVirtual fe b pos a = some b') {k : ℕ} {L : List Item} {m : ℕ} (hr : Rep b k L m) (nAdd : ℕ) :
    Step fe diff b b' k L m (pos, a) nAdd := by
  unfold addVirtual at h
  cases hp : nodeLetters[pos]? with
  | none => rw [hp] at h; simp at h
  | some iin =>
    rw [hp] at h
    simp only at h
    obtain ⟨hnode, hpos⟩ := getD_of_getElem? hp
    have hb := hr.basis fe iin a
    by_cases hnc : a.nc > 1
    · rw [if_pos hnc, addBasis_aux] at h
      cases ha : b.aux with
      | nil => rw [ha] at h; simp at h
      | cons iic aux =>
        rw [ha] at h
        simp only at h
        cases hu : B.addUnit { b.addBasis fe iin a with aux := aux } iic a none with
        | none => rw [hu] at h; simp at h
        | some b1 =>
          rw [hu] at h
          simp only [Option.some.injEq] at h
          subst h
          obtain ⟨f1, f2, f3⟩ := addUnit_fields hu
          simp only [addBasis_out, addBasis_ia] at f1 f2 f3
          have hb1 := Rep.unit (hb.congr rfl rfl rfl : Rep { b.addBasis fe iin a with aux := aux } k _ m) iic a hu
          refine ⟨?_, ?_, ?_, ?_, ?_, m, fun _ => rfl, ?_⟩
          · simp [annOf, outLetters, hv, hnc, f1, hnode, ha]
          · simp [hv, f2]
          · simp [takesAux, hv, hnc, f3, ha]
          · intro _; simp [ha]
          · intro _; exact hpos
          · have := hb1.congr (b' := { b1 with out := fun k => b1.out k ++ [iic, iin] }) rfl rfl rfl
            simpa [annOf, groupItems, hv, hnc, hnode, ha, List.append_assoc] using this
    · rw [if_neg hnc] at h
      simp only [Option.some.injEq] at h
      subst h
      refine ⟨?_, ?_, ?_, ?_, ?_, m, fun _ => rfl, ?_⟩
      · simp [annOf, outLetters, hv, hnc, hnode]
      · simp [hv]
      · simp [takesAux, hv, hnc]
      · simp [takesAux, hv, hnc]
      · intro _; exact hpos
      · have := hb.congr (b' := { b.addBasis fe iin a with
            out := fun k => (b.addBasis fe iin a).out k ++ [iin] }) rfl rfl rfl
        simpa [annOf, groupItems, hv, hnc, hnode] using this

theorem addState_step {fe : Bool} {nAdd : ℕ} {diff : Option ℕ} {b b' : B} {pos : ℕ} {a : Arg} (hv : a.kind = .state)
    (h : addState fe nAdd diff b pos a = some b') {k : ℕ} (hk : k < nAdd) {L : List Item} {m : ℕ} (hr : Rep b k L m) :
    Step fe diff b b' k L m (pos, a) nAdd := by
  unfold addState at h
  cases hp : nodeLetters[pos]? with
  | none => rw [hp] at h; simp at h
  | some iin =>
    rw [hp] at h
    simp only at h
    obtain ⟨hnode, hpos⟩ := getD_of_getElem? hp
    have hb := hr.basis fe iin a
    by_cases hd : diff ≠ some a.name
    · rw [if_pos hd] at h
      cases hm : a.mod with
      | none =>
        rw [hm] at h
        simp only [Option.some.injEq] at h
        subst h
        refine ⟨?_, ?_, ?_, ?_, ?_, m, fun _ => rfl, ?_⟩
        · simp [annOf, outLetters, hv, hd]
        · simp [hd]
        · simp [takesAux, hv, hd, hm]
        · simp [takesAux, hv, hd, hm]
        · intro _; exact hpos
        · have := hb.dofs iin (e0 a.ein) a
          simpa [annOf, groupItems, hv, hd, hm, hnode, List.append_assoc] using this
      | some md =>
        rw [hm, addBasis_aux] at h
        simp only at h
        cases ha : b.aux with
        | nil => rw [ha] at h; simp at h
        | cons iic aux =>
          rw [ha] at h
          simp only at h
          cases hu : B.addUnit { b.addBasis fe iin a with aux := aux } iic a none with
          | none => rw [hu] at h; simp at h
          | some b1 =>
            rw [hu] at h
            simp only [Option.some.injEq] at h
            subst h
            obtain ⟨f1, f2, f3⟩ := addUnit_fields hu
            simp only [addBasis_out, addBasis_ia] at f1 f2 f3
            have hb1 := Rep.unit (hb.congr rfl rfl rfl : Rep { b.addBasis fe iin a with aux := aux } k _ m) iic a hu
            refine ⟨?_, ?_, ?_, ?_, ?_, m, fun _ => rfl, ?_⟩
            · simp [annOf, outLetters, hv, hd, f1]
            · simp [hd, f2]
            · simp [takesAux, hv, hd, hm, f3, ha]
            · intro _; simp [ha]
            · intro _; exact hpos
            · have := hb1.dofs iin iic a
              simpa [annOf, groupItems, hv, hd, hm, hnode, ha, List.append_assoc] using this
    · have hd' : diff = some a.name := by simpa using hd
      rw [if_neg hd] at h
      have hnd : (List.range nAdd).Nodup := List.nodup_range
      have hkm : k ∈ List.range nAdd := List.mem_range.mpr hk
      have hone : nAdd = 1 → List.range nAdd = [k] := by
        intro e; subst e
        have : k = 0 := by omega
        subst this; rfl
      by_cases hnc : a.nc > 1
      · rw [if_pos hnc, addBasis_aux] at h
        cases ha : b.aux with
        | nil => rw [ha] at h; simp at h
        | cons iic aux =>
          rw [ha] at h
          simp only at h
          cases hu : diffLoop iin (some iic) a (List.range nAdd) { b.addBasis fe iin a with aux := aux } with
          | none => rw [hu] at h; simp at h
          | some b1 =>
            rw [hu] at h
            simp only [Option.some.injEq] at h
            subst h
            obtain ⟨f1, f2, f3, m', hm', hR⟩ := diffLoop_spec iin (some iic) a (by simp [hnc]) k _ _ _ _ m hnd hu
              (hb.congr rfl rfl rfl)
            simp only [addBasis_out, addBasis_ia] at f1 f2 f3 hR
            refine ⟨?_, ?_, ?_, ?_, ?_, m', ?_, ?_⟩
            · by_cases hki : k = b.ia <;> simp [annOf, outLetters, hv, hd', hnc, f1, f2, hnode, ha, hki]
            · simp [hv, hd', f2]
            · simp [takesAux, hv, hd', hnc, f3, ha]
            · intro _; simp [ha]
            · intro _; exact hpos
            · rintro (e | e)
              · exact hm' (hone e)
              · exact absurd ⟨hv, hd'⟩ e
            · have := hR.congr (b' := { b1 with
                out := fun k => if k = b1.ia then b1.out k ++ [iic, iin] else b1.out k, ia := b1.ia + 1 }) rfl rfl rfl
              rw [if_pos hkm] at this
              by_cases hki : k = b.ia <;>
                simpa [annOf, groupItems, hv, hd', hnc, hnode, ha, hki, List.append_assoc] using this
      · rw [if_neg hnc] at h
        cases hu : diffLoop iin none a (List.range nAdd) (b.addBasis fe iin a) with
        | none => rw [hu] at h; simp at h
        | some b1 =>
          rw [hu] at h
          simp only [Option.some.injEq] at h
          subst h
          obtain ⟨f1, f2, f3, m', hm', hR⟩ := diffLoop_spec iin none a (by simp [hnc]) k _ _ _ _ m hnd hu hb
          simp only [addBasis_out, addBasis_ia, addBasis_aux] at f1 f2 f3 hR
          refine ⟨?_, ?_, ?_, ?_, ?_, m', ?_, ?_⟩
          · by_cases hki : k = b.ia <;> simp [annOf, outLetters, hv, hd', hnc, f1, f2, hnode, hki]
          · simp [hv, hd', f2]
          · simp [takesAux, hv, hd', hnc, f3]
          · simp [takesAux, hv, hd', hnc]
          · intro _; exact hpos
          · rintro (e | e)
            · exact hm' (hone e)
            · exact absurd ⟨hv, hd'⟩ e
          · have := hR.congr (b' := { b1 with
              out := fun k => if k = b1.ia then b1.out k ++ [iin] else b1.out k, ia := b1.ia + 1 }) rfl rfl rfl
            rw [if_pos hkm] at this
            by_cases hki : k = b.ia <;>
              simpa [annOf, groupItems, hv, hd', hnc, hnode, hki, List.append_assoc] using this

theorem addMaterial_step {fe : Bool} {diff : Option ℕ} (b : B) (pos : ℕ) {a : Arg} (hv : a.kind = .ndarray)
    {k : ℕ} {L : List Item} (hr : Rep b k L 0) (nAdd : ℕ) :
    Step fe diff b (addMaterial b a) k L 0 (pos, a) nAdd := by
  refine ⟨?_, ?_, ?_, ?_, ?_, 0, fun _ => rfl, ?_⟩
  · simp [annOf, outLetters, hv, addMaterial]
  · simp [hv, addMaterial]
  · simp [takesAux, hv, addMaterial]
  · simp [takesAux, hv]
  · intro e; exact absurd hv e
  · obtain ⟨h1, h2, h3⟩ := hr
    refine ⟨?_, ?_, ?_⟩ <;> simp [annOf, groupItems, hv, addMaterial, appendAll, h1, h2, h3]

/-- The loop over the arguments in closed form. -/
theorem addArgs_spec (fe : Bool) (nAdd : ℕ) (diff : Option ℕ) (k : ℕ) (hk : k < nAdd) :
    ∀ (xs : List (ℕ × Arg)) (b b' : B) (L : List Item) (m : ℕ), MatFirst diff nAdd xs →
      (m = 0 ∨ ∀ x ∈ xs, x.2.kind ≠ .ndarray) → addArgs fe nAdd diff xs b = some b' → Rep b k L m →
      b'.out k = b.out k ++ (annotate diff k xs b.ia b.aux).flatMap outLetters ∧
      (∃ m', Rep b' k (L ++ (annotate diff k xs b.ia b.aux).flatMap (groupItems fe)) m') ∧
      (∀ x ∈ xs, x.2.kind ≠ .virtual) ∧ (∀ x ∈ xs, x.2.kind ≠ .ndarray → x.1 < 5) ∧
      (xs.filter fun x => takesAux diff x.2).length ≤ b.aux.length := by
  intro xs
  induction xs with
  | nil =>
    intro b b' L m _ _ h hr
    simp only [addArgs, Option.some.injEq] at h
    subst h
    exact ⟨by simp [annotate], ⟨m, by simpa [annotate] using hr⟩, by simp, by simp, by simp⟩
  | cons x xs ih =>
    intro b b' L m hmf hm h hr
    obtain ⟨pos, a⟩ := x
    have hmf' : MatFirst diff nAdd xs := by
      rcases hmf with e | e
      · exact .inl e
      · exact .inr (List.pairwise_cons.mp e).2
    have key : ∀ b1 : B, Step fe diff b b1 k L m (pos, a) nAdd → addArgs fe nAdd diff xs b1 = some b' →
        b'.out k = b.out k ++ (annotate diff k ((pos, a) :: xs) b.ia b.aux).flatMap outLetters ∧
        (∃ m', Rep b' k (L ++ (annotate diff k ((pos, a) :: xs) b.ia b.aux).flatMap (groupItems fe)) m') ∧
        (a.kind ≠ .virtual → ∀ x ∈ (pos, a) :: xs, x.2.kind ≠ .virtual) ∧
        (∀ x ∈ (pos, a) :: xs, x.2.kind ≠ .ndarray → x.1 < 5) ∧
        (((pos, a) :: xs).filter fun x => takesAux diff x.2).length ≤ b.aux.length := by
      intro b1 hs hrec
      obtain ⟨m', hm', hR⟩ := hs.rep
      have hm1 : m' = 0 ∨ ∀ x ∈ xs, x.2.kind ≠ .ndarray := by
        rcases hm with e | e
        · by_cases hdx : a.kind = .state ∧ diff = some a.name
          · rcases hmf with e' | e'
            · left; rw [hm' (.inl e'), e]
            · right
              intro y hy hyk
              exact (List.pairwise_cons.mp e').1 y hy ⟨hdx, hyk⟩
          · left; rw [hm' (.inr hdx), e]
        · right; exact fun y hy => e y (List.mem_cons_of_mem _ hy)
      obtain ⟨i1, ⟨m2, i2⟩, i3, i4, i5⟩ := ih b1 b' _ m' hmf' hm1 hrec hR
      rw [hs.ia, hs.aux] at i1 i2
      refine ⟨?_, ⟨m2, ?_⟩, ?_, ?_, ?_⟩
      · rw [i1, hs.out, annotate, List.flatMap_cons, List.append_assoc]
      · rw [annotate, List.flatMap_cons, ← List.append_assoc]; exact i2
      · intro hv y hy
        rcases List.mem_cons.mp hy with rfl | hy
        · exact hv
        · exact i3 y hy
      · intro y hy
        rcases List.mem_cons.mp hy with rfl | hy
        · exact hs.node
        · exact i4 y hy
      · rw [List.filter_cons]
        rw [hs.aux] at i5
        by_cases ht : takesAux diff a
        · simp only [ht, if_true, List.length_cons] at i5 ⊢
          have := hs.auxne ht
          have hl : 0 < b.aux.length := List.length_pos_iff.mpr this
          rw [List.length_tail] at i5
          omega
        · simpa [ht] using i5
    rw [addArgs] at h
    cases hv : a.kind with
    | ndarray =>
      rw [hv] at h
      have hm0 : m = 0 := by
        rcases hm with e | e
        · exact e
        · exact absurd hv (e _ List.mem_cons_self)
      subst hm0
      obtain ⟨j1, j2, j3, j4, j5⟩ := key _ (addMaterial_step b pos hv hr nAdd) h
      exact ⟨j1, j2, j3 (by simp [hv]), j4, j5⟩
    | state =>
      rw [hv] at h
      simp only at h
      cases hs : addState fe nAdd diff b pos a with
      | none => rw [hs] at h; simp at h
      | some b1 =>
        rw [hs] at h
        obtain ⟨j1, j2, j3, j4, j5⟩ := key b1 (addState_step hv hs hk hr) h
        exact ⟨j1, j2, j3 (by simp [hv]), j4, j5⟩
    | virtual => rw [hv] at h; simp at h

end Ml
