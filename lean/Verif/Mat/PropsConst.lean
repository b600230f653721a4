/-
C65: materials with constant values, values given by regions, special values.
-/
import Verif.Mat.Props

namespace Verif.Mat

variable {W X P A V : Type}

/-- What a user does with a material: updates in any mode, `set_extra_args()`, `reset()`. -/
inductive Op (W X P : Type) where
  | update (mode : UMode) (w : W) (ts : List (Term P))
  | extra (x : X)
  | reset (x0 : X)

/-- The terms in an operation. -/
def Op.terms : Op W X P → List (Term P)
  | .update _ _ ts => ts
  | _ => []

/-- A history of operations; it stops at the first exception. -/
def runOps : List (Op W X P) → Material W X P A V → Material W X P A V × Option MErr
  | [], m => (m, none)
  | .update mode w ts :: rest, m =>
    match timeUpdate m w ts mode with
    | (m1, some e) => (m1, some e)
    | (m1, none) => runOps rest m1
  | .extra x :: rest, m => runOps rest (setExtra x m)
  | .reset x0 :: rest, m => runOps rest (reset x0 m)

/-- A function whose values depend only on the term. -/
def ConstFn (f : Fn W X P A V) (val : Term P → Except MErr (Option (List (String × Arr A)))) : Prop :=
  ∀ w x t, f.qp w x t = val t

/-- All data of quadrature points are values of the function at a seen term. -/
structure ConstInv (f : Fn W X P A V) (m0 m : Material W X P A V) (seen : List (Term P)) : Prop where
  fn : m.fn = f
  name : m.name = m0.name
  kind : m.kind = m0.kind
  isConst : m.isConstant = m0.isConstant
  user : m.user = false
  vals : ∀ r o en, dget m.datas (.qp r o) = some en →
    ∃ t ∈ seen, t.key = .qp r o ∧ ∃ w x, evalQp f w x t = .ok en

theorem timeUpdate_cases (m : Material W X P A V) (mode : UMode) (w : W) (ts : List (Term P)) :
    timeUpdate m w ts mode = (m, none) ∨ timeUpdate m w ts mode = updateAll m w ts ∨
      timeUpdate m w ts mode = updateAll { m with datas := [] } w ts := by
  unfold timeUpdate
  repeat' split
  all_goals simp

theorem constInv_updateAll {f : Fn W X P A V} {m0 m m' : Material W X P A V} {seen ts : List (Term P)}
    {w : W} (hi : ConstInv f m0 m seen) (h : updateAll m w ts = (m', none)) :
    ConstInv f m0 m' (seen ++ ts) := by
  obtain ⟨⟨h1, h2, h3, h4, h5, h6, h7⟩, hk⟩ := updateAll_spec w ts m m' h
  refine ⟨h5.trans hi.fn, h1.trans hi.name, h2.trans hi.kind, h3.trans hi.isConst, h6.trans hi.user,
    fun r o en hen => ?_⟩
  have := hk r o
  cases hd : dget m.datas (.qp r o) with
  | some en' =>
    rw [hd] at this
    simp only at this
    rw [hen] at this
    injection this with this
    subst this
    obtain ⟨t, ht, hkey, hv⟩ := hi.vals r o en hd
    exact ⟨t, List.mem_append_left _ ht, hkey, hv⟩
  | none =>
    rw [hd] at this
    cases hft : firstTerm m.name ts (.qp r o) with
    | none =>
      rw [hft] at this
      simp only at this
      rw [hen] at this
      cases this
    | some t =>
      rw [hft] at this
      obtain ⟨en', he, hg⟩ := this
      rw [hen] at hg
      injection hg with hg
      subst hg
      have h1 := List.mem_of_find?_eq_some hft
      have h2 := List.find?_some hft
      simp only [Bool.and_eq_true, decide_eq_true_eq] at h2
      exact ⟨t, List.mem_append_right _ h1, h2.2, w, m.extra, by rw [← hi.fn]; exact he⟩

theorem constInv_clear {f : Fn W X P A V} {m0 m : Material W X P A V} {seen : List (Term P)}
    (hi : ConstInv f m0 m seen) : ConstInv f m0 { m with datas := [] } seen :=
  ⟨hi.fn, hi.name, hi.kind, hi.isConst, hi.user, fun r o en h => by simp [dget] at h⟩

theorem constInv_timeUpdate {f : Fn W X P A V} {m0 m m' : Material W X P A V}
    {seen ts : List (Term P)} {w : W} {mode : UMode} (hi : ConstInv f m0 m seen)
    (h : timeUpdate m w ts mode = (m', none)) : ConstInv f m0 m' (seen ++ ts) := by
  rcases timeUpdate_cases m mode w ts with hc | hc | hc
  · rw [hc] at h
    injection h with h
    subst h
    refine ⟨hi.fn, hi.name, hi.kind, hi.isConst, hi.user, fun r o en hen => ?_⟩
    obtain ⟨t, ht, hv⟩ := hi.vals r o en hen
    exact ⟨t, List.mem_append_left _ ht, hv⟩
  · exact constInv_updateAll hi (hc.symm.trans h)
  · exact constInv_updateAll (constInv_clear hi) (hc.symm.trans h)

theorem constInv_run {f : Fn W X P A V} {m0 : Material W X P A V} (ops : List (Op W X P)) :
    ∀ {m m' : Material W X P A V} {seen : List (Term P)}, ConstInv f m0 m seen →
      runOps ops m = (m', none) → ConstInv f m0 m' (seen ++ ops.flatMap Op.terms) := by
  induction ops with
  | nil =>
    intro m m' seen hi h
    injection h with h
    subst h
    simpa using hi
  | cons op rest ih =>
    intro m m' seen hi h
    cases op with
    | update mode w ts =>
      rw [runOps] at h
      cases hu : timeUpdate m w ts mode with
      | mk m1 e1 =>
      rw [hu] at h
      cases e1 with
      | some e => cases h
      | none =>
        have := ih (constInv_timeUpdate hi hu) h
        simpa [Op.terms, List.append_assoc] using this
    | extra x =>
      rw [runOps] at h
      have := ih (m := setExtra x m) (seen := seen)
        ⟨hi.fn, hi.name, hi.kind, hi.isConst, hi.user, hi.vals⟩ h
      simpa [Op.terms] using this
    | reset x0 =>
      rw [runOps] at h
      have := ih (m := reset x0 m) (seen := seen)
        ⟨hi.fn, hi.name, hi.kind, hi.isConst, rfl, fun r o en h => by simp [reset, dget] at h⟩ h
      simpa [Op.terms] using this

theorem runOps_append (a b : List (Op W X P)) (m : Material W X P A V) :
    runOps (a ++ b) m = match runOps a m with
      | (m1, some e) => (m1, some e)
      | (m1, none) => runOps b m1 := by
  induction a generalizing m with
  | nil => rfl
  | cons op rest ih =>
    cases op with
    | update mode w ts =>
      rw [List.cons_append, runOps, runOps]
      cases hu : timeUpdate m w ts mode with
      | mk m1 e1 =>
      cases e1 with
      | some e => rfl
      | none => exact ih m1
    | extra x => exact ih _
    | reset x0 => exact ih _

/-- The general statement behind the following two: the data of a constant material are right after
any history. -/
theorem constant_history {m m' : Material W X P A V} (hd : m.datas = []) (huser : m.user = false)
    (hkind : m.kind = .timeDependent) (hconst : m.isConstant = true)
    {val : Term P → Except MErr (Option (List (String × Arr A)))} (hf : ConstFn m.fn val)
    (ops : List (Op W X P)) (mode : UMode) (w : W) (ts : List (Term P))
    (hrun : runOps (ops ++ [.update mode w ts]) m = (m', none))
    {t : Term P} (ht : t ∈ ts) (hu : m.name ∈ t.mats)
    (hsame : ∀ t' ∈ ops.flatMap Op.terms ++ ts, t'.key = t.key →
      val t' = val t ∧ t'.nQp = t.nQp)
    {data : List (String × Arr A)} (hval : val t = .ok (some data)) {n : String} {v : Arr A}
    (hv : dget data n = some v) (hsp : n ∉ m'.specialNames) :
    ∃ g, shapeOne t.nQp v = .ok g ∧ getData1 m' t.key (some n) = .ok (some (.grid g)) := by
  rw [runOps_append] at hrun
  cases h1 : runOps ops m with
  | mk m1 e1 =>
  rw [h1] at hrun
  cases e1 with
  | some e => cases hrun
  | none =>
  simp only [runOps] at hrun
  have hi0 : ConstInv m.fn m m [] :=
    ⟨rfl, rfl, rfl, rfl, huser, fun r o en h => by rw [hd] at h; simp [dget] at h⟩
  have hi1 := constInv_run ops hi0 h1
  cases hup : timeUpdate m1 w ts mode with
  | mk m2 e2 =>
  rw [hup] at hrun
  cases e2 with
  | some e => cases hrun
  | none =>
  simp only at hrun
  injection hrun with hrun
  subst hrun
  have hi2 := constInv_timeUpdate hi1 hup
  -- the key of the term is present
  have hpres : ∃ en, dget m2.datas t.key = some en := by
    have hu1 : m1.name ∈ t.mats := by rw [hi1.name]; exact hu
    obtain ⟨t', hft, -⟩ := firstTerm_some (name := m1.name) ht hu1
    have hcase : timeUpdate m1 w ts mode = updateAll m1 w ts ∨
        timeUpdate m1 w ts mode = updateAll { m1 with datas := [] } w ts := by
      cases mode with
      | normal =>
        exact Or.inl (timeUpdate_adds
          (Or.inr ⟨rfl, hi1.user, hi1.kind.trans hkind, hi1.isConst.trans hconst⟩) w ts)
      | update => exact Or.inl (timeUpdate_adds (Or.inl rfl) w ts)
      | force => exact Or.inr (timeUpdate_renews (Or.inl rfl) w ts)
    rcases hcase with hc | hc
    · obtain ⟨-, hk⟩ := updateAll_spec w ts m1 m2 (hc.symm.trans hup)
      have := hk t.region t.order
      change firstTerm m1.name ts (.qp t.region t.order) = some t' at hft
      rw [hft] at this
      cases hdd : dget m1.datas (.qp t.region t.order) with
      | some en => rw [hdd] at this; exact ⟨en, this⟩
      | none => rw [hdd] at this; obtain ⟨en, -, he⟩ := this; exact ⟨en, he⟩
    · obtain ⟨-, hk⟩ := updateAll_spec w ts _ m2 (hc.symm.trans hup)
      have := hk t.region t.order
      change firstTerm m1.name ts (.qp t.region t.order) = some t' at hft
      simp only [hft, dget, List.find?_nil, Option.map_none] at this
      obtain ⟨en, -, he⟩ := this
      exact ⟨en, he⟩
  obtain ⟨en, hen⟩ := hpres
  obtain ⟨t', ht', hkey, w', x', hev⟩ := hi2.vals t.region t.order en hen
  have hs := hsame t' (by simpa using ht') hkey
  have hkey' : t'.key = t.key := hkey
  have hen' : dget m2.datas t'.key = some en := by rw [hkey']; exact hen
  obtain ⟨g, hg1, hg2⟩ := getData1_grid (m := { m with extra := x' }) (n := n) (data := data) (v := v)
    hev hen' ((hf w' x' t').trans (hs.1.trans hval)) hv hsp
  rw [hkey'] at hg2
  rw [hs.2] at hg1
  exact ⟨g, hg1, hg2⟩

theorem dget_filter_map {B C : Type} (values : List (String × B)) (q : String → Bool)
    (F : B → C) (hnd : (values.map (·.1)).Nodup) {n : String} {c : B} (hc : (n, c) ∈ values)
    (hq : q n = true) :
    dget ((values.filter fun p => q p.1).map fun p => (p.1, F p.2)) n = some (F c) := by
  apply dget_of_mem
  · rw [List.map_map]
    have : (Prod.fst ∘ fun p : String × B => (p.1, F p.2)) = Prod.fst := rfl
    rw [this]
    exact hnd.sublist (List.filter_sublist.map _)
  · rw [List.mem_map]
    exact ⟨(n, c), by simp [List.mem_filter, hc, hq], rfl⟩

/-- **Constant values are read as given, after any history of updates, resets and changes of extra
arguments**: a time-dependent material (the default kind) with constant values, the last operation is
an update in any mode; every term of the updated equations reads one layer with the value in all
quadrature points.  (Terms with the same region and order have the same number of points.) -/
theorem C65_constant (name : String) (flag : Bool) (x0 : X) (values : List (String × CVal A V))
    (hnd : (values.map (·.1)).Nodup) (ops : List (Op W X P)) (mode : UMode) (w : W)
    (ts : List (Term P)) {m' : Material W X P A V}
    (hrun : runOps (ops ++ [.update mode w ts]) (ofValues name .timeDependent flag x0 values)
      = (m', none))
    {t : Term P} (ht : t ∈ ts) (hu : name ∈ t.mats) (hq : 0 < t.nQp)
    (hsame : ∀ t' ∈ ops.flatMap Op.terms ++ ts, t'.key = t.key → t'.nQp = t.nQp)
    {n : String} {c : CVal A V} (hc : (n, c) ∈ values) (hdot : isSpecialName n = false)
    (hsp : n ∉ m'.specialNames) :
    getData1 m' t.key (some n) = .ok (some (.grid [List.replicate t.nQp c.arr])) := by
  obtain ⟨g, hg1, hg2⟩ := constant_history (m := ofValues name .timeDependent flag x0 values)
    rfl rfl rfl rfl
    (val := fun _ => .ok (some ((values.filter fun p => !isSpecialName p.1).map fun p =>
      (p.1, ⟨3, p.2.cell, [p.2.arr]⟩)))) (fun _ _ _ => rfl) ops mode w ts hrun ht hu
    (fun t' ht' hk => ⟨rfl, hsame t' ht' hk⟩) rfl
    (dget_filter_map values (fun s => !isSpecialName s) (fun c => (⟨3, c.cell, [c.arr]⟩ : Arr A)) hnd hc
      (by simp [hdot])) hsp
  rw [hg2]
  unfold shapeOne at hg1
  simp only [ne_eq, not_true_eq_false, if_false, hq, if_true, List.length_singleton] at hg1
  injection hg1 with hg1
  rw [← hg1]
  simp

/-! ### Values by regions -/

theorem regionLoop_spec (tcells : List Nat) (nQp : Nat) (byRegion : List (List Nat × A)) :
    ∀ (md : List (List A)), md.length = tcells.length →
      (regionLoop tcells nQp byRegion md).length = tcells.length ∧
      ∀ i (hi : i < tcells.length),
        (regionLoop tcells nQp byRegion md)[i]? =
          match (byRegion.filter fun p => tcells[i] ∈ p.1).getLast? with
          | some p => some (List.replicate nQp p.2)
          | none => md[i]? := by
  induction byRegion with
  | nil => intro md h; simp [regionLoop, h]
  | cons r rest ih =>
    intro md h
    obtain ⟨cells, rval⟩ := r
    rw [regionLoop]
    have hl : ((md.zip tcells).map fun p =>
        if p.2 ∈ cells then List.replicate nQp rval else p.1).length = tcells.length := by
      simp [h]
    obtain ⟨h1, h2⟩ := ih _ hl
    refine ⟨h1, fun i hi => ?_⟩
    rw [h2 i hi]
    rw [List.filter_cons]
    have hmd : i < md.length := h ▸ hi
    cases hf : (rest.filter fun p => tcells[i] ∈ p.1).getLast? with
    | some p =>
      by_cases hm : tcells[i] ∈ cells
      · simp [hm, List.getLast?_cons, hf]
      · simp [hm, hf]
    | none =>
      have : rest.filter (fun p => tcells[i] ∈ p.1) = [] := by
        simpa using hf
      by_cases hm : tcells[i] ∈ cells
      · simp [hm, this, List.getElem?_zip_eq_some, hmd, hi]
      · simp only [hm, decide_false, Bool.false_eq_true, if_false, this, List.getLast?_nil]
        rw [List.getElem?_map, List.getElem?_eq_getElem (by rw [List.length_zip]; omega)]
        simp [hm, hmd]

theorem length_flatten_const {n : Nat} (L : List (List A)) (h : ∀ l ∈ L, l.length = n) :
    L.flatten.length = L.length * n := by
  induction L with
  | nil => simp
  | cons l L ih =>
    rw [List.flatten_cons, List.length_append, ih (fun l hl => h l (List.mem_cons_of_mem _ hl)),
      h l List.mem_cons_self, List.length_cons, Nat.add_mul, Nat.one_mul, Nat.add_comm]

theorem getElem?_flatten_const {n : Nat} (L : List (List A)) (h : ∀ l ∈ L, l.length = n) (i q : Nat)
    (hq : q < n) : L.flatten[i * n + q]? = (L[i]?).bind (·[q]?) := by
  induction L generalizing i with
  | nil => simp
  | cons l L ih =>
    rw [List.flatten_cons]
    have hl := h l List.mem_cons_self
    cases i with
    | zero =>
      rw [Nat.zero_mul, Nat.zero_add, List.getElem?_append_left (by omega)]
      simp
    | succ i =>
      rw [List.getElem?_append_right (by rw [Nat.add_mul]; omega), hl]
      have : (i + 1) * n + q - n = i * n + q := by rw [Nat.add_mul]; omega
      rw [this, ih (fun l hl => h l (List.mem_cons_of_mem _ hl))]
      simp

theorem mul_one_cases {a b : Nat} (h : a * b = 1) : a = 1 ∧ b = 1 :=
  ⟨Nat.eq_one_of_mul_eq_one_right h, Nat.eq_one_of_mul_eq_one_left h⟩

/-- **Values given by regions**: after any history as above, in every cell and quadrature point of a
term the value is that of the last of the given regions that has the cell, and zero in cells of no
region.  `hcoors`: the rows of quadrature points are the cells of the term. -/
theorem C65_by_region (name : String) (flag : Bool) (x0 : X) (values : List (String × RVal A))
    (hnd : (values.map (·.1)).Nodup) (ops : List (Op W X P)) (mode : UMode) (w : W)
    (ts : List (Term P)) {m' : Material W X P A V}
    (hrun : runOps (ops ++ [.update mode w ts]) (ofRegions name .timeDependent flag x0 values)
      = (m', none))
    {t : Term P} (ht : t ∈ ts) (hu : name ∈ t.mats) (hq : 0 < t.nQp)
    (hcoors : t.coors.length = t.nEl * t.nQp) (hcells : t.cells.length = t.nEl)
    (hsame : ∀ t' ∈ ops.flatMap Op.terms ++ ts, t'.key = t.key →
      t'.nQp = t.nQp ∧ t'.nEl = t.nEl ∧ t'.cells = t.cells ∧ t'.coors = t.coors)
    {n : String} {c : RVal A} (hc : (n, c) ∈ values) (hdot : isSpecialName n = false)
    (hsp : n ∉ m'.specialNames) :
    ∃ g : List (List A), getData1 m' t.key (some n) = .ok (some (.grid g)) ∧
      g.length = t.nEl ∧
      ∀ e (he : e < t.nEl), ∀ q < t.nQp,
        (g[e]?).bind (·[q]?) = some (valueInCell c.zero c.byRegion (t.cells[e]'(by omega))) := by
  have hb : ∃ g, shapeOne t.nQp (⟨3, c.cell, (regionLoop t.cells t.nQp c.byRegion
          (List.replicate t.nEl (List.replicate t.nQp c.zero))).flatten⟩ : Arr A) = .ok g ∧
      getData1 m' t.key (some n) = .ok (some (.grid g)) := by
    apply constant_history (m := ofRegions name .timeDependent flag x0 values)
      rfl rfl rfl rfl
      (val := fun t => if t.nEl * t.nQp ≠ t.coors.length then .error .assertion
        else .ok (some ((values.filter fun p => !isSpecialName p.1).map fun p =>
        (p.1, ⟨3, p.2.cell, (regionLoop t.cells t.nQp p.2.byRegion
          (List.replicate t.nEl (List.replicate t.nQp p.2.zero))).flatten⟩))))
      (fun _ _ _ => rfl) ops mode w ts hrun ht hu
      (data := (values.filter fun p => !isSpecialName p.1).map fun p =>
        (p.1, ⟨3, p.2.cell, (regionLoop t.cells t.nQp p.2.byRegion
          (List.replicate t.nEl (List.replicate t.nQp p.2.zero))).flatten⟩))
    · intro t' ht' hk
      obtain ⟨h1, h2, h3, h4⟩ := hsame t' ht' hk
      simp [h1, h2, h3, h4]
    · simp [hcoors]
    · exact dget_filter_map values (fun s => !isSpecialName s)
        (fun c => (⟨3, c.cell, (regionLoop t.cells t.nQp c.byRegion
          (List.replicate t.nEl (List.replicate t.nQp c.zero))).flatten⟩ : Arr A)) hnd hc (by simp [hdot])
    · exact hsp
  obtain ⟨g, hg1, hg2⟩ := hb
  obtain ⟨hl, hget⟩ := regionLoop_spec t.cells t.nQp c.byRegion
    (List.replicate t.nEl (List.replicate t.nQp c.zero)) (by simp [hcells])
  set L := regionLoop t.cells t.nQp c.byRegion (List.replicate t.nEl (List.replicate t.nQp c.zero))
    with hL
  have hLi : ∀ i (hi : i < t.nEl), L[i]? =
      some (List.replicate t.nQp (valueInCell c.zero c.byRegion (t.cells[i]'(by omega)))) := by
    intro i hi
    have hi' : i < t.cells.length := by omega
    rw [hget i hi']
    unfold valueInCell
    cases (c.byRegion.filter fun p => t.cells[i] ∈ p.1).getLast? with
    | some p => rfl
    | none => simp [hi]
  have hw : ∀ l ∈ L, l.length = t.nQp := by
    intro l hl'
    obtain ⟨i, hi, rfl⟩ := List.mem_iff_getElem.1 hl'
    have hi' : i < t.nEl := by omega
    have := hLi i hi'
    rw [List.getElem?_eq_getElem hi] at this
    injection this with this
    rw [this]; simp
  have hpr := shapeOne_presents hq hg1
  simp only at hpr
  have hlen : L.flatten.length = t.nEl * t.nQp := by rw [length_flatten_const L hw, hl, hcells]
  have hgl : g.length = t.nEl := by
    by_cases h1 : L.flatten.length = 1
    · have := (hpr.const h1).1
      rw [hlen] at h1
      rw [this]
      exact (mul_one_cases h1).1.symm
    · have := (hpr.general h1).1
      rw [hlen] at this
      exact Nat.eq_of_mul_eq_mul_right hq this
  refine ⟨g, hg2, hgl, fun e he q hqq => ?_⟩
  have hrow : L.flatten[e * t.nQp + q]? =
      some (valueInCell c.zero c.byRegion (t.cells[e]'(by omega))) := by
    rw [getElem?_flatten_const L hw e q hqq, hLi e he]
    simp [hqq]
  by_cases h1 : L.flatten.length = 1
  · have h2 := (hpr.const h1).2 q hqq
    rw [hlen] at h1
    have h3 := mul_one_cases h1
    have he0 : e = 0 := by omega
    have hq0 : q = 0 := by omega
    subst he0; subst hq0
    rw [h2]
    simpa using hrow
  · rw [(hpr.general h1).2 e q (by omega) hqq]
    exact hrow

/-! ### Special values -/

theorem mem_addNames (s l : List String) (n : String) : n ∈ addNames s l ↔ n ∈ s ∨ n ∈ l := by
  unfold addNames
  induction l generalizing s with
  | nil => simp
  | cons a l ih =>
    rw [List.foldl_cons, ih]
    by_cases h : a ∈ s
    · simp only [h, if_true, List.mem_cons]
      constructor
      · rintro (h1 | h1)
        · exact Or.inl h1
        · exact Or.inr (Or.inr h1)
      · rintro (h1 | rfl | h1)
        · exact Or.inl h1
        · exact Or.inl h
        · exact Or.inr h1
    · simp only [h, if_false, List.mem_append, List.mem_cons, List.not_mem_nil, or_false, or_assoc]

theorem updateTerms_special (w : W) (ts : List (Term P)) (m m' : Material W X P A V)
    (h : updateTerms w ts m = (m', none)) (hd : m.datas = []) :
    dget m'.datas .special = none ∧ dget m'.datas .specialConstant = none := by
  obtain ⟨-, hk⟩ := updateTerms_spec w ts m m' h
  have hn : ∀ k, (k = .special ∨ k = .specialConstant) → firstTerm m.name ts k = none := by
    intro k hk
    unfold firstTerm
    rw [List.find?_eq_none]
    intro t _
    rcases hk with rfl | rfl <;> simp [Term.key]
  have h1 := hk .special
  have h2 := hk .specialConstant
  rw [hd, hn _ (Or.inl rfl)] at h1
  rw [hd, hn _ (Or.inr rfl)] at h2
  simp only [dget, List.find?_nil, Option.map_none] at h1 h2
  exact ⟨h1, h2⟩

/-- **Special values** (those that are not evaluated in quadrature points) are read with any key; after
an update that renews the data they are the current ones.  **Special constants** likewise, when the
material has the flag. -/
theorem C65_special {m m' : Material W X P A V} {mode : UMode} (hr : Renews m mode) {w : W}
    {ts : List (Term P)} (hup : timeUpdate m w ts mode = (m', none)) :
    (∀ l n v, m.fn.special w m.extra = .ok (some l) → (l.map (·.1)).Nodup → (n, v) ∈ l →
      ∀ key, getData1 m' key (some n) = .ok (some (.obj v))) ∧
    (∀ l n v, m.constFlag = true → m.fn.const w = .ok (some l) → (l.map (·.1)).Nodup → (n, v) ∈ l →
      getConst m' n = .ok (.obj v)) := by
  rw [timeUpdate_renews hr] at hup
  unfold updateAll at hup
  cases h1 : updateTerms w ts { m with datas := [] } with
  | mk m1 e1 =>
  rw [h1] at hup
  cases e1 with
  | some e => cases hup
  | none =>
  simp only at hup
  obtain ⟨⟨d, hd⟩, -⟩ := updateTerms_spec w ts _ m1 h1
  obtain ⟨hs1, hs2⟩ := updateTerms_special w ts _ m1 h1 rfl
  have hdmap : ∀ (l : List (String × V)) n v, (l.map (·.1)).Nodup → (n, v) ∈ l →
      dget (l.map fun p => (p.1, (Val.obj p.2 : Val A V))) n = some (.obj v) := by
    intro l n v hnd hm
    apply dget_of_mem
    · rw [List.map_map]; exact hnd
    · exact List.mem_map.2 ⟨(n, v), hm, rfl⟩
  cases h2 : updateSpecial m1 w with
  | mk m2 e2 =>
  rw [h2] at hup
  cases e2 with
  | some e => cases hup
  | none =>
  simp only at hup
  have hfn : m1.fn = m.fn := by rw [hd]
  have hx : m1.extra = m.extra := by rw [hd]
  have hcf : m1.constFlag = m.constFlag := by rw [hd]
  have hm2 : dget m2.datas .specialConstant = none ∧ m2.fn = m.fn ∧ m2.constFlag = m.constFlag ∧
      ∀ l, m.fn.special w m.extra = .ok (some l) →
        dget m2.datas .special = some ⟨false, l.map fun p => (p.1, .obj p.2)⟩ ∧
        ∀ n ∈ l.map (·.1), n ∈ m2.specialNames := by
    unfold updateSpecial at h2
    rw [(dhas_false _ _).2 hs1, hfn, hx] at h2
    simp only [Bool.false_eq_true, if_false] at h2
    cases hsp : m.fn.special w m.extra with
    | error e => rw [hsp] at h2; cases h2
    | ok o =>
      rw [hsp] at h2
      cases o with
      | none =>
        simp only at h2
        injection h2 with h2
        subst h2
        exact ⟨hs2, hfn, hcf, fun l hl => by cases hl⟩
      | some l =>
        simp only at h2
        injection h2 with h2
        subst h2
        refine ⟨by simp [dget_dset, hs2], rfl, hcf, fun l' hl' => ?_⟩
        injection hl' with hl'
        injection hl' with hl'
        subst hl'
        refine ⟨by simp [dget_dset], fun n hn => ?_⟩
        exact (mem_addNames _ _ _).2 (Or.inr hn)
  obtain ⟨hc0, hfn2, hcf2, hsp2⟩ := hm2
  have hm3 : dget m'.datas .special = dget m2.datas .special ∧ m'.specialNames = m2.specialNames ∧
      (∀ l, m.constFlag = true → m.fn.const w = .ok (some l) →
        dget m'.datas .specialConstant = some ⟨false, l.map fun p => (p.1, .obj p.2)⟩ ∧
        ∀ n ∈ l.map (·.1), n ∈ m'.constantNames) := by
    unfold updateConst at hup
    rw [(dhas_false _ _).2 hc0, hfn2, hcf2] at hup
    simp only [Bool.false_eq_true, if_false] at hup
    cases hcc : m.constFlag with
    | false =>
      rw [hcc] at hup
      simp only [Bool.not_false, if_true] at hup
      injection hup with hup
      subst hup
      exact ⟨rfl, rfl, fun l h => by cases h⟩
    | true =>
      rw [hcc] at hup
      simp only [Bool.not_true, Bool.false_eq_true, if_false] at hup
      cases hco : m.fn.const w with
      | error e => rw [hco] at hup; cases hup
      | ok o =>
        rw [hco] at hup
        cases o with
        | none => cases hup
        | some l =>
          simp only at hup
          injection hup with hup
          subst hup
          refine ⟨by simp [dget_dset], rfl, fun l' _ hl' => ?_⟩
          injection hl' with hl'
          injection hl' with hl'
          subst hl'
          exact ⟨by simp [dget_dset], fun n hn => (mem_addNames _ _ _).2 (Or.inr hn)⟩
  obtain ⟨ha, hb, hc⟩ := hm3
  constructor
  · intro l n v hl hnd hm key
    obtain ⟨h3, h4⟩ := hsp2 l hl
    have hn : n ∈ m'.specialNames := by
      rw [hb]; exact h4 n (List.mem_map.2 ⟨(n, v), hm, rfl⟩)
    rw [← ha] at h3
    have hne : m'.datas.isEmpty = false := by
      cases hd : m'.datas with
      | nil => rw [hd] at h3; simp [dget] at h3
      | cons => rfl
    unfold getData1
    simp [hne, hn, h3, hdmap l n v hnd hm]
  · intro l n v hcf hl hnd hm
    obtain ⟨h3, h4⟩ := hc l hcf hl
    unfold getConst
    rw [if_pos (h4 n (List.mem_map.2 ⟨(n, v), hm, rfl⟩)), h3]
    simp [hdmap l n v hnd hm]

/-- **Reading before the first update is reported**, and so is a parameter given without a dot. -/
theorem C65_not_set (m : Material W X P A V) (key : Key) :
    (∀ n, m.datas = [] → getData1 m key n = .error .value) ∧ getData1 m key none = .error .value := by
  refine ⟨fun n hd => ?_, rfl⟩
  cases n with
  | none => rfl
  | some n => simp [getData1, hd]

end Verif.Mat
