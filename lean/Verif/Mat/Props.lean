/-
C65: material data in quadrature points.
-/
import Mathlib.Data.List.Nodup
import Mathlib.Tactic.Cases
import Verif.Mat.Model
import Verif.Mat.Spec

namespace Verif.Mat

section Dict

variable {K B : Type} [DecidableEq K]

theorem dget_cons (p : K × B) (d : List (K × B)) (k : K) :
    dget (p :: d) k = if p.1 = k then some p.2 else dget d k := by
  unfold dget
  by_cases h : p.1 = k <;> simp [h]

theorem dhas_iff (d : List (K × B)) (k : K) : dhas d k = true ↔ (dget d k).isSome := by
  induction d with
  | nil => simp [dhas, dget]
  | cons p d ih =>
    rw [dget_cons]
    unfold dhas at *
    by_cases h : p.1 = k <;> simp_all

theorem dhas_false (d : List (K × B)) (k : K) : dhas d k = false ↔ dget d k = none := by
  rw [← Bool.not_eq_true, dhas_iff]; simp

theorem dget_append (d : List (K × B)) (k k' : K) (v : B) :
    dget (d ++ [(k, v)]) k' = match dget d k' with
      | some b => some b
      | none => if k = k' then some v else none := by
  induction d with
  | nil => simp [dget_cons]; rfl
  | cons p d ih =>
    rw [List.cons_append, dget_cons, dget_cons]
    by_cases h : p.1 = k'
    · simp [h]
    · simp [h, ih]

theorem dget_dset (d : List (K × B)) (k k' : K) (v : B) :
    dget (dset d k v) k' = if k = k' then some v else dget d k' := by
  unfold dset
  by_cases hh : dhas d k = true
  · rw [if_pos hh]
    have key : ∀ d : List (K × B), dget (d.map fun p => if p.1 = k then (k, v) else p) k' =
        if k = k' then (dget d k').map (fun _ => v) else dget d k' := by
      intro d
      induction d with
      | nil => simp [dget]
      | cons p d ih =>
        rw [List.map_cons, dget_cons, ih, dget_cons]
        by_cases h1 : p.1 = k <;> by_cases h2 : k = k' <;> by_cases h3 : p.1 = k' <;>
          simp_all
    rw [key]
    by_cases h2 : k = k'
    · subst h2
      rw [dhas_iff, Option.isSome_iff_exists] at hh
      obtain ⟨b, hb⟩ := hh
      simp [hb]
    · simp [h2]
  · rw [if_neg hh, dget_append]
    simp only [Bool.not_eq_true] at hh
    rw [dhas_false] at hh
    by_cases h2 : k = k'
    · subst h2; simp [hh]
    · simp only [h2, if_false]; cases dget d k' <;> rfl

theorem dget_dsetdefault (d : List (K × B)) (k k' : K) (v : B) :
    dget (dsetdefault d k v) k' = match dget d k' with
      | some b => some b
      | none => if k = k' then some v else none := by
  unfold dsetdefault
  split
  · rename_i h
    rw [dhas_iff, Option.isSome_iff_exists] at h
    obtain ⟨b, hb⟩ := h
    cases hk : dget d k' with
    | some b => rfl
    | none =>
      have : k ≠ k' := by rintro rfl; rw [hb] at hk; cases hk
      simp [this]
  · exact dget_append d k k' v

theorem dget_of_mem {d : List (K × B)} (hnd : (d.map (·.1)).Nodup) {k : K} {v : B}
    (h : (k, v) ∈ d) : dget d k = some v := by
  induction d with
  | nil => cases h
  | cons p d ih =>
    rw [List.map_cons, List.nodup_cons] at hnd
    rw [dget_cons]
    rcases List.mem_cons.1 h with h | h
    · subst h; simp
    · have : p.1 ≠ k := by
        rintro rfl
        exact hnd.1 (List.mem_map_of_mem (f := (·.1)) h)
      rw [if_neg this]
      exact ih hnd.2 h

end Dict

variable {W X P A V : Type}

/-! ### Shapes -/

theorem chunks_presents (rows : List A) (n m : Nat) (h : m * n = rows.length) :
    (chunks rows n m).length = m ∧ (∀ l ∈ chunks rows n m, l.length = n) ∧
    ∀ e q, e < m → q < n → ((chunks rows n m)[e]?).bind (·[q]?) = rows[e * n + q]? := by
  unfold chunks
  refine ⟨by simp, ?_, ?_⟩
  · intro l hl
    simp only [List.mem_map, List.mem_range] at hl
    obtain ⟨i, hi, rfl⟩ := hl
    rw [List.length_take, List.length_drop, ← h]
    have : (i + 1) * n ≤ m * n := Nat.mul_le_mul_right n hi
    rw [Nat.add_mul] at this
    omega
  · intro e q he hq
    rw [List.getElem?_map, List.getElem?_range he]
    simp [List.getElem?_take, hq, List.getElem?_drop]

/-- The shaping of one parameter: every value is in its cell and point. -/
theorem shapeOne_presents {nQp : Nat} (hn : 0 < nQp) {v : Arr A} {g : List (List A)}
    (h : shapeOne nQp v = .ok g) : Presents nQp v.rows g := by
  unfold shapeOne at h
  split at h
  · cases h
  rename_i h3
  split at h
  · rename_i h1
    injection h with h
    obtain ⟨a, ha⟩ := List.length_eq_one_iff.1 h1
    have hfl : (List.replicate nQp v.rows).flatten = List.replicate nQp a := by
      rw [ha]; simp
    rw [hfl] at h
    subst h
    refine ⟨by simp, fun _ => ⟨by simp, fun q hq => ?_⟩, fun h => absurd h1 h⟩
    simp [ha, hq]
  · rename_i h1
    split at h
    · cases h
    rename_i h2
    injection h with h
    subst h
    have h2' : v.rows.length / nQp * nQp = v.rows.length := by
      by_contra hc; exact h2 hc
    obtain ⟨hl, hw, hg⟩ := chunks_presents v.rows nQp _ h2'
    exact ⟨hw, fun h => absurd h h1, fun _ => ⟨by rw [hl, h2'], fun e q he hq =>
      hg e q (by rwa [hl] at he) hq⟩⟩

theorem shapeAll_get {nQp : Nat} {data : List (String × Arr A)} {l : List (String × Val A V)}
    (h : shapeAll nQp data = .ok l) (n : String) :
    match dget data n with
    | none => dget l n = none
    | some v => ∃ g, shapeOne nQp v = .ok g ∧ dget l n = some (.grid g) := by
  induction data generalizing l with
  | nil =>
    simp only [shapeAll] at h
    injection h with h
    subst h
    simp [dget]
  | cons p data ih =>
    obtain ⟨k, v⟩ := p
    rw [shapeAll] at h
    cases hg : shapeOne nQp v with
    | error e => simp [hg] at h
    | ok g =>
      cases hl : shapeAll (V := V) nQp data with
      | error e => simp [hg, hl] at h
      | ok l' =>
        simp only [hg, hl] at h
        injection h with h
        subst h
        rw [dget_cons, dget_cons]
        by_cases hk : k = n
        · simp [hk, hg]
        · simp only [hk, if_false]
          exact ih hl

theorem shapeAll_nil {nQp : Nat} {data : List (String × Arr A)} {l : List (String × Val A V)}
    (h : shapeAll nQp data = .ok l) (n : String) (v : Arr A) (hv : dget data n = some v) :
    l.isEmpty = false := by
  have := shapeAll_get h n
  rw [hv] at this
  obtain ⟨g, -, hg⟩ := this
  cases l with
  | nil => simp [dget] at hg
  | cons => rfl

/-! ### The update loop -/

/-- The first term of the equations that uses the material and has the given key. -/
def firstTerm (name : String) (ts : List (Term P)) (k : Key) : Option (Term P) :=
  ts.find? fun t => decide (name ∈ t.mats) && decide (t.key = k)

/-- What the loop over the terms leaves. -/
theorem updateTerms_spec (w : W) (ts : List (Term P)) (m m' : Material W X P A V)
    (h : updateTerms w ts m = (m', none)) :
    (∃ d, m' = { m with datas := d }) ∧
    ∀ k, match dget m.datas k with
      | some en => dget m'.datas k = some en
      | none => match firstTerm m.name ts k with
        | none => dget m'.datas k = none
        | some t => ∃ en, evalQp m.fn w m.extra t = .ok en ∧ dget m'.datas k = some en := by
  induction ts generalizing m with
  | nil =>
    simp only [updateTerms, Prod.mk.injEq, and_true] at h
    subst h
    refine ⟨⟨_, rfl⟩, fun k => ?_⟩
    cases hk : dget m.datas k <;> simp [firstTerm]
  | cons t ts ih =>
    rw [updateTerms] at h
    by_cases hu : m.name ∉ t.mats
    · rw [if_pos hu] at h
      obtain ⟨hd, hk⟩ := ih m h
      refine ⟨hd, fun k => ?_⟩
      have := hk k
      simpa [firstTerm, hu] using this
    rw [if_neg hu] at h
    rw [not_not] at hu
    by_cases hh : dhas m.datas t.key = true
    · rw [if_pos hh] at h
      obtain ⟨hd, hk⟩ := ih m h
      refine ⟨hd, fun k => ?_⟩
      have := hk k
      cases hkk : dget m.datas k with
      | some en => simpa [hkk] using this
      | none =>
        have hne : t.key ≠ k := by
          rintro rfl
          rw [dhas_iff, hkk] at hh; simp at hh
        simpa [hkk, firstTerm, hu, hne] using this
    rw [if_neg hh] at h
    have hkn : dget m.datas t.key = none := by
      rw [Bool.not_eq_true] at hh; exact (dhas_false _ _).1 hh
    unfold updateData at h
    simp only at h
    cases he : evalQp m.fn w m.extra t with
    | error e => rw [he] at h; simp at h
    | ok en =>
      simp only [he] at h
      obtain ⟨⟨d, hd⟩, hk⟩ := ih _ h
      refine ⟨⟨d, by rw [hd]⟩, fun k => ?_⟩
      have hthis := hk k
      simp only [dget_dset, dget_dsetdefault] at hthis
      by_cases hkk : t.key = k
      · subst hkk
        simp only [if_true] at hthis
        simp only [hkn, firstTerm, hu, decide_true, Bool.and_self, List.find?_cons_of_pos]
        exact ⟨en, he, hthis⟩
      · cases hd' : dget m.datas k with
        | some en' => simpa [hkk, hd'] using hthis
        | none => simpa [hkk, hd', firstTerm, hu] using hthis

/-- The special data never change the data of quadrature points. -/
theorem updateAll_spec (w : W) (ts : List (Term P)) (m m' : Material W X P A V)
    (h : updateAll m w ts = (m', none)) :
    (m'.name = m.name ∧ m'.kind = m.kind ∧ m'.isConstant = m.isConstant ∧
      m'.constFlag = m.constFlag ∧ m'.fn = m.fn ∧ m'.user = m.user ∧ m'.extra = m.extra) ∧
    ∀ r o, match dget m.datas (.qp r o) with
      | some en => dget m'.datas (.qp r o) = some en
      | none => match firstTerm m.name ts (.qp r o) with
        | none => dget m'.datas (.qp r o) = none
        | some t => ∃ en, evalQp m.fn w m.extra t = .ok en ∧ dget m'.datas (.qp r o) = some en := by
  unfold updateAll at h
  cases h1 : updateTerms w ts m with
  | mk m1 e1 =>
  rw [h1] at h
  cases e1 with
  | some e => simp at h
  | none =>
  simp only at h
  obtain ⟨⟨d, hd⟩, hk⟩ := updateTerms_spec w ts m m1 h1
  have hspec : ∀ m2 e2, updateSpecial m1 w = (m2, e2) →
      (m2.name = m1.name ∧ m2.kind = m1.kind ∧ m2.isConstant = m1.isConstant ∧
        m2.constFlag = m1.constFlag ∧ m2.fn = m1.fn ∧ m2.user = m1.user ∧ m2.extra = m1.extra) ∧
      ∀ r o, dget m2.datas (.qp r o) = dget m1.datas (.qp r o) := by
    intro m2 e2 h2
    unfold updateSpecial at h2
    split at h2
    · cases h2; simp
    · split at h2
      · cases h2; simp
      · cases h2; simp
      · cases h2; simp [dget_dset]
  cases h2 : updateSpecial m1 w with
  | mk m2 e2 =>
  rw [h2] at h
  cases e2 with
  | some e => simp at h
  | none =>
  simp only at h
  obtain ⟨hf2, hk2⟩ := hspec m2 none h2
  have hconst : (m'.name = m2.name ∧ m'.kind = m2.kind ∧ m'.isConstant = m2.isConstant ∧
        m'.constFlag = m2.constFlag ∧ m'.fn = m2.fn ∧ m'.user = m2.user ∧ m'.extra = m2.extra) ∧
      ∀ r o, dget m'.datas (.qp r o) = dget m2.datas (.qp r o) := by
    unfold updateConst at h
    split at h
    · cases h; simp
    · split at h
      · cases h; simp
      · split at h
        · cases h
        · cases h
        · cases h; simp [dget_dset]
  obtain ⟨hf3, hk3⟩ := hconst
  refine ⟨?_, fun r o => ?_⟩
  · rw [hd] at hf2
    simp only at hf2
    refine ⟨hf3.1.trans hf2.1, hf3.2.1.trans hf2.2.1, hf3.2.2.1.trans hf2.2.2.1,
      hf3.2.2.2.1.trans hf2.2.2.2.1, hf3.2.2.2.2.1.trans hf2.2.2.2.2.1,
      hf3.2.2.2.2.2.1.trans hf2.2.2.2.2.2.1, hf3.2.2.2.2.2.2.trans hf2.2.2.2.2.2.2⟩
  · rw [hk3, hk2]
    exact hk (.qp r o)

/-- In which situations `time_update` evaluates everything anew. -/
def Renews (m : Material W X P A V) (mode : UMode) : Prop :=
  mode = .force ∨ m.datas = [] ∨
    (mode = .normal ∧ m.user = false ∧ m.kind = .timeDependent ∧ m.isConstant = false)

theorem timeUpdate_renews {m : Material W X P A V} {mode : UMode} (h : Renews m mode) (w : W)
    (ts : List (Term P)) : timeUpdate m w ts mode = updateAll { m with datas := [] } w ts := by
  have hself : m.datas = [] → { m with datas := [] } = m := by
    intro h; cases m; simp only at h; subst h; rfl
  unfold timeUpdate
  by_cases hf : mode = .force
  · rw [if_pos hf]
  rw [if_neg hf]
  by_cases he : m.datas = []
  · rw [hself he]; simp [he]
  rcases h with h | h | ⟨hn, hu, hk, hc⟩
  · exact absurd h hf
  · exact absurd h he
  · have : (!m.datas.isEmpty) = true := by
      cases hd : m.datas with
      | nil => exact absurd hd he
      | cons => rfl
    rw [if_pos this, if_pos hn]
    simp [hu, hk, hc]

/-- When `time_update` keeps the existing data and adds the missing. -/
theorem timeUpdate_adds {m : Material W X P A V} {mode : UMode}
    (h : mode = .update ∨ (mode = .normal ∧ m.user = false ∧ m.kind = .timeDependent ∧
      m.isConstant = true)) (w : W)
    (ts : List (Term P)) : timeUpdate m w ts mode = updateAll m w ts := by
  unfold timeUpdate
  rcases h with rfl | ⟨rfl, hu, hk, hc⟩
  · simp
  · simp [hu, hk, hc]

/-- Reading the data of a term. -/
theorem getData1_grid {m : Material W X P A V} {t : Term P} {w : W} {en : Entry A V}
    {data : List (String × Arr A)} {n : String} {v : Arr A}
    (hen : evalQp m.fn w m.extra t = .ok en) {m' : Material W X P A V}
    (hget : dget m'.datas t.key = some en)
    (hf : m.fn.qp w m.extra t = .ok (some data)) (hv : dget data n = some v)
    (hsp : n ∉ m'.specialNames) :
    ∃ g, shapeOne t.nQp v = .ok g ∧ getData1 m' t.key (some n) = .ok (some (.grid g)) := by
  unfold evalQp at hen
  rw [hf] at hen
  simp only at hen
  cases hs : shapeAll (V := V) t.nQp data with
  | error e => rw [hs] at hen; cases hen
  | ok l =>
    rw [hs] at hen
    simp only at hen
    injection hen with hen
    subst hen
    have := shapeAll_get hs n
    rw [hv] at this
    obtain ⟨g, hg1, hg2⟩ := this
    refine ⟨g, hg1, ?_⟩
    unfold getData1
    have hne : m'.datas.isEmpty = false := by
      cases hd : m'.datas with
      | nil => rw [hd] at hget; simp [dget] at hget
      | cons => rfl
    simp [hne, hsp, hget, shapeAll_nil hs n v hv, hg2]

theorem firstTerm_some {name : String} {ts : List (Term P)} {t : Term P} (ht : t ∈ ts)
    (hu : name ∈ t.mats) : ∃ t', firstTerm name ts t.key = some t' ∧ t' ∈ ts ∧ name ∈ t'.mats ∧
      t'.key = t.key := by
  unfold firstTerm
  cases hf : ts.find? fun t' => decide (name ∈ t'.mats) && decide (t'.key = t.key) with
  | none =>
    have := List.find?_eq_none.1 hf t ht
    simp [hu] at this
  | some t' =>
    have h1 := List.mem_of_find?_eq_some hf
    have h2 := List.find?_some hf
    simp only [Bool.and_eq_true, decide_eq_true_eq] at h2
    exact ⟨t', rfl, h1, h2.1, h2.2⟩

/-! ### The claims -/

/-- **After an update that renews the data, the data are the current values of the function.**
Whatever the material held before - data of other times, of other equations, or a record left by an
update that failed - after `time_update()` with `mode='force'`, or with no data present, or in the
normal mode for a time-dependent material given by a function, every term of the equations reads the
values that the function returns now, each in its cell and quadrature point.  Terms with the same
region and order read the same array, so the function has to give them the same values. -/
theorem C65_current {m m' : Material W X P A V} {mode : UMode} (hr : Renews m mode) {w : W}
    {ts : List (Term P)} (hup : timeUpdate m w ts mode = (m', none))
    {t : Term P} (ht : t ∈ ts) (hu : m.name ∈ t.mats) (hq : 0 < t.nQp)
    (hsame : ∀ t' ∈ ts, m.name ∈ t'.mats → t'.key = t.key →
      m.fn.qp w m.extra t' = m.fn.qp w m.extra t ∧ t'.nQp = t.nQp)
    {data : List (String × Arr A)} (hf : m.fn.qp w m.extra t = .ok (some data))
    (hnd : (data.map (·.1)).Nodup) {n : String} {v : Arr A} (hv : (n, v) ∈ data)
    (hsp : n ∉ m'.specialNames) :
    ∃ g, getData1 m' t.key (some n) = .ok (some (.grid g)) ∧ Presents t.nQp v.rows g := by
  rw [timeUpdate_renews hr] at hup
  obtain ⟨-, hk⟩ := updateAll_spec w ts _ m' hup
  have := hk t.region t.order
  obtain ⟨t', hft, ht', hu', hkey⟩ := firstTerm_some (name := m.name) ht hu
  change firstTerm m.name ts (.qp t.region t.order) = some t' at hft
  rw [hft] at this
  simp only [dget, List.find?_nil, Option.map_none] at this
  obtain ⟨en, he, hg⟩ := this
  have hs := hsame t' ht' hu' hkey
  have hg' : dget m'.datas t'.key = some en := by rw [hkey]; exact hg
  obtain ⟨g, hg1, hg2⟩ := getData1_grid (n := n) he hg' (hs.1.trans hf) (dget_of_mem hnd hv) hsp
  rw [hkey] at hg2
  rw [hs.2] at hg1
  exact ⟨g, hg2, shapeOne_presents hq hg1⟩

/-- **No data of other terms remain after such an update**: the data keys of quadrature points are
exactly the keys of the terms of the equations that use the material. -/
theorem C65_current_keys {m m' : Material W X P A V} {mode : UMode} (hr : Renews m mode) {w : W}
    {ts : List (Term P)} (hup : timeUpdate m w ts mode = (m', none)) (r : String) (o : Nat) :
    (∃ en, dget m'.datas (.qp r o) = some en) ↔
      ∃ t ∈ ts, m.name ∈ t.mats ∧ t.region = r ∧ t.order = o := by
  rw [timeUpdate_renews hr] at hup
  obtain ⟨-, hk⟩ := updateAll_spec w ts _ m' hup
  have := hk r o
  simp only [dget, List.find?_nil, Option.map_none] at this
  constructor
  · rintro ⟨en, hen⟩
    cases hft : firstTerm m.name ts (.qp r o) with
    | none =>
      rw [hft] at this
      simp only at this
      unfold dget at hen
      rw [this] at hen
      cases hen
    | some t =>
      have h1 := List.mem_of_find?_eq_some hft
      have h2 := List.find?_some hft
      simp only [Bool.and_eq_true, decide_eq_true_eq, Term.key, Key.qp.injEq] at h2
      exact ⟨t, h1, h2.1, h2.2.1, h2.2.2⟩
  · rintro ⟨t, ht, hu, rfl, rfl⟩
    obtain ⟨t', hft, -⟩ := firstTerm_some (name := m.name) ht hu
    change firstTerm m.name ts (.qp t.region t.order) = some t' at hft
    rw [hft] at this
    obtain ⟨en, -, hg⟩ := this
    exact ⟨en, hg⟩

/-- A sequence of updates in the normal mode, for given times (worlds) and equations; the flow stops
at the first exception. -/
def runNormal : List (W × List (Term P)) → Material W X P A V → Material W X P A V × Option MErr
  | [], m => (m, none)
  | (w, ts) :: rest, m =>
    match timeUpdate m w ts .normal with
    | (m1, some e) => (m1, some e)
    | (m1, none) => runNormal rest m1

/-- **A stationary material, or one with data given by the user, is evaluated once**: after the data
exist, any number of updates in the normal mode leaves the material as it is, and calls no function
(the result does not depend on the function). -/
theorem C65_stationary {m : Material W X P A V} (hk : m.kind = .stationary ∨ m.user = true)
    (hd : m.datas ≠ []) (steps : List (W × List (Term P))) : runNormal steps m = (m, none) := by
  induction steps with
  | nil => rfl
  | cons s rest ih =>
    obtain ⟨w, ts⟩ := s
    have : timeUpdate m w ts .normal = (m, none) := by
      unfold timeUpdate
      have he : (!m.datas.isEmpty) = true := by
        cases h : m.datas with
        | nil => exact absurd h hd
        | cons => rfl
      rcases hk with hk | hk <;> simp [he, hk]
    rw [runNormal, this]
    exact ih

/-- **User data are returned as given** through any number of normal updates. -/
theorem C65_user_data (m : Material W X P A V) {datas : List (Key × Entry A V)} (hd : datas ≠ [])
    (steps : List (W × List (Term P))) :
    runNormal steps (setAllData datas m) = (setAllData datas m, none) ∧
    ∀ key en n v, dget datas key = some en → dget en.items n = some v → n ∉ m.specialNames →
      getData1 (setAllData datas m) key (some n) = .ok (some v) := by
  refine ⟨C65_stationary (Or.inr rfl) hd steps, fun key en n v hk hn hs => ?_⟩
  unfold getData1
  have he : (setAllData datas m).datas.isEmpty = false := by
    cases h : datas with
    | nil => exact absurd h hd
    | cons => rfl
  have hi : en.items.isEmpty = false := by
    cases h : en.items with
    | nil => rw [h] at hn; simp [dget] at hn
    | cons => rfl
  have hs' : n ∉ (setAllData datas m).specialNames := hs
  have hk' : dget (setAllData datas m).datas key = some en := hk
  simp only [he, Bool.false_eq_true, if_false, hs', hk', hi, hn]
  split <;> rfl

/-- **After `reset()` the next update evaluates anew**, also for stationary materials and after user
data: it is the update of a new material. -/
theorem C65_reset (x0 : X) (m : Material W X P A V) (mode : UMode) : Renews (reset x0 m) mode :=
  Or.inr (Or.inl rfl)

/-- **The update mode keeps existing data** and adds the data of new terms, evaluated now. -/
theorem C65_update_mode {m m' : Material W X P A V} {w : W} {ts : List (Term P)}
    (hup : timeUpdate m w ts .update = (m', none)) :
    (∀ r o en, dget m.datas (.qp r o) = some en → dget m'.datas (.qp r o) = some en) ∧
    ∀ t ∈ ts, m.name ∈ t.mats → dget m.datas t.key = none →
      ∃ t' ∈ ts, m.name ∈ t'.mats ∧ t'.key = t.key ∧
        ∃ en, evalQp m.fn w m.extra t' = .ok en ∧ dget m'.datas t.key = some en := by
  rw [timeUpdate_adds (Or.inl rfl)] at hup
  obtain ⟨-, hk⟩ := updateAll_spec w ts m m' hup
  constructor
  · intro r o en hen
    have := hk r o
    rwa [hen] at this
  · intro t ht hu hn
    have := hk t.region t.order
    change dget m.datas (.qp t.region t.order) = none at hn
    rw [hn] at this
    obtain ⟨t', hft, ht', hu', hkey⟩ := firstTerm_some (name := m.name) ht hu
    change firstTerm m.name ts (.qp t.region t.order) = some t' at hft
    rw [hft] at this
    exact ⟨t', ht', hu', hkey, this⟩

end Verif.Mat
