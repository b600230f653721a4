import Verif.Ml.Backends

/-!
# Concrete multilinear terms (terms/terms_multilinear.py)
-/

namespace Ml

set_option linter.unusedSectionVars false
set_option linter.unusedSimpArgs false

variable {K : Type*} [Field K]

/-- A material argument. -/
def mArg (m : ℕ) (e : List Char) : Arg := ⟨m, .ndarray, 1, e, none⟩

/-- A variable argument. -/
def vArg (kd : Kind) (u nc : ℕ) (e : List Char) : Arg := ⟨u, kd, nc, e, none⟩

/-- A variable argument with a modifier. -/
def modArg (kd : Kind) (u nc : ℕ) (e : List Char) (m : Mod) : Arg := ⟨u, kd, nc, e, some m⟩

/-- The DOFs of the test variable: of the basis function, or the actual ones when the term is evaluated for parameters. -/
def testDofs (env : Env K) (kd : Kind) (u nc c i n : ℕ) : ℕ → ℕ → K :=
  if kd = .virtual then unitDofs (if nc > 1 then i else 0) n else env.dofs u c

/-- The sizes of the axes of a variable. -/
structure ArgSizes (size : Char → ℕ) (env : Env K) (a : Arg) : Prop where
  der : isDer a.ein = true → size (e2 a.ein) = env.dim
  comp : a.mod = none → a.nc > 1 → size (e0 a.ein) = env.nc a.name
  sym : a.mod = some .s → size (e0 a.ein) = (env.dim + 1) * env.dim / 2
  full : a.mod = some .v → size (e0 a.ein) = env.dim * env.dim

theorem built_sizes {fe : Bool} {mode : Mode} {args : List Arg} {b : B} {env : Env K} {size : Char → ℕ}
    (h : build fe 1 none mode args = some b) (hwf : WF env.dim args) (hs : SizesAgree size env 1 b)
    {a : Arg} (ha : a ∈ args) (hk : a.kind ≠ .ndarray) (hnc : env.nc a.name = a.nc) : ArgSizes size env a := by
  obtain ⟨r, hr, h1, h2, h3, h4⟩ := build_raw h
  have hg : Good env.dim none 1 args := ⟨hwf, .inl rfl, rfl, .inl rfl⟩
  have hb := buildRaw_ok hr (k := 0) (by omega) (.inl rfl)
  have hs' := sizes_congr env h1 h2 hs
  obtain ⟨m, hrep'⟩ := hb.rep
  have hrep : Rep r 0 (allItems fe mode none 0 args) m := hrep'
  have hx : ∃ x ∈ anns none 0 args, x.arg = a := by
    have hp := (args_perm none 0 args).mem_iff.mpr ha
    obtain ⟨x, hx, e⟩ := List.mem_map.mp hp
    exact ⟨x, hx, e⟩
  obtain ⟨x, hx, rfl⟩ := hx
  have hit : ∀ i ∈ groupItems fe x, ∀ sh, opShape env i.1 = some sh → i.2.1.map size = sh := by
    intro i hi sh he
    exact sizes_items hs' (by omega) hrep (List.mem_append_right _ (List.mem_flatMap.mpr ⟨x, hx, hi⟩)) he
  have hw := ann_wf hg (by omega) hb hx
  have hrole := annotate_role none 0 _ _ _ x hx
  have hr2 : x.role = .unit ∨ x.role = .dofs := by
    rcases hrole with ⟨e, _⟩ | ⟨_, e⟩ | ⟨_, _, e⟩ | ⟨_, e, _⟩
    · exact absurd e hk
    · exact .inl e
    · exact .inr e
    · simp at e
  have hbasis : basisItem fe x.node x.arg ∈ groupItems fe x := by
    unfold groupItems
    rcases hr2 with e | e
    · simp [e]
    · cases hm : x.arg.mod <;> simp [e, hm]
  have hnm : x.role ≠ .mat := by rcases hr2 with e | e <;> simp [e]
  have hunit : x.arg.mod.isSome → unitItem x.aux x.arg ∈ groupItems fe x := by
    intro hm
    have hnc := (hw.mods hnm hm).1
    unfold groupItems
    rcases hr2 with e | e
    · simp [e, hnc]
    · cases hm' : x.arg.mod <;> simp [e, hm'] at hm ⊢
  refine ⟨?_, ?_, ?_, ?_⟩
  · intro hd
    have := hit _ hbasis [env.nCell, env.nQp, env.dim, env.nn x.arg.name] (by simp [basisItem, hd, opShape])
    simp [basisItem, hd] at this
    exact this.2.2.1
  · intro hm hc
    rcases hr2 with e | e
    · have := hit (unitItem x.aux x.arg) (by unfold groupItems; simp [e, hc]) [env.nc x.arg.name, env.nc x.arg.name]
        (by simp [unitItem, hm, opShape])
      simp [unitItem, hm] at this
      exact this.1
    · have := hit (dofsItem x.node (e0 x.arg.ein) x.arg) (by unfold groupItems; simp [e, hm])
        [env.nCell, env.nc x.arg.name, env.nn x.arg.name] (by simp [dofsItem, hc, opShape, hnc])
      simp [dofsItem, hc] at this
      exact this.2.1
  · intro hm
    have := hit _ (hunit (by simp [hm])) [env.dim, env.dim, (env.dim + 1) * env.dim / 2]
      (by simp [unitItem, hm, opShape])
    simp only [unitItem, hm, List.map_cons, List.map_nil, List.cons.injEq] at this
    exact this.2.2.1
  · intro hm
    have := hit _ (hunit (by simp [hm])) [env.dim, env.dim, env.dim * env.dim]
      (by simp [unitItem, hm, opShape])
    simp only [unitItem, hm, List.map_cons, List.map_nil, List.cons.injEq] at this
    exact this.2.2.1

/-! ## The terms -/

/-- `de_integrate` without a material: the integral of a test function (sfepy/terms/terms_multilinear.py:1241-1243). -/
def integrateArgs (k1 : Kind) (v : ℕ) : List Arg :=
  [vArg k1 v 1 ['0']]

theorem integrate_wf (dim : ℕ) (k1 : Kind) (v : ℕ) (hk1 : k1 ≠ .ndarray) :
    WF dim (integrateArgs k1 v) := by
  refine ⟨?_, ?_, ?_, ?_⟩
  · intro a ha
    cases k1 <;> simp [integrateArgs, mArg, vArg, modArg] at ha hk1 <;> subst ha <;>
      simp [argLetters, innerLetters, reserved]
  · cases k1 <;> simp [integrateArgs, mArg, vArg, modArg, innerLetters]
  · cases k1 <;> simp [integrateArgs, mArg, vArg, modArg, innerLetters, argLetters]
  · cases k1 <;> simp [integrateArgs, mArg, vArg, modArg]

theorem integrate_letters (k1 : Kind) (v : ℕ) (hk1 : k1 ≠ .ndarray) :
    (integrateArgs k1 v).flatMap argLetters = [] := by
  cases k1 <;> simp [integrateArgs, mArg, vArg, modArg, argLetters] at hk1 ⊢

theorem form_integrate (size : Char → ℕ) (env : Env K) (fe : Bool) (c q : ℕ) (k1 : Kind) (v : ℕ) (hk1 : k1 ≠ .ndarray)
    (W : ℕ → ℕ → ℕ → K) :
    form size env fe c q (integrateArgs k1 v) W [] =
      fieldVal env fe v c q (W 0) 0 := by
  have hl := integrate_letters k1 v hk1
  have h1 : repeatedLetters (integrateArgs k1 v) = [] := by unfold repeatedLetters; rw [hl]; decide
  have h2 : freeOf (integrateArgs k1 v) = [] := by unfold freeOf; rw [hl]; decide
  unfold form
  rw [h1, h2]
  simp only [sumOver]
  cases k1 <;> simp [numbered, integrateArgs, mArg, vArg, modArg, argVal, assign, List.range_succ, Function.update, mul_assoc] at hk1 ⊢

/-- C89: `de_integrate` without a material: the integral of a test function. -/
theorem C89_integrate {fe : Bool} {mode : Mode} {b : B} {env : Env K} {size : Char → ℕ} (k1 : Kind) (v : ℕ) (hk1 : k1 ≠ .ndarray)
    (hnc_v : env.nc v = 1) (hmode : mode ≠ .qp)
    (h : build fe 1 none mode (integrateArgs k1 v) = some b) (hs : SizesAgree size env 1 b) (c q₀ i₀ n : ℕ)
    (hn_v : k1 = .virtual → n < env.nn v) :
    evalTerm size env 1 b (headIdx mode c q₀ ++ (virtualIdx (integrateArgs k1 v) i₀ n ++ [])) =
      value mode env (integrateArgs k1 v) c q₀ fun q =>
        fieldVal env fe v c q (testDofs env k1 v 1 c i₀ n) 0 := by
  have hwf := integrate_wf env.dim k1 v hk1
  rw [C86_residual h hwf hs (fun e => absurd e hmode) c q₀ i₀ n [] (by
    intro a ha hv
    cases k1 <;> simp [integrateArgs, mArg, vArg, modArg] at ha hv hk1 <;> subst ha <;> simp_all)]
  congr 1
  funext q
  rw [form_integrate size env fe c q k1 v hk1]
  cases k1 <;> simp [dofsAt, integrateArgs, vArg, mArg, modArg, testDofs] at hk1 ⊢

theorem integrate_builds (fe : Bool) (mode : Mode) (v : ℕ) :
    ∃ b, build fe 1 none mode (integrateArgs .virtual v) = some b := by
  cases fe <;> cases mode <;> exact ⟨_, rfl⟩

/-- `de_integrate`: `∫ c q` (sfepy/terms/terms_multilinear.py:1246-1248). -/
def integrateMArgs (k1 : Kind) (m v : ℕ) : List Arg :=
  [mArg m ['0', '0'], vArg k1 v 1 ['0']]

theorem integrateM_wf (dim : ℕ) (k1 : Kind) (m v : ℕ) (hk1 : k1 ≠ .ndarray) :
    WF dim (integrateMArgs k1 m v) := by
  refine ⟨?_, ?_, ?_, ?_⟩
  · intro a ha
    cases k1 <;> simp [integrateMArgs, mArg, vArg, modArg] at ha hk1 <;> rcases ha with rfl | rfl <;>
      simp [argLetters, innerLetters, reserved]
  · cases k1 <;> simp [integrateMArgs, mArg, vArg, modArg, innerLetters]
  · cases k1 <;> simp [integrateMArgs, mArg, vArg, modArg, innerLetters, argLetters]
  · cases k1 <;> simp [integrateMArgs, mArg, vArg, modArg]

theorem integrateM_letters (k1 : Kind) (m v : ℕ) (hk1 : k1 ≠ .ndarray) :
    (integrateMArgs k1 m v).flatMap argLetters = [] := by
  cases k1 <;> simp [integrateMArgs, mArg, vArg, modArg, argLetters] at hk1 ⊢

theorem form_integrateM (size : Char → ℕ) (env : Env K) (fe : Bool) (c q : ℕ) (k1 : Kind) (m v : ℕ) (hk1 : k1 ≠ .ndarray)
    (W : ℕ → ℕ → ℕ → K) :
    form size env fe c q (integrateMArgs k1 m v) W [] =
      env.mat m c q [0, 0] * fieldVal env fe v c q (W 1) 0 := by
  have hl := integrateM_letters k1 m v hk1
  have h1 : repeatedLetters (integrateMArgs k1 m v) = [] := by unfold repeatedLetters; rw [hl]; decide
  have h2 : freeOf (integrateMArgs k1 m v) = [] := by unfold freeOf; rw [hl]; decide
  unfold form
  rw [h1, h2]
  simp only [sumOver]
  cases k1 <;> simp [numbered, integrateMArgs, mArg, vArg, modArg, argVal, assign, List.range_succ, Function.update, mul_assoc] at hk1 ⊢

/-- C89: `de_integrate`: `∫ c q`. -/
theorem C89_integrateM {fe : Bool} {mode : Mode} {b : B} {env : Env K} {size : Char → ℕ} (k1 : Kind) (m v : ℕ) (hk1 : k1 ≠ .ndarray)
    (hnc_v : env.nc v = 1)
    (h : build fe 1 none mode (integrateMArgs k1 m v) = some b) (hs : SizesAgree size env 1 b) (c q₀ i₀ n : ℕ)
    (hn_v : k1 = .virtual → n < env.nn v) :
    evalTerm size env 1 b (headIdx mode c q₀ ++ (virtualIdx (integrateMArgs k1 m v) i₀ n ++ [])) =
      value mode env (integrateMArgs k1 m v) c q₀ fun q =>
        env.mat m c q [0, 0] * fieldVal env fe v c q (testDofs env k1 v 1 c i₀ n) 0 := by
  have hwf := integrateM_wf env.dim k1 m v hk1
  rw [C86_residual h hwf hs (fun _ => by simp [integrateMArgs]) c q₀ i₀ n [] (by
    intro a ha hv
    cases k1 <;> simp [integrateMArgs, mArg, vArg, modArg] at ha hv hk1 <;> rcases ha with rfl | rfl <;> simp_all)]
  congr 1
  funext q
  rw [form_integrateM size env fe c q k1 m v hk1]
  cases k1 <;> simp [dofsAt, integrateMArgs, vArg, mArg, modArg, testDofs] at hk1 ⊢

theorem integrateM_builds (fe : Bool) (mode : Mode) (m v : ℕ) :
    ∃ b, build fe 1 none mode (integrateMArgs .virtual m v) = some b := by
  cases fe <;> cases mode <;> exact ⟨_, rfl⟩

/-- `de_laplace` without a material: `∫ ∇q · ∇p` (sfepy/terms/terms_multilinear.py:1279-1281). -/
def laplaceArgs (k1 : Kind) (v u : ℕ) : List Arg :=
  [vArg k1 v 1 ['0', '.', 'j'], vArg .state u 1 ['0', '.', 'j']]

theorem laplace_wf (dim : ℕ) (k1 : Kind) (v u : ℕ) (hk1 : k1 ≠ .ndarray) :
    WF dim (laplaceArgs k1 v u) := by
  refine ⟨?_, ?_, ?_, ?_⟩
  · intro a ha
    cases k1 <;> simp [laplaceArgs, mArg, vArg, modArg] at ha hk1 <;> rcases ha with rfl | rfl <;>
      simp [argLetters, innerLetters, reserved]
  · cases k1 <;> simp [laplaceArgs, mArg, vArg, modArg, innerLetters]
  · cases k1 <;> simp [laplaceArgs, mArg, vArg, modArg, innerLetters, argLetters]
  · cases k1 <;> simp [laplaceArgs, mArg, vArg, modArg]

theorem laplace_letters (k1 : Kind) (v u : ℕ) (hk1 : k1 ≠ .ndarray) :
    (laplaceArgs k1 v u).flatMap argLetters = ['j', 'j'] := by
  cases k1 <;> simp [laplaceArgs, mArg, vArg, modArg, argLetters] at hk1 ⊢

theorem form_laplace (size : Char → ℕ) (env : Env K) (fe : Bool) (c q : ℕ) (k1 : Kind) (v u : ℕ) (hk1 : k1 ≠ .ndarray)
    (W : ℕ → ℕ → ℕ → K) :
    form size env fe c q (laplaceArgs k1 v u) W [] =
      ∑ j ∈ Finset.range (size 'j'), gradVal env v c q (W 0) 0 j * gradVal env u c q (W 1) 0 j := by
  have hl := laplace_letters k1 v u hk1
  have h1 : repeatedLetters (laplaceArgs k1 v u) = ['j'] := by unfold repeatedLetters; rw [hl]; decide
  have h2 : freeOf (laplaceArgs k1 v u) = [] := by unfold freeOf; rw [hl]; decide
  unfold form
  rw [h1, h2]
  simp only [sumOver]
  refine Finset.sum_congr rfl fun j _ => ?_
  cases k1 <;> simp [numbered, laplaceArgs, mArg, vArg, modArg, argVal, assign, List.range_succ, Function.update, mul_assoc] at hk1 ⊢

/-- C89: `de_laplace` without a material: `∫ ∇q · ∇p`. -/
theorem C89_laplace {fe : Bool} {mode : Mode} {b : B} {env : Env K} {size : Char → ℕ} (k1 : Kind) (v u : ℕ) (hk1 : k1 ≠ .ndarray)
    (hnc_v : env.nc v = 1) (hnc_u : env.nc u = 1)
    (h : build fe 1 none mode (laplaceArgs k1 v u) = some b) (hs : SizesAgree size env 1 b) (c q₀ i₀ n : ℕ)
    (hn_v : k1 = .virtual → n < env.nn v) :
    evalTerm size env 1 b (headIdx mode c q₀ ++ (virtualIdx (laplaceArgs k1 v u) i₀ n ++ [])) =
      value mode env (laplaceArgs k1 v u) c q₀ fun q =>
        ∑ j ∈ Finset.range env.dim, gradVal env v c q (testDofs env k1 v 1 c i₀ n) 0 j * gradVal env u c q (env.dofs u c) 0 j := by
  have hwf := laplace_wf env.dim k1 v u hk1
  rw [C86_residual h hwf hs (fun _ => by simp [laplaceArgs]) c q₀ i₀ n [] (by
    intro a ha hv
    cases k1 <;> simp [laplaceArgs, mArg, vArg, modArg] at ha hv hk1 <;> rcases ha with rfl | rfl <;> simp_all)]
  congr 1
  funext q
  rw [form_laplace size env fe c q k1 v u hk1]
  have s_j : size 'j' = env.dim := (built_sizes h hwf hs (a := vArg .state u 1 ['0', '.', 'j']) (by simp [laplaceArgs]) (by simp [vArg, modArg]) hnc_u).der rfl
  rw [s_j]
  cases k1 <;> simp [dofsAt, laplaceArgs, vArg, mArg, modArg, testDofs] at hk1 ⊢

theorem laplace_builds (fe : Bool) (mode : Mode) (v u : ℕ) :
    ∃ b, build fe 1 none mode (laplaceArgs .virtual v u) = some b := by
  cases fe <;> cases mode <;> exact ⟨_, rfl⟩

/-- `de_laplace`: `∫ c ∇q · ∇p` (sfepy/terms/terms_multilinear.py:1284-1286). -/
def laplaceMArgs (k1 : Kind) (m v u : ℕ) : List Arg :=
  [mArg m ['0', '0'], vArg k1 v 1 ['0', '.', 'j'], vArg .state u 1 ['0', '.', 'j']]

theorem laplaceM_wf (dim : ℕ) (k1 : Kind) (m v u : ℕ) (hk1 : k1 ≠ .ndarray) :
    WF dim (laplaceMArgs k1 m v u) := by
  refine ⟨?_, ?_, ?_, ?_⟩
  · intro a ha
    cases k1 <;> simp [laplaceMArgs, mArg, vArg, modArg] at ha hk1 <;> rcases ha with rfl | rfl | rfl <;>
      simp [argLetters, innerLetters, reserved]
  · cases k1 <;> simp [laplaceMArgs, mArg, vArg, modArg, innerLetters]
  · cases k1 <;> simp [laplaceMArgs, mArg, vArg, modArg, innerLetters, argLetters]
  · cases k1 <;> simp [laplaceMArgs, mArg, vArg, modArg]

theorem laplaceM_letters (k1 : Kind) (m v u : ℕ) (hk1 : k1 ≠ .ndarray) :
    (laplaceMArgs k1 m v u).flatMap argLetters = ['j', 'j'] := by
  cases k1 <;> simp [laplaceMArgs, mArg, vArg, modArg, argLetters] at hk1 ⊢

theorem form_laplaceM (size : Char → ℕ) (env : Env K) (fe : Bool) (c q : ℕ) (k1 : Kind) (m v u : ℕ) (hk1 : k1 ≠ .ndarray)
    (W : ℕ → ℕ → ℕ → K) :
    form size env fe c q (laplaceMArgs k1 m v u) W [] =
      ∑ j ∈ Finset.range (size 'j'), env.mat m c q [0, 0] * (gradVal env v c q (W 1) 0 j * gradVal env u c q (W 2) 0 j) := by
  have hl := laplaceM_letters k1 m v u hk1
  have h1 : repeatedLetters (laplaceMArgs k1 m v u) = ['j'] := by unfold repeatedLetters; rw [hl]; decide
  have h2 : freeOf (laplaceMArgs k1 m v u) = [] := by unfold freeOf; rw [hl]; decide
  unfold form
  rw [h1, h2]
  simp only [sumOver]
  refine Finset.sum_congr rfl fun j _ => ?_
  cases k1 <;> simp [numbered, laplaceMArgs, mArg, vArg, modArg, argVal, assign, List.range_succ, Function.update, mul_assoc] at hk1 ⊢

/-- C89: `de_laplace`: `∫ c ∇q · ∇p`. -/
theorem C89_laplaceM {fe : Bool} {mode : Mode} {b : B} {env : Env K} {size : Char → ℕ} (k1 : Kind) (m v u : ℕ) (hk1 : k1 ≠ .ndarray)
    (hnc_v : env.nc v = 1) (hnc_u : env.nc u = 1)
    (h : build fe 1 none mode (laplaceMArgs k1 m v u) = some b) (hs : SizesAgree size env 1 b) (c q₀ i₀ n : ℕ)
    (hn_v : k1 = .virtual → n < env.nn v) :
    evalTerm size env 1 b (headIdx mode c q₀ ++ (virtualIdx (laplaceMArgs k1 m v u) i₀ n ++ [])) =
      value mode env (laplaceMArgs k1 m v u) c q₀ fun q =>
        ∑ j ∈ Finset.range env.dim, env.mat m c q [0, 0] * (gradVal env v c q (testDofs env k1 v 1 c i₀ n) 0 j * gradVal env u c q (env.dofs u c) 0 j) := by
  have hwf := laplaceM_wf env.dim k1 m v u hk1
  rw [C86_residual h hwf hs (fun _ => by simp [laplaceMArgs]) c q₀ i₀ n [] (by
    intro a ha hv
    cases k1 <;> simp [laplaceMArgs, mArg, vArg, modArg] at ha hv hk1 <;> rcases ha with rfl | rfl | rfl <;> simp_all)]
  congr 1
  funext q
  rw [form_laplaceM size env fe c q k1 m v u hk1]
  have s_j : size 'j' = env.dim := (built_sizes h hwf hs (a := vArg .state u 1 ['0', '.', 'j']) (by simp [laplaceMArgs]) (by simp [vArg, modArg]) hnc_u).der rfl
  rw [s_j]
  cases k1 <;> simp [dofsAt, laplaceMArgs, vArg, mArg, modArg, testDofs] at hk1 ⊢

theorem laplaceM_builds (fe : Bool) (mode : Mode) (m v u : ℕ) :
    ∃ b, build fe 1 none mode (laplaceMArgs .virtual m v u) = some b := by
  cases fe <;> cases mode <;> exact ⟨_, rfl⟩

/-- `de_dot` of scalars: `∫ q p` (sfepy/terms/terms_multilinear.py:1327-1329). -/
def dotSArgs (k1 : Kind) (v u : ℕ) : List Arg :=
  [vArg k1 v 1 ['i'], vArg .state u 1 ['i']]

theorem dotS_wf (dim : ℕ) (k1 : Kind) (v u : ℕ) (hk1 : k1 ≠ .ndarray) :
    WF dim (dotSArgs k1 v u) := by
  refine ⟨?_, ?_, ?_, ?_⟩
  · intro a ha
    cases k1 <;> simp [dotSArgs, mArg, vArg, modArg] at ha hk1 <;> rcases ha with rfl | rfl <;>
      simp [argLetters, innerLetters, reserved]
  · cases k1 <;> simp [dotSArgs, mArg, vArg, modArg, innerLetters]
  · cases k1 <;> simp [dotSArgs, mArg, vArg, modArg, innerLetters, argLetters]
  · cases k1 <;> simp [dotSArgs, mArg, vArg, modArg]

theorem dotS_letters (k1 : Kind) (v u : ℕ) (hk1 : k1 ≠ .ndarray) :
    (dotSArgs k1 v u).flatMap argLetters = [] := by
  cases k1 <;> simp [dotSArgs, mArg, vArg, modArg, argLetters] at hk1 ⊢

theorem form_dotS (size : Char → ℕ) (env : Env K) (fe : Bool) (c q : ℕ) (k1 : Kind) (v u : ℕ) (hk1 : k1 ≠ .ndarray)
    (W : ℕ → ℕ → ℕ → K) :
    form size env fe c q (dotSArgs k1 v u) W [] =
      fieldVal env fe v c q (W 0) 0 * fieldVal env fe u c q (W 1) 0 := by
  have hl := dotS_letters k1 v u hk1
  have h1 : repeatedLetters (dotSArgs k1 v u) = [] := by unfold repeatedLetters; rw [hl]; decide
  have h2 : freeOf (dotSArgs k1 v u) = [] := by unfold freeOf; rw [hl]; decide
  unfold form
  rw [h1, h2]
  simp only [sumOver]
  cases k1 <;> simp [numbered, dotSArgs, mArg, vArg, modArg, argVal, assign, List.range_succ, Function.update, mul_assoc] at hk1 ⊢

/-- C89: `de_dot` of scalars: `∫ q p`. -/
theorem C89_dotS {fe : Bool} {mode : Mode} {b : B} {env : Env K} {size : Char → ℕ} (k1 : Kind) (v u : ℕ) (hk1 : k1 ≠ .ndarray)
    (hnc_v : env.nc v = 1) (hnc_u : env.nc u = 1)
    (h : build fe 1 none mode (dotSArgs k1 v u) = some b) (hs : SizesAgree size env 1 b) (c q₀ i₀ n : ℕ)
    (hn_v : k1 = .virtual → n < env.nn v) :
    evalTerm size env 1 b (headIdx mode c q₀ ++ (virtualIdx (dotSArgs k1 v u) i₀ n ++ [])) =
      value mode env (dotSArgs k1 v u) c q₀ fun q =>
        fieldVal env fe v c q (testDofs env k1 v 1 c i₀ n) 0 * fieldVal env fe u c q (env.dofs u c) 0 := by
  have hwf := dotS_wf env.dim k1 v u hk1
  rw [C86_residual h hwf hs (fun _ => by simp [dotSArgs]) c q₀ i₀ n [] (by
    intro a ha hv
    cases k1 <;> simp [dotSArgs, mArg, vArg, modArg] at ha hv hk1 <;> rcases ha with rfl | rfl <;> simp_all)]
  congr 1
  funext q
  rw [form_dotS size env fe c q k1 v u hk1]
  cases k1 <;> simp [dofsAt, dotSArgs, vArg, mArg, modArg, testDofs] at hk1 ⊢

theorem dotS_builds (fe : Bool) (mode : Mode) (v u : ℕ) :
    ∃ b, build fe 1 none mode (dotSArgs .virtual v u) = some b := by
  cases fe <;> cases mode <;> exact ⟨_, rfl⟩

/-- `de_dot` of vectors: `∫ v · u` (sfepy/terms/terms_multilinear.py:1327-1329). -/
def dotVArgs (k1 : Kind) (v u d : ℕ) : List Arg :=
  [vArg k1 v d ['i'], vArg .state u d ['i']]

theorem dotV_wf (dim : ℕ) (k1 : Kind) (v u d : ℕ) (hd : 1 < d) (hk1 : k1 ≠ .ndarray) :
    WF dim (dotVArgs k1 v u d) := by
  refine ⟨?_, ?_, ?_, ?_⟩
  · intro a ha
    cases k1 <;> simp [dotVArgs, mArg, vArg, modArg] at ha hk1 <;> rcases ha with rfl | rfl <;>
      simp [argLetters, innerLetters, hd, reserved]
  · cases k1 <;> simp [dotVArgs, mArg, vArg, modArg, innerLetters]
  · cases k1 <;> simp [dotVArgs, mArg, vArg, modArg, innerLetters, argLetters, hd]
  · cases k1 <;> simp [dotVArgs, mArg, vArg, modArg, hd]

theorem dotV_letters (k1 : Kind) (v u d : ℕ) (hd : 1 < d) (hk1 : k1 ≠ .ndarray) :
    (dotVArgs k1 v u d).flatMap argLetters = ['i', 'i'] := by
  cases k1 <;> simp [dotVArgs, mArg, vArg, modArg, argLetters, hd] at hk1 ⊢

theorem form_dotV (size : Char → ℕ) (env : Env K) (fe : Bool) (c q : ℕ) (k1 : Kind) (v u d : ℕ) (hd : 1 < d) (hk1 : k1 ≠ .ndarray)
    (W : ℕ → ℕ → ℕ → K) :
    form size env fe c q (dotVArgs k1 v u d) W [] =
      ∑ i ∈ Finset.range (size 'i'), fieldVal env fe v c q (W 0) i * fieldVal env fe u c q (W 1) i := by
  have hl := dotV_letters k1 v u d hd hk1
  have h1 : repeatedLetters (dotVArgs k1 v u d) = ['i'] := by unfold repeatedLetters; rw [hl]; decide
  have h2 : freeOf (dotVArgs k1 v u d) = [] := by unfold freeOf; rw [hl]; decide
  unfold form
  rw [h1, h2]
  simp only [sumOver]
  refine Finset.sum_congr rfl fun i _ => ?_
  cases k1 <;> simp [numbered, dotVArgs, mArg, vArg, modArg, argVal, hd, assign, List.range_succ, Function.update, mul_assoc] at hk1 ⊢

/-- C89: `de_dot` of vectors: `∫ v · u`. -/
theorem C89_dotV {fe : Bool} {mode : Mode} {b : B} {env : Env K} {size : Char → ℕ} (k1 : Kind) (v u d : ℕ) (hd : 1 < d) (hk1 : k1 ≠ .ndarray)
    (hnc_v : env.nc v = d) (hnc_u : env.nc u = d)
    (h : build fe 1 none mode (dotVArgs k1 v u d) = some b) (hs : SizesAgree size env 1 b) (c q₀ i₀ n : ℕ)
    (hn_v : k1 = .virtual → n < env.nn v) :
    evalTerm size env 1 b (headIdx mode c q₀ ++ (virtualIdx (dotVArgs k1 v u d) i₀ n ++ [])) =
      value mode env (dotVArgs k1 v u d) c q₀ fun q =>
        ∑ i ∈ Finset.range d, fieldVal env fe v c q (testDofs env k1 v d c i₀ n) i * fieldVal env fe u c q (env.dofs u c) i := by
  have hwf := dotV_wf env.dim k1 v u d hd hk1
  rw [C86_residual h hwf hs (fun _ => by simp [dotVArgs]) c q₀ i₀ n [] (by
    intro a ha hv
    cases k1 <;> simp [dotVArgs, mArg, vArg, modArg] at ha hv hk1 <;> rcases ha with rfl | rfl <;> simp_all)]
  congr 1
  funext q
  rw [form_dotV size env fe c q k1 v u d hd hk1]
  have s_i : size 'i' = d := ((built_sizes h hwf hs (a := vArg .state u d ['i']) (by simp [dotVArgs]) (by simp [vArg, modArg]) hnc_u).comp rfl hd).trans hnc_u
  rw [s_i]
  cases k1 <;> simp [dofsAt, dotVArgs, vArg, mArg, modArg, testDofs] at hk1 ⊢

theorem dotV_builds (fe : Bool) (mode : Mode) (v u d : ℕ) :
    ∃ b, build fe 1 none mode (dotVArgs .virtual v u (d + 2)) = some b := by
  cases fe <;> cases mode <;> exact ⟨_, rfl⟩

/-- `de_dot` of scalars: `∫ c q p` (sfepy/terms/terms_multilinear.py:1338-1340). -/
def dotMSArgs (k1 : Kind) (m v u : ℕ) : List Arg :=
  [mArg m ['0', '0'], vArg k1 v 1 ['i'], vArg .state u 1 ['i']]

theorem dotMS_wf (dim : ℕ) (k1 : Kind) (m v u : ℕ) (hk1 : k1 ≠ .ndarray) :
    WF dim (dotMSArgs k1 m v u) := by
  refine ⟨?_, ?_, ?_, ?_⟩
  · intro a ha
    cases k1 <;> simp [dotMSArgs, mArg, vArg, modArg] at ha hk1 <;> rcases ha with rfl | rfl | rfl <;>
      simp [argLetters, innerLetters, reserved]
  · cases k1 <;> simp [dotMSArgs, mArg, vArg, modArg, innerLetters]
  · cases k1 <;> simp [dotMSArgs, mArg, vArg, modArg, innerLetters, argLetters]
  · cases k1 <;> simp [dotMSArgs, mArg, vArg, modArg]

theorem dotMS_letters (k1 : Kind) (m v u : ℕ) (hk1 : k1 ≠ .ndarray) :
    (dotMSArgs k1 m v u).flatMap argLetters = [] := by
  cases k1 <;> simp [dotMSArgs, mArg, vArg, modArg, argLetters] at hk1 ⊢

theorem form_dotMS (size : Char → ℕ) (env : Env K) (fe : Bool) (c q : ℕ) (k1 : Kind) (m v u : ℕ) (hk1 : k1 ≠ .ndarray)
    (W : ℕ → ℕ → ℕ → K) :
    form size env fe c q (dotMSArgs k1 m v u) W [] =
      env.mat m c q [0, 0] * (fieldVal env fe v c q (W 1) 0 * fieldVal env fe u c q (W 2) 0) := by
  have hl := dotMS_letters k1 m v u hk1
  have h1 : repeatedLetters (dotMSArgs k1 m v u) = [] := by unfold repeatedLetters; rw [hl]; decide
  have h2 : freeOf (dotMSArgs k1 m v u) = [] := by unfold freeOf; rw [hl]; decide
  unfold form
  rw [h1, h2]
  simp only [sumOver]
  cases k1 <;> simp [numbered, dotMSArgs, mArg, vArg, modArg, argVal, assign, List.range_succ, Function.update, mul_assoc] at hk1 ⊢

/-- C89: `de_dot` of scalars: `∫ c q p`. -/
theorem C89_dotMS {fe : Bool} {mode : Mode} {b : B} {env : Env K} {size : Char → ℕ} (k1 : Kind) (m v u : ℕ) (hk1 : k1 ≠ .ndarray)
    (hnc_v : env.nc v = 1) (hnc_u : env.nc u = 1)
    (h : build fe 1 none mode (dotMSArgs k1 m v u) = some b) (hs : SizesAgree size env 1 b) (c q₀ i₀ n : ℕ)
    (hn_v : k1 = .virtual → n < env.nn v) :
    evalTerm size env 1 b (headIdx mode c q₀ ++ (virtualIdx (dotMSArgs k1 m v u) i₀ n ++ [])) =
      value mode env (dotMSArgs k1 m v u) c q₀ fun q =>
        env.mat m c q [0, 0] * (fieldVal env fe v c q (testDofs env k1 v 1 c i₀ n) 0 * fieldVal env fe u c q (env.dofs u c) 0) := by
  have hwf := dotMS_wf env.dim k1 m v u hk1
  rw [C86_residual h hwf hs (fun _ => by simp [dotMSArgs]) c q₀ i₀ n [] (by
    intro a ha hv
    cases k1 <;> simp [dotMSArgs, mArg, vArg, modArg] at ha hv hk1 <;> rcases ha with rfl | rfl | rfl <;> simp_all)]
  congr 1
  funext q
  rw [form_dotMS size env fe c q k1 m v u hk1]
  cases k1 <;> simp [dofsAt, dotMSArgs, vArg, mArg, modArg, testDofs] at hk1 ⊢

theorem dotMS_builds (fe : Bool) (mode : Mode) (m v u : ℕ) :
    ∃ b, build fe 1 none mode (dotMSArgs .virtual m v u) = some b := by
  cases fe <;> cases mode <;> exact ⟨_, rfl⟩

/-- `de_dot` of vectors: `∫ c v · u` (sfepy/terms/terms_multilinear.py:1338-1340). -/
def dotMVArgs (k1 : Kind) (m v u d : ℕ) : List Arg :=
  [mArg m ['0', '0'], vArg k1 v d ['i'], vArg .state u d ['i']]

theorem dotMV_wf (dim : ℕ) (k1 : Kind) (m v u d : ℕ) (hd : 1 < d) (hk1 : k1 ≠ .ndarray) :
    WF dim (dotMVArgs k1 m v u d) := by
  refine ⟨?_, ?_, ?_, ?_⟩
  · intro a ha
    cases k1 <;> simp [dotMVArgs, mArg, vArg, modArg] at ha hk1 <;> rcases ha with rfl | rfl | rfl <;>
      simp [argLetters, innerLetters, hd, reserved]
  · cases k1 <;> simp [dotMVArgs, mArg, vArg, modArg, innerLetters]
  · cases k1 <;> simp [dotMVArgs, mArg, vArg, modArg, innerLetters, argLetters, hd]
  · cases k1 <;> simp [dotMVArgs, mArg, vArg, modArg, hd]

theorem dotMV_letters (k1 : Kind) (m v u d : ℕ) (hd : 1 < d) (hk1 : k1 ≠ .ndarray) :
    (dotMVArgs k1 m v u d).flatMap argLetters = ['i', 'i'] := by
  cases k1 <;> simp [dotMVArgs, mArg, vArg, modArg, argLetters, hd] at hk1 ⊢

theorem form_dotMV (size : Char → ℕ) (env : Env K) (fe : Bool) (c q : ℕ) (k1 : Kind) (m v u d : ℕ) (hd : 1 < d) (hk1 : k1 ≠ .ndarray)
    (W : ℕ → ℕ → ℕ → K) :
    form size env fe c q (dotMVArgs k1 m v u d) W [] =
      ∑ i ∈ Finset.range (size 'i'), env.mat m c q [0, 0] * (fieldVal env fe v c q (W 1) i * fieldVal env fe u c q (W 2) i) := by
  have hl := dotMV_letters k1 m v u d hd hk1
  have h1 : repeatedLetters (dotMVArgs k1 m v u d) = ['i'] := by unfold repeatedLetters; rw [hl]; decide
  have h2 : freeOf (dotMVArgs k1 m v u d) = [] := by unfold freeOf; rw [hl]; decide
  unfold form
  rw [h1, h2]
  simp only [sumOver]
  refine Finset.sum_congr rfl fun i _ => ?_
  cases k1 <;> simp [numbered, dotMVArgs, mArg, vArg, modArg, argVal, hd, assign, List.range_succ, Function.update, mul_assoc] at hk1 ⊢

/-- C89: `de_dot` of vectors: `∫ c v · u`. -/
theorem C89_dotMV {fe : Bool} {mode : Mode} {b : B} {env : Env K} {size : Char → ℕ} (k1 : Kind) (m v u d : ℕ) (hd : 1 < d) (hk1 : k1 ≠ .ndarray)
    (hnc_v : env.nc v = d) (hnc_u : env.nc u = d)
    (h : build fe 1 none mode (dotMVArgs k1 m v u d) = some b) (hs : SizesAgree size env 1 b) (c q₀ i₀ n : ℕ)
    (hn_v : k1 = .virtual → n < env.nn v) :
    evalTerm size env 1 b (headIdx mode c q₀ ++ (virtualIdx (dotMVArgs k1 m v u d) i₀ n ++ [])) =
      value mode env (dotMVArgs k1 m v u d) c q₀ fun q =>
        ∑ i ∈ Finset.range d, env.mat m c q [0, 0] * (fieldVal env fe v c q (testDofs env k1 v d c i₀ n) i * fieldVal env fe u c q (env.dofs u c) i) := by
  have hwf := dotMV_wf env.dim k1 m v u d hd hk1
  rw [C86_residual h hwf hs (fun _ => by simp [dotMVArgs]) c q₀ i₀ n [] (by
    intro a ha hv
    cases k1 <;> simp [dotMVArgs, mArg, vArg, modArg] at ha hv hk1 <;> rcases ha with rfl | rfl | rfl <;> simp_all)]
  congr 1
  funext q
  rw [form_dotMV size env fe c q k1 m v u d hd hk1]
  have s_i : size 'i' = d := ((built_sizes h hwf hs (a := vArg .state u d ['i']) (by simp [dotMVArgs]) (by simp [vArg, modArg]) hnc_u).comp rfl hd).trans hnc_u
  rw [s_i]
  cases k1 <;> simp [dofsAt, dotMVArgs, vArg, mArg, modArg, testDofs] at hk1 ⊢

theorem dotMV_builds (fe : Bool) (mode : Mode) (m v u d : ℕ) :
    ∃ b, build fe 1 none mode (dotMVArgs .virtual m v u (d + 2)) = some b := by
  cases fe <;> cases mode <;> exact ⟨_, rfl⟩

/-- `de_dot` of vectors: `∫ v · (c u)`, `c` a matrix (sfepy/terms/terms_multilinear.py:1333-1335). -/
def dotMMArgs (k1 : Kind) (m v u d : ℕ) : List Arg :=
  [mArg m ['i', 'j'], vArg k1 v d ['i'], vArg .state u d ['j']]

theorem dotMM_wf (dim : ℕ) (k1 : Kind) (m v u d : ℕ) (hd : 1 < d) (hk1 : k1 ≠ .ndarray) :
    WF dim (dotMMArgs k1 m v u d) := by
  refine ⟨?_, ?_, ?_, ?_⟩
  · intro a ha
    cases k1 <;> simp [dotMMArgs, mArg, vArg, modArg] at ha hk1 <;> rcases ha with rfl | rfl | rfl <;>
      simp [argLetters, innerLetters, hd, reserved]
  · cases k1 <;> simp [dotMMArgs, mArg, vArg, modArg, innerLetters]
  · cases k1 <;> simp [dotMMArgs, mArg, vArg, modArg, innerLetters, argLetters, hd]
  · cases k1 <;> simp [dotMMArgs, mArg, vArg, modArg, hd]

theorem dotMM_letters (k1 : Kind) (m v u d : ℕ) (hd : 1 < d) (hk1 : k1 ≠ .ndarray) :
    (dotMMArgs k1 m v u d).flatMap argLetters = ['i', 'j', 'i', 'j'] := by
  cases k1 <;> simp [dotMMArgs, mArg, vArg, modArg, argLetters, hd] at hk1 ⊢

theorem form_dotMM (size : Char → ℕ) (env : Env K) (fe : Bool) (c q : ℕ) (k1 : Kind) (m v u d : ℕ) (hd : 1 < d) (hk1 : k1 ≠ .ndarray)
    (W : ℕ → ℕ → ℕ → K) :
    form size env fe c q (dotMMArgs k1 m v u d) W [] =
      ∑ i ∈ Finset.range (size 'i'), ∑ j ∈ Finset.range (size 'j'), env.mat m c q [i, j] * (fieldVal env fe v c q (W 1) i * fieldVal env fe u c q (W 2) j) := by
  have hl := dotMM_letters k1 m v u d hd hk1
  have h1 : repeatedLetters (dotMMArgs k1 m v u d) = ['i', 'j'] := by unfold repeatedLetters; rw [hl]; decide
  have h2 : freeOf (dotMMArgs k1 m v u d) = [] := by unfold freeOf; rw [hl]; decide
  unfold form
  rw [h1, h2]
  simp only [sumOver]
  refine Finset.sum_congr rfl fun i _ => ?_
  refine Finset.sum_congr rfl fun j _ => ?_
  cases k1 <;> simp [numbered, dotMMArgs, mArg, vArg, modArg, argVal, hd, assign, List.range_succ, Function.update, mul_assoc] at hk1 ⊢

/-- C89: `de_dot` of vectors: `∫ v · (c u)`, `c` a matrix. -/
theorem C89_dotMM {fe : Bool} {mode : Mode} {b : B} {env : Env K} {size : Char → ℕ} (k1 : Kind) (m v u d : ℕ) (hd : 1 < d) (hk1 : k1 ≠ .ndarray)
    (hnc_v : env.nc v = d) (hnc_u : env.nc u = d)
    (h : build fe 1 none mode (dotMMArgs k1 m v u d) = some b) (hs : SizesAgree size env 1 b) (c q₀ i₀ n : ℕ)
    (hn_v : k1 = .virtual → n < env.nn v) :
    evalTerm size env 1 b (headIdx mode c q₀ ++ (virtualIdx (dotMMArgs k1 m v u d) i₀ n ++ [])) =
      value mode env (dotMMArgs k1 m v u d) c q₀ fun q =>
        ∑ i ∈ Finset.range d, ∑ j ∈ Finset.range d, env.mat m c q [i, j] * (fieldVal env fe v c q (testDofs env k1 v d c i₀ n) i * fieldVal env fe u c q (env.dofs u c) j) := by
  have hwf := dotMM_wf env.dim k1 m v u d hd hk1
  rw [C86_residual h hwf hs (fun _ => by simp [dotMMArgs]) c q₀ i₀ n [] (by
    intro a ha hv
    cases k1 <;> simp [dotMMArgs, mArg, vArg, modArg] at ha hv hk1 <;> rcases ha with rfl | rfl | rfl <;> simp_all)]
  congr 1
  funext q
  rw [form_dotMM size env fe c q k1 m v u d hd hk1]
  have s_i : size 'i' = d := ((built_sizes h hwf hs (a := vArg k1 v d ['i']) (by simp [dotMMArgs]) hk1 hnc_v).comp rfl hd).trans hnc_v
  have s_j : size 'j' = d := ((built_sizes h hwf hs (a := vArg .state u d ['j']) (by simp [dotMMArgs]) (by simp [vArg, modArg]) hnc_u).comp rfl hd).trans hnc_u
  rw [s_i, s_j]
  cases k1 <;> simp [dofsAt, dotMMArgs, vArg, mArg, modArg, testDofs] at hk1 ⊢

theorem dotMM_builds (fe : Bool) (mode : Mode) (m v u d : ℕ) :
    ∃ b, build fe 1 none mode (dotMMArgs .virtual m v u (d + 2)) = some b := by
  cases fe <;> cases mode <;> exact ⟨_, rfl⟩

/-- `de_s_dot_mgrad_s`: `∫ q y · ∇p` (sfepy/terms/terms_multilinear.py:1381-1383). -/
def mgradArgs (k1 k2 : Kind) (m v u : ℕ) : List Arg :=
  [mArg m ['i', '0'], vArg k1 v 1 ['0'], vArg k2 u 1 ['0', '.', 'i']]

theorem mgrad_wf (dim : ℕ) (k1 k2 : Kind) (m v u : ℕ) (hk1 : k1 ≠ .ndarray) (hk2 : k2 ≠ .ndarray) :
    WF dim (mgradArgs k1 k2 m v u) := by
  refine ⟨?_, ?_, ?_, ?_⟩
  · intro a ha
    cases k1 <;> cases k2 <;> simp [mgradArgs, mArg, vArg, modArg] at ha hk1 hk2 <;> rcases ha with rfl | rfl | rfl <;>
      simp [argLetters, innerLetters, reserved]
  · cases k1 <;> cases k2 <;> simp [mgradArgs, mArg, vArg, modArg, innerLetters]
  · cases k1 <;> cases k2 <;> simp [mgradArgs, mArg, vArg, modArg, innerLetters, argLetters]
  · cases k1 <;> cases k2 <;> simp [mgradArgs, mArg, vArg, modArg]

theorem mgrad_letters (k1 k2 : Kind) (m v u : ℕ) (hk1 : k1 ≠ .ndarray) (hk2 : k2 ≠ .ndarray) :
    (mgradArgs k1 k2 m v u).flatMap argLetters = ['i', 'i'] := by
  cases k1 <;> cases k2 <;> simp [mgradArgs, mArg, vArg, modArg, argLetters] at hk1 hk2 ⊢

theorem form_mgrad (size : Char → ℕ) (env : Env K) (fe : Bool) (c q : ℕ) (k1 k2 : Kind) (m v u : ℕ) (hk1 : k1 ≠ .ndarray) (hk2 : k2 ≠ .ndarray)
    (W : ℕ → ℕ → ℕ → K) :
    form size env fe c q (mgradArgs k1 k2 m v u) W [] =
      ∑ i ∈ Finset.range (size 'i'), env.mat m c q [i, 0] * (fieldVal env fe v c q (W 1) 0 * gradVal env u c q (W 2) 0 i) := by
  have hl := mgrad_letters k1 k2 m v u hk1 hk2
  have h1 : repeatedLetters (mgradArgs k1 k2 m v u) = ['i'] := by unfold repeatedLetters; rw [hl]; decide
  have h2 : freeOf (mgradArgs k1 k2 m v u) = [] := by unfold freeOf; rw [hl]; decide
  unfold form
  rw [h1, h2]
  simp only [sumOver]
  refine Finset.sum_congr rfl fun i _ => ?_
  cases k1 <;> cases k2 <;> simp [numbered, mgradArgs, mArg, vArg, modArg, argVal, assign, List.range_succ, Function.update, mul_assoc] at hk1 hk2 ⊢

/-- C89: `de_s_dot_mgrad_s`: `∫ q y · ∇p`. -/
theorem C89_mgrad {fe : Bool} {mode : Mode} {b : B} {env : Env K} {size : Char → ℕ} (k1 k2 : Kind) (m v u : ℕ) (hk1 : k1 ≠ .ndarray) (hk2 : k2 ≠ .ndarray)
    (hnc_v : env.nc v = 1) (hnc_u : env.nc u = 1)
    (h : build fe 1 none mode (mgradArgs k1 k2 m v u) = some b) (hs : SizesAgree size env 1 b) (c q₀ i₀ n : ℕ)
    (hn_v : k1 = .virtual → n < env.nn v) (hn_u : k2 = .virtual → n < env.nn u) :
    evalTerm size env 1 b (headIdx mode c q₀ ++ (virtualIdx (mgradArgs k1 k2 m v u) i₀ n ++ [])) =
      value mode env (mgradArgs k1 k2 m v u) c q₀ fun q =>
        ∑ i ∈ Finset.range env.dim, env.mat m c q [i, 0] * (fieldVal env fe v c q (testDofs env k1 v 1 c i₀ n) 0 * gradVal env u c q (testDofs env k2 u 1 c i₀ n) 0 i) := by
  have hwf := mgrad_wf env.dim k1 k2 m v u hk1 hk2
  rw [C86_residual h hwf hs (fun _ => by simp [mgradArgs]) c q₀ i₀ n [] (by
    intro a ha hv
    cases k1 <;> cases k2 <;> simp [mgradArgs, mArg, vArg, modArg] at ha hv hk1 hk2 <;> rcases ha with rfl | rfl | rfl <;> simp_all)]
  congr 1
  funext q
  rw [form_mgrad size env fe c q k1 k2 m v u hk1 hk2]
  have s_i : size 'i' = env.dim := (built_sizes h hwf hs (a := vArg k2 u 1 ['0', '.', 'i']) (by simp [mgradArgs]) hk2 hnc_u).der rfl
  rw [s_i]
  cases k1 <;> cases k2 <;> simp [dofsAt, mgradArgs, vArg, mArg, modArg, testDofs] at hk1 hk2 ⊢

theorem mgrad_builds (fe : Bool) (mode : Mode) (m v u : ℕ) :
    ∃ b, build fe 1 none mode (mgradArgs .virtual .state m v u) = some b := by
  cases fe <;> cases mode <;> exact ⟨_, rfl⟩

/-- `de_non_penetration_p`: `∫ c (n · v) (n · u)`; `nv` are the normals (sfepy/terms/terms_multilinear.py:1411-1414). -/
def nonPenArgs (k1 : Kind) (m nv v u d : ℕ) : List Arg :=
  [mArg m ['0', '0'], vArg k1 v d ['i'], mArg nv ['i'], vArg .state u d ['j'], mArg nv ['j']]

theorem nonPen_wf (dim : ℕ) (k1 : Kind) (m nv v u d : ℕ) (hd : 1 < d) (hk1 : k1 ≠ .ndarray) :
    WF dim (nonPenArgs k1 m nv v u d) := by
  refine ⟨?_, ?_, ?_, ?_⟩
  · intro a ha
    cases k1 <;> simp [nonPenArgs, mArg, vArg, modArg] at ha hk1 <;> rcases ha with rfl | rfl | rfl | rfl | rfl <;>
      simp [argLetters, innerLetters, hd, reserved]
  · cases k1 <;> simp [nonPenArgs, mArg, vArg, modArg, innerLetters]
  · cases k1 <;> simp [nonPenArgs, mArg, vArg, modArg, innerLetters, argLetters, hd]
  · cases k1 <;> simp [nonPenArgs, mArg, vArg, modArg, hd]

theorem nonPen_letters (k1 : Kind) (m nv v u d : ℕ) (hd : 1 < d) (hk1 : k1 ≠ .ndarray) :
    (nonPenArgs k1 m nv v u d).flatMap argLetters = ['i', 'i', 'j', 'j'] := by
  cases k1 <;> simp [nonPenArgs, mArg, vArg, modArg, argLetters, hd] at hk1 ⊢

theorem form_nonPen (size : Char → ℕ) (env : Env K) (fe : Bool) (c q : ℕ) (k1 : Kind) (m nv v u d : ℕ) (hd : 1 < d) (hk1 : k1 ≠ .ndarray)
    (W : ℕ → ℕ → ℕ → K) :
    form size env fe c q (nonPenArgs k1 m nv v u d) W [] =
      ∑ i ∈ Finset.range (size 'i'), ∑ j ∈ Finset.range (size 'j'), env.mat m c q [0, 0] * (fieldVal env fe v c q (W 1) i * (env.mat nv c q [i] * (fieldVal env fe u c q (W 3) j * env.mat nv c q [j]))) := by
  have hl := nonPen_letters k1 m nv v u d hd hk1
  have h1 : repeatedLetters (nonPenArgs k1 m nv v u d) = ['i', 'j'] := by unfold repeatedLetters; rw [hl]; decide
  have h2 : freeOf (nonPenArgs k1 m nv v u d) = [] := by unfold freeOf; rw [hl]; decide
  unfold form
  rw [h1, h2]
  simp only [sumOver]
  refine Finset.sum_congr rfl fun i _ => ?_
  refine Finset.sum_congr rfl fun j _ => ?_
  cases k1 <;> simp [numbered, nonPenArgs, mArg, vArg, modArg, argVal, hd, assign, List.range_succ, Function.update, mul_assoc] at hk1 ⊢

/-- C89: `de_non_penetration_p`: `∫ c (n · v) (n · u)`; `nv` are the normals. -/
theorem C89_nonPen {fe : Bool} {mode : Mode} {b : B} {env : Env K} {size : Char → ℕ} (k1 : Kind) (m nv v u d : ℕ) (hd : 1 < d) (hk1 : k1 ≠ .ndarray)
    (hnc_v : env.nc v = d) (hnc_u : env.nc u = d)
    (h : build fe 1 none mode (nonPenArgs k1 m nv v u d) = some b) (hs : SizesAgree size env 1 b) (c q₀ i₀ n : ℕ)
    (hn_v : k1 = .virtual → n < env.nn v) :
    evalTerm size env 1 b (headIdx mode c q₀ ++ (virtualIdx (nonPenArgs k1 m nv v u d) i₀ n ++ [])) =
      value mode env (nonPenArgs k1 m nv v u d) c q₀ fun q =>
        ∑ i ∈ Finset.range d, ∑ j ∈ Finset.range d, env.mat m c q [0, 0] * (fieldVal env fe v c q (testDofs env k1 v d c i₀ n) i * (env.mat nv c q [i] * (fieldVal env fe u c q (env.dofs u c) j * env.mat nv c q [j]))) := by
  have hwf := nonPen_wf env.dim k1 m nv v u d hd hk1
  rw [C86_residual h hwf hs (fun _ => by simp [nonPenArgs]) c q₀ i₀ n [] (by
    intro a ha hv
    cases k1 <;> simp [nonPenArgs, mArg, vArg, modArg] at ha hv hk1 <;> rcases ha with rfl | rfl | rfl | rfl | rfl <;> simp_all)]
  congr 1
  funext q
  rw [form_nonPen size env fe c q k1 m nv v u d hd hk1]
  have s_i : size 'i' = d := ((built_sizes h hwf hs (a := vArg k1 v d ['i']) (by simp [nonPenArgs]) hk1 hnc_v).comp rfl hd).trans hnc_v
  have s_j : size 'j' = d := ((built_sizes h hwf hs (a := vArg .state u d ['j']) (by simp [nonPenArgs]) (by simp [vArg, modArg]) hnc_u).comp rfl hd).trans hnc_u
  rw [s_i, s_j]
  cases k1 <;> simp [dofsAt, nonPenArgs, vArg, mArg, modArg, testDofs] at hk1 ⊢

theorem nonPen_builds (fe : Bool) (mode : Mode) (m nv v u d : ℕ) :
    ∃ b, build fe 1 none mode (nonPenArgs .virtual m nv v u (d + 2)) = some b := by
  cases fe <;> cases mode <;> exact ⟨_, rfl⟩

/-- `de_div_grad` without a material: `∫ ∇v : ∇u` (sfepy/terms/terms_multilinear.py:1442-1444). -/
def divGradArgs (k1 : Kind) (v u d : ℕ) : List Arg :=
  [vArg k1 v d ['i', '.', 'j'], vArg .state u d ['i', '.', 'j']]

theorem divGrad_wf (dim : ℕ) (k1 : Kind) (v u d : ℕ) (hd : 1 < d) (hk1 : k1 ≠ .ndarray) :
    WF dim (divGradArgs k1 v u d) := by
  refine ⟨?_, ?_, ?_, ?_⟩
  · intro a ha
    cases k1 <;> simp [divGradArgs, mArg, vArg, modArg] at ha hk1 <;> rcases ha with rfl | rfl <;>
      simp [argLetters, innerLetters, hd, reserved]
  · cases k1 <;> simp [divGradArgs, mArg, vArg, modArg, innerLetters]
  · cases k1 <;> simp [divGradArgs, mArg, vArg, modArg, innerLetters, argLetters, hd]
  · cases k1 <;> simp [divGradArgs, mArg, vArg, modArg, hd]

theorem divGrad_letters (k1 : Kind) (v u d : ℕ) (hd : 1 < d) (hk1 : k1 ≠ .ndarray) :
    (divGradArgs k1 v u d).flatMap argLetters = ['i', 'j', 'i', 'j'] := by
  cases k1 <;> simp [divGradArgs, mArg, vArg, modArg, argLetters, hd] at hk1 ⊢

theorem form_divGrad (size : Char → ℕ) (env : Env K) (fe : Bool) (c q : ℕ) (k1 : Kind) (v u d : ℕ) (hd : 1 < d) (hk1 : k1 ≠ .ndarray)
    (W : ℕ → ℕ → ℕ → K) :
    form size env fe c q (divGradArgs k1 v u d) W [] =
      ∑ i ∈ Finset.range (size 'i'), ∑ j ∈ Finset.range (size 'j'), gradVal env v c q (W 0) i j * gradVal env u c q (W 1) i j := by
  have hl := divGrad_letters k1 v u d hd hk1
  have h1 : repeatedLetters (divGradArgs k1 v u d) = ['i', 'j'] := by unfold repeatedLetters; rw [hl]; decide
  have h2 : freeOf (divGradArgs k1 v u d) = [] := by unfold freeOf; rw [hl]; decide
  unfold form
  rw [h1, h2]
  simp only [sumOver]
  refine Finset.sum_congr rfl fun i _ => ?_
  refine Finset.sum_congr rfl fun j _ => ?_
  cases k1 <;> simp [numbered, divGradArgs, mArg, vArg, modArg, argVal, hd, assign, List.range_succ, Function.update, mul_assoc] at hk1 ⊢

/-- C89: `de_div_grad` without a material: `∫ ∇v : ∇u`. -/
theorem C89_divGrad {fe : Bool} {mode : Mode} {b : B} {env : Env K} {size : Char → ℕ} (k1 : Kind) (v u d : ℕ) (hd : 1 < d) (hk1 : k1 ≠ .ndarray)
    (hnc_v : env.nc v = d) (hnc_u : env.nc u = d)
    (h : build fe 1 none mode (divGradArgs k1 v u d) = some b) (hs : SizesAgree size env 1 b) (c q₀ i₀ n : ℕ)
    (hn_v : k1 = .virtual → n < env.nn v) :
    evalTerm size env 1 b (headIdx mode c q₀ ++ (virtualIdx (divGradArgs k1 v u d) i₀ n ++ [])) =
      value mode env (divGradArgs k1 v u d) c q₀ fun q =>
        ∑ i ∈ Finset.range d, ∑ j ∈ Finset.range env.dim, gradVal env v c q (testDofs env k1 v d c i₀ n) i j * gradVal env u c q (env.dofs u c) i j := by
  have hwf := divGrad_wf env.dim k1 v u d hd hk1
  rw [C86_residual h hwf hs (fun _ => by simp [divGradArgs]) c q₀ i₀ n [] (by
    intro a ha hv
    cases k1 <;> simp [divGradArgs, mArg, vArg, modArg] at ha hv hk1 <;> rcases ha with rfl | rfl <;> simp_all)]
  congr 1
  funext q
  rw [form_divGrad size env fe c q k1 v u d hd hk1]
  have s_i : size 'i' = d := ((built_sizes h hwf hs (a := vArg .state u d ['i', '.', 'j']) (by simp [divGradArgs]) (by simp [vArg, modArg]) hnc_u).comp rfl hd).trans hnc_u
  have s_j : size 'j' = env.dim := (built_sizes h hwf hs (a := vArg .state u d ['i', '.', 'j']) (by simp [divGradArgs]) (by simp [vArg, modArg]) hnc_u).der rfl
  rw [s_i, s_j]
  cases k1 <;> simp [dofsAt, divGradArgs, vArg, mArg, modArg, testDofs] at hk1 ⊢

theorem divGrad_builds (fe : Bool) (mode : Mode) (v u d : ℕ) :
    ∃ b, build fe 1 none mode (divGradArgs .virtual v u (d + 2)) = some b := by
  cases fe <;> cases mode <;> exact ⟨_, rfl⟩

/-- `de_div_grad`: `∫ ν ∇v : ∇u` (sfepy/terms/terms_multilinear.py:1447-1449). -/
def divGradMArgs (k1 : Kind) (m v u d : ℕ) : List Arg :=
  [mArg m ['0', '0'], vArg k1 v d ['i', '.', 'j'], vArg .state u d ['i', '.', 'j']]

theorem divGradM_wf (dim : ℕ) (k1 : Kind) (m v u d : ℕ) (hd : 1 < d) (hk1 : k1 ≠ .ndarray) :
    WF dim (divGradMArgs k1 m v u d) := by
  refine ⟨?_, ?_, ?_, ?_⟩
  · intro a ha
    cases k1 <;> simp [divGradMArgs, mArg, vArg, modArg] at ha hk1 <;> rcases ha with rfl | rfl | rfl <;>
      simp [argLetters, innerLetters, hd, reserved]
  · cases k1 <;> simp [divGradMArgs, mArg, vArg, modArg, innerLetters]
  · cases k1 <;> simp [divGradMArgs, mArg, vArg, modArg, innerLetters, argLetters, hd]
  · cases k1 <;> simp [divGradMArgs, mArg, vArg, modArg, hd]

theorem divGradM_letters (k1 : Kind) (m v u d : ℕ) (hd : 1 < d) (hk1 : k1 ≠ .ndarray) :
    (divGradMArgs k1 m v u d).flatMap argLetters = ['i', 'j', 'i', 'j'] := by
  cases k1 <;> simp [divGradMArgs, mArg, vArg, modArg, argLetters, hd] at hk1 ⊢

theorem form_divGradM (size : Char → ℕ) (env : Env K) (fe : Bool) (c q : ℕ) (k1 : Kind) (m v u d : ℕ) (hd : 1 < d) (hk1 : k1 ≠ .ndarray)
    (W : ℕ → ℕ → ℕ → K) :
    form size env fe c q (divGradMArgs k1 m v u d) W [] =
      ∑ i ∈ Finset.range (size 'i'), ∑ j ∈ Finset.range (size 'j'), env.mat m c q [0, 0] * (gradVal env v c q (W 1) i j * gradVal env u c q (W 2) i j) := by
  have hl := divGradM_letters k1 m v u d hd hk1
  have h1 : repeatedLetters (divGradMArgs k1 m v u d) = ['i', 'j'] := by unfold repeatedLetters; rw [hl]; decide
  have h2 : freeOf (divGradMArgs k1 m v u d) = [] := by unfold freeOf; rw [hl]; decide
  unfold form
  rw [h1, h2]
  simp only [sumOver]
  refine Finset.sum_congr rfl fun i _ => ?_
  refine Finset.sum_congr rfl fun j _ => ?_
  cases k1 <;> simp [numbered, divGradMArgs, mArg, vArg, modArg, argVal, hd, assign, List.range_succ, Function.update, mul_assoc] at hk1 ⊢

/-- C89: `de_div_grad`: `∫ ν ∇v : ∇u`. -/
theorem C89_divGradM {fe : Bool} {mode : Mode} {b : B} {env : Env K} {size : Char → ℕ} (k1 : Kind) (m v u d : ℕ) (hd : 1 < d) (hk1 : k1 ≠ .ndarray)
    (hnc_v : env.nc v = d) (hnc_u : env.nc u = d)
    (h : build fe 1 none mode (divGradMArgs k1 m v u d) = some b) (hs : SizesAgree size env 1 b) (c q₀ i₀ n : ℕ)
    (hn_v : k1 = .virtual → n < env.nn v) :
    evalTerm size env 1 b (headIdx mode c q₀ ++ (virtualIdx (divGradMArgs k1 m v u d) i₀ n ++ [])) =
      value mode env (divGradMArgs k1 m v u d) c q₀ fun q =>
        ∑ i ∈ Finset.range d, ∑ j ∈ Finset.range env.dim, env.mat m c q [0, 0] * (gradVal env v c q (testDofs env k1 v d c i₀ n) i j * gradVal env u c q (env.dofs u c) i j) := by
  have hwf := divGradM_wf env.dim k1 m v u d hd hk1
  rw [C86_residual h hwf hs (fun _ => by simp [divGradMArgs]) c q₀ i₀ n [] (by
    intro a ha hv
    cases k1 <;> simp [divGradMArgs, mArg, vArg, modArg] at ha hv hk1 <;> rcases ha with rfl | rfl | rfl <;> simp_all)]
  congr 1
  funext q
  rw [form_divGradM size env fe c q k1 m v u d hd hk1]
  have s_i : size 'i' = d := ((built_sizes h hwf hs (a := vArg .state u d ['i', '.', 'j']) (by simp [divGradMArgs]) (by simp [vArg, modArg]) hnc_u).comp rfl hd).trans hnc_u
  have s_j : size 'j' = env.dim := (built_sizes h hwf hs (a := vArg .state u d ['i', '.', 'j']) (by simp [divGradMArgs]) (by simp [vArg, modArg]) hnc_u).der rfl
  rw [s_i, s_j]
  cases k1 <;> simp [dofsAt, divGradMArgs, vArg, mArg, modArg, testDofs] at hk1 ⊢

theorem divGradM_builds (fe : Bool) (mode : Mode) (m v u d : ℕ) :
    ∃ b, build fe 1 none mode (divGradMArgs .virtual m v u (d + 2)) = some b := by
  cases fe <;> cases mode <;> exact ⟨_, rfl⟩

/-- `de_stokes_traction`: `∫ ν v · (∇u · n)` (sfepy/terms/terms_multilinear.py:1486-1488). -/
def tractionArgs (k1 : Kind) (m nv v u d : ℕ) : List Arg :=
  [mArg m ['0', '0'], vArg k1 v d ['i'], vArg .state u d ['i', '.', 'j'], mArg nv ['j']]

theorem traction_wf (dim : ℕ) (k1 : Kind) (m nv v u d : ℕ) (hd : 1 < d) (hk1 : k1 ≠ .ndarray) :
    WF dim (tractionArgs k1 m nv v u d) := by
  refine ⟨?_, ?_, ?_, ?_⟩
  · intro a ha
    cases k1 <;> simp [tractionArgs, mArg, vArg, modArg] at ha hk1 <;> rcases ha with rfl | rfl | rfl | rfl <;>
      simp [argLetters, innerLetters, hd, reserved]
  · cases k1 <;> simp [tractionArgs, mArg, vArg, modArg, innerLetters]
  · cases k1 <;> simp [tractionArgs, mArg, vArg, modArg, innerLetters, argLetters, hd]
  · cases k1 <;> simp [tractionArgs, mArg, vArg, modArg, hd]

theorem traction_letters (k1 : Kind) (m nv v u d : ℕ) (hd : 1 < d) (hk1 : k1 ≠ .ndarray) :
    (tractionArgs k1 m nv v u d).flatMap argLetters = ['i', 'i', 'j', 'j'] := by
  cases k1 <;> simp [tractionArgs, mArg, vArg, modArg, argLetters, hd] at hk1 ⊢

theorem form_traction (size : Char → ℕ) (env : Env K) (fe : Bool) (c q : ℕ) (k1 : Kind) (m nv v u d : ℕ) (hd : 1 < d) (hk1 : k1 ≠ .ndarray)
    (W : ℕ → ℕ → ℕ → K) :
    form size env fe c q (tractionArgs k1 m nv v u d) W [] =
      ∑ i ∈ Finset.range (size 'i'), ∑ j ∈ Finset.range (size 'j'), env.mat m c q [0, 0] * (fieldVal env fe v c q (W 1) i * (gradVal env u c q (W 2) i j * env.mat nv c q [j])) := by
  have hl := traction_letters k1 m nv v u d hd hk1
  have h1 : repeatedLetters (tractionArgs k1 m nv v u d) = ['i', 'j'] := by unfold repeatedLetters; rw [hl]; decide
  have h2 : freeOf (tractionArgs k1 m nv v u d) = [] := by unfold freeOf; rw [hl]; decide
  unfold form
  rw [h1, h2]
  simp only [sumOver]
  refine Finset.sum_congr rfl fun i _ => ?_
  refine Finset.sum_congr rfl fun j _ => ?_
  cases k1 <;> simp [numbered, tractionArgs, mArg, vArg, modArg, argVal, hd, assign, List.range_succ, Function.update, mul_assoc] at hk1 ⊢

/-- C89: `de_stokes_traction`: `∫ ν v · (∇u · n)`. -/
theorem C89_traction {fe : Bool} {mode : Mode} {b : B} {env : Env K} {size : Char → ℕ} (k1 : Kind) (m nv v u d : ℕ) (hd : 1 < d) (hk1 : k1 ≠ .ndarray)
    (hnc_v : env.nc v = d) (hnc_u : env.nc u = d)
    (h : build fe 1 none mode (tractionArgs k1 m nv v u d) = some b) (hs : SizesAgree size env 1 b) (c q₀ i₀ n : ℕ)
    (hn_v : k1 = .virtual → n < env.nn v) :
    evalTerm size env 1 b (headIdx mode c q₀ ++ (virtualIdx (tractionArgs k1 m nv v u d) i₀ n ++ [])) =
      value mode env (tractionArgs k1 m nv v u d) c q₀ fun q =>
        ∑ i ∈ Finset.range d, ∑ j ∈ Finset.range env.dim, env.mat m c q [0, 0] * (fieldVal env fe v c q (testDofs env k1 v d c i₀ n) i * (gradVal env u c q (env.dofs u c) i j * env.mat nv c q [j])) := by
  have hwf := traction_wf env.dim k1 m nv v u d hd hk1
  rw [C86_residual h hwf hs (fun _ => by simp [tractionArgs]) c q₀ i₀ n [] (by
    intro a ha hv
    cases k1 <;> simp [tractionArgs, mArg, vArg, modArg] at ha hv hk1 <;> rcases ha with rfl | rfl | rfl | rfl <;> simp_all)]
  congr 1
  funext q
  rw [form_traction size env fe c q k1 m nv v u d hd hk1]
  have s_i : size 'i' = d := ((built_sizes h hwf hs (a := vArg .state u d ['i', '.', 'j']) (by simp [tractionArgs]) (by simp [vArg, modArg]) hnc_u).comp rfl hd).trans hnc_u
  have s_j : size 'j' = env.dim := (built_sizes h hwf hs (a := vArg .state u d ['i', '.', 'j']) (by simp [tractionArgs]) (by simp [vArg, modArg]) hnc_u).der rfl
  rw [s_i, s_j]
  cases k1 <;> simp [dofsAt, tractionArgs, vArg, mArg, modArg, testDofs] at hk1 ⊢

theorem traction_builds (fe : Bool) (mode : Mode) (m nv v u d : ℕ) :
    ∃ b, build fe 1 none mode (tractionArgs .virtual m nv v u (d + 2)) = some b := by
  cases fe <;> cases mode <;> exact ⟨_, rfl⟩

/-- `de_convect` without a coefficient: `∫ ((u · ∇) u) · v` (sfepy/terms/terms_multilinear.py:1518-1521). -/
def convectArgs (k1 : Kind) (v u d : ℕ) : List Arg :=
  [vArg k1 v d ['i'], vArg .state u d ['i', '.', 'j'], vArg .state u d ['j']]

theorem convect_wf (dim : ℕ) (k1 : Kind) (v u d : ℕ) (hd : 1 < d) (hk1 : k1 ≠ .ndarray) :
    WF dim (convectArgs k1 v u d) := by
  refine ⟨?_, ?_, ?_, ?_⟩
  · intro a ha
    cases k1 <;> simp [convectArgs, mArg, vArg, modArg] at ha hk1 <;> rcases ha with rfl | rfl | rfl <;>
      simp [argLetters, innerLetters, hd, reserved]
  · cases k1 <;> simp [convectArgs, mArg, vArg, modArg, innerLetters]
  · cases k1 <;> simp [convectArgs, mArg, vArg, modArg, innerLetters, argLetters, hd]
  · cases k1 <;> simp [convectArgs, mArg, vArg, modArg, hd]

theorem convect_letters (k1 : Kind) (v u d : ℕ) (hd : 1 < d) (hk1 : k1 ≠ .ndarray) :
    (convectArgs k1 v u d).flatMap argLetters = ['i', 'i', 'j', 'j'] := by
  cases k1 <;> simp [convectArgs, mArg, vArg, modArg, argLetters, hd] at hk1 ⊢

theorem form_convect (size : Char → ℕ) (env : Env K) (fe : Bool) (c q : ℕ) (k1 : Kind) (v u d : ℕ) (hd : 1 < d) (hk1 : k1 ≠ .ndarray)
    (W : ℕ → ℕ → ℕ → K) :
    form size env fe c q (convectArgs k1 v u d) W [] =
      ∑ i ∈ Finset.range (size 'i'), ∑ j ∈ Finset.range (size 'j'), fieldVal env fe v c q (W 0) i * (gradVal env u c q (W 1) i j * fieldVal env fe u c q (W 2) j) := by
  have hl := convect_letters k1 v u d hd hk1
  have h1 : repeatedLetters (convectArgs k1 v u d) = ['i', 'j'] := by unfold repeatedLetters; rw [hl]; decide
  have h2 : freeOf (convectArgs k1 v u d) = [] := by unfold freeOf; rw [hl]; decide
  unfold form
  rw [h1, h2]
  simp only [sumOver]
  refine Finset.sum_congr rfl fun i _ => ?_
  refine Finset.sum_congr rfl fun j _ => ?_
  cases k1 <;> simp [numbered, convectArgs, mArg, vArg, modArg, argVal, hd, assign, List.range_succ, Function.update, mul_assoc] at hk1 ⊢

/-- C89: `de_convect` without a coefficient: `∫ ((u · ∇) u) · v`. -/
theorem C89_convect {fe : Bool} {mode : Mode} {b : B} {env : Env K} {size : Char → ℕ} (k1 : Kind) (v u d : ℕ) (hd : 1 < d) (hk1 : k1 ≠ .ndarray)
    (hnc_v : env.nc v = d) (hnc_u : env.nc u = d)
    (h : build fe 1 none mode (convectArgs k1 v u d) = some b) (hs : SizesAgree size env 1 b) (c q₀ i₀ n : ℕ)
    (hn_v : k1 = .virtual → n < env.nn v) :
    evalTerm size env 1 b (headIdx mode c q₀ ++ (virtualIdx (convectArgs k1 v u d) i₀ n ++ [])) =
      value mode env (convectArgs k1 v u d) c q₀ fun q =>
        ∑ i ∈ Finset.range d, ∑ j ∈ Finset.range env.dim, fieldVal env fe v c q (testDofs env k1 v d c i₀ n) i * (gradVal env u c q (env.dofs u c) i j * fieldVal env fe u c q (env.dofs u c) j) := by
  have hwf := convect_wf env.dim k1 v u d hd hk1
  rw [C86_residual h hwf hs (fun _ => by simp [convectArgs]) c q₀ i₀ n [] (by
    intro a ha hv
    cases k1 <;> simp [convectArgs, mArg, vArg, modArg] at ha hv hk1 <;> rcases ha with rfl | rfl | rfl <;> simp_all)]
  congr 1
  funext q
  rw [form_convect size env fe c q k1 v u d hd hk1]
  have s_i : size 'i' = d := ((built_sizes h hwf hs (a := vArg .state u d ['i', '.', 'j']) (by simp [convectArgs]) (by simp [vArg, modArg]) hnc_u).comp rfl hd).trans hnc_u
  have s_j : size 'j' = env.dim := (built_sizes h hwf hs (a := vArg .state u d ['i', '.', 'j']) (by simp [convectArgs]) (by simp [vArg, modArg]) hnc_u).der rfl
  rw [s_i, s_j]
  cases k1 <;> simp [dofsAt, convectArgs, vArg, mArg, modArg, testDofs] at hk1 ⊢

theorem convect_builds (fe : Bool) (mode : Mode) (v u d : ℕ) :
    ∃ b, build fe 1 none mode (convectArgs .virtual v u (d + 2)) = some b := by
  cases fe <;> cases mode <;> exact ⟨_, rfl⟩

/-- `de_convect`: `∫ c ((u · ∇) u) · v` (sfepy/terms/terms_multilinear.py:1524-1527). -/
def convectMArgs (k1 : Kind) (m v u d : ℕ) : List Arg :=
  [mArg m ['0', '0'], vArg k1 v d ['i'], vArg .state u d ['i', '.', 'j'], vArg .state u d ['j']]

theorem convectM_wf (dim : ℕ) (k1 : Kind) (m v u d : ℕ) (hd : 1 < d) (hk1 : k1 ≠ .ndarray) :
    WF dim (convectMArgs k1 m v u d) := by
  refine ⟨?_, ?_, ?_, ?_⟩
  · intro a ha
    cases k1 <;> simp [convectMArgs, mArg, vArg, modArg] at ha hk1 <;> rcases ha with rfl | rfl | rfl | rfl <;>
      simp [argLetters, innerLetters, hd, reserved]
  · cases k1 <;> simp [convectMArgs, mArg, vArg, modArg, innerLetters]
  · cases k1 <;> simp [convectMArgs, mArg, vArg, modArg, innerLetters, argLetters, hd]
  · cases k1 <;> simp [convectMArgs, mArg, vArg, modArg, hd]

theorem convectM_letters (k1 : Kind) (m v u d : ℕ) (hd : 1 < d) (hk1 : k1 ≠ .ndarray) :
    (convectMArgs k1 m v u d).flatMap argLetters = ['i', 'i', 'j', 'j'] := by
  cases k1 <;> simp [convectMArgs, mArg, vArg, modArg, argLetters, hd] at hk1 ⊢

theorem form_convectM (size : Char → ℕ) (env : Env K) (fe : Bool) (c q : ℕ) (k1 : Kind) (m v u d : ℕ) (hd : 1 < d) (hk1 : k1 ≠ .ndarray)
    (W : ℕ → ℕ → ℕ → K) :
    form size env fe c q (convectMArgs k1 m v u d) W [] =
      ∑ i ∈ Finset.range (size 'i'), ∑ j ∈ Finset.range (size 'j'), env.mat m c q [0, 0] * (fieldVal env fe v c q (W 1) i * (gradVal env u c q (W 2) i j * fieldVal env fe u c q (W 3) j)) := by
  have hl := convectM_letters k1 m v u d hd hk1
  have h1 : repeatedLetters (convectMArgs k1 m v u d) = ['i', 'j'] := by unfold repeatedLetters; rw [hl]; decide
  have h2 : freeOf (convectMArgs k1 m v u d) = [] := by unfold freeOf; rw [hl]; decide
  unfold form
  rw [h1, h2]
  simp only [sumOver]
  refine Finset.sum_congr rfl fun i _ => ?_
  refine Finset.sum_congr rfl fun j _ => ?_
  cases k1 <;> simp [numbered, convectMArgs, mArg, vArg, modArg, argVal, hd, assign, List.range_succ, Function.update, mul_assoc] at hk1 ⊢

/-- C89: `de_convect`: `∫ c ((u · ∇) u) · v`. -/
theorem C89_convectM {fe : Bool} {mode : Mode} {b : B} {env : Env K} {size : Char → ℕ} (k1 : Kind) (m v u d : ℕ) (hd : 1 < d) (hk1 : k1 ≠ .ndarray)
    (hnc_v : env.nc v = d) (hnc_u : env.nc u = d)
    (h : build fe 1 none mode (convectMArgs k1 m v u d) = some b) (hs : SizesAgree size env 1 b) (c q₀ i₀ n : ℕ)
    (hn_v : k1 = .virtual → n < env.nn v) :
    evalTerm size env 1 b (headIdx mode c q₀ ++ (virtualIdx (convectMArgs k1 m v u d) i₀ n ++ [])) =
      value mode env (convectMArgs k1 m v u d) c q₀ fun q =>
        ∑ i ∈ Finset.range d, ∑ j ∈ Finset.range env.dim, env.mat m c q [0, 0] * (fieldVal env fe v c q (testDofs env k1 v d c i₀ n) i * (gradVal env u c q (env.dofs u c) i j * fieldVal env fe u c q (env.dofs u c) j)) := by
  have hwf := convectM_wf env.dim k1 m v u d hd hk1
  rw [C86_residual h hwf hs (fun _ => by simp [convectMArgs]) c q₀ i₀ n [] (by
    intro a ha hv
    cases k1 <;> simp [convectMArgs, mArg, vArg, modArg] at ha hv hk1 <;> rcases ha with rfl | rfl | rfl | rfl <;> simp_all)]
  congr 1
  funext q
  rw [form_convectM size env fe c q k1 m v u d hd hk1]
  have s_i : size 'i' = d := ((built_sizes h hwf hs (a := vArg .state u d ['i', '.', 'j']) (by simp [convectMArgs]) (by simp [vArg, modArg]) hnc_u).comp rfl hd).trans hnc_u
  have s_j : size 'j' = env.dim := (built_sizes h hwf hs (a := vArg .state u d ['i', '.', 'j']) (by simp [convectMArgs]) (by simp [vArg, modArg]) hnc_u).der rfl
  rw [s_i, s_j]
  cases k1 <;> simp [dofsAt, convectMArgs, vArg, mArg, modArg, testDofs] at hk1 ⊢

theorem convectM_builds (fe : Bool) (mode : Mode) (m v u d : ℕ) :
    ∃ b, build fe 1 none mode (convectMArgs .virtual m v u (d + 2)) = some b := by
  cases fe <;> cases mode <;> exact ⟨_, rfl⟩

/-- `de_lin_convect`: `∫ ((w · ∇) u) · v` (sfepy/terms/terms_multilinear.py:1552-1554). -/
def linConvectArgs (k1 : Kind) (v u w d : ℕ) : List Arg :=
  [vArg k1 v d ['i'], vArg .state u d ['i', '.', 'j'], vArg .state w d ['j']]

theorem linConvect_wf (dim : ℕ) (k1 : Kind) (v u w d : ℕ) (hd : 1 < d) (hk1 : k1 ≠ .ndarray) :
    WF dim (linConvectArgs k1 v u w d) := by
  refine ⟨?_, ?_, ?_, ?_⟩
  · intro a ha
    cases k1 <;> simp [linConvectArgs, mArg, vArg, modArg] at ha hk1 <;> rcases ha with rfl | rfl | rfl <;>
      simp [argLetters, innerLetters, hd, reserved]
  · cases k1 <;> simp [linConvectArgs, mArg, vArg, modArg, innerLetters]
  · cases k1 <;> simp [linConvectArgs, mArg, vArg, modArg, innerLetters, argLetters, hd]
  · cases k1 <;> simp [linConvectArgs, mArg, vArg, modArg, hd]

theorem linConvect_letters (k1 : Kind) (v u w d : ℕ) (hd : 1 < d) (hk1 : k1 ≠ .ndarray) :
    (linConvectArgs k1 v u w d).flatMap argLetters = ['i', 'i', 'j', 'j'] := by
  cases k1 <;> simp [linConvectArgs, mArg, vArg, modArg, argLetters, hd] at hk1 ⊢

theorem form_linConvect (size : Char → ℕ) (env : Env K) (fe : Bool) (c q : ℕ) (k1 : Kind) (v u w d : ℕ) (hd : 1 < d) (hk1 : k1 ≠ .ndarray)
    (W : ℕ → ℕ → ℕ → K) :
    form size env fe c q (linConvectArgs k1 v u w d) W [] =
      ∑ i ∈ Finset.range (size 'i'), ∑ j ∈ Finset.range (size 'j'), fieldVal env fe v c q (W 0) i * (gradVal env u c q (W 1) i j * fieldVal env fe w c q (W 2) j) := by
  have hl := linConvect_letters k1 v u w d hd hk1
  have h1 : repeatedLetters (linConvectArgs k1 v u w d) = ['i', 'j'] := by unfold repeatedLetters; rw [hl]; decide
  have h2 : freeOf (linConvectArgs k1 v u w d) = [] := by unfold freeOf; rw [hl]; decide
  unfold form
  rw [h1, h2]
  simp only [sumOver]
  refine Finset.sum_congr rfl fun i _ => ?_
  refine Finset.sum_congr rfl fun j _ => ?_
  cases k1 <;> simp [numbered, linConvectArgs, mArg, vArg, modArg, argVal, hd, assign, List.range_succ, Function.update, mul_assoc] at hk1 ⊢

/-- C89: `de_lin_convect`: `∫ ((w · ∇) u) · v`. -/
theorem C89_linConvect {fe : Bool} {mode : Mode} {b : B} {env : Env K} {size : Char → ℕ} (k1 : Kind) (v u w d : ℕ) (hd : 1 < d) (hk1 : k1 ≠ .ndarray)
    (hnc_v : env.nc v = d) (hnc_u : env.nc u = d) (hnc_w : env.nc w = d)
    (h : build fe 1 none mode (linConvectArgs k1 v u w d) = some b) (hs : SizesAgree size env 1 b) (c q₀ i₀ n : ℕ)
    (hn_v : k1 = .virtual → n < env.nn v) :
    evalTerm size env 1 b (headIdx mode c q₀ ++ (virtualIdx (linConvectArgs k1 v u w d) i₀ n ++ [])) =
      value mode env (linConvectArgs k1 v u w d) c q₀ fun q =>
        ∑ i ∈ Finset.range d, ∑ j ∈ Finset.range env.dim, fieldVal env fe v c q (testDofs env k1 v d c i₀ n) i * (gradVal env u c q (env.dofs u c) i j * fieldVal env fe w c q (env.dofs w c) j) := by
  have hwf := linConvect_wf env.dim k1 v u w d hd hk1
  rw [C86_residual h hwf hs (fun _ => by simp [linConvectArgs]) c q₀ i₀ n [] (by
    intro a ha hv
    cases k1 <;> simp [linConvectArgs, mArg, vArg, modArg] at ha hv hk1 <;> rcases ha with rfl | rfl | rfl <;> simp_all)]
  congr 1
  funext q
  rw [form_linConvect size env fe c q k1 v u w d hd hk1]
  have s_i : size 'i' = d := ((built_sizes h hwf hs (a := vArg .state u d ['i', '.', 'j']) (by simp [linConvectArgs]) (by simp [vArg, modArg]) hnc_u).comp rfl hd).trans hnc_u
  have s_j : size 'j' = env.dim := (built_sizes h hwf hs (a := vArg .state u d ['i', '.', 'j']) (by simp [linConvectArgs]) (by simp [vArg, modArg]) hnc_u).der rfl
  rw [s_i, s_j]
  cases k1 <;> simp [dofsAt, linConvectArgs, vArg, mArg, modArg, testDofs] at hk1 ⊢

theorem linConvect_builds (fe : Bool) (mode : Mode) (v u w d : ℕ) :
    ∃ b, build fe 1 none mode (linConvectArgs .virtual v u w (d + 2)) = some b := by
  cases fe <;> cases mode <;> exact ⟨_, rfl⟩

/-- `de_div` without a material: `∫ ∇ · v` (sfepy/terms/terms_multilinear.py:1581-1583). -/
def divArgs (k1 : Kind) (v d : ℕ) : List Arg :=
  [vArg k1 v d ['i', '.', 'i']]

theorem div_wf (dim : ℕ) (k1 : Kind) (v d : ℕ) (hd : 1 < d) (hk1 : k1 ≠ .ndarray) :
    WF dim (divArgs k1 v d) := by
  refine ⟨?_, ?_, ?_, ?_⟩
  · intro a ha
    cases k1 <;> simp [divArgs, mArg, vArg, modArg] at ha hk1 <;> subst ha <;>
      simp [argLetters, innerLetters, hd, reserved]
  · cases k1 <;> simp [divArgs, mArg, vArg, modArg, innerLetters]
  · cases k1 <;> simp [divArgs, mArg, vArg, modArg, innerLetters, argLetters, hd]
  · cases k1 <;> simp [divArgs, mArg, vArg, modArg, hd]

theorem div_letters (k1 : Kind) (v d : ℕ) (hd : 1 < d) (hk1 : k1 ≠ .ndarray) :
    (divArgs k1 v d).flatMap argLetters = ['i', 'i'] := by
  cases k1 <;> simp [divArgs, mArg, vArg, modArg, argLetters, hd] at hk1 ⊢

theorem form_div (size : Char → ℕ) (env : Env K) (fe : Bool) (c q : ℕ) (k1 : Kind) (v d : ℕ) (hd : 1 < d) (hk1 : k1 ≠ .ndarray)
    (W : ℕ → ℕ → ℕ → K) :
    form size env fe c q (divArgs k1 v d) W [] =
      ∑ i ∈ Finset.range (size 'i'), gradVal env v c q (W 0) i i := by
  have hl := div_letters k1 v d hd hk1
  have h1 : repeatedLetters (divArgs k1 v d) = ['i'] := by unfold repeatedLetters; rw [hl]; decide
  have h2 : freeOf (divArgs k1 v d) = [] := by unfold freeOf; rw [hl]; decide
  unfold form
  rw [h1, h2]
  simp only [sumOver]
  refine Finset.sum_congr rfl fun i _ => ?_
  cases k1 <;> simp [numbered, divArgs, mArg, vArg, modArg, argVal, hd, assign, List.range_succ, Function.update, mul_assoc] at hk1 ⊢

/-- C89: `de_div` without a material: `∫ ∇ · v`. -/
theorem C89_div {fe : Bool} {mode : Mode} {b : B} {env : Env K} {size : Char → ℕ} (k1 : Kind) (v d : ℕ) (hd : 1 < d) (hk1 : k1 ≠ .ndarray)
    (hnc_v : env.nc v = d) (hmode : mode ≠ .qp)
    (h : build fe 1 none mode (divArgs k1 v d) = some b) (hs : SizesAgree size env 1 b) (c q₀ i₀ n : ℕ)
    (hn_v : k1 = .virtual → n < env.nn v) :
    evalTerm size env 1 b (headIdx mode c q₀ ++ (virtualIdx (divArgs k1 v d) i₀ n ++ [])) =
      value mode env (divArgs k1 v d) c q₀ fun q =>
        ∑ i ∈ Finset.range env.dim, gradVal env v c q (testDofs env k1 v d c i₀ n) i i := by
  have hwf := div_wf env.dim k1 v d hd hk1
  rw [C86_residual h hwf hs (fun e => absurd e hmode) c q₀ i₀ n [] (by
    intro a ha hv
    cases k1 <;> simp [divArgs, mArg, vArg, modArg] at ha hv hk1 <;> subst ha <;> simp_all)]
  congr 1
  funext q
  rw [form_div size env fe c q k1 v d hd hk1]
  have s_i : size 'i' = env.dim := (built_sizes h hwf hs (a := vArg k1 v d ['i', '.', 'i']) (by simp [divArgs]) hk1 hnc_v).der rfl
  rw [s_i]
  cases k1 <;> simp [dofsAt, divArgs, vArg, mArg, modArg, testDofs] at hk1 ⊢

theorem div_builds (fe : Bool) (mode : Mode) (v d : ℕ) :
    ∃ b, build fe 1 none mode (divArgs .virtual v (d + 2)) = some b := by
  cases fe <;> cases mode <;> exact ⟨_, rfl⟩

/-- `de_div`: `∫ c ∇ · v` (sfepy/terms/terms_multilinear.py:1586-1588). -/
def divMArgs (k1 : Kind) (m v d : ℕ) : List Arg :=
  [mArg m ['0', '0'], vArg k1 v d ['i', '.', 'i']]

theorem divM_wf (dim : ℕ) (k1 : Kind) (m v d : ℕ) (hd : 1 < d) (hk1 : k1 ≠ .ndarray) :
    WF dim (divMArgs k1 m v d) := by
  refine ⟨?_, ?_, ?_, ?_⟩
  · intro a ha
    cases k1 <;> simp [divMArgs, mArg, vArg, modArg] at ha hk1 <;> rcases ha with rfl | rfl <;>
      simp [argLetters, innerLetters, hd, reserved]
  · cases k1 <;> simp [divMArgs, mArg, vArg, modArg, innerLetters]
  · cases k1 <;> simp [divMArgs, mArg, vArg, modArg, innerLetters, argLetters, hd]
  · cases k1 <;> simp [divMArgs, mArg, vArg, modArg, hd]

theorem divM_letters (k1 : Kind) (m v d : ℕ) (hd : 1 < d) (hk1 : k1 ≠ .ndarray) :
    (divMArgs k1 m v d).flatMap argLetters = ['i', 'i'] := by
  cases k1 <;> simp [divMArgs, mArg, vArg, modArg, argLetters, hd] at hk1 ⊢

theorem form_divM (size : Char → ℕ) (env : Env K) (fe : Bool) (c q : ℕ) (k1 : Kind) (m v d : ℕ) (hd : 1 < d) (hk1 : k1 ≠ .ndarray)
    (W : ℕ → ℕ → ℕ → K) :
    form size env fe c q (divMArgs k1 m v d) W [] =
      ∑ i ∈ Finset.range (size 'i'), env.mat m c q [0, 0] * gradVal env v c q (W 1) i i := by
  have hl := divM_letters k1 m v d hd hk1
  have h1 : repeatedLetters (divMArgs k1 m v d) = ['i'] := by unfold repeatedLetters; rw [hl]; decide
  have h2 : freeOf (divMArgs k1 m v d) = [] := by unfold freeOf; rw [hl]; decide
  unfold form
  rw [h1, h2]
  simp only [sumOver]
  refine Finset.sum_congr rfl fun i _ => ?_
  cases k1 <;> simp [numbered, divMArgs, mArg, vArg, modArg, argVal, hd, assign, List.range_succ, Function.update, mul_assoc] at hk1 ⊢

/-- C89: `de_div`: `∫ c ∇ · v`. -/
theorem C89_divM {fe : Bool} {mode : Mode} {b : B} {env : Env K} {size : Char → ℕ} (k1 : Kind) (m v d : ℕ) (hd : 1 < d) (hk1 : k1 ≠ .ndarray)
    (hnc_v : env.nc v = d)
    (h : build fe 1 none mode (divMArgs k1 m v d) = some b) (hs : SizesAgree size env 1 b) (c q₀ i₀ n : ℕ)
    (hn_v : k1 = .virtual → n < env.nn v) :
    evalTerm size env 1 b (headIdx mode c q₀ ++ (virtualIdx (divMArgs k1 m v d) i₀ n ++ [])) =
      value mode env (divMArgs k1 m v d) c q₀ fun q =>
        ∑ i ∈ Finset.range env.dim, env.mat m c q [0, 0] * gradVal env v c q (testDofs env k1 v d c i₀ n) i i := by
  have hwf := divM_wf env.dim k1 m v d hd hk1
  rw [C86_residual h hwf hs (fun _ => by simp [divMArgs]) c q₀ i₀ n [] (by
    intro a ha hv
    cases k1 <;> simp [divMArgs, mArg, vArg, modArg] at ha hv hk1 <;> rcases ha with rfl | rfl <;> simp_all)]
  congr 1
  funext q
  rw [form_divM size env fe c q k1 m v d hd hk1]
  have s_i : size 'i' = env.dim := (built_sizes h hwf hs (a := vArg k1 v d ['i', '.', 'i']) (by simp [divMArgs]) hk1 hnc_v).der rfl
  rw [s_i]
  cases k1 <;> simp [dofsAt, divMArgs, vArg, mArg, modArg, testDofs] at hk1 ⊢

theorem divM_builds (fe : Bool) (mode : Mode) (m v d : ℕ) :
    ∃ b, build fe 1 none mode (divMArgs .virtual m v (d + 2)) = some b := by
  cases fe <;> cases mode <;> exact ⟨_, rfl⟩

/-- `de_grad` without a material: `∫ ∇v` (sfepy/terms/terms_multilinear.py:1618-1620). -/
def gradArgs (v d : ℕ) : List Arg :=
  [vArg .state v d ['i', '.', 'j']]

theorem grad_wf (dim : ℕ) (v d : ℕ) (hd : 1 < d)  :
    WF dim (gradArgs v d) := by
  refine ⟨?_, ?_, ?_, ?_⟩
  · intro a ha
    simp [gradArgs, mArg, vArg, modArg] at ha  <;> subst ha <;>
      simp [argLetters, innerLetters, hd, reserved]
  · simp [gradArgs, mArg, vArg, modArg, innerLetters]
  · simp [gradArgs, mArg, vArg, modArg, innerLetters, argLetters, hd]
  · simp [gradArgs, mArg, vArg, modArg, hd]

theorem grad_letters (v d : ℕ) (hd : 1 < d)  :
    (gradArgs v d).flatMap argLetters = ['i', 'j'] := by
  simp [gradArgs, mArg, vArg, modArg, argLetters, hd]

theorem form_grad (size : Char → ℕ) (env : Env K) (fe : Bool) (c q : ℕ) (v d : ℕ) (hd : 1 < d) 
    (W : ℕ → ℕ → ℕ → K) (a0 a1 : ℕ) :
    form size env fe c q (gradArgs v d) W [a0, a1] =
      gradVal env v c q (W 0) a0 a1 := by
  have hl := grad_letters v d hd
  have h1 : repeatedLetters (gradArgs v d) = [] := by unfold repeatedLetters; rw [hl]; decide
  have h2 : freeOf (gradArgs v d) = ['i', 'j'] := by unfold freeOf; rw [hl]; decide
  unfold form
  rw [h1, h2]
  simp only [sumOver]
  simp [numbered, gradArgs, mArg, vArg, modArg, argVal, hd, assign, List.range_succ, Function.update, mul_assoc]

/-- C89: `de_grad` without a material: `∫ ∇v`. -/
theorem C89_grad {fe : Bool} {mode : Mode} {b : B} {env : Env K} {size : Char → ℕ} (v d : ℕ) (hd : 1 < d) 
    (hnc_v : env.nc v = d) (hmode : mode ≠ .qp)
    (h : build fe 1 none mode (gradArgs v d) = some b) (hs : SizesAgree size env 1 b) (c q₀ i₀ n : ℕ) (a0 a1 : ℕ)
     :
    evalTerm size env 1 b (headIdx mode c q₀ ++ (virtualIdx (gradArgs v d) i₀ n ++ [a0, a1])) =
      value mode env (gradArgs v d) c q₀ fun q =>
        gradVal env v c q (env.dofs v c) a0 a1 := by
  have hwf := grad_wf env.dim v d hd 
  rw [C86_residual h hwf hs (fun e => absurd e hmode) c q₀ i₀ n [a0, a1] (by
    intro a ha hv
    simp [gradArgs, mArg, vArg, modArg] at ha hv  <;> subst ha <;> simp_all)]
  congr 1
  funext q
  rw [form_grad size env fe c q v d hd ]
  simp [dofsAt, gradArgs, vArg, mArg, modArg, testDofs]

theorem grad_builds (fe : Bool) (mode : Mode) (v d : ℕ) :
    ∃ b, build fe 1 none mode (gradArgs v (d + 2)) = some b := by
  cases fe <;> cases mode <;> exact ⟨_, rfl⟩

/-- `de_grad` with a scalar: `∫ c ∇v` (sfepy/terms/terms_multilinear.py:1623-1634). -/
def gradMArgs (m v d : ℕ) : List Arg :=
  [mArg m ['0', '0'], vArg .state v d ['i', '.', 'j']]

theorem gradM_wf (dim : ℕ) (m v d : ℕ) (hd : 1 < d)  :
    WF dim (gradMArgs m v d) := by
  refine ⟨?_, ?_, ?_, ?_⟩
  · intro a ha
    simp [gradMArgs, mArg, vArg, modArg] at ha  <;> rcases ha with rfl | rfl <;>
      simp [argLetters, innerLetters, hd, reserved]
  · simp [gradMArgs, mArg, vArg, modArg, innerLetters]
  · simp [gradMArgs, mArg, vArg, modArg, innerLetters, argLetters, hd]
  · simp [gradMArgs, mArg, vArg, modArg, hd]

theorem gradM_letters (m v d : ℕ) (hd : 1 < d)  :
    (gradMArgs m v d).flatMap argLetters = ['i', 'j'] := by
  simp [gradMArgs, mArg, vArg, modArg, argLetters, hd]

theorem form_gradM (size : Char → ℕ) (env : Env K) (fe : Bool) (c q : ℕ) (m v d : ℕ) (hd : 1 < d) 
    (W : ℕ → ℕ → ℕ → K) (a0 a1 : ℕ) :
    form size env fe c q (gradMArgs m v d) W [a0, a1] =
      env.mat m c q [0, 0] * gradVal env v c q (W 1) a0 a1 := by
  have hl := gradM_letters m v d hd
  have h1 : repeatedLetters (gradMArgs m v d) = [] := by unfold repeatedLetters; rw [hl]; decide
  have h2 : freeOf (gradMArgs m v d) = ['i', 'j'] := by unfold freeOf; rw [hl]; decide
  unfold form
  rw [h1, h2]
  simp only [sumOver]
  simp [numbered, gradMArgs, mArg, vArg, modArg, argVal, hd, assign, List.range_succ, Function.update, mul_assoc]

/-- C89: `de_grad` with a scalar: `∫ c ∇v`. -/
theorem C89_gradM {fe : Bool} {mode : Mode} {b : B} {env : Env K} {size : Char → ℕ} (m v d : ℕ) (hd : 1 < d) 
    (hnc_v : env.nc v = d)
    (h : build fe 1 none mode (gradMArgs m v d) = some b) (hs : SizesAgree size env 1 b) (c q₀ i₀ n : ℕ) (a0 a1 : ℕ)
     :
    evalTerm size env 1 b (headIdx mode c q₀ ++ (virtualIdx (gradMArgs m v d) i₀ n ++ [a0, a1])) =
      value mode env (gradMArgs m v d) c q₀ fun q =>
        env.mat m c q [0, 0] * gradVal env v c q (env.dofs v c) a0 a1 := by
  have hwf := gradM_wf env.dim m v d hd 
  rw [C86_residual h hwf hs (fun _ => by simp [gradMArgs]) c q₀ i₀ n [a0, a1] (by
    intro a ha hv
    simp [gradMArgs, mArg, vArg, modArg] at ha hv  <;> rcases ha with rfl | rfl <;> simp_all)]
  congr 1
  funext q
  rw [form_gradM size env fe c q m v d hd ]
  simp [dofsAt, gradMArgs, vArg, mArg, modArg, testDofs]

theorem gradM_builds (fe : Bool) (mode : Mode) (m v d : ℕ) :
    ∃ b, build fe 1 none mode (gradMArgs m v (d + 2)) = some b := by
  cases fe <;> cases mode <;> exact ⟨_, rfl⟩

/-- `de_grad` with a vector or a matrix: the entry `(i, k)` is `∫ Σ_j c_jk ∂v_i/∂x_j` (sfepy/terms/terms_multilinear.py:1626-1634). -/
def gradMMArgs (m v d : ℕ) : List Arg :=
  [mArg m ['j', 'k'], vArg .state v d ['i', '.', 'j']]

theorem gradMM_wf (dim : ℕ) (m v d : ℕ) (hd : 1 < d)  :
    WF dim (gradMMArgs m v d) := by
  refine ⟨?_, ?_, ?_, ?_⟩
  · intro a ha
    simp [gradMMArgs, mArg, vArg, modArg] at ha  <;> rcases ha with rfl | rfl <;>
      simp [argLetters, innerLetters, hd, reserved]
  · simp [gradMMArgs, mArg, vArg, modArg, innerLetters]
  · simp [gradMMArgs, mArg, vArg, modArg, innerLetters, argLetters, hd]
  · simp [gradMMArgs, mArg, vArg, modArg, hd]

theorem gradMM_letters (m v d : ℕ) (hd : 1 < d)  :
    (gradMMArgs m v d).flatMap argLetters = ['j', 'k', 'i', 'j'] := by
  simp [gradMMArgs, mArg, vArg, modArg, argLetters, hd]

theorem form_gradMM (size : Char → ℕ) (env : Env K) (fe : Bool) (c q : ℕ) (m v d : ℕ) (hd : 1 < d) 
    (W : ℕ → ℕ → ℕ → K) (a0 a1 : ℕ) :
    form size env fe c q (gradMMArgs m v d) W [a0, a1] =
      ∑ j ∈ Finset.range (size 'j'), env.mat m c q [j, a1] * gradVal env v c q (W 1) a0 j := by
  have hl := gradMM_letters m v d hd
  have h1 : repeatedLetters (gradMMArgs m v d) = ['j'] := by unfold repeatedLetters; rw [hl]; decide
  have h2 : freeOf (gradMMArgs m v d) = ['i', 'k'] := by unfold freeOf; rw [hl]; decide
  unfold form
  rw [h1, h2]
  simp only [sumOver]
  refine Finset.sum_congr rfl fun j _ => ?_
  simp [numbered, gradMMArgs, mArg, vArg, modArg, argVal, hd, assign, List.range_succ, Function.update, mul_assoc]

/-- C89: `de_grad` with a vector or a matrix: the entry `(i, k)` is `∫ Σ_j c_jk ∂v_i/∂x_j`. -/
theorem C89_gradMM {fe : Bool} {mode : Mode} {b : B} {env : Env K} {size : Char → ℕ} (m v d : ℕ) (hd : 1 < d) 
    (hnc_v : env.nc v = d)
    (h : build fe 1 none mode (gradMMArgs m v d) = some b) (hs : SizesAgree size env 1 b) (c q₀ i₀ n : ℕ) (a0 a1 : ℕ)
     :
    evalTerm size env 1 b (headIdx mode c q₀ ++ (virtualIdx (gradMMArgs m v d) i₀ n ++ [a0, a1])) =
      value mode env (gradMMArgs m v d) c q₀ fun q =>
        ∑ j ∈ Finset.range env.dim, env.mat m c q [j, a1] * gradVal env v c q (env.dofs v c) a0 j := by
  have hwf := gradMM_wf env.dim m v d hd 
  rw [C86_residual h hwf hs (fun _ => by simp [gradMMArgs]) c q₀ i₀ n [a0, a1] (by
    intro a ha hv
    simp [gradMMArgs, mArg, vArg, modArg] at ha hv  <;> rcases ha with rfl | rfl <;> simp_all)]
  congr 1
  funext q
  rw [form_gradMM size env fe c q m v d hd ]
  have s_j : size 'j' = env.dim := (built_sizes h hwf hs (a := vArg .state v d ['i', '.', 'j']) (by simp [gradMMArgs]) (by simp [vArg, modArg]) hnc_v).der rfl
  rw [s_j]
  simp [dofsAt, gradMMArgs, vArg, mArg, modArg, testDofs]

theorem gradMM_builds (fe : Bool) (mode : Mode) (m v d : ℕ) :
    ∃ b, build fe 1 none mode (gradMMArgs m v (d + 2)) = some b := by
  cases fe <;> cases mode <;> exact ⟨_, rfl⟩

/-- `de_stokes` without a coefficient: `∫ p ∇ · v`, `∫ q ∇ · u` (sfepy/terms/terms_multilinear.py:1675-1677). -/
def stokesArgs (k1 k2 : Kind) (v u d : ℕ) : List Arg :=
  [vArg k1 v d ['i', '.', 'i'], vArg k2 u 1 ['0']]

theorem stokes_wf (dim : ℕ) (k1 k2 : Kind) (v u d : ℕ) (hd : 1 < d) (hk1 : k1 ≠ .ndarray) (hk2 : k2 ≠ .ndarray) :
    WF dim (stokesArgs k1 k2 v u d) := by
  refine ⟨?_, ?_, ?_, ?_⟩
  · intro a ha
    cases k1 <;> cases k2 <;> simp [stokesArgs, mArg, vArg, modArg] at ha hk1 hk2 <;> rcases ha with rfl | rfl <;>
      simp [argLetters, innerLetters, hd, reserved]
  · cases k1 <;> cases k2 <;> simp [stokesArgs, mArg, vArg, modArg, innerLetters]
  · cases k1 <;> cases k2 <;> simp [stokesArgs, mArg, vArg, modArg, innerLetters, argLetters, hd]
  · cases k1 <;> cases k2 <;> simp [stokesArgs, mArg, vArg, modArg, hd]

theorem stokes_letters (k1 k2 : Kind) (v u d : ℕ) (hd : 1 < d) (hk1 : k1 ≠ .ndarray) (hk2 : k2 ≠ .ndarray) :
    (stokesArgs k1 k2 v u d).flatMap argLetters = ['i', 'i'] := by
  cases k1 <;> cases k2 <;> simp [stokesArgs, mArg, vArg, modArg, argLetters, hd] at hk1 hk2 ⊢

theorem form_stokes (size : Char → ℕ) (env : Env K) (fe : Bool) (c q : ℕ) (k1 k2 : Kind) (v u d : ℕ) (hd : 1 < d) (hk1 : k1 ≠ .ndarray) (hk2 : k2 ≠ .ndarray)
    (W : ℕ → ℕ → ℕ → K) :
    form size env fe c q (stokesArgs k1 k2 v u d) W [] =
      ∑ i ∈ Finset.range (size 'i'), gradVal env v c q (W 0) i i * fieldVal env fe u c q (W 1) 0 := by
  have hl := stokes_letters k1 k2 v u d hd hk1 hk2
  have h1 : repeatedLetters (stokesArgs k1 k2 v u d) = ['i'] := by unfold repeatedLetters; rw [hl]; decide
  have h2 : freeOf (stokesArgs k1 k2 v u d) = [] := by unfold freeOf; rw [hl]; decide
  unfold form
  rw [h1, h2]
  simp only [sumOver]
  refine Finset.sum_congr rfl fun i _ => ?_
  cases k1 <;> cases k2 <;> simp [numbered, stokesArgs, mArg, vArg, modArg, argVal, hd, assign, List.range_succ, Function.update, mul_assoc] at hk1 hk2 ⊢

/-- C89: `de_stokes` without a coefficient: `∫ p ∇ · v`, `∫ q ∇ · u`. -/
theorem C89_stokes {fe : Bool} {mode : Mode} {b : B} {env : Env K} {size : Char → ℕ} (k1 k2 : Kind) (v u d : ℕ) (hd : 1 < d) (hk1 : k1 ≠ .ndarray) (hk2 : k2 ≠ .ndarray)
    (hnc_v : env.nc v = d) (hnc_u : env.nc u = 1)
    (h : build fe 1 none mode (stokesArgs k1 k2 v u d) = some b) (hs : SizesAgree size env 1 b) (c q₀ i₀ n : ℕ)
    (hn_v : k1 = .virtual → n < env.nn v) (hn_u : k2 = .virtual → n < env.nn u) :
    evalTerm size env 1 b (headIdx mode c q₀ ++ (virtualIdx (stokesArgs k1 k2 v u d) i₀ n ++ [])) =
      value mode env (stokesArgs k1 k2 v u d) c q₀ fun q =>
        ∑ i ∈ Finset.range env.dim, gradVal env v c q (testDofs env k1 v d c i₀ n) i i * fieldVal env fe u c q (testDofs env k2 u 1 c i₀ n) 0 := by
  have hwf := stokes_wf env.dim k1 k2 v u d hd hk1 hk2
  rw [C86_residual h hwf hs (fun _ => by simp [stokesArgs]) c q₀ i₀ n [] (by
    intro a ha hv
    cases k1 <;> cases k2 <;> simp [stokesArgs, mArg, vArg, modArg] at ha hv hk1 hk2 <;> rcases ha with rfl | rfl <;> simp_all)]
  congr 1
  funext q
  rw [form_stokes size env fe c q k1 k2 v u d hd hk1 hk2]
  have s_i : size 'i' = env.dim := (built_sizes h hwf hs (a := vArg k1 v d ['i', '.', 'i']) (by simp [stokesArgs]) hk1 hnc_v).der rfl
  rw [s_i]
  cases k1 <;> cases k2 <;> simp [dofsAt, stokesArgs, vArg, mArg, modArg, testDofs] at hk1 hk2 ⊢

theorem stokes_builds (fe : Bool) (mode : Mode) (v u d : ℕ) :
    ∃ b, build fe 1 none mode (stokesArgs .virtual .state v u (d + 2)) = some b := by
  cases fe <;> cases mode <;> exact ⟨_, rfl⟩

/-- `de_stokes`: `∫ c p ∇ · v`, `∫ c q ∇ · u` (sfepy/terms/terms_multilinear.py:1680-1682). -/
def stokesMArgs (k1 k2 : Kind) (m v u d : ℕ) : List Arg :=
  [mArg m ['0', '0'], vArg k1 v d ['i', '.', 'i'], vArg k2 u 1 ['0']]

theorem stokesM_wf (dim : ℕ) (k1 k2 : Kind) (m v u d : ℕ) (hd : 1 < d) (hk1 : k1 ≠ .ndarray) (hk2 : k2 ≠ .ndarray) :
    WF dim (stokesMArgs k1 k2 m v u d) := by
  refine ⟨?_, ?_, ?_, ?_⟩
  · intro a ha
    cases k1 <;> cases k2 <;> simp [stokesMArgs, mArg, vArg, modArg] at ha hk1 hk2 <;> rcases ha with rfl | rfl | rfl <;>
      simp [argLetters, innerLetters, hd, reserved]
  · cases k1 <;> cases k2 <;> simp [stokesMArgs, mArg, vArg, modArg, innerLetters]
  · cases k1 <;> cases k2 <;> simp [stokesMArgs, mArg, vArg, modArg, innerLetters, argLetters, hd]
  · cases k1 <;> cases k2 <;> simp [stokesMArgs, mArg, vArg, modArg, hd]

theorem stokesM_letters (k1 k2 : Kind) (m v u d : ℕ) (hd : 1 < d) (hk1 : k1 ≠ .ndarray) (hk2 : k2 ≠ .ndarray) :
    (stokesMArgs k1 k2 m v u d).flatMap argLetters = ['i', 'i'] := by
  cases k1 <;> cases k2 <;> simp [stokesMArgs, mArg, vArg, modArg, argLetters, hd] at hk1 hk2 ⊢

theorem form_stokesM (size : Char → ℕ) (env : Env K) (fe : Bool) (c q : ℕ) (k1 k2 : Kind) (m v u d : ℕ) (hd : 1 < d) (hk1 : k1 ≠ .ndarray) (hk2 : k2 ≠ .ndarray)
    (W : ℕ → ℕ → ℕ → K) :
    form size env fe c q (stokesMArgs k1 k2 m v u d) W [] =
      ∑ i ∈ Finset.range (size 'i'), env.mat m c q [0, 0] * (gradVal env v c q (W 1) i i * fieldVal env fe u c q (W 2) 0) := by
  have hl := stokesM_letters k1 k2 m v u d hd hk1 hk2
  have h1 : repeatedLetters (stokesMArgs k1 k2 m v u d) = ['i'] := by unfold repeatedLetters; rw [hl]; decide
  have h2 : freeOf (stokesMArgs k1 k2 m v u d) = [] := by unfold freeOf; rw [hl]; decide
  unfold form
  rw [h1, h2]
  simp only [sumOver]
  refine Finset.sum_congr rfl fun i _ => ?_
  cases k1 <;> cases k2 <;> simp [numbered, stokesMArgs, mArg, vArg, modArg, argVal, hd, assign, List.range_succ, Function.update, mul_assoc] at hk1 hk2 ⊢

/-- C89: `de_stokes`: `∫ c p ∇ · v`, `∫ c q ∇ · u`. -/
theorem C89_stokesM {fe : Bool} {mode : Mode} {b : B} {env : Env K} {size : Char → ℕ} (k1 k2 : Kind) (m v u d : ℕ) (hd : 1 < d) (hk1 : k1 ≠ .ndarray) (hk2 : k2 ≠ .ndarray)
    (hnc_v : env.nc v = d) (hnc_u : env.nc u = 1)
    (h : build fe 1 none mode (stokesMArgs k1 k2 m v u d) = some b) (hs : SizesAgree size env 1 b) (c q₀ i₀ n : ℕ)
    (hn_v : k1 = .virtual → n < env.nn v) (hn_u : k2 = .virtual → n < env.nn u) :
    evalTerm size env 1 b (headIdx mode c q₀ ++ (virtualIdx (stokesMArgs k1 k2 m v u d) i₀ n ++ [])) =
      value mode env (stokesMArgs k1 k2 m v u d) c q₀ fun q =>
        ∑ i ∈ Finset.range env.dim, env.mat m c q [0, 0] * (gradVal env v c q (testDofs env k1 v d c i₀ n) i i * fieldVal env fe u c q (testDofs env k2 u 1 c i₀ n) 0) := by
  have hwf := stokesM_wf env.dim k1 k2 m v u d hd hk1 hk2
  rw [C86_residual h hwf hs (fun _ => by simp [stokesMArgs]) c q₀ i₀ n [] (by
    intro a ha hv
    cases k1 <;> cases k2 <;> simp [stokesMArgs, mArg, vArg, modArg] at ha hv hk1 hk2 <;> rcases ha with rfl | rfl | rfl <;> simp_all)]
  congr 1
  funext q
  rw [form_stokesM size env fe c q k1 k2 m v u d hd hk1 hk2]
  have s_i : size 'i' = env.dim := (built_sizes h hwf hs (a := vArg k1 v d ['i', '.', 'i']) (by simp [stokesMArgs]) hk1 hnc_v).der rfl
  rw [s_i]
  cases k1 <;> cases k2 <;> simp [dofsAt, stokesMArgs, vArg, mArg, modArg, testDofs] at hk1 hk2 ⊢

theorem stokesM_builds (fe : Bool) (mode : Mode) (m v u d : ℕ) :
    ∃ b, build fe 1 none mode (stokesMArgs .virtual .state m v u (d + 2)) = some b := by
  cases fe <;> cases mode <;> exact ⟨_, rfl⟩

/-- `de_lin_elastic`: `∫ D_IK e_I(v) e_K(u)`, strains in the vector storage (sfepy/terms/terms_multilinear.py:1712-1715). -/
def elasticArgs (k1 : Kind) (m v u d : ℕ) : List Arg :=
  [mArg m ['I', 'K'], modArg k1 v d ['I', ':', 'j'] .s, modArg .state u d ['K', ':', 'l'] .s]

theorem elastic_wf (dim : ℕ) (k1 : Kind) (m v u d : ℕ) (hd : 1 < d) (hdim : dim = 2 ∨ dim = 3) (hk1 : k1 ≠ .ndarray) :
    WF dim (elasticArgs k1 m v u d) := by
  refine ⟨?_, ?_, ?_, ?_⟩
  · intro a ha
    cases k1 <;> simp [elasticArgs, mArg, vArg, modArg] at ha hk1 <;> rcases ha with rfl | rfl | rfl <;>
      simp [argLetters, innerLetters, hd, reserved]
  · cases k1 <;> simp [elasticArgs, mArg, vArg, modArg, innerLetters]
  · cases k1 <;> simp [elasticArgs, mArg, vArg, modArg, innerLetters, argLetters, hd]
  · cases k1 <;> simp [elasticArgs, mArg, vArg, modArg, hd, hdim]

theorem elastic_letters (k1 : Kind) (m v u d : ℕ) (hd : 1 < d) (hk1 : k1 ≠ .ndarray) :
    (elasticArgs k1 m v u d).flatMap argLetters = ['I', 'K', 'I', 'K'] := by
  cases k1 <;> simp [elasticArgs, mArg, vArg, modArg, argLetters, hd] at hk1 ⊢

theorem form_elastic (size : Char → ℕ) (env : Env K) (fe : Bool) (c q : ℕ) (k1 : Kind) (m v u d : ℕ) (hd : 1 < d) (hk1 : k1 ≠ .ndarray)
    (W : ℕ → ℕ → ℕ → K) :
    form size env fe c q (elasticArgs k1 m v u d) W [] =
      ∑ I ∈ Finset.range (size 'I'), ∑ K ∈ Finset.range (size 'K'), env.mat m c q [I, K] * (strainVec env.dim (gradVal env v c q (W 1)) I * strainVec env.dim (gradVal env u c q (W 2)) K) := by
  have hl := elastic_letters k1 m v u d hd hk1
  have h1 : repeatedLetters (elasticArgs k1 m v u d) = ['I', 'K'] := by unfold repeatedLetters; rw [hl]; decide
  have h2 : freeOf (elasticArgs k1 m v u d) = [] := by unfold freeOf; rw [hl]; decide
  unfold form
  rw [h1, h2]
  simp only [sumOver]
  refine Finset.sum_congr rfl fun I _ => ?_
  refine Finset.sum_congr rfl fun K _ => ?_
  cases k1 <;> simp [numbered, elasticArgs, mArg, vArg, modArg, argVal, hd, assign, List.range_succ, Function.update, mul_assoc] at hk1 ⊢

/-- C89: `de_lin_elastic`: `∫ D_IK e_I(v) e_K(u)`, strains in the vector storage. -/
theorem C89_elastic {fe : Bool} {mode : Mode} {b : B} {env : Env K} {size : Char → ℕ} (k1 : Kind) (m v u d : ℕ) (hd : 1 < d) (hdim : env.dim = 2 ∨ env.dim = 3) (hk1 : k1 ≠ .ndarray)
    (hnc_v : env.nc v = d) (hnc_u : env.nc u = d)
    (h : build fe 1 none mode (elasticArgs k1 m v u d) = some b) (hs : SizesAgree size env 1 b) (c q₀ i₀ n : ℕ)
    (hn_v : k1 = .virtual → n < env.nn v ∧ i₀ < env.dim) :
    evalTerm size env 1 b (headIdx mode c q₀ ++ (virtualIdx (elasticArgs k1 m v u d) i₀ n ++ [])) =
      value mode env (elasticArgs k1 m v u d) c q₀ fun q =>
        ∑ I ∈ Finset.range ((env.dim + 1) * env.dim / 2), ∑ K ∈ Finset.range ((env.dim + 1) * env.dim / 2), env.mat m c q [I, K] * (strainVec env.dim (gradVal env v c q (testDofs env k1 v d c i₀ n)) I * strainVec env.dim (gradVal env u c q (env.dofs u c)) K) := by
  have hwf := elastic_wf env.dim k1 m v u d hd hdim hk1
  rw [C86_residual h hwf hs (fun _ => by simp [elasticArgs]) c q₀ i₀ n [] (by
    intro a ha hv
    cases k1 <;> simp [elasticArgs, mArg, vArg, modArg] at ha hv hk1 <;> rcases ha with rfl | rfl | rfl <;> simp_all)]
  congr 1
  funext q
  rw [form_elastic size env fe c q k1 m v u d hd hk1]
  have s_I : size 'I' = (env.dim + 1) * env.dim / 2 := (built_sizes h hwf hs (a := modArg k1 v d ['I', ':', 'j'] .s) (by simp [elasticArgs]) hk1 hnc_v).sym rfl
  have s_K : size 'K' = (env.dim + 1) * env.dim / 2 := (built_sizes h hwf hs (a := modArg .state u d ['K', ':', 'l'] .s) (by simp [elasticArgs]) (by simp [vArg, modArg]) hnc_u).sym rfl
  rw [s_I, s_K]
  cases k1 <;> simp [dofsAt, elasticArgs, vArg, mArg, modArg, testDofs] at hk1 ⊢

theorem elastic_builds (fe : Bool) (mode : Mode) (m v u d : ℕ) :
    ∃ b, build fe 1 none mode (elasticArgs .virtual m v u (d + 2)) = some b := by
  cases fe <;> cases mode <;> exact ⟨_, rfl⟩

/-- `de_cauchy_stress`: `∫ D_IK e_K(w)` (sfepy/terms/terms_multilinear.py:1740-1742). -/
def cauchyArgs (m u d : ℕ) : List Arg :=
  [mArg m ['I', 'K'], modArg .state u d ['K', ':', 'l'] .s]

theorem cauchy_wf (dim : ℕ) (m u d : ℕ) (hd : 1 < d) (hdim : dim = 2 ∨ dim = 3)  :
    WF dim (cauchyArgs m u d) := by
  refine ⟨?_, ?_, ?_, ?_⟩
  · intro a ha
    simp [cauchyArgs, mArg, vArg, modArg] at ha  <;> rcases ha with rfl | rfl <;>
      simp [argLetters, innerLetters, hd, reserved]
  · simp [cauchyArgs, mArg, vArg, modArg, innerLetters]
  · simp [cauchyArgs, mArg, vArg, modArg, innerLetters, argLetters, hd]
  · simp [cauchyArgs, mArg, vArg, modArg, hd, hdim]

theorem cauchy_letters (m u d : ℕ) (hd : 1 < d)  :
    (cauchyArgs m u d).flatMap argLetters = ['I', 'K', 'K'] := by
  simp [cauchyArgs, mArg, vArg, modArg, argLetters, hd]

theorem form_cauchy (size : Char → ℕ) (env : Env K) (fe : Bool) (c q : ℕ) (m u d : ℕ) (hd : 1 < d) 
    (W : ℕ → ℕ → ℕ → K) (a0 : ℕ) :
    form size env fe c q (cauchyArgs m u d) W [a0] =
      ∑ K ∈ Finset.range (size 'K'), env.mat m c q [a0, K] * strainVec env.dim (gradVal env u c q (W 1)) K := by
  have hl := cauchy_letters m u d hd
  have h1 : repeatedLetters (cauchyArgs m u d) = ['K'] := by unfold repeatedLetters; rw [hl]; decide
  have h2 : freeOf (cauchyArgs m u d) = ['I'] := by unfold freeOf; rw [hl]; decide
  unfold form
  rw [h1, h2]
  simp only [sumOver]
  refine Finset.sum_congr rfl fun K _ => ?_
  simp [numbered, cauchyArgs, mArg, vArg, modArg, argVal, hd, assign, List.range_succ, Function.update, mul_assoc]

/-- C89: `de_cauchy_stress`: `∫ D_IK e_K(w)`. -/
theorem C89_cauchy {fe : Bool} {mode : Mode} {b : B} {env : Env K} {size : Char → ℕ} (m u d : ℕ) (hd : 1 < d) (hdim : env.dim = 2 ∨ env.dim = 3) 
    (hnc_u : env.nc u = d)
    (h : build fe 1 none mode (cauchyArgs m u d) = some b) (hs : SizesAgree size env 1 b) (c q₀ i₀ n : ℕ) (a0 : ℕ)
     :
    evalTerm size env 1 b (headIdx mode c q₀ ++ (virtualIdx (cauchyArgs m u d) i₀ n ++ [a0])) =
      value mode env (cauchyArgs m u d) c q₀ fun q =>
        ∑ K ∈ Finset.range ((env.dim + 1) * env.dim / 2), env.mat m c q [a0, K] * strainVec env.dim (gradVal env u c q (env.dofs u c)) K := by
  have hwf := cauchy_wf env.dim m u d hd hdim 
  rw [C86_residual h hwf hs (fun _ => by simp [cauchyArgs]) c q₀ i₀ n [a0] (by
    intro a ha hv
    simp [cauchyArgs, mArg, vArg, modArg] at ha hv  <;> rcases ha with rfl | rfl <;> simp_all)]
  congr 1
  funext q
  rw [form_cauchy size env fe c q m u d hd ]
  have s_K : size 'K' = (env.dim + 1) * env.dim / 2 := (built_sizes h hwf hs (a := modArg .state u d ['K', ':', 'l'] .s) (by simp [cauchyArgs]) (by simp [vArg, modArg]) hnc_u).sym rfl
  rw [s_K]
  simp [dofsAt, cauchyArgs, vArg, mArg, modArg, testDofs]

theorem cauchy_builds (fe : Bool) (mode : Mode) (m u d : ℕ) :
    ∃ b, build fe 1 none mode (cauchyArgs m u (d + 2)) = some b := by
  cases fe <;> cases mode <;> exact ⟨_, rfl⟩

/-- `de_nonsym_elastic`: `∫ D ∇v : ∇u`, gradients in the vector storage (sfepy/terms/terms_multilinear.py:1771-1774). -/
def nonsymArgs (k1 : Kind) (m v u d : ℕ) : List Arg :=
  [mArg m ['I', 'K'], modArg k1 v d ['I', '.', 'j'] .v, modArg .state u d ['K', '.', 'l'] .v]

theorem nonsym_wf (dim : ℕ) (k1 : Kind) (m v u d : ℕ) (hd : 1 < d) (hdim : dim = 2 ∨ dim = 3) (hk1 : k1 ≠ .ndarray) :
    WF dim (nonsymArgs k1 m v u d) := by
  refine ⟨?_, ?_, ?_, ?_⟩
  · intro a ha
    cases k1 <;> simp [nonsymArgs, mArg, vArg, modArg] at ha hk1 <;> rcases ha with rfl | rfl | rfl <;>
      simp [argLetters, innerLetters, hd, reserved]
  · cases k1 <;> simp [nonsymArgs, mArg, vArg, modArg, innerLetters]
  · cases k1 <;> simp [nonsymArgs, mArg, vArg, modArg, innerLetters, argLetters, hd]
  · cases k1 <;> simp [nonsymArgs, mArg, vArg, modArg, hd, hdim]

theorem nonsym_letters (k1 : Kind) (m v u d : ℕ) (hd : 1 < d) (hk1 : k1 ≠ .ndarray) :
    (nonsymArgs k1 m v u d).flatMap argLetters = ['I', 'K', 'I', 'K'] := by
  cases k1 <;> simp [nonsymArgs, mArg, vArg, modArg, argLetters, hd] at hk1 ⊢

theorem form_nonsym (size : Char → ℕ) (env : Env K) (fe : Bool) (c q : ℕ) (k1 : Kind) (m v u d : ℕ) (hd : 1 < d) (hk1 : k1 ≠ .ndarray)
    (W : ℕ → ℕ → ℕ → K) :
    form size env fe c q (nonsymArgs k1 m v u d) W [] =
      ∑ I ∈ Finset.range (size 'I'), ∑ K ∈ Finset.range (size 'K'), env.mat m c q [I, K] * (gradVec env.dim (gradVal env v c q (W 1)) I * gradVec env.dim (gradVal env u c q (W 2)) K) := by
  have hl := nonsym_letters k1 m v u d hd hk1
  have h1 : repeatedLetters (nonsymArgs k1 m v u d) = ['I', 'K'] := by unfold repeatedLetters; rw [hl]; decide
  have h2 : freeOf (nonsymArgs k1 m v u d) = [] := by unfold freeOf; rw [hl]; decide
  unfold form
  rw [h1, h2]
  simp only [sumOver]
  refine Finset.sum_congr rfl fun I _ => ?_
  refine Finset.sum_congr rfl fun K _ => ?_
  cases k1 <;> simp [numbered, nonsymArgs, mArg, vArg, modArg, argVal, hd, assign, List.range_succ, Function.update, mul_assoc] at hk1 ⊢

/-- C89: `de_nonsym_elastic`: `∫ D ∇v : ∇u`, gradients in the vector storage. -/
theorem C89_nonsym {fe : Bool} {mode : Mode} {b : B} {env : Env K} {size : Char → ℕ} (k1 : Kind) (m v u d : ℕ) (hd : 1 < d) (hdim : env.dim = 2 ∨ env.dim = 3) (hk1 : k1 ≠ .ndarray)
    (hnc_v : env.nc v = d) (hnc_u : env.nc u = d)
    (h : build fe 1 none mode (nonsymArgs k1 m v u d) = some b) (hs : SizesAgree size env 1 b) (c q₀ i₀ n : ℕ)
    (hn_v : k1 = .virtual → n < env.nn v ∧ i₀ < env.dim) :
    evalTerm size env 1 b (headIdx mode c q₀ ++ (virtualIdx (nonsymArgs k1 m v u d) i₀ n ++ [])) =
      value mode env (nonsymArgs k1 m v u d) c q₀ fun q =>
        ∑ I ∈ Finset.range (env.dim * env.dim), ∑ K ∈ Finset.range (env.dim * env.dim), env.mat m c q [I, K] * (gradVec env.dim (gradVal env v c q (testDofs env k1 v d c i₀ n)) I * gradVec env.dim (gradVal env u c q (env.dofs u c)) K) := by
  have hwf := nonsym_wf env.dim k1 m v u d hd hdim hk1
  rw [C86_residual h hwf hs (fun _ => by simp [nonsymArgs]) c q₀ i₀ n [] (by
    intro a ha hv
    cases k1 <;> simp [nonsymArgs, mArg, vArg, modArg] at ha hv hk1 <;> rcases ha with rfl | rfl | rfl <;> simp_all)]
  congr 1
  funext q
  rw [form_nonsym size env fe c q k1 m v u d hd hk1]
  have s_I : size 'I' = env.dim * env.dim := (built_sizes h hwf hs (a := modArg k1 v d ['I', '.', 'j'] .v) (by simp [nonsymArgs]) hk1 hnc_v).full rfl
  have s_K : size 'K' = env.dim * env.dim := (built_sizes h hwf hs (a := modArg .state u d ['K', '.', 'l'] .v) (by simp [nonsymArgs]) (by simp [vArg, modArg]) hnc_u).full rfl
  rw [s_I, s_K]
  cases k1 <;> simp [dofsAt, nonsymArgs, vArg, mArg, modArg, testDofs] at hk1 ⊢

theorem nonsym_builds (fe : Bool) (mode : Mode) (m v u d : ℕ) :
    ∃ b, build fe 1 none mode (nonsymArgs .virtual m v u (d + 2)) = some b := by
  cases fe <;> cases mode <;> exact ⟨_, rfl⟩

/-- `de_diffusion`: `∫ K_ij ∇_i q ∇_j p` (sfepy/terms/terms_multilinear.py:1820-1822). -/
def diffusionArgs (k1 : Kind) (m v u : ℕ) : List Arg :=
  [mArg m ['i', 'j'], vArg k1 v 1 ['0', '.', 'i'], vArg .state u 1 ['0', '.', 'j']]

theorem diffusion_wf (dim : ℕ) (k1 : Kind) (m v u : ℕ) (hk1 : k1 ≠ .ndarray) :
    WF dim (diffusionArgs k1 m v u) := by
  refine ⟨?_, ?_, ?_, ?_⟩
  · intro a ha
    cases k1 <;> simp [diffusionArgs, mArg, vArg, modArg] at ha hk1 <;> rcases ha with rfl | rfl | rfl <;>
      simp [argLetters, innerLetters, reserved]
  · cases k1 <;> simp [diffusionArgs, mArg, vArg, modArg, innerLetters]
  · cases k1 <;> simp [diffusionArgs, mArg, vArg, modArg, innerLetters, argLetters]
  · cases k1 <;> simp [diffusionArgs, mArg, vArg, modArg]

theorem diffusion_letters (k1 : Kind) (m v u : ℕ) (hk1 : k1 ≠ .ndarray) :
    (diffusionArgs k1 m v u).flatMap argLetters = ['i', 'j', 'i', 'j'] := by
  cases k1 <;> simp [diffusionArgs, mArg, vArg, modArg, argLetters] at hk1 ⊢

theorem form_diffusion (size : Char → ℕ) (env : Env K) (fe : Bool) (c q : ℕ) (k1 : Kind) (m v u : ℕ) (hk1 : k1 ≠ .ndarray)
    (W : ℕ → ℕ → ℕ → K) :
    form size env fe c q (diffusionArgs k1 m v u) W [] =
      ∑ i ∈ Finset.range (size 'i'), ∑ j ∈ Finset.range (size 'j'), env.mat m c q [i, j] * (gradVal env v c q (W 1) 0 i * gradVal env u c q (W 2) 0 j) := by
  have hl := diffusion_letters k1 m v u hk1
  have h1 : repeatedLetters (diffusionArgs k1 m v u) = ['i', 'j'] := by unfold repeatedLetters; rw [hl]; decide
  have h2 : freeOf (diffusionArgs k1 m v u) = [] := by unfold freeOf; rw [hl]; decide
  unfold form
  rw [h1, h2]
  simp only [sumOver]
  refine Finset.sum_congr rfl fun i _ => ?_
  refine Finset.sum_congr rfl fun j _ => ?_
  cases k1 <;> simp [numbered, diffusionArgs, mArg, vArg, modArg, argVal, assign, List.range_succ, Function.update, mul_assoc] at hk1 ⊢

/-- C89: `de_diffusion`: `∫ K_ij ∇_i q ∇_j p`. -/
theorem C89_diffusion {fe : Bool} {mode : Mode} {b : B} {env : Env K} {size : Char → ℕ} (k1 : Kind) (m v u : ℕ) (hk1 : k1 ≠ .ndarray)
    (hnc_v : env.nc v = 1) (hnc_u : env.nc u = 1)
    (h : build fe 1 none mode (diffusionArgs k1 m v u) = some b) (hs : SizesAgree size env 1 b) (c q₀ i₀ n : ℕ)
    (hn_v : k1 = .virtual → n < env.nn v) :
    evalTerm size env 1 b (headIdx mode c q₀ ++ (virtualIdx (diffusionArgs k1 m v u) i₀ n ++ [])) =
      value mode env (diffusionArgs k1 m v u) c q₀ fun q =>
        ∑ i ∈ Finset.range env.dim, ∑ j ∈ Finset.range env.dim, env.mat m c q [i, j] * (gradVal env v c q (testDofs env k1 v 1 c i₀ n) 0 i * gradVal env u c q (env.dofs u c) 0 j) := by
  have hwf := diffusion_wf env.dim k1 m v u hk1
  rw [C86_residual h hwf hs (fun _ => by simp [diffusionArgs]) c q₀ i₀ n [] (by
    intro a ha hv
    cases k1 <;> simp [diffusionArgs, mArg, vArg, modArg] at ha hv hk1 <;> rcases ha with rfl | rfl | rfl <;> simp_all)]
  congr 1
  funext q
  rw [form_diffusion size env fe c q k1 m v u hk1]
  have s_i : size 'i' = env.dim := (built_sizes h hwf hs (a := vArg k1 v 1 ['0', '.', 'i']) (by simp [diffusionArgs]) hk1 hnc_v).der rfl
  have s_j : size 'j' = env.dim := (built_sizes h hwf hs (a := vArg .state u 1 ['0', '.', 'j']) (by simp [diffusionArgs]) (by simp [vArg, modArg]) hnc_u).der rfl
  rw [s_i, s_j]
  cases k1 <;> simp [dofsAt, diffusionArgs, vArg, mArg, modArg, testDofs] at hk1 ⊢

theorem diffusion_builds (fe : Bool) (mode : Mode) (m v u : ℕ) :
    ∃ b, build fe 1 none mode (diffusionArgs .virtual m v u) = some b := by
  cases fe <;> cases mode <;> exact ⟨_, rfl⟩

/-- `de_surface_ltr`: `∫ v · f`; `m` is the force in the points (sfepy/terms/terms_multilinear.py:1889-1892). -/
def surfaceLtrArgs (k1 : Kind) (m v d : ℕ) : List Arg :=
  [mArg m ['i'], vArg k1 v d ['i']]

theorem surfaceLtr_wf (dim : ℕ) (k1 : Kind) (m v d : ℕ) (hd : 1 < d) (hk1 : k1 ≠ .ndarray) :
    WF dim (surfaceLtrArgs k1 m v d) := by
  refine ⟨?_, ?_, ?_, ?_⟩
  · intro a ha
    cases k1 <;> simp [surfaceLtrArgs, mArg, vArg, modArg] at ha hk1 <;> rcases ha with rfl | rfl <;>
      simp [argLetters, innerLetters, hd, reserved]
  · cases k1 <;> simp [surfaceLtrArgs, mArg, vArg, modArg, innerLetters]
  · cases k1 <;> simp [surfaceLtrArgs, mArg, vArg, modArg, innerLetters, argLetters, hd]
  · cases k1 <;> simp [surfaceLtrArgs, mArg, vArg, modArg, hd]

theorem surfaceLtr_letters (k1 : Kind) (m v d : ℕ) (hd : 1 < d) (hk1 : k1 ≠ .ndarray) :
    (surfaceLtrArgs k1 m v d).flatMap argLetters = ['i', 'i'] := by
  cases k1 <;> simp [surfaceLtrArgs, mArg, vArg, modArg, argLetters, hd] at hk1 ⊢

theorem form_surfaceLtr (size : Char → ℕ) (env : Env K) (fe : Bool) (c q : ℕ) (k1 : Kind) (m v d : ℕ) (hd : 1 < d) (hk1 : k1 ≠ .ndarray)
    (W : ℕ → ℕ → ℕ → K) :
    form size env fe c q (surfaceLtrArgs k1 m v d) W [] =
      ∑ i ∈ Finset.range (size 'i'), env.mat m c q [i] * fieldVal env fe v c q (W 1) i := by
  have hl := surfaceLtr_letters k1 m v d hd hk1
  have h1 : repeatedLetters (surfaceLtrArgs k1 m v d) = ['i'] := by unfold repeatedLetters; rw [hl]; decide
  have h2 : freeOf (surfaceLtrArgs k1 m v d) = [] := by unfold freeOf; rw [hl]; decide
  unfold form
  rw [h1, h2]
  simp only [sumOver]
  refine Finset.sum_congr rfl fun i _ => ?_
  cases k1 <;> simp [numbered, surfaceLtrArgs, mArg, vArg, modArg, argVal, hd, assign, List.range_succ, Function.update, mul_assoc] at hk1 ⊢

/-- C89: `de_surface_ltr`: `∫ v · f`; `m` is the force in the points. -/
theorem C89_surfaceLtr {fe : Bool} {mode : Mode} {b : B} {env : Env K} {size : Char → ℕ} (k1 : Kind) (m v d : ℕ) (hd : 1 < d) (hk1 : k1 ≠ .ndarray)
    (hnc_v : env.nc v = d)
    (h : build fe 1 none mode (surfaceLtrArgs k1 m v d) = some b) (hs : SizesAgree size env 1 b) (c q₀ i₀ n : ℕ)
    (hn_v : k1 = .virtual → n < env.nn v) :
    evalTerm size env 1 b (headIdx mode c q₀ ++ (virtualIdx (surfaceLtrArgs k1 m v d) i₀ n ++ [])) =
      value mode env (surfaceLtrArgs k1 m v d) c q₀ fun q =>
        ∑ i ∈ Finset.range d, env.mat m c q [i] * fieldVal env fe v c q (testDofs env k1 v d c i₀ n) i := by
  have hwf := surfaceLtr_wf env.dim k1 m v d hd hk1
  rw [C86_residual h hwf hs (fun _ => by simp [surfaceLtrArgs]) c q₀ i₀ n [] (by
    intro a ha hv
    cases k1 <;> simp [surfaceLtrArgs, mArg, vArg, modArg] at ha hv hk1 <;> rcases ha with rfl | rfl <;> simp_all)]
  congr 1
  funext q
  rw [form_surfaceLtr size env fe c q k1 m v d hd hk1]
  have s_i : size 'i' = d := ((built_sizes h hwf hs (a := vArg k1 v d ['i']) (by simp [surfaceLtrArgs]) hk1 hnc_v).comp rfl hd).trans hnc_v
  rw [s_i]
  cases k1 <;> simp [dofsAt, surfaceLtrArgs, vArg, mArg, modArg, testDofs] at hk1 ⊢

theorem surfaceLtr_builds (fe : Bool) (mode : Mode) (m v d : ℕ) :
    ∃ b, build fe 1 none mode (surfaceLtrArgs .virtual m v (d + 2)) = some b := by
  cases fe <;> cases mode <;> exact ⟨_, rfl⟩

/-- `de_surface_flux`: `∫ q n · K · ∇p` (sfepy/terms/terms_multilinear.py:1932-1935). -/
def surfaceFluxArgs (k1 k2 : Kind) (nv m v u : ℕ) : List Arg :=
  [mArg nv ['i'], mArg m ['i', 'j'], vArg k1 v 1 ['0'], vArg k2 u 1 ['0', '.', 'j']]

theorem surfaceFlux_wf (dim : ℕ) (k1 k2 : Kind) (nv m v u : ℕ) (hk1 : k1 ≠ .ndarray) (hk2 : k2 ≠ .ndarray) :
    WF dim (surfaceFluxArgs k1 k2 nv m v u) := by
  refine ⟨?_, ?_, ?_, ?_⟩
  · intro a ha
    cases k1 <;> cases k2 <;> simp [surfaceFluxArgs, mArg, vArg, modArg] at ha hk1 hk2 <;> rcases ha with rfl | rfl | rfl | rfl <;>
      simp [argLetters, innerLetters, reserved]
  · cases k1 <;> cases k2 <;> simp [surfaceFluxArgs, mArg, vArg, modArg, innerLetters]
  · cases k1 <;> cases k2 <;> simp [surfaceFluxArgs, mArg, vArg, modArg, innerLetters, argLetters]
  · cases k1 <;> cases k2 <;> simp [surfaceFluxArgs, mArg, vArg, modArg]

theorem surfaceFlux_letters (k1 k2 : Kind) (nv m v u : ℕ) (hk1 : k1 ≠ .ndarray) (hk2 : k2 ≠ .ndarray) :
    (surfaceFluxArgs k1 k2 nv m v u).flatMap argLetters = ['i', 'i', 'j', 'j'] := by
  cases k1 <;> cases k2 <;> simp [surfaceFluxArgs, mArg, vArg, modArg, argLetters] at hk1 hk2 ⊢

theorem form_surfaceFlux (size : Char → ℕ) (env : Env K) (fe : Bool) (c q : ℕ) (k1 k2 : Kind) (nv m v u : ℕ) (hk1 : k1 ≠ .ndarray) (hk2 : k2 ≠ .ndarray)
    (W : ℕ → ℕ → ℕ → K) :
    form size env fe c q (surfaceFluxArgs k1 k2 nv m v u) W [] =
      ∑ i ∈ Finset.range (size 'i'), ∑ j ∈ Finset.range (size 'j'), env.mat nv c q [i] * (env.mat m c q [i, j] * (fieldVal env fe v c q (W 2) 0 * gradVal env u c q (W 3) 0 j)) := by
  have hl := surfaceFlux_letters k1 k2 nv m v u hk1 hk2
  have h1 : repeatedLetters (surfaceFluxArgs k1 k2 nv m v u) = ['i', 'j'] := by unfold repeatedLetters; rw [hl]; decide
  have h2 : freeOf (surfaceFluxArgs k1 k2 nv m v u) = [] := by unfold freeOf; rw [hl]; decide
  unfold form
  rw [h1, h2]
  simp only [sumOver]
  refine Finset.sum_congr rfl fun i _ => ?_
  refine Finset.sum_congr rfl fun j _ => ?_
  cases k1 <;> cases k2 <;> simp [numbered, surfaceFluxArgs, mArg, vArg, modArg, argVal, assign, List.range_succ, Function.update, mul_assoc] at hk1 hk2 ⊢

/-- C89: `de_surface_flux`: `∫ q n · K · ∇p`. -/
theorem C89_surfaceFlux {fe : Bool} {mode : Mode} {b : B} {env : Env K} {size : Char → ℕ} (k1 k2 : Kind) (nv m v u : ℕ) (hk1 : k1 ≠ .ndarray) (hk2 : k2 ≠ .ndarray)
    (hnc_v : env.nc v = 1) (hnc_u : env.nc u = 1)
    (h : build fe 1 none mode (surfaceFluxArgs k1 k2 nv m v u) = some b) (hs : SizesAgree size env 1 b) (c q₀ i₀ n : ℕ)
    (hn_v : k1 = .virtual → n < env.nn v) (hn_u : k2 = .virtual → n < env.nn u) :
    evalTerm size env 1 b (headIdx mode c q₀ ++ (virtualIdx (surfaceFluxArgs k1 k2 nv m v u) i₀ n ++ [])) =
      value mode env (surfaceFluxArgs k1 k2 nv m v u) c q₀ fun q =>
        ∑ i ∈ Finset.range (size 'i'), ∑ j ∈ Finset.range env.dim, env.mat nv c q [i] * (env.mat m c q [i, j] * (fieldVal env fe v c q (testDofs env k1 v 1 c i₀ n) 0 * gradVal env u c q (testDofs env k2 u 1 c i₀ n) 0 j)) := by
  have hwf := surfaceFlux_wf env.dim k1 k2 nv m v u hk1 hk2
  rw [C86_residual h hwf hs (fun _ => by simp [surfaceFluxArgs]) c q₀ i₀ n [] (by
    intro a ha hv
    cases k1 <;> cases k2 <;> simp [surfaceFluxArgs, mArg, vArg, modArg] at ha hv hk1 hk2 <;> rcases ha with rfl | rfl | rfl | rfl <;> simp_all)]
  congr 1
  funext q
  rw [form_surfaceFlux size env fe c q k1 k2 nv m v u hk1 hk2]
  have s_j : size 'j' = env.dim := (built_sizes h hwf hs (a := vArg k2 u 1 ['0', '.', 'j']) (by simp [surfaceFluxArgs]) hk2 hnc_u).der rfl
  rw [s_j]
  cases k1 <;> cases k2 <;> simp [dofsAt, surfaceFluxArgs, vArg, mArg, modArg, testDofs] at hk1 hk2 ⊢

theorem surfaceFlux_builds (fe : Bool) (mode : Mode) (nv m v u : ℕ) :
    ∃ b, build fe 1 none mode (surfaceFluxArgs .virtual .state nv m v u) = some b := by
  cases fe <;> cases mode <;> exact ⟨_, rfl⟩

/-- `ev_surface_flux2` without a material: `∫ n · ∇p` (sfepy/terms/terms_multilinear.py:1961-1964). -/
def flux2Args (nv u : ℕ) : List Arg :=
  [mArg nv ['i'], vArg .state u 1 ['0', '.', 'i']]

theorem flux2_wf (dim : ℕ) (nv u : ℕ)  :
    WF dim (flux2Args nv u) := by
  refine ⟨?_, ?_, ?_, ?_⟩
  · intro a ha
    simp [flux2Args, mArg, vArg, modArg] at ha  <;> rcases ha with rfl | rfl <;>
      simp [argLetters, innerLetters, reserved]
  · simp [flux2Args, mArg, vArg, modArg, innerLetters]
  · simp [flux2Args, mArg, vArg, modArg, innerLetters, argLetters]
  · simp [flux2Args, mArg, vArg, modArg]

theorem flux2_letters (nv u : ℕ)  :
    (flux2Args nv u).flatMap argLetters = ['i', 'i'] := by
  simp [flux2Args, mArg, vArg, modArg, argLetters]

theorem form_flux2 (size : Char → ℕ) (env : Env K) (fe : Bool) (c q : ℕ) (nv u : ℕ) 
    (W : ℕ → ℕ → ℕ → K) :
    form size env fe c q (flux2Args nv u) W [] =
      ∑ i ∈ Finset.range (size 'i'), env.mat nv c q [i] * gradVal env u c q (W 1) 0 i := by
  have hl := flux2_letters nv u
  have h1 : repeatedLetters (flux2Args nv u) = ['i'] := by unfold repeatedLetters; rw [hl]; decide
  have h2 : freeOf (flux2Args nv u) = [] := by unfold freeOf; rw [hl]; decide
  unfold form
  rw [h1, h2]
  simp only [sumOver]
  refine Finset.sum_congr rfl fun i _ => ?_
  simp [numbered, flux2Args, mArg, vArg, modArg, argVal, assign, List.range_succ, Function.update, mul_assoc]

/-- C89: `ev_surface_flux2` without a material: `∫ n · ∇p`. -/
theorem C89_flux2 {fe : Bool} {mode : Mode} {b : B} {env : Env K} {size : Char → ℕ} (nv u : ℕ) 
    (hnc_u : env.nc u = 1)
    (h : build fe 1 none mode (flux2Args nv u) = some b) (hs : SizesAgree size env 1 b) (c q₀ i₀ n : ℕ)
     :
    evalTerm size env 1 b (headIdx mode c q₀ ++ (virtualIdx (flux2Args nv u) i₀ n ++ [])) =
      value mode env (flux2Args nv u) c q₀ fun q =>
        ∑ i ∈ Finset.range env.dim, env.mat nv c q [i] * gradVal env u c q (env.dofs u c) 0 i := by
  have hwf := flux2_wf env.dim nv u 
  rw [C86_residual h hwf hs (fun _ => by simp [flux2Args]) c q₀ i₀ n [] (by
    intro a ha hv
    simp [flux2Args, mArg, vArg, modArg] at ha hv  <;> rcases ha with rfl | rfl <;> simp_all)]
  congr 1
  funext q
  rw [form_flux2 size env fe c q nv u ]
  have s_i : size 'i' = env.dim := (built_sizes h hwf hs (a := vArg .state u 1 ['0', '.', 'i']) (by simp [flux2Args]) (by simp [vArg, modArg]) hnc_u).der rfl
  rw [s_i]
  simp [dofsAt, flux2Args, vArg, mArg, modArg, testDofs]

theorem flux2_builds (fe : Bool) (mode : Mode) (nv u : ℕ) :
    ∃ b, build fe 1 none mode (flux2Args nv u) = some b := by
  cases fe <;> cases mode <;> exact ⟨_, rfl⟩

/-- `ev_surface_flux2`: `∫ n · K · ∇p` (sfepy/terms/terms_multilinear.py:1967-1970). -/
def flux2MArgs (nv m u : ℕ) : List Arg :=
  [mArg nv ['i'], mArg m ['i', 'j'], vArg .state u 1 ['0', '.', 'j']]

theorem flux2M_wf (dim : ℕ) (nv m u : ℕ)  :
    WF dim (flux2MArgs nv m u) := by
  refine ⟨?_, ?_, ?_, ?_⟩
  · intro a ha
    simp [flux2MArgs, mArg, vArg, modArg] at ha  <;> rcases ha with rfl | rfl | rfl <;>
      simp [argLetters, innerLetters, reserved]
  · simp [flux2MArgs, mArg, vArg, modArg, innerLetters]
  · simp [flux2MArgs, mArg, vArg, modArg, innerLetters, argLetters]
  · simp [flux2MArgs, mArg, vArg, modArg]

theorem flux2M_letters (nv m u : ℕ)  :
    (flux2MArgs nv m u).flatMap argLetters = ['i', 'i', 'j', 'j'] := by
  simp [flux2MArgs, mArg, vArg, modArg, argLetters]

theorem form_flux2M (size : Char → ℕ) (env : Env K) (fe : Bool) (c q : ℕ) (nv m u : ℕ) 
    (W : ℕ → ℕ → ℕ → K) :
    form size env fe c q (flux2MArgs nv m u) W [] =
      ∑ i ∈ Finset.range (size 'i'), ∑ j ∈ Finset.range (size 'j'), env.mat nv c q [i] * (env.mat m c q [i, j] * gradVal env u c q (W 2) 0 j) := by
  have hl := flux2M_letters nv m u
  have h1 : repeatedLetters (flux2MArgs nv m u) = ['i', 'j'] := by unfold repeatedLetters; rw [hl]; decide
  have h2 : freeOf (flux2MArgs nv m u) = [] := by unfold freeOf; rw [hl]; decide
  unfold form
  rw [h1, h2]
  simp only [sumOver]
  refine Finset.sum_congr rfl fun i _ => ?_
  refine Finset.sum_congr rfl fun j _ => ?_
  simp [numbered, flux2MArgs, mArg, vArg, modArg, argVal, assign, List.range_succ, Function.update, mul_assoc]

/-- C89: `ev_surface_flux2`: `∫ n · K · ∇p`. -/
theorem C89_flux2M {fe : Bool} {mode : Mode} {b : B} {env : Env K} {size : Char → ℕ} (nv m u : ℕ) 
    (hnc_u : env.nc u = 1)
    (h : build fe 1 none mode (flux2MArgs nv m u) = some b) (hs : SizesAgree size env 1 b) (c q₀ i₀ n : ℕ)
     :
    evalTerm size env 1 b (headIdx mode c q₀ ++ (virtualIdx (flux2MArgs nv m u) i₀ n ++ [])) =
      value mode env (flux2MArgs nv m u) c q₀ fun q =>
        ∑ i ∈ Finset.range (size 'i'), ∑ j ∈ Finset.range env.dim, env.mat nv c q [i] * (env.mat m c q [i, j] * gradVal env u c q (env.dofs u c) 0 j) := by
  have hwf := flux2M_wf env.dim nv m u 
  rw [C86_residual h hwf hs (fun _ => by simp [flux2MArgs]) c q₀ i₀ n [] (by
    intro a ha hv
    simp [flux2MArgs, mArg, vArg, modArg] at ha hv  <;> rcases ha with rfl | rfl | rfl <;> simp_all)]
  congr 1
  funext q
  rw [form_flux2M size env fe c q nv m u ]
  have s_j : size 'j' = env.dim := (built_sizes h hwf hs (a := vArg .state u 1 ['0', '.', 'j']) (by simp [flux2MArgs]) (by simp [vArg, modArg]) hnc_u).der rfl
  rw [s_j]
  simp [dofsAt, flux2MArgs, vArg, mArg, modArg, testDofs]

theorem flux2M_builds (fe : Bool) (mode : Mode) (nv m u : ℕ) :
    ∃ b, build fe 1 none mode (flux2MArgs nv m u) = some b := by
  cases fe <;> cases mode <;> exact ⟨_, rfl⟩

/-- `de_surface_piezo_flux`: `∫ q g_kJ e_J(u) n_k` (sfepy/terms/terms_multilinear.py:2011-2014). -/
def piezoArgs (k1 k2 : Kind) (nv m v u d : ℕ) : List Arg :=
  [mArg nv ['i'], mArg m ['i', 'J'], vArg k1 v 1 ['0'], modArg k2 u d ['J', ':', 'b'] .s]

theorem piezo_wf (dim : ℕ) (k1 k2 : Kind) (nv m v u d : ℕ) (hd : 1 < d) (hdim : dim = 2 ∨ dim = 3) (hk1 : k1 ≠ .ndarray) (hk2 : k2 ≠ .ndarray) :
    WF dim (piezoArgs k1 k2 nv m v u d) := by
  refine ⟨?_, ?_, ?_, ?_⟩
  · intro a ha
    cases k1 <;> cases k2 <;> simp [piezoArgs, mArg, vArg, modArg] at ha hk1 hk2 <;> rcases ha with rfl | rfl | rfl | rfl <;>
      simp [argLetters, innerLetters, hd, reserved]
  · cases k1 <;> cases k2 <;> simp [piezoArgs, mArg, vArg, modArg, innerLetters]
  · cases k1 <;> cases k2 <;> simp [piezoArgs, mArg, vArg, modArg, innerLetters, argLetters, hd]
  · cases k1 <;> cases k2 <;> simp [piezoArgs, mArg, vArg, modArg, hd, hdim]

theorem piezo_letters (k1 k2 : Kind) (nv m v u d : ℕ) (hd : 1 < d) (hk1 : k1 ≠ .ndarray) (hk2 : k2 ≠ .ndarray) :
    (piezoArgs k1 k2 nv m v u d).flatMap argLetters = ['i', 'i', 'J', 'J'] := by
  cases k1 <;> cases k2 <;> simp [piezoArgs, mArg, vArg, modArg, argLetters, hd] at hk1 hk2 ⊢

theorem form_piezo (size : Char → ℕ) (env : Env K) (fe : Bool) (c q : ℕ) (k1 k2 : Kind) (nv m v u d : ℕ) (hd : 1 < d) (hk1 : k1 ≠ .ndarray) (hk2 : k2 ≠ .ndarray)
    (W : ℕ → ℕ → ℕ → K) :
    form size env fe c q (piezoArgs k1 k2 nv m v u d) W [] =
      ∑ i ∈ Finset.range (size 'i'), ∑ J ∈ Finset.range (size 'J'), env.mat nv c q [i] * (env.mat m c q [i, J] * (fieldVal env fe v c q (W 2) 0 * strainVec env.dim (gradVal env u c q (W 3)) J)) := by
  have hl := piezo_letters k1 k2 nv m v u d hd hk1 hk2
  have h1 : repeatedLetters (piezoArgs k1 k2 nv m v u d) = ['i', 'J'] := by unfold repeatedLetters; rw [hl]; decide
  have h2 : freeOf (piezoArgs k1 k2 nv m v u d) = [] := by unfold freeOf; rw [hl]; decide
  unfold form
  rw [h1, h2]
  simp only [sumOver]
  refine Finset.sum_congr rfl fun i _ => ?_
  refine Finset.sum_congr rfl fun J _ => ?_
  cases k1 <;> cases k2 <;> simp [numbered, piezoArgs, mArg, vArg, modArg, argVal, hd, assign, List.range_succ, Function.update, mul_assoc] at hk1 hk2 ⊢

/-- C89: `de_surface_piezo_flux`: `∫ q g_kJ e_J(u) n_k`. -/
theorem C89_piezo {fe : Bool} {mode : Mode} {b : B} {env : Env K} {size : Char → ℕ} (k1 k2 : Kind) (nv m v u d : ℕ) (hd : 1 < d) (hdim : env.dim = 2 ∨ env.dim = 3) (hk1 : k1 ≠ .ndarray) (hk2 : k2 ≠ .ndarray)
    (hnc_v : env.nc v = 1) (hnc_u : env.nc u = d)
    (h : build fe 1 none mode (piezoArgs k1 k2 nv m v u d) = some b) (hs : SizesAgree size env 1 b) (c q₀ i₀ n : ℕ)
    (hn_v : k1 = .virtual → n < env.nn v) (hn_u : k2 = .virtual → n < env.nn u ∧ i₀ < env.dim) :
    evalTerm size env 1 b (headIdx mode c q₀ ++ (virtualIdx (piezoArgs k1 k2 nv m v u d) i₀ n ++ [])) =
      value mode env (piezoArgs k1 k2 nv m v u d) c q₀ fun q =>
        ∑ i ∈ Finset.range (size 'i'), ∑ J ∈ Finset.range ((env.dim + 1) * env.dim / 2), env.mat nv c q [i] * (env.mat m c q [i, J] * (fieldVal env fe v c q (testDofs env k1 v 1 c i₀ n) 0 * strainVec env.dim (gradVal env u c q (testDofs env k2 u d c i₀ n)) J)) := by
  have hwf := piezo_wf env.dim k1 k2 nv m v u d hd hdim hk1 hk2
  rw [C86_residual h hwf hs (fun _ => by simp [piezoArgs]) c q₀ i₀ n [] (by
    intro a ha hv
    cases k1 <;> cases k2 <;> simp [piezoArgs, mArg, vArg, modArg] at ha hv hk1 hk2 <;> rcases ha with rfl | rfl | rfl | rfl <;> simp_all)]
  congr 1
  funext q
  rw [form_piezo size env fe c q k1 k2 nv m v u d hd hk1 hk2]
  have s_J : size 'J' = (env.dim + 1) * env.dim / 2 := (built_sizes h hwf hs (a := modArg k2 u d ['J', ':', 'b'] .s) (by simp [piezoArgs]) hk2 hnc_u).sym rfl
  rw [s_J]
  cases k1 <;> cases k2 <;> simp [dofsAt, piezoArgs, vArg, mArg, modArg, testDofs] at hk1 hk2 ⊢

theorem piezo_builds (fe : Bool) (mode : Mode) (nv m v u d : ℕ) :
    ∃ b, build fe 1 none mode (piezoArgs .virtual .state nv m v u (d + 2)) = some b := by
  cases fe <;> cases mode <;> exact ⟨_, rfl⟩

/-- `ev_surface_piezo_flux`: `∫ g_kJ e_J(u) n_k` (sfepy/terms/terms_multilinear.py:2041-2044). -/
def piezo2Args (nv m u d : ℕ) : List Arg :=
  [mArg nv ['i'], mArg m ['i', 'J'], modArg .state u d ['J', ':', 'b'] .s]

theorem piezo2_wf (dim : ℕ) (nv m u d : ℕ) (hd : 1 < d) (hdim : dim = 2 ∨ dim = 3)  :
    WF dim (piezo2Args nv m u d) := by
  refine ⟨?_, ?_, ?_, ?_⟩
  · intro a ha
    simp [piezo2Args, mArg, vArg, modArg] at ha  <;> rcases ha with rfl | rfl | rfl <;>
      simp [argLetters, innerLetters, hd, reserved]
  · simp [piezo2Args, mArg, vArg, modArg, innerLetters]
  · simp [piezo2Args, mArg, vArg, modArg, innerLetters, argLetters, hd]
  · simp [piezo2Args, mArg, vArg, modArg, hd, hdim]

theorem piezo2_letters (nv m u d : ℕ) (hd : 1 < d)  :
    (piezo2Args nv m u d).flatMap argLetters = ['i', 'i', 'J', 'J'] := by
  simp [piezo2Args, mArg, vArg, modArg, argLetters, hd]

theorem form_piezo2 (size : Char → ℕ) (env : Env K) (fe : Bool) (c q : ℕ) (nv m u d : ℕ) (hd : 1 < d) 
    (W : ℕ → ℕ → ℕ → K) :
    form size env fe c q (piezo2Args nv m u d) W [] =
      ∑ i ∈ Finset.range (size 'i'), ∑ J ∈ Finset.range (size 'J'), env.mat nv c q [i] * (env.mat m c q [i, J] * strainVec env.dim (gradVal env u c q (W 2)) J) := by
  have hl := piezo2_letters nv m u d hd
  have h1 : repeatedLetters (piezo2Args nv m u d) = ['i', 'J'] := by unfold repeatedLetters; rw [hl]; decide
  have h2 : freeOf (piezo2Args nv m u d) = [] := by unfold freeOf; rw [hl]; decide
  unfold form
  rw [h1, h2]
  simp only [sumOver]
  refine Finset.sum_congr rfl fun i _ => ?_
  refine Finset.sum_congr rfl fun J _ => ?_
  simp [numbered, piezo2Args, mArg, vArg, modArg, argVal, hd, assign, List.range_succ, Function.update, mul_assoc]

/-- C89: `ev_surface_piezo_flux`: `∫ g_kJ e_J(u) n_k`. -/
theorem C89_piezo2 {fe : Bool} {mode : Mode} {b : B} {env : Env K} {size : Char → ℕ} (nv m u d : ℕ) (hd : 1 < d) (hdim : env.dim = 2 ∨ env.dim = 3) 
    (hnc_u : env.nc u = d)
    (h : build fe 1 none mode (piezo2Args nv m u d) = some b) (hs : SizesAgree size env 1 b) (c q₀ i₀ n : ℕ)
     :
    evalTerm size env 1 b (headIdx mode c q₀ ++ (virtualIdx (piezo2Args nv m u d) i₀ n ++ [])) =
      value mode env (piezo2Args nv m u d) c q₀ fun q =>
        ∑ i ∈ Finset.range (size 'i'), ∑ J ∈ Finset.range ((env.dim + 1) * env.dim / 2), env.mat nv c q [i] * (env.mat m c q [i, J] * strainVec env.dim (gradVal env u c q (env.dofs u c)) J) := by
  have hwf := piezo2_wf env.dim nv m u d hd hdim 
  rw [C86_residual h hwf hs (fun _ => by simp [piezo2Args]) c q₀ i₀ n [] (by
    intro a ha hv
    simp [piezo2Args, mArg, vArg, modArg] at ha hv  <;> rcases ha with rfl | rfl | rfl <;> simp_all)]
  congr 1
  funext q
  rw [form_piezo2 size env fe c q nv m u d hd ]
  have s_J : size 'J' = (env.dim + 1) * env.dim / 2 := (built_sizes h hwf hs (a := modArg .state u d ['J', ':', 'b'] .s) (by simp [piezo2Args]) (by simp [vArg, modArg]) hnc_u).sym rfl
  rw [s_J]
  simp [dofsAt, piezo2Args, vArg, mArg, modArg, testDofs]

theorem piezo2_builds (fe : Bool) (mode : Mode) (nv m u d : ℕ) :
    ∃ b, build fe 1 none mode (piezo2Args nv m u (d + 2)) = some b := by
  cases fe <;> cases mode <;> exact ⟨_, rfl⟩

end Ml
