import Verif.Ml.Forms
import Mathlib.Analysis.Calculus.Deriv.Add
import Mathlib.Analysis.Calculus.Deriv.Mul
import Mathlib.Analysis.Calculus.Deriv.Basic

/-!
# The expressions with `diff_var` are the derivatives of the residuals
-/

namespace Ml

set_option linter.unusedSectionVars false
set_option linter.unusedSimpArgs false

section linear

variable {K : Type*} [Field K]

theorem fieldVal_lin (env : Env K) (fe : Bool) (a c q : ℕ) (w v : ℕ → ℕ → K) (t : K) (k : ℕ) :
    fieldVal env fe a c q (fun k n => w k n + t * v k n) k = fieldVal env fe a c q w k + t * fieldVal env fe a c q v k := by
  unfold fieldVal
  rw [Finset.mul_sum, ← Finset.sum_add_distrib]
  exact Finset.sum_congr rfl fun n _ => by ring

theorem gradVal_lin (env : Env K) (a c q : ℕ) (w v : ℕ → ℕ → K) (t : K) (k j : ℕ) :
    gradVal env a c q (fun k n => w k n + t * v k n) k j = gradVal env a c q w k j + t * gradVal env a c q v k j := by
  unfold gradVal
  rw [Finset.mul_sum, ← Finset.sum_add_distrib]
  exact Finset.sum_congr rfl fun n _ => by ring

/-- The value of a variable is linear in its DOFs. -/
theorem argVal_lin (env : Env K) (fe : Bool) (c q : ℕ) (a : Arg) (hk : a.kind ≠ .ndarray) (w v : ℕ → ℕ → K) (t : K)
    (ρ : Char → ℕ) : argVal env fe c q a (fun k n => w k n + t * v k n) ρ =
      argVal env fe c q a w ρ + t * argVal env fe c q a v ρ := by
  unfold argVal
  have hs : ∀ s, strainVec env.dim (gradVal env a.name c q fun k n => w k n + t * v k n) s =
      strainVec env.dim (gradVal env a.name c q w) s + t * strainVec env.dim (gradVal env a.name c q v) s := by
    intro s
    unfold strainVec
    cases (symPairs env.dim)[s]? with
    | none => simp
    | some x =>
      simp only
      split
      · rw [gradVal_lin]
      · rw [gradVal_lin, gradVal_lin]; ring
  have hg : ∀ s, gradVec env.dim (gradVal env a.name c q fun k n => w k n + t * v k n) s =
      gradVec env.dim (gradVal env a.name c q w) s + t * gradVec env.dim (gradVal env a.name c q v) s := by
    intro s
    unfold gradVec
    split
    · rw [gradVal_lin]
    · simp
  cases hkk : a.kind with
  | ndarray => exact absurd hkk hk
  | _ =>
    cases hm : a.mod with
    | none =>
      simp only [hkk, hm]
      split
      · rw [gradVal_lin]
      · rw [fieldVal_lin]
    | some md => cases md <;> simp [hkk, hm, hs, hg]

/-- Only the DOFs of the nodes of the cell matter. -/
theorem argVal_nodes (env : Env K) (fe : Bool) (c q : ℕ) (a : Arg) (w v : ℕ → ℕ → K)
    (h : ∀ k, ∀ n < env.nn a.name, w k n = v k n) (ρ : Char → ℕ) :
    argVal env fe c q a w ρ = argVal env fe c q a v ρ := by
  have hg : gradVal env a.name c q w = gradVal env a.name c q v := by
    funext k j
    unfold gradVal
    exact Finset.sum_congr rfl fun n hn => by rw [h k n (Finset.mem_range.mp hn)]
  have hf : fieldVal env fe a.name c q w = fieldVal env fe a.name c q v := by
    funext k
    unfold fieldVal
    exact Finset.sum_congr rfl fun n hn => by rw [h k n (Finset.mem_range.mp hn)]
  unfold argVal
  rw [hg, hf]

theorem sumOver_sum {ι : Type*} (size : Char → ℕ) (s : Finset ι) (f : ι → (Char → ℕ) → K) :
    ∀ (ls : List Char) (ρ : Char → ℕ), sumOver size ls ρ (fun ρ => ∑ i ∈ s, f i ρ) = ∑ i ∈ s, sumOver size ls ρ (f i) := by
  intro ls
  induction ls with
  | nil => intro ρ; rfl
  | cons l ls ih =>
    intro ρ
    simp only [sumOver, ih]
    exact Finset.sum_comm

theorem sumOver_smul (size : Char → ℕ) (a : K) (f : (Char → ℕ) → K) (ls : List Char) (ρ : Char → ℕ) :
    sumOver size ls ρ (fun ρ => a * f ρ) = a * sumOver size ls ρ f :=
  sumOver_indep_mul size ls f (fun _ => a) (fun _ _ _ => rfl) ρ

theorem argVal_sum {ι : Type*} (env : Env K) (fe : Bool) (c q : ℕ) (a : Arg) (hk : a.kind ≠ .ndarray) (s : Finset ι)
    (co : ι → K) (w : ι → ℕ → ℕ → K) (ρ : Char → ℕ) :
    argVal env fe c q a (fun k n => ∑ x ∈ s, co x * w x k n) ρ = ∑ x ∈ s, co x * argVal env fe c q a (w x) ρ := by
  classical
  induction s using Finset.induction_on with
  | empty =>
    have := argVal_lin env fe c q a hk (fun _ _ => (0 : K)) (fun _ _ => 0) (-1) ρ
    simp only [mul_zero, add_zero] at this
    simp only [Finset.sum_empty]
    linear_combination this
  | insert x s hx ih =>
    have := argVal_lin env fe c q a hk (fun k n => ∑ x ∈ s, co x * w x k n) (w x) (co x) ρ
    rw [Finset.sum_insert hx, ← ih]
    rw [add_comm, ← this]
    congr 1
    funext k n
    rw [Finset.sum_insert hx, add_comm]

/-- The form with the occurrence `p` replaced: linear in its DOFs. -/
theorem form_sum {ι : Type*} (size : Char → ℕ) (env : Env K) (fe : Bool) (c q : ℕ) (args : List Arg)
    (W : ℕ → ℕ → ℕ → K) (x₀ : ℕ × Arg) (hx₀ : x₀ ∈ numbered args) (hk : x₀.2.kind ≠ .ndarray) (s : Finset ι) (co : ι → K)
    (w : ι → ℕ → ℕ → K) (fr : List ℕ) :
    form size env fe c q args (Function.update W x₀.1 fun k n => ∑ y ∈ s, co y * w y k n) fr =
      ∑ y ∈ s, co y * form size env fe c q args (Function.update W x₀.1 (w y)) fr := by
  unfold form
  have hsm : ∀ y, co y * sumOver size (repeatedLetters args) (assign (freeOf args) fr) (fun ρ =>
      ((numbered args).map fun x => argVal env fe c q x.2 (Function.update W x₀.1 (w y) x.1) ρ).prod) =
      sumOver size (repeatedLetters args) (assign (freeOf args) fr) (fun ρ => co y *
      ((numbered args).map fun x => argVal env fe c q x.2 (Function.update W x₀.1 (w y) x.1) ρ).prod) :=
    fun y => (sumOver_smul size _ _ _ _).symm
  simp only [hsm]
  rw [← sumOver_sum]
  refine sumOver_congr size _ _ _ _ fun ρ => ?_
  -- split the list at x₀
  obtain ⟨l1, l2, e⟩ := List.append_of_mem hx₀
  have hnd := numbered_fst args
  rw [e] at hnd ⊢
  have hnod : ((l1 ++ x₀ :: l2).map Prod.fst).Nodup := by rw [hnd]; exact List.nodup_range
  rw [List.map_append, List.map_cons, List.nodup_append, List.nodup_cons] at hnod
  have h1 : ∀ x ∈ l1, x.1 ≠ x₀.1 := fun x hx =>
    hnod.2.2 _ (List.mem_map.mpr ⟨x, hx, rfl⟩) _ (by simp)
  have h2 : ∀ x ∈ l2, x.1 ≠ x₀.1 := fun x hx ee => hnod.2.1.1 (List.mem_map.mpr ⟨x, hx, ee⟩)
  have hl1 : ∀ v, (l1.map fun x => argVal env fe c q x.2 (Function.update W x₀.1 v x.1) ρ) =
      l1.map fun x => argVal env fe c q x.2 (W x.1) ρ := fun v =>
    List.map_congr_left fun x hx => by rw [Function.update_of_ne (h1 x hx)]
  have hl2 : ∀ v, (l2.map fun x => argVal env fe c q x.2 (Function.update W x₀.1 v x.1) ρ) =
      l2.map fun x => argVal env fe c q x.2 (W x.1) ρ := fun v =>
    List.map_congr_left fun x hx => by rw [Function.update_of_ne (h2 x hx)]
  simp only [List.map_append, List.map_cons, List.prod_append, List.prod_cons, hl1, hl2, Function.update_self]
  rw [argVal_sum env fe c q x₀.2 hk, Finset.sum_mul, Finset.mul_sum]
  exact Finset.sum_congr rfl fun y _ => by ring

/-- The DOFs of the variable `d` moved by `t du`. -/
def moved (env : Env K) (d : ℕ) (du : ℕ → ℕ → ℕ → K) (t : K) : Env K :=
  { env with dofs := fun a c k n => if a = d then env.dofs a c k n + t * du c k n else env.dofs a c k n }

theorem form_moved (size : Char → ℕ) (env : Env K) (d : ℕ) (du : ℕ → ℕ → ℕ → K) (t : K) (fe : Bool) (c q : ℕ)
    (args : List Arg) (W : ℕ → ℕ → ℕ → K) (fr : List ℕ) :
    form size (moved env d du t) fe c q args W fr = form size env fe c q args W fr := rfl

theorem dofsAt_moved (env : Env K) (d : ℕ) (du : ℕ → ℕ → ℕ → K) (t : K) (c : ℕ) (args : List Arg) (i n : ℕ)
    {x : ℕ × Arg} (hx : x ∈ numbered args) (hk : x.2.kind ≠ .ndarray) :
    dofsAt (moved env d du t) c args i n x.1 = if x.2.kind = .state ∧ x.2.name = d then
      (fun k m => dofsAt env c args i n x.1 k m + t * du c k m) else dofsAt env c args i n x.1 := by
  unfold dofsAt
  rw [numbered_get hx]
  cases hkk : x.2.kind with
  | ndarray => exact absurd hkk hk
  | virtual => simp [hkk]
  | state =>
    by_cases hd : x.2.name = d
    · simp [hkk, hd, moved]
    · simp [hkk, hd, moved]

end linear

theorem hasDerivAt_sumOver (size : Char → ℕ) (f : ℝ → (Char → ℕ) → ℝ) (f' : (Char → ℕ) → ℝ) (t₀ : ℝ)
    (h : ∀ ρ, HasDerivAt (fun t => f t ρ) (f' ρ) t₀) : ∀ (ls : List Char) (ρ : Char → ℕ),
    HasDerivAt (fun t => sumOver size ls ρ (f t)) (sumOver size ls ρ f') t₀ := by
  intro ls
  induction ls with
  | nil => exact h
  | cons l ls ih =>
    intro ρ
    simp only [sumOver]
    exact HasDerivAt.fun_sum fun i _ => ih _

/-- The derivative of a product, the positions of the moving factors given by `P`. -/
theorem hasDerivAt_listProd (P : ℕ × Arg → Prop) [DecidablePred P] (f : ℕ × Arg → ℝ) (g : ℕ × Arg → ℝ) :
    ∀ L : List (ℕ × Arg), (L.map Prod.fst).Nodup →
    HasDerivAt (fun t : ℝ => (L.map fun x => if P x then f x + t * g x else f x).prod)
      ((L.filter fun x => decide (P x)).map fun x =>
        (L.map fun y => if y.1 = x.1 then g y else f y).prod).sum 0 := by
  intro L
  induction L with
  | nil => intro _; simpa using hasDerivAt_const (0 : ℝ) (1 : ℝ)
  | cons x L ih =>
    intro hn
    rw [List.map_cons, List.nodup_cons] at hn
    have hne : ∀ y ∈ L, y.1 ≠ x.1 := fun y hy e => hn.1 (List.mem_map.mpr ⟨y, hy, e⟩)
    have hx : HasDerivAt (fun t : ℝ => if P x then f x + t * g x else f x) (if P x then g x else 0) 0 := by
      split
      · have h1 := ((hasDerivAt_id (0 : ℝ)).mul_const (g x)).const_add (f x)
        simpa using h1
      · exact hasDerivAt_const _ _
    have hm := hx.mul (ih hn.2)
    simp only [List.map_cons, List.prod_cons]
    refine hm.congr_deriv ?_
    have hL0 : (L.map fun y => if P y then f y + 0 * g y else f y).prod = (L.map f).prod := by
      congr 1
      refine List.map_congr_left fun y _ => ?_
      split <;> ring
    have hLx : (L.map fun y => if y.1 = x.1 then g y else f y).prod = (L.map f).prod := by
      congr 1
      exact List.map_congr_left fun y hy => by rw [if_neg (hne y hy)]
    have hrest : ((L.filter fun x => decide (P x)).map fun z =>
        (if x.1 = z.1 then g x else f x) * (L.map fun y => if y.1 = z.1 then g y else f y).prod).sum =
        f x * ((L.filter fun x => decide (P x)).map fun z =>
          (L.map fun y => if y.1 = z.1 then g y else f y).prod).sum := by
      rw [← List.sum_map_mul_left]
      congr 1
      refine List.map_congr_left fun z hz => ?_
      rw [if_neg (hne z (List.mem_of_mem_filter hz)).symm]
    rw [hL0]
    by_cases hp : P x
    · simp only [hp, if_true, List.filter_cons, decide_true, List.map_cons, List.sum_cons, zero_mul, add_zero]
      rw [hLx, hrest]
    · simp only [hp, if_false, List.filter_cons, decide_false, Bool.false_eq_true, zero_mul, zero_add]
      rw [hrest]

/-- The derivative of the form by the DOFs of the variable `d` in the direction `du`. -/
theorem form_deriv (size : Char → ℕ) (env : Env ℝ) (fe : Bool) (c q : ℕ) (args : List Arg) (i n : ℕ) (fr : List ℕ)
    (d : ℕ) (du : ℕ → ℕ → ℕ → ℝ) :
    HasDerivAt (fun t => form size (moved env d du t) fe c q args (dofsAt (moved env d du t) c args i n) fr)
      ((occurrences d args).map fun p =>
        form size env fe c q args (Function.update (dofsAt env c args i n) p (du c)) fr).sum 0 := by
  have hn : ((numbered args).map Prod.fst).Nodup := by rw [numbered_fst]; exact List.nodup_range
  have hf : (fun t => form size (moved env d du t) fe c q args (dofsAt (moved env d du t) c args i n) fr) =
      fun t => sumOver size (repeatedLetters args) (assign (freeOf args) fr) fun ρ =>
        ((numbered args).map fun x => if x.2.kind = .state ∧ x.2.name = d then
          argVal env fe c q x.2 (dofsAt env c args i n x.1) ρ + t * argVal env fe c q x.2 (du c) ρ
          else argVal env fe c q x.2 (dofsAt env c args i n x.1) ρ).prod := by
    funext t
    rw [form_moved]
    unfold form
    refine sumOver_congr size _ _ _ _ fun ρ => ?_
    congr 1
    refine List.map_congr_left fun x hx => ?_
    by_cases hk : x.2.kind = .ndarray
    · simp [hk, argVal]
    · rw [dofsAt_moved env d du t c args i n hx hk]
      split
      · exact argVal_lin env fe c q x.2 hk _ _ t ρ
      · rfl
  rw [hf]
  refine (hasDerivAt_sumOver size _ _ 0 (fun ρ => hasDerivAt_listProd
    (fun x : ℕ × Arg => x.2.kind = .state ∧ x.2.name = d)
    (fun x => argVal env fe c q x.2 (dofsAt env c args i n x.1) ρ) (fun x => argVal env fe c q x.2 (du c) ρ)
    (numbered args) hn) _ _).congr_deriv ?_
  unfold occurrences form
  rw [List.map_map]
  have key : ∀ occ : List (ℕ × Arg), (∀ x ∈ occ, x ∈ numbered args) →
      sumOver size (repeatedLetters args) (assign (freeOf args) fr) (fun ρ => (occ.map fun x =>
        ((numbered args).map fun y => if y.1 = x.1 then argVal env fe c q y.2 (du c) ρ
          else argVal env fe c q y.2 (dofsAt env c args i n y.1) ρ).prod).sum) =
      (occ.map ((fun p => sumOver size (repeatedLetters args) (assign (freeOf args) fr) fun ρ =>
        ((numbered args).map fun x => argVal env fe c q x.2
          (Function.update (dofsAt env c args i n) p (du c) x.1) ρ).prod) ∘ Prod.fst)).sum := by
    intro occ
    induction occ with
    | nil =>
      intro _
      have := sumOver_smul size (0 : ℝ) (fun _ => (0 : ℝ)) (repeatedLetters args) (assign (freeOf args) fr)
      simpa using this
    | cons z occ ih =>
      intro hocc
      simp only [List.map_cons, List.sum_cons, Function.comp]
      have hadd : ∀ f g : (Char → ℕ) → ℝ, sumOver size (repeatedLetters args) (assign (freeOf args) fr)
          (fun ρ => f ρ + g ρ) = sumOver size (repeatedLetters args) (assign (freeOf args) fr) f +
          sumOver size (repeatedLetters args) (assign (freeOf args) fr) g := by
        intro f g
        have := sumOver_sum size (Finset.univ : Finset Bool) (fun b => if b then f else g) (repeatedLetters args)
          (assign (freeOf args) fr)
        simpa using this
      rw [hadd]
      congr 1
      · refine sumOver_congr size _ _ _ _ fun ρ => ?_
        congr 1
        refine List.map_congr_left fun y _ => ?_
        by_cases e : y.1 = z.1
        · rw [if_pos e, e, Function.update_self]
        · rw [if_neg e, Function.update_of_ne e]
      · exact ih fun x hx => hocc x (List.mem_cons_of_mem _ hx)
  exact key _ fun x hx => List.mem_of_mem_filter hx

theorem value_moved {K : Type*} [Field K] (mode : Mode) (env : Env K) (d : ℕ) (du : ℕ → ℕ → ℕ → K) (t : K)
    (args : List Arg) (c q₀ : ℕ) (f : ℕ → K) : value mode (moved env d du t) args c q₀ f = value mode env args c q₀ f := rfl

theorem sizes_moved {K : Type*} [Field K] (size : Char → ℕ) (env : Env K) (d : ℕ) (du : ℕ → ℕ → ℕ → K) (t : K) (nAdd : ℕ)
    (b : B) (h : SizesAgree size env nAdd b) : SizesAgree size (moved env d du t) nAdd b := by
  intro k hk io hio sh hsh
  refine h k hk io hio sh ?_
  rw [← hsh]
  cases (b.names k).getD io (.det 0) with
  | bf a f => cases f <;> rfl
  | _ => rfl

theorem value_sum {K : Type*} [Field K] {ι : Type*} (mode : Mode) (env : Env K) (args : List Arg) (c q₀ : ℕ)
    (s : Finset ι) (co : ι → K) (f : ι → ℕ → K) :
    value mode env args c q₀ (fun q => ∑ x ∈ s, co x * f x q) = ∑ x ∈ s, co x * value mode env args c q₀ (f x) := by
  unfold value
  split
  · rfl
  · simp only [Finset.mul_sum]
    rw [Finset.sum_comm]
    exact Finset.sum_congr rfl fun x _ => Finset.sum_congr rfl fun q _ => by ring

theorem value_listSum {K : Type*} [Field K] {ι : Type*} (mode : Mode) (env : Env K) (args : List Arg) (c q₀ : ℕ)
    (l : List ι) (f : ι → ℕ → K) :
    value mode env args c q₀ (fun q => (l.map fun x => f x q).sum) = (l.map fun x => value mode env args c q₀ (f x)).sum := by
  induction l with
  | nil => unfold value; simp
  | cons x l ih =>
    simp only [List.map_cons, List.sum_cons]
    rw [← ih]
    have := value_sum mode env args c q₀ (Finset.univ : Finset Bool) (fun _ => (1 : K))
      (fun b => if b then f x else fun q => (l.map fun x => f x q).sum)
    simpa using this

/-- The DOFs as the sum of the basis functions. -/
theorem dofs_sum {K : Type*} [Field K] (v : ℕ → ℕ → K) (nc N : ℕ) (hv : ∀ k n, nc ≤ k → v k n = 0) (k n : ℕ) (hn : n < N) :
    v k n = ∑ x ∈ Finset.range nc ×ˢ Finset.range N, v x.1 x.2 * unitDofs x.1 x.2 k n := by
  unfold unitDofs
  by_cases hk : k < nc
  · rw [Finset.sum_eq_single (k, n)]
    · simp
    · rintro ⟨a, b⟩ _ hne
      have : ¬ (k = a ∧ n = b) := fun ⟨e1, e2⟩ => hne (by rw [e1, e2])
      simp [this]
    · intro h; simp [hk, hn] at h
  · rw [hv k n (by omega)]
    symm
    refine Finset.sum_eq_zero ?_
    rintro ⟨a, b⟩ hab
    have : ¬ (k = a ∧ n = b) := by
      rintro ⟨e1, e2⟩
      simp at hab
      omega
    simp [this]

/-- C87: for every term expression, the array evaluated with `diff_var`, applied to any increment of the DOFs of the
variable, is the derivative of the residual in the direction of the increment: the two expressions made by the builder
are consistent, also for variables occurring several times in the term. -/
theorem C87_derivative {fe : Bool} {mode : Mode} {args : List Arg} {b₀ b₁ : B} {env : Env ℝ} {size : Char → ℕ}
    {d ncd : ℕ} (h₀ : build fe 1 none mode args = some b₀)
    (h₁ : build fe (nAddOf (some d) args) (some d) mode args = some b₁)
    (hg : Good env.dim (some d) (nAddOf (some d) args) args)
    (hs₀ : SizesAgree size env 1 b₀) (hs₁ : SizesAgree size env (nAddOf (some d) args) b₁)
    (hq : mode = .qp → 2 ≤ args.length) (c q₀ i n : ℕ) (fr : List ℕ)
    (hnc : ∀ a ∈ args, a.kind = .state → a.name = d → a.nc = ncd) (hnc0 : 0 < ncd)
    (hmod : ∀ a ∈ args, a.kind = .state → a.name = d → a.mod.isSome → ncd ≤ env.dim)
    (hv : ∀ a ∈ args, a.kind = .virtual → n < env.nn a.name ∧ (a.mod.isSome → i < env.dim))
    (du : ℕ → ℕ → ℕ → ℝ) (hdu : ∀ k n, ncd ≤ k → du c k n = 0) :
    HasDerivAt (fun t => evalTerm size (moved env d du t) 1 b₀ (headIdx mode c q₀ ++ (virtualIdx args i n ++ fr)))
      (∑ j ∈ Finset.range ncd, ∑ m ∈ Finset.range (env.nn d),
        evalTerm size env (nAddOf (some d) args) b₁
          (headIdx mode c q₀ ++ (virtualIdx args i n ++ basisIdx ncd j m ++ fr)) * du c j m) 0 := by
  have e0 : (fun t => evalTerm size (moved env d du t) 1 b₀ (headIdx mode c q₀ ++ (virtualIdx args i n ++ fr))) =
      fun t => value mode env args c q₀ fun q =>
        form size (moved env d du t) fe c q args (dofsAt (moved env d du t) c args i n) fr := by
    funext t
    rw [C86_residual (env := moved env d du t) h₀ hg.wf (sizes_moved size env d du t 1 b₀ hs₀) hq c q₀ i n fr hv, value_moved]
  rw [e0]
  have hder : HasDerivAt (fun t => value mode env args c q₀ fun q =>
        form size (moved env d du t) fe c q args (dofsAt (moved env d du t) c args i n) fr)
      (value mode env args c q₀ fun q => ((occurrences d args).map fun p =>
        form size env fe c q args (Function.update (dofsAt env c args i n) p (du c)) fr).sum) 0 := by
    unfold value
    split
    · exact form_deriv size env fe c q₀ args i n fr d du
    · exact HasDerivAt.fun_sum fun q _ => (form_deriv size env fe c q args i n fr d du).const_mul _
  refine hder.congr_deriv ?_
  rw [value_listSum]
  have htan : ∀ j ∈ Finset.range ncd, ∀ m ∈ Finset.range (env.nn d), evalTerm size env (nAddOf (some d) args) b₁
      (headIdx mode c q₀ ++ (virtualIdx args i n ++ basisIdx ncd j m ++ fr)) * du c j m =
      ((occurrences d args).map fun p => du c j m * value mode env args c q₀ fun q => form size env fe c q args
        (Function.update (dofsAt env c args i n) p (unitDofs j m)) fr).sum := by
    intro j hj m hm
    rw [Finset.mem_range] at hj hm
    rw [C86_tangent h₁ hg hs₁ hq c q₀ i n j m fr hnc hv hm
      (fun a ha h1 h2 h3 => lt_of_lt_of_le hj (hmod a ha h1 h2 h3))]
    have : (if ncd > 1 then j else 0) = j := by split <;> omega
    rw [this, mul_comm, List.sum_map_mul_left]
  rw [Finset.sum_congr rfl fun j hj => Finset.sum_congr rfl fun m hm => htan j hj m hm]
  rw [← Finset.sum_product' (f := fun j m => ((occurrences d args).map fun p => du c j m *
      value mode env args c q₀ fun q => form size env fe c q args
        (Function.update (dofsAt env c args i n) p (unitDofs j m)) fr).sum)]
  have hpos : ∀ p ∈ occurrences d args, value mode env args c q₀ (fun q =>
      form size env fe c q args (Function.update (dofsAt env c args i n) p (du c)) fr) =
      ∑ x ∈ Finset.range ncd ×ˢ Finset.range (env.nn d), du c x.1 x.2 * value mode env args c q₀ fun q =>
        form size env fe c q args (Function.update (dofsAt env c args i n) p (unitDofs x.1 x.2)) fr := by
    intro p hp
    unfold occurrences at hp
    obtain ⟨x₀, hx₀, rfl⟩ := List.mem_map.mp hp
    rw [List.mem_filter] at hx₀
    obtain ⟨hx, hxd⟩ := hx₀
    have hxd' : x₀.2.kind = .state ∧ x₀.2.name = d := by simpa using hxd
    rw [← value_sum]
    congr 1
    funext q
    rw [← form_sum size env fe c q args _ x₀ hx (by simp [hxd'.1])]
    unfold form
    refine sumOver_congr size _ _ _ _ fun ρ => ?_
    congr 1
    refine List.map_congr_left fun y hy => ?_
    by_cases e : y.1 = x₀.1
    · have := numbered_inj args hy hx e
      subst this
      rw [Function.update_self, Function.update_self]
      refine argVal_nodes env fe c q _ _ _ (fun k m hm => ?_) ρ
      rw [hxd'.2] at hm
      exact dofs_sum (du c) ncd (env.nn d) hdu k m hm
    · rw [Function.update_of_ne e, Function.update_of_ne e]
  rw [List.map_congr_left hpos]
  generalize occurrences d args = occ
  induction occ with
  | nil => simp
  | cons p occ ih =>
    simp only [List.map_cons, List.sum_cons, Finset.sum_add_distrib]
    rw [ih]

end Ml
