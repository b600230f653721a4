/-
C114: the fading memory terms.
-/
import Verif.Th.Model
import Verif.History.Props
import Mathlib.Algebra.BigOperators.Ring.Finset
import Mathlib.Algebra.BigOperators.Intervals
import Mathlib.Tactic.Ring
import Mathlib.Tactic.Linarith

namespace Verif.Th

open Finset Verif.History

variable {K V : Type} [CommRing K]

/-- The last evaluated values of a step. -/
def lastValue (evals : List (K × K)) : K := (evals.getLast?.map Prod.snd).getD 0

theorem evals_last (evals : List (K × K)) (hne : evals ≠ []) (c : Option (Eth K)) :
    evals.foldl (fun c e => some (getEthData c e.1 e.2)) c =
      some { history := (c.map Eth.history).getD 0, values := lastValue evals,
             decay := (c.map Eth.decay).getD ((evals.head?.map Prod.fst).getD 0) } := by
  induction evals using List.reverseRecOn with
  | nil => exact absurd rfl hne
  | append_singleton l e ih =>
    rw [List.foldl_append]
    simp only [List.foldl_cons, List.foldl_nil]
    by_cases hl : l = []
    · subst hl
      cases c <;> simp [getEthData, lastValue]
    · rw [ih hl]
      have hh : (l ++ [e]).head? = l.head? := List.head?_append_of_ne_nil _ hl
      simp only [getEthData, lastValue, List.getLast?_append, hh]
      simp

/-- The first decay given to the term. -/
def firstDecay (steps : List (List (K × K))) : K := ((steps.flatten.head?).map Prod.fst).getD 0

/-- The data after the steps. -/
theorem steps_state (h : ℕ) (steps : List (List (K × K))) (hne : ∀ l ∈ steps, l ≠ []) (h0 : steps ≠ []) :
    ∃ v, steps.foldl (ethStep (some (h + 1))) none = some
      { history := ∑ i ∈ range steps.length,
          firstDecay steps ^ (i + 1) * ((steps.map lastValue).reverse).getD i 0,
        values := v, decay := firstDecay steps } := by
  induction steps using List.reverseRecOn with
  | nil => exact absurd rfl h0
  | append_singleton l e ih =>
    have he : e ≠ [] := hne e (by simp)
    rw [List.foldl_append]
    simp only [List.foldl_cons, List.foldl_nil]
    by_cases hl : l = []
    · subst hl
      refine ⟨lastValue e, ?_⟩
      simp only [List.foldl_nil, ethStep, advanceEth, evals_last e he, Option.map_some, Option.map_none,
        Option.getD_none, List.nil_append, List.length_singleton, range_one, sum_singleton, List.map_cons, List.map_nil,
        List.reverse_singleton, firstDecay, List.flatten_cons, List.flatten_nil, List.append_nil, zero_add]
      simp
    · obtain ⟨v, hv⟩ := ih (fun q hq => hne q (by simp [hq])) hl
      have hd : firstDecay (l ++ [e]) = firstDecay l := by
        unfold firstDecay
        rw [List.flatten_append, List.head?_append_of_ne_nil]
        intro hc
        rw [List.flatten_eq_nil_iff] at hc
        cases l with
        | nil => exact hl rfl
        | cons a l => exact hne a (by simp) (hc a (by simp))
      rw [hv]
      refine ⟨lastValue e, ?_⟩
      simp only [ethStep, advanceEth, evals_last e he, Option.map_some, Option.getD_some, hd]
      rw [List.length_append, List.length_singleton, sum_range_succ', List.map_append, List.reverse_append]
      simp only [List.map_cons, List.map_nil, List.reverse_singleton, List.singleton_append, List.getD_cons_zero,
        List.getD_cons_succ, zero_add, pow_one]
      rw [mul_add, mul_sum]
      congr 3
      exact sum_congr rfl fun i _ => by ring

/-- **C114.** The strain given to the function of a term with an exponential kernel in the step `n` is
`sum_i decay^i v_{n-i}` over all the steps, where `v_k` are the values of the last evaluation in the step `k`, for any
numbers of evaluations in the steps; the decay is that of the very first evaluation. -/
theorem C114_exponential_memory (h : ℕ) (steps : List (List (K × K))) (hne : ∀ l ∈ steps, l ≠ []) (h0 : steps ≠ [])
    (decay v : K) :
    ethArg (getEthData (steps.foldl (ethStep (some (h + 1))) none) decay v) =
      v + ∑ i ∈ range steps.length, firstDecay steps ^ (i + 1) * ((steps.map lastValue).reverse).getD i 0 := by
  obtain ⟨w, hw⟩ := steps_state h steps hne h0
  rw [hw]
  simp only [getEthData, ethArg]
  ring

/-- In the first step there is no memory. -/
theorem C114_first_step (decay v : K) : ethArg (getEthData none decay v) = v := by simp [ethArg, getEthData]

/-- **C114.** A variable without a history or with a history of the length 0 has no memory: the strain is that of the
current step only. -/
theorem C114_no_history (history : Option ℕ) (hh : history = none ∨ history = some 0) (steps : List (List (K × K)))
    (decay v : K) : ethArg (getEthData (steps.foldl (ethStep history) none) decay v) = v := by
  have key : ∀ c : Option (Eth K), (c.map Eth.history).getD 0 = 0 →
      ∀ evals : List (K × K), ((ethStep history c evals).map Eth.history).getD 0 = 0 := by
    intro c hc evals
    have ha : ∀ c : Option (Eth K), advanceEth history c = c := fun c => by rcases hh with rfl | rfl <;> rfl
    unfold ethStep
    rw [ha]
    cases evals with
    | nil => exact hc
    | cons e es => rw [evals_last _ (by simp)]; exact hc
  have all : ∀ c : Option (Eth K), (c.map Eth.history).getD 0 = 0 →
      ((steps.foldl (ethStep history) c).map Eth.history).getD 0 = 0 := by
    induction steps with
    | nil => intro c hc; exact hc
    | cons s ss ih => intro c hc; exact ih _ (key c hc s)
  have := all none rfl
  revert this
  cases steps.foldl (ethStep history) none with
  | none => intro _; simp [ethArg, getEthData]
  | some d => intro hd; simp at hd; simp [ethArg, getEthData, hd]

/-! ### The full kernel -/

theorem thLoop_ok (hp : Heap V) (x : Var) (ev : List V → K) (dt : K) (f : ℕ → List V) (mats : List K) (ii : ℕ) (out : K)
    (hf : ∀ j < mats.length, x.call hp (-((ii + j : ℕ) : ℤ)) = .ok (f (ii + j))) :
    thLoop hp x ev dt ii mats out = .ok (out + ∑ j ∈ range mats.length, dt * (mats.getD j 0 * ev (f (ii + j)))) := by
  induction mats generalizing ii out with
  | nil => simp [thLoop]
  | cons m ms ih =>
    unfold thLoop
    have h0 := hf 0 (by simp)
    rw [Nat.add_zero] at h0
    rw [h0]
    simp only
    rw [ih (ii + 1) _ fun j hj => by
      have := hf (j + 1) (by simpa using hj)
      rwa [show ii + 1 + j = ii + (j + 1) by omega]]
    rw [List.length_cons, sum_range_succ']
    simp only [List.getD_cons_succ, List.getD_cons_zero, Nat.add_zero]
    congr 1
    rw [add_assoc, add_comm (dt * (m * ev (f ii)))]
    congr 2
    exact sum_congr rfl fun j _ => by rw [show ii + 1 + j = ii + (j + 1) by omega]

/-- What the term reads for the item `j` of the kernel: the current vector, or the vector `j` advances ago, the first
one if there were fewer advances. -/
def atStep (cur : List V) (past : List (List V)) (j : ℕ) : List V := if j = 0 then cur else back past j

theorem call_current {s : Heap V × Var} {h lo hi : ℕ} {past : List (List V)} (t : Tracks s h lo hi past) :
    s.2.call s.1 0 = .ok (current s) := by
  obtain ⟨r, hr, _, _⟩ := t.cur
  have := call_zero t hr
  unfold current
  rw [this]

/-- **C114.** After any sequence of changes of the arrays, settings of the data and advances, at least one, the residual with
a full kernel of a length at most the length of the history plus one is the sum of the contributions of the current and
the previous steps; the steps before the first one are replaced by the first one. -/
theorem C114_full_kernel (s : Heap V × Var) (h lo hi : ℕ) (t : Tracks s h lo hi []) (ops : List (HOp V))
    (ho : allAllowed ops s) (ev : List V → K) (dt : K) (mats : List K) (hm : mats.length ≤ h + 1)
    (hp : record ops s [] ≠ []) :
    let s' := ops.foldl (fun s o => o.run s) s
    thResidual s'.1 s'.2 ev dt mats = .ok (∑ j ∈ range mats.length,
      dt * (mats.getD j 0 * ev (atStep (current s') (record ops s []) j))) := by
  intro s'
  unfold thResidual
  rw [thLoop_ok s'.1 s'.2 ev dt (atStep (current s') (record ops s [])) mats 0 0 ?_]
  · simp
  · intro j hj
    rw [Nat.zero_add]
    by_cases hj0 : j = 0
    · subst hj0
      simp only [Nat.cast_zero, neg_zero, atStep, if_true]
      exact call_current (tracks_run t ops ho)
    · have := C24_history s h lo hi t ops ho j (by omega) (by omega)
      simp only at this
      rw [if_neg hp] at this
      simp only [atStep, hj0, if_false]
      exact this

/-- **C114, the exception.** Before the first advance a kernel of three or more items cannot be evaluated. -/
theorem C114_full_kernel_step0 (s : Heap V × Var) (h lo hi : ℕ) (t : Tracks s h lo hi []) (ev : List V → K) (dt : K)
    (m0 m1 m2 : K) (mats : List K) (hh : 2 ≤ h) :
    thResidual s.1 s.2 ev dt (m0 :: m1 :: m2 :: mats) = .error .value := by
  have h1 := C24_history s h lo hi t [] trivial 1 (by omega) (by omega)
  have h2 := C24_history s h lo hi t [] trivial 2 (by omega) (by omega)
  simp only [List.foldl_nil, record, if_true] at h1 h2
  norm_num at h1 h2
  unfold thResidual
  simp only [thLoop, Nat.cast_zero, neg_zero, call_current t, zero_add, Nat.cast_one, h1, Nat.reduceAdd, Nat.cast_ofNat,
    h2]

/-- **C114.** The exponential term is the full one: for the kernel `mat0 decay^i` of `N` items, at most the length of the
history plus one, after `n >= 1` steps, when both terms see the same states (the last evaluation in each step is that of
the state current at the advance): the residuals differ by the contributions of the items `i > n` of the kernel applied to
the first state, and of the steps `i >= N` truncated by the full term. -/
theorem C114_exponential_is_full (s : Heap V × Var) (h lo hi : ℕ) (t : Tracks s (h + 1) lo hi []) (ops : List (HOp V))
    (ho : allAllowed ops s) (ev : List V → K) (dt mat0 decay' : K) (N : ℕ) (hN : N ≤ h + 2) (hN1 : 1 ≤ N)
    (steps : List (List (K × K))) (hne : ∀ l ∈ steps, l ≠ []) (h0 : steps ≠ [])
    (hsync : steps.map lastValue = ((record ops s []).map ev).reverse) :
    let s' := ops.foldl (fun s o => o.run s) s
    let d := firstDecay steps
    let first := ev ((record ops s []).getLastD [])
    ∃ out, thResidual s'.1 s'.2 ev dt ((List.range N).map fun i => mat0 * d ^ i) = .ok out ∧
      ethResidual dt mat0 (steps.foldl (ethStep (some (h + 1))) none) decay' (ev (current s')) +
        ∑ i ∈ Ico (steps.length + 1) N, dt * (mat0 * d ^ i * first) =
      out + ∑ i ∈ Ico N (steps.length + 1), dt * (mat0 * d ^ i * ev (atStep (current s') (record ops s []) i)) := by
  intro s' d first
  have hlen : steps.length = (record ops s []).length := by
    have := congrArg List.length hsync
    simpa using this
  have hp : record ops s [] ≠ [] := fun hc => h0 (List.length_eq_zero_iff.1 (by rw [hlen, hc]; rfl))
  have hth := C114_full_kernel s (h + 1) lo hi t ops ho ev dt ((List.range N).map fun i => mat0 * d ^ i)
    (by simpa using hN) hp
  simp only at hth
  refine ⟨_, hth, ?_⟩
  rw [List.length_map, List.length_range]
  unfold ethResidual
  rw [C114_exponential_memory h steps hne h0, hsync, List.reverse_reverse]
  set past := record ops s [] with hpast
  set n := steps.length with hn
  have hat : ∀ i, i ≤ n → 1 ≤ i → ev (atStep (current s') past i) = (past.map ev).getD (i - 1) 0 := by
    intro i hi h1
    have hlt : i - 1 < past.length := by omega
    simp only [atStep, show i ≠ 0 by omega, if_false, back]
    rw [Nat.min_eq_left (by omega), List.getD_eq_getElem?_getD, List.getElem?_eq_getElem hlt,
      List.getD_eq_getElem?_getD, List.getElem?_map, List.getElem?_eq_getElem hlt]
    rfl
  have hfar : ∀ i, n < i → ev (atStep (current s') past i) = first := by
    intro i hi
    simp only [atStep, show i ≠ 0 by omega, if_false, back, first]
    have hpos : 0 < past.length := List.length_pos_of_ne_nil hp
    rw [Nat.min_eq_right (by omega), List.getD_eq_getElem?_getD, List.getElem?_eq_getElem (by omega),
      ← List.getLast_eq_getElem hp, List.getLastD_eq_getLast?, List.getLast?_eq_getLast_of_ne_nil hp]
  have hget : ∀ j ∈ range N, dt * (((List.range N).map fun i => mat0 * d ^ i).getD j 0 *
      ev (atStep (current s') past j)) = dt * (mat0 * d ^ j * ev (atStep (current s') past j)) := by
    intro j hj
    rw [mem_range] at hj
    rw [List.getD_eq_getElem?_getD, List.getElem?_map, List.getElem?_range hj]
    rfl
  rw [sum_congr rfl hget]
  have heth : dt * (mat0 * (ev (current s') + ∑ i ∈ range n, d ^ (i + 1) * (past.map ev).getD i 0)) =
      ∑ i ∈ range (n + 1), dt * (mat0 * d ^ i * ev (atStep (current s') past i)) := by
    rw [sum_range_succ', mul_add, mul_add, mul_sum, mul_sum, add_comm]
    congr 1
    · refine sum_congr rfl fun i hi => ?_
      rw [hat (i + 1) (by have := mem_range.1 hi; omega) (by omega), Nat.add_sub_cancel]
      ring
    · simp [atStep]
  rw [heth]
  have hext : ∑ i ∈ Ico (n + 1) N, dt * (mat0 * d ^ i * first) =
      ∑ i ∈ Ico (n + 1) N, dt * (mat0 * d ^ i * ev (atStep (current s') past i)) :=
    sum_congr rfl fun i hi => by rw [hfar i (by have := mem_Ico.1 hi; omega)]
  rw [hext]
  rcases le_total N (n + 1) with hle | hle
  · rw [Ico_eq_empty_of_le hle, sum_empty, add_zero, range_eq_Ico, range_eq_Ico, sum_Ico_consecutive _ (Nat.zero_le _) hle]
  · rw [Ico_eq_empty_of_le hle, sum_empty, add_zero, range_eq_Ico, range_eq_Ico, sum_Ico_consecutive _ (Nat.zero_le _) hle]

end Verif.Th
