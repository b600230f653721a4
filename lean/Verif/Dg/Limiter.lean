import Mathlib.Algebra.Order.Field.Basic
import Mathlib.Data.Sign.Basic
import Mathlib.Data.List.GetD
import Mathlib.Algebra.Order.Ring.Abs
import Mathlib.Tactic.Linarith
import Mathlib.Tactic.Ring

/-!
# Limiters of the DG solutions (discrete/dg/limiters.py)
-/

namespace Dg

set_option linter.unusedSectionVars false

variable {K : Type*} [Field K] [LinearOrder K] [IsStrictOrderedRing K]

/-! ## The minmod functions -/

/-- `minmod()` for one entry of the arrays (sfepy/discrete/dg/limiters.py:34-40). -/
def minmod (a b c : K) : K :=
  if SignType.sign a = SignType.sign b ∧ SignType.sign b = SignType.sign c then
    (SignType.sign a : K) * min (min |b| |a|) |c|
  else 0

/-- `nm.minimum.reduce([nm.abs(x) for x in abc])` for one entry (sfepy/discrete/dg/limiters.py:63). -/
def minAbs : List K → K
  | [] => 0
  | x :: xs => xs.foldl (fun m y => min m |y|) |x|

/-- `minmod_seq()` for one entry of the arrays (sfepy/discrete/dg/limiters.py:58-64). -/
def minmodSeq : List K → K
  | [] => 0
  | x :: xs =>
    if (x :: xs).all (fun y => decide (SignType.sign x = SignType.sign y)) then
      (SignType.sign x : K) * minAbs (x :: xs)
    else 0

/-- Specification: the value of the arguments nearest to zero when all of them have the same strict sign,
zero otherwise. -/
def IsMinmod (l : List K) (r : K) : Prop :=
  ((∀ x ∈ l, 0 < x) ∧ r ∈ l ∧ ∀ x ∈ l, r ≤ x) ∨
  ((∀ x ∈ l, x < 0) ∧ r ∈ l ∧ ∀ x ∈ l, x ≤ r) ∨
  (¬(∀ x ∈ l, 0 < x) ∧ ¬(∀ x ∈ l, x < 0) ∧ r = 0)

/-! ## The packing of the DOFs -/

/-- `unravel(u).swapaxes(0, 1)`: the entry (moment `m`, cell `c`)
(sfepy/discrete/dg/fields.py:47-52; sfepy/discrete/dg/limiters.py:118). -/
def unravel (P : ℕ) (u : List K) (m c : ℕ) : K := u.getD (c * P + m) 0

/-- `ravel(nu.swapaxes(0, 1))[:, 0]` (sfepy/discrete/dg/fields.py:74-94;
sfepy/discrete/dg/limiters.py:139). -/
def ravel (P N : ℕ) (nu : ℕ → ℕ → K) : List K :=
  (List.range (N * P)).map fun i : ℕ => nu (i % P) (i / P)

/-! ## The 1D moment limiter -/

/-- The variables of the loop of `MomentLimiter1D.__call__()` (sfepy/discrete/dg/limiters.py:119-124). -/
structure St1 (K : Type*) where
  nu : ℕ → ℕ → K
  tilu : ℕ → K
  idx : List ℕ

/-- `minmod(nu[ll, 1:-1][k], nu[ll-1, 2:][k] - nu[ll-1, 1:-1][k], nu[ll-1, 1:-1][k] - nu[ll-1, :-2][k])`
(sfepy/discrete/dg/limiters.py:125-127). -/
def cand1 (nu : ℕ → ℕ → K) (ll k : ℕ) : K :=
  minmod (nu ll (k + 1)) (nu (ll - 1) (k + 2) - nu (ll - 1) (k + 1))
    (nu (ll - 1) (k + 1) - nu (ll - 1) k)

/-- The loop over the moments, `for ll in range(self.n_el_nod - 1, 0, -1)`, from the moment `ll` on, for `N`
cells (sfepy/discrete/dg/limiters.py:124-137).  `idx_bc` is `nm.arange(N)` all the time. -/
def loop1 (eps : K) (N : ℕ) : ℕ → St1 K → St1 K
  | 0, s => s
  | l + 1, s =>
    let tilu := fun k => if k ∈ s.idx then cand1 s.nu (l + 1) k else s.tilu k
    let idx := s.idx.filter fun k => decide (eps < |tilu k - s.nu (l + 1) (k + 1)|)
    if N = 0 then { s with tilu := tilu, idx := idx }
    else
      let nu := fun m c =>
        if m = l + 1 ∧ 1 ≤ c ∧ (c - 1) ∈ idx then tilu (c - 1) else s.nu m c
      loop1 eps N l { nu := nu, tilu := tilu, idx := idx }

/-- `MomentLimiter1D.__call__()` for `P = n_el_nod`, `N = n_cell`; `eps` is `MACHINE_EPS`
(sfepy/discrete/dg/limiters.py:103-139). -/
def momentLimiter1D (eps : K) (P N : ℕ) (u : List K) : List K :=
  if P = 1 then u
  else
    ravel P N (loop1 eps N (P - 1)
      { nu := unravel P u, tilu := fun _ => 0, idx := List.range (N - 2) }).nu

/-! ## The 2D moment limiter -/

/-- `minmod_args` of the moment (ii, jj) in the cell `c`, with the factors `alf` of the orders
(sfepy/discrete/dg/limiters.py:179-194).  Simplification: the factors `nm.sqrt((2*i - 1)/(2*i + 1))` are
given by an arbitrary function of the order. -/
def args2 (alf : ℕ → K) (nbr : ℕ → ℕ → ℤ) (nu : ℕ × ℕ → ℕ → K) (p : ℕ × ℕ) (c : ℕ) : List K :=
  [nu p c] ++
  (if 1 ≤ p.1 then
    [alf p.1 * (nu (p.1 - 1, p.2) (nbr c 1).toNat - nu (p.1 - 1, p.2) c),
     alf p.1 * (nu (p.1 - 1, p.2) c - nu (p.1 - 1, p.2) (nbr c 3).toNat)]
   else []) ++
  (if 1 ≤ p.2 then
    [alf p.2 * (nu (p.1, p.2 - 1) (nbr c 2).toNat - nu (p.1, p.2 - 1) c),
     alf p.2 * (nu (p.1, p.2 - 1) c - nu (p.1, p.2 - 1) (nbr c 0).toNat)]
   else [])

/-- The variables of the loop of `MomentLimiter2D.__call__()` (sfepy/discrete/dg/limiters.py:167-172). -/
structure St2 (K : Type*) where
  nu : ℕ × ℕ → ℕ → K
  tilu : ℕ → K
  idx : List ℕ

/-- The loop over the moments, for the remaining moments `ps` (sfepy/discrete/dg/limiters.py:177-204). -/
def loop2 (alf : ℕ → K) (nbr : ℕ → ℕ → ℤ) (eps : K) : List (ℕ × ℕ) → St2 K → St2 K
  | [], s => s
  | p :: ps, s =>
    let tilu := fun c => if c ∈ s.idx then minmodSeq (args2 alf nbr s.nu p c) else s.tilu c
    let idx := s.idx.filter fun c => decide (eps < |tilu c - s.nu p c|)
    if idx.length = 0 then { s with tilu := tilu, idx := idx }
    else
      let nu := fun q c => if q = p ∧ c ∈ idx then tilu c else s.nu q c
      loop2 alf nbr eps ps { nu := nu, tilu := tilu, idx := idx }

/-- `nu[ii, jj, ...] = u[ll]` for the moments in the order of `iter_by_order()`
(sfepy/discrete/dg/limiters.py:170-175). -/
def fill2 (L : List (ℕ × ℕ)) (u : ℕ → ℕ → K) : ℕ × ℕ → ℕ → K :=
  L.zipIdx.foldl (fun nu pl => Function.update nu pl.1 (u pl.2)) (fun _ _ => 0)

/-- The cells all of whose neighbours have positive indices (sfepy/discrete/dg/limiters.py:165-168). -/
def inner2 (nbr : ℕ → ℕ → ℤ) (N : ℕ) : List ℕ :=
  (List.range N).filter fun c =>
    decide (0 < nbr c 0) && decide (0 < nbr c 1) && decide (0 < nbr c 2) && decide (0 < nbr c 3)

/-- `MomentLimiter2D.__call__()` on quadrilaterals; `L` is the list of the moments given by
`iter_by_order()` and `P = n_el_nod = len(L)`, `nbr` the table of the neighbours of the facets
(sfepy/discrete/dg/limiters.py:148-211). -/
def momentLimiter2D (alf : ℕ → K) (nbr : ℕ → ℕ → ℤ) (eps : K) (L : List (ℕ × ℕ)) (N : ℕ)
    (u : List K) : List K :=
  if L.length = 1 then u
  else
    let s := loop2 alf nbr eps L.reverse
      { nu := fill2 L (unravel L.length u), tilu := fun _ => 0, idx := inner2 nbr N }
    ravel L.length N fun m c => s.nu (L.getD m (0, 0)) c

/-! ## Several fields -/

/-- `ComposedLimiter.limiter_slices` (sfepy/discrete/dg/limiters.py:219-223). -/
def slices : ℕ → List ℕ → List (ℕ × ℕ)
  | _, [] => []
  | start, n :: ns => (start, start + n) :: slices (start + n) ns

/-- `lu[a:b] = vals`, for `vals` with the shape of `lu[a:b]`. -/
def setSlice (lu : List K) (a b : ℕ) (vals : List K) : List K := lu.take a ++ vals ++ lu.drop b

/-- `ComposedLimiter.__call__()` for fields with `n_bubble_dof` DOFs and their limiters
(sfepy/discrete/dg/limiters.py:217-231). -/
def composed (fields : List (ℕ × (List K → List K))) (u : List K) : List K :=
  ((slices 0 (fields.map Prod.fst)).zip (fields.map Prod.snd)).foldl
    (fun lu sl => setSlice lu sl.1.1 sl.1.2 (sl.2 ((u.drop sl.1.1).take (sl.1.2 - sl.1.1))))
    (List.replicate u.length 0)

/-! ## Proofs: minmod -/

theorem isMinmod_unique {l : List K} {r s : K} (hr : IsMinmod l r) (hs : IsMinmod l s) (hl : l ≠ []) :
    r = s := by
  obtain ⟨x, hx⟩ := List.exists_mem_of_ne_nil l hl
  rcases hr with ⟨h1, h2, h3⟩ | ⟨h1, h2, h3⟩ | ⟨h1, h2, h3⟩ <;>
    rcases hs with ⟨g1, g2, g3⟩ | ⟨g1, g2, g3⟩ | ⟨g1, g2, g3⟩
  · exact le_antisymm (h3 _ g2) (g3 _ h2)
  · exact absurd (h1 x hx) (not_lt.mpr (g1 x hx).le)
  · exact absurd h1 g1
  · exact absurd (g1 x hx) (not_lt.mpr (h1 x hx).le)
  · exact le_antisymm (g3 _ h2) (h3 _ g2)
  · exact absurd h1 g2
  · exact absurd g1 h1
  · exact absurd g1 h2
  · rw [h3, g3]

theorem foldl_min_le (xs : List K) (a : K) :
    xs.foldl (fun m y => min m |y|) a ≤ a ∧ ∀ y ∈ xs, xs.foldl (fun m y => min m |y|) a ≤ |y| := by
  induction xs generalizing a with
  | nil => simp
  | cons x xs ih =>
    simp only [List.foldl_cons, List.mem_cons]
    obtain ⟨h1, h2⟩ := ih (min a |x|)
    refine ⟨h1.trans (min_le_left _ _), ?_⟩
    rintro y (rfl | hy)
    · exact h1.trans (min_le_right _ _)
    · exact h2 y hy

theorem foldl_min_mem (xs : List K) (a : K) :
    xs.foldl (fun m y => min m |y|) a = a ∨ ∃ y ∈ xs, xs.foldl (fun m y => min m |y|) a = |y| := by
  induction xs generalizing a with
  | nil => simp
  | cons x xs ih =>
    simp only [List.foldl_cons, List.mem_cons]
    rcases ih (min a |x|) with h | ⟨y, hy, h⟩
    · rcases min_choice a |x| with g | g
      · left; rw [h, g]
      · right; exact ⟨x, Or.inl rfl, by rw [h, g]⟩
    · right; exact ⟨y, Or.inr hy, h⟩

theorem minAbs_le (l : List K) : ∀ x ∈ l, minAbs l ≤ |x| := by
  cases l with
  | nil => simp
  | cons x xs =>
    intro y hy
    rcases List.mem_cons.mp hy with rfl | hy
    · exact (foldl_min_le xs _).1
    · exact (foldl_min_le xs _).2 y hy

theorem minAbs_mem (l : List K) (hl : l ≠ []) : ∃ x ∈ l, minAbs l = |x| := by
  cases l with
  | nil => exact absurd rfl hl
  | cons x xs =>
    rcases foldl_min_mem xs |x| with h | ⟨y, hy, h⟩
    · exact ⟨x, by simp, h⟩
    · exact ⟨y, by simp [hy], h⟩

/-- C80: `minmod_seq()` gives the argument nearest to zero when all the arguments have the same strict sign,
and zero otherwise. -/
theorem C80_minmod_seq (l : List K) (hl : l ≠ []) : IsMinmod l (minmodSeq l) := by
  cases l with
  | nil => exact absurd rfl hl
  | cons x xs =>
    rw [minmodSeq]
    split
    · rename_i h
      have hall : ∀ y ∈ x :: xs, SignType.sign x = SignType.sign y := by
        intro y hy
        simpa using List.all_eq_true.mp h y hy
      obtain ⟨z, hz, hmz⟩ := minAbs_mem (x :: xs) hl
      rcases lt_trichotomy x 0 with hx | hx | hx
      · have hneg : ∀ y ∈ x :: xs, y < 0 := fun y hy => by
          have := hall y hy
          rw [sign_neg hx] at this
          exact sign_eq_neg_one_iff.mp this.symm
        right; left
        have e : (SignType.sign x : K) * minAbs (x :: xs) = z := by
          rw [sign_neg hx, hmz, abs_of_neg (hneg z hz)]; simp
        refine ⟨hneg, by rw [e]; exact hz, fun y hy => ?_⟩
        rw [e]
        have := minAbs_le (x :: xs) y hy
        rw [hmz, abs_of_neg (hneg z hz), abs_of_neg (hneg y hy)] at this
        linarith
      · right; right
        subst hx
        refine ⟨fun h => lt_irrefl _ (h 0 (by simp)), fun h => lt_irrefl _ (h 0 (by simp)), ?_⟩
        simp
      · have hpos : ∀ y ∈ x :: xs, 0 < y := fun y hy => by
          have := hall y hy
          rw [sign_pos hx] at this
          exact sign_eq_one_iff.mp this.symm
        left
        have e : (SignType.sign x : K) * minAbs (x :: xs) = z := by
          rw [sign_pos hx, hmz, abs_of_pos (hpos z hz)]; simp
        refine ⟨hpos, by rw [e]; exact hz, fun y hy => ?_⟩
        rw [e]
        have := minAbs_le (x :: xs) y hy
        rwa [hmz, abs_of_pos (hpos z hz), abs_of_pos (hpos y hy)] at this
    · rename_i h
      right; right
      refine ⟨fun hp => h ?_, fun hp => h ?_, rfl⟩
      · refine List.all_eq_true.mpr fun y hy => ?_
        simp [sign_pos (hp x (by simp)), sign_pos (hp y hy)]
      · refine List.all_eq_true.mpr fun y hy => ?_
        simp [sign_neg (hp x (by simp)), sign_neg (hp y hy)]

theorem minmod_eq_seq (a b c : K) : minmod a b c = minmodSeq [a, b, c] := by
  rw [minmod, minmodSeq]
  have h3 : ((([a, b, c] : List K).all fun y => decide (SignType.sign a = SignType.sign y)) = true) ↔
      (SignType.sign a = SignType.sign b ∧ SignType.sign b = SignType.sign c) := by
    simp only [List.all_cons, List.all_nil, Bool.and_true, Bool.and_eq_true, decide_eq_true_eq,
      true_and]
    constructor
    · rintro ⟨h1, h2⟩; exact ⟨h1, h1.symm.trans h2⟩
    · rintro ⟨h1, h2⟩; exact ⟨h1, h1.trans h2⟩
  by_cases h : SignType.sign a = SignType.sign b ∧ SignType.sign b = SignType.sign c
  · rw [if_pos h, if_pos (h3.mpr h)]
    congr 1
    simp [minAbs, min_comm]
  · rw [if_neg h, if_neg (fun g => h (h3.mp g))]

/-- C80: `minmod()` gives the argument nearest to zero when the three arguments have the same strict sign,
and zero otherwise. -/
theorem C80_minmod (a b c : K) : IsMinmod [a, b, c] (minmod a b c) := by
  rw [minmod_eq_seq]; exact C80_minmod_seq _ (by simp)

theorem isMinmod_head {x : K} {xs : List K} {r : K} (h : IsMinmod (x :: xs) r) :
    0 ≤ r * x ∧ |r| ≤ |x| := by
  rcases h with ⟨h1, h2, h3⟩ | ⟨h1, h2, h3⟩ | ⟨-, -, rfl⟩
  · have hr := h1 r h2
    have hx := h1 x (by simp)
    have hle := h3 x (by simp)
    exact ⟨(mul_pos hr hx).le, by rwa [abs_of_pos hr, abs_of_pos hx]⟩
  · have hr := h1 r h2
    have hx := h1 x (by simp)
    have hle := h3 x (by simp)
    exact ⟨(mul_pos_of_neg_of_neg hr hx).le, by rw [abs_of_neg hr, abs_of_neg hx]; linarith⟩
  · simp

/-! ## Proofs: the 1D limiter -/

theorem loop1_closed (eps : K) (N : ℕ) (hN : N ≠ 0) (u : ℕ → ℕ → K) (L : ℕ) (s : St1 K)
    (hu : ∀ m, m ≤ L → s.nu m = u m) (m c : ℕ) :
    (loop1 eps N L s).nu m c =
      if 1 ≤ m ∧ m ≤ L ∧ 1 ≤ c ∧ (c - 1) ∈ s.idx ∧
          ∀ l, m ≤ l → l ≤ L → eps < |cand1 u l (c - 1) - u l c| then
        cand1 u m (c - 1)
      else s.nu m c := by
  induction L generalizing s with
  | zero =>
    rw [loop1, if_neg]
    rintro ⟨h1, h2, -⟩; omega
  | succ L ih =>
    have hc : ∀ k, cand1 s.nu (L + 1) k = cand1 u (L + 1) k := by
      intro k
      simp [cand1, hu (L + 1) le_rfl, hu L (Nat.le_succ L)]
    rw [loop1]
    simp only [hN, if_false]
    rw [ih _ ?_]
    swap
    · intro m hm
      funext c
      have : ¬ (m = L + 1) := by omega
      simp only [this, false_and, if_false]
      rw [hu m (by omega)]
    have hidx : ∀ k, k ∈ s.idx.filter (fun k => decide (eps < |(if k ∈ s.idx then cand1 s.nu (L + 1) k
        else s.tilu k) - s.nu (L + 1) (k + 1)|)) ↔
        k ∈ s.idx ∧ eps < |cand1 u (L + 1) k - u (L + 1) (k + 1)| := by
      intro k
      rw [List.mem_filter]
      refine and_congr_right fun hk => ?_
      rw [decide_eq_true_eq, if_pos hk, hc, hu (L + 1) le_rfl]
    simp only [hidx]
    by_cases hcpos : 1 ≤ c
    swap
    · rw [if_neg, if_neg, if_neg]
      · rintro ⟨-, -, h, -⟩; exact hcpos h
      · rintro ⟨-, h, -⟩; exact hcpos h
      · rintro ⟨-, -, h, -⟩; exact hcpos h
    have hcc : c - 1 + 1 = c := by omega
    rw [hcc]
    by_cases hm : m = L + 1
    · subst hm
      rw [if_neg (by rintro ⟨-, h, -⟩; omega)]
      by_cases hk : (c - 1) ∈ s.idx ∧ eps < |cand1 u (L + 1) (c - 1) - u (L + 1) c|
      · rw [if_pos ⟨rfl, hcpos, hk⟩, if_pos hk.1, hc, if_pos]
        refine ⟨by omega, le_rfl, hcpos, hk.1, fun l h1 h2 => ?_⟩
        obtain rfl : l = L + 1 := by omega
        exact hk.2
      · rw [if_neg (fun h => hk h.2.2), if_neg]
        rintro ⟨-, -, -, h4, h5⟩
        exact hk ⟨h4, h5 _ le_rfl le_rfl⟩
    · have hm' : ¬ (m = L + 1 ∧ 1 ≤ c ∧ (c - 1) ∈ s.idx ∧
          eps < |cand1 u (L + 1) (c - 1) - u (L + 1) c|) := fun h => hm h.1
      rw [if_neg hm']
      refine if_congr ?_ rfl rfl
      constructor
      · rintro ⟨h1, h2, h3, ⟨h4, h5⟩, h6⟩
        refine ⟨h1, by omega, h3, h4, fun l g1 g2 => ?_⟩
        by_cases hl : l = L + 1
        · subst hl; exact h5
        · exact h6 l g1 (by omega)
      · rintro ⟨h1, h2, h3, h4, h5⟩
        exact ⟨h1, by omega, h3, ⟨h4, h5 _ (by omega) le_rfl⟩, fun l g1 g2 => h5 l g1 (by omega)⟩

theorem ravel_getD (P N : ℕ) (nu : ℕ → ℕ → K) (m c : ℕ) (hm : m < P) (hc : c < N) :
    (ravel P N nu).getD (c * P + m) 0 = nu m c := by
  have hlt : c * P + m < N * P := by
    calc c * P + m < c * P + P := by omega
      _ = (c + 1) * P := by ring
      _ ≤ N * P := Nat.mul_le_mul_right _ hc
  have hP : 0 < P := by omega
  unfold ravel
  rw [List.getD_eq_getElem _ _ (by simpa using hlt)]
  simp only [List.getElem_map, List.getElem_range]
  congr 1
  · rw [Nat.add_comm, Nat.add_mul_mod_self_right, Nat.mod_eq_of_lt hm]
  · rw [Nat.add_comm, Nat.add_mul_div_right _ _ hP, Nat.div_eq_of_lt hm, Nat.zero_add]

/-- Specification of the 1D limiter: the moment `m` of the cell `c` is replaced by the minmod of the moment
and of the two differences of the next lower moment (all of the input solution) in the interior cells where
all the moments `m`, ..., `P - 1` have to be changed. -/
def limited1 (eps : K) (P N : ℕ) (u : ℕ → ℕ → K) (m c : ℕ) : Prop :=
  1 ≤ m ∧ 1 ≤ c ∧ c + 1 < N ∧ ∀ l, m ≤ l → l < P → ∀ r,
    IsMinmod [u l c, u (l - 1) (c + 1) - u (l - 1) c, u (l - 1) c - u (l - 1) (c - 1)] r →
    eps < |r - u l c|

theorem momentLimiter1D_length (eps : K) (P N : ℕ) (u : List K) (hu : u.length = N * P) :
    (momentLimiter1D eps P N u).length = N * P := by
  unfold momentLimiter1D
  split
  · exact hu
  · simp [ravel]

theorem cand1_minmod (u : ℕ → ℕ → K) (l c : ℕ) (hc : 1 ≤ c) :
    IsMinmod [u l c, u (l - 1) (c + 1) - u (l - 1) c, u (l - 1) c - u (l - 1) (c - 1)]
      (cand1 u l (c - 1)) := by
  obtain ⟨k, rfl⟩ : ∃ k, c = k + 1 := ⟨c - 1, by omega⟩
  exact C80_minmod _ _ _

theorem momentLimiter1D_closed (eps : K) (P N : ℕ) (u : List K) (m c : ℕ) (hm : m < P) (hc : c < N) :
    ((limited1 eps P N (unravel P u) m c →
      (momentLimiter1D eps P N u).getD (c * P + m) 0 = cand1 (unravel P u) m (c - 1)) ∧
     (¬ limited1 eps P N (unravel P u) m c →
      (momentLimiter1D eps P N u).getD (c * P + m) 0 = unravel P u m c)) := by
  by_cases hP : P = 1
  · subst hP
    unfold momentLimiter1D
    rw [if_pos rfl]
    have hm0 : m = 0 := by omega
    subst hm0
    exact ⟨fun h => absurd h.1 (by omega), fun _ => rfl⟩
  · unfold momentLimiter1D
    rw [if_neg hP, ravel_getD _ _ _ _ _ hm hc,
      loop1_closed eps N (by omega) (unravel P u) (P - 1) _ (fun _ _ => rfl)]
    have hiff : (1 ≤ m ∧ m ≤ P - 1 ∧ 1 ≤ c ∧ (c - 1) ∈ List.range (N - 2) ∧
        ∀ l, m ≤ l → l ≤ P - 1 → eps < |cand1 (unravel P u) l (c - 1) - unravel P u l c|) ↔
        limited1 eps P N (unravel P u) m c := by
      constructor
      · rintro ⟨h1, h2, h3, h4, h5⟩
        rw [List.mem_range] at h4
        refine ⟨h1, h3, by omega, fun l g1 g2 r hr => ?_⟩
        rw [isMinmod_unique hr (cand1_minmod _ l c h3) (by simp)]
        exact h5 l g1 (by omega)
      · rintro ⟨h1, h3, h4, h5⟩
        exact ⟨h1, by omega, h3, List.mem_range.mpr (by omega),
          fun l g1 g2 => h5 l g1 (by omega) _ (cand1_minmod _ l c h3)⟩
    constructor
    · intro h
      rw [if_pos (hiff.mpr h)]
    · intro h
      rw [if_neg (fun g => h (hiff.mp g))]

/-- C80 (1D): what the limiter returns, for every solution, every number of cells and every order. -/
theorem C80_moment1D (eps : K) (P N : ℕ) (u : List K) (m c : ℕ) (hm : m < P) (hc : c < N) :
    (limited1 eps P N (unravel P u) m c →
      IsMinmod [unravel P u m c, unravel P u (m - 1) (c + 1) - unravel P u (m - 1) c,
        unravel P u (m - 1) c - unravel P u (m - 1) (c - 1)]
        ((momentLimiter1D eps P N u).getD (c * P + m) 0)) ∧
    (¬ limited1 eps P N (unravel P u) m c →
      (momentLimiter1D eps P N u).getD (c * P + m) 0 = unravel P u m c) := by
  obtain ⟨h1, h2⟩ := momentLimiter1D_closed eps P N u m c hm hc
  refine ⟨fun h => ?_, h2⟩
  rw [h1 h]
  exact cand1_minmod _ m c h.2.1

/-- C80 (1D): the mean value of each cell is kept. -/
theorem C80_moment1D_mean (eps : K) (P N : ℕ) (u : List K) (c : ℕ) (hP : 0 < P) (hc : c < N) :
    (momentLimiter1D eps P N u).getD (c * P) 0 = u.getD (c * P) 0 := by
  have := (C80_moment1D eps P N u 0 c hP hc).2 (fun h => absurd h.1 (by omega))
  simpa [unravel] using this

/-- C80 (1D): the first and the last cells are kept. -/
theorem C80_moment1D_ends (eps : K) (P N : ℕ) (u : List K) (m c : ℕ) (hm : m < P) (hc : c < N)
    (h : c = 0 ∨ c + 1 = N) :
    (momentLimiter1D eps P N u).getD (c * P + m) 0 = u.getD (c * P + m) 0 := by
  refine (C80_moment1D eps P N u m c hm hc).2 (fun g => ?_)
  obtain ⟨-, g2, g3, -⟩ := g
  omega

/-- C80 (1D): no moment grows or changes its sign. -/
theorem C80_moment1D_shrinks (eps : K) (P N : ℕ) (u : List K) (m c : ℕ) (hm : m < P) (hc : c < N) :
    |(momentLimiter1D eps P N u).getD (c * P + m) 0| ≤ |u.getD (c * P + m) 0| ∧
    0 ≤ (momentLimiter1D eps P N u).getD (c * P + m) 0 * u.getD (c * P + m) 0 := by
  obtain ⟨h1, h2⟩ := C80_moment1D eps P N u m c hm hc
  by_cases h : limited1 eps P N (unravel P u) m c
  · exact ⟨(isMinmod_head (h1 h)).2, (isMinmod_head (h1 h)).1⟩
  · rw [h2 h]
    exact ⟨le_rfl, mul_self_nonneg _⟩

/-- C80 (1D): when a moment is changed, all the higher moments of the cell are changed too: a cell
with its highest moment kept is not limited at all. -/
theorem C80_moment1D_hierarchical (eps : K) (heps : 0 ≤ eps) (P N : ℕ) (u : List K) (m l c : ℕ)
    (hml : m ≤ l) (hl : l < P) (hc : c < N)
    (hne : (momentLimiter1D eps P N u).getD (c * P + m) 0 ≠ u.getD (c * P + m) 0) :
    (momentLimiter1D eps P N u).getD (c * P + l) 0 ≠ u.getD (c * P + l) 0 := by
  have hlim : limited1 eps P N (unravel P u) m c := by
    by_contra h
    exact hne ((C80_moment1D eps P N u m c (by omega) hc).2 h)
  obtain ⟨h1, h2, h3, h4⟩ := hlim
  have hlim' : limited1 eps P N (unravel P u) l c := ⟨by omega, h2, h3, fun k g1 g2 => h4 k (by omega) g2⟩
  have hr := (C80_moment1D eps P N u l c hl hc).1 hlim'
  have := h4 l hml hl _ hr
  intro heq
  rw [heq] at this
  simp only [unravel, sub_self, abs_zero] at this
  exact absurd this (not_lt.mpr heps)

/-! ## Proofs: the 2D limiter -/

/-- (i - 1, j) or (i, j - 1). -/
def lower (p q : ℕ × ℕ) : Prop := (1 ≤ q.1 ∧ p = (q.1 - 1, q.2)) ∨ (1 ≤ q.2 ∧ p = (q.1, q.2 - 1))

/-- The moments the values of which are needed to limit one of `ps`. -/
theorem args2_congr (alf : ℕ → K) (nbr : ℕ → ℕ → ℤ) (nu u : ℕ × ℕ → ℕ → K) (p : ℕ × ℕ) (c : ℕ)
    (h0 : nu p = u p) (h : ∀ q, lower q p → nu q = u q) :
    args2 alf nbr nu p c = args2 alf nbr u p c := by
  unfold args2
  rw [h0]
  congr 1
  · congr 1
    split
    · rename_i h1
      rw [h (p.1 - 1, p.2) (Or.inl ⟨h1, rfl⟩)]
    · rfl
  · split
    · rename_i h1
      rw [h (p.1, p.2 - 1) (Or.inr ⟨h1, rfl⟩)]
    · rfl

theorem loop2_idx_nil (alf : ℕ → K) (nbr : ℕ → ℕ → ℤ) (eps : K) (ps : List (ℕ × ℕ)) (s : St2 K)
    (h : s.idx = []) : (loop2 alf nbr eps ps s).nu = s.nu := by
  cases ps with
  | nil => rfl
  | cons p ps => simp [loop2, h]

theorem loop2_other (alf : ℕ → K) (nbr : ℕ → ℕ → ℤ) (eps : K) (ps : List (ℕ × ℕ)) (s : St2 K)
    (q : ℕ × ℕ) (hq : q ∉ ps) (c : ℕ) : (loop2 alf nbr eps ps s).nu q c = s.nu q c := by
  induction ps generalizing s with
  | nil => rfl
  | cons p ps ih =>
    rw [loop2]
    simp only
    split
    · rfl
    · rw [ih _ (fun h => hq (List.mem_cons_of_mem _ h))]
      have : ¬ q = p := fun h => hq (by simp [h])
      simp [this]

theorem loop2_closed (alf : ℕ → K) (nbr : ℕ → ℕ → ℤ) (eps : K) (u : ℕ × ℕ → ℕ → K)
    (ps : List (ℕ × ℕ)) (s : St2 K) (hnd : ps.Nodup) (hord : ps.Pairwise fun p q => ¬ lower p q)
    (hu : ∀ p ∈ ps, s.nu p = u p ∧ ∀ q, lower q p → s.nu q = u q)
    (k : ℕ) (hk : k < ps.length) (c : ℕ) :
    ((c ∈ s.idx ∧ ∀ j, (hj : j < ps.length) → j ≤ k →
        eps < |minmodSeq (args2 alf nbr u ps[j] c) - u ps[j] c|) →
      (loop2 alf nbr eps ps s).nu ps[k] c = minmodSeq (args2 alf nbr u ps[k] c)) ∧
    (¬(c ∈ s.idx ∧ ∀ j, (hj : j < ps.length) → j ≤ k →
        eps < |minmodSeq (args2 alf nbr u ps[j] c) - u ps[j] c|) →
      (loop2 alf nbr eps ps s).nu ps[k] c = u ps[k] c) := by
  induction ps generalizing s k with
  | nil => simp at hk
  | cons p ps ih =>
    obtain ⟨hup, hul⟩ := hu p (by simp)
    have hargs : ∀ c, args2 alf nbr s.nu p c = args2 alf nbr u p c :=
      fun c => args2_congr alf nbr s.nu u p c hup hul
    rw [List.nodup_cons] at hnd
    rw [List.pairwise_cons] at hord
    have hidx : ∀ c, c ∈ s.idx.filter (fun c => decide (eps < |(if c ∈ s.idx then
        minmodSeq (args2 alf nbr s.nu p c) else s.tilu c) - s.nu p c|)) ↔
        c ∈ s.idx ∧ eps < |minmodSeq (args2 alf nbr u p c) - u p c| := by
      intro c
      rw [List.mem_filter]
      refine and_congr_right fun hk => ?_
      rw [decide_eq_true_eq, if_pos hk, hargs, hup]
    rw [loop2]
    simp only
    split
    · -- nothing left to be limited
      rename_i hlen
      have hnil := List.length_eq_zero_iff.mp hlen
      have hno : ∀ c, ¬ (c ∈ s.idx ∧ eps < |minmodSeq (args2 alf nbr u p c) - u p c|) := by
        intro c hc
        have := (hidx c).mpr hc
        rw [hnil] at this
        simp at this
      constructor
      · rintro ⟨h1, h2⟩
        exact absurd ⟨h1, h2 0 (by simp) (Nat.zero_le _)⟩ (hno c)
      · intro _
        show s.nu (p :: ps)[k] c = _
        rw [(hu _ (List.getElem_mem hk)).1]
    · set idx' := s.idx.filter (fun c => decide (eps < |(if c ∈ s.idx then
        minmodSeq (args2 alf nbr s.nu p c) else s.tilu c) - s.nu p c|)) with hidx'
      set tilu' := (fun c => if c ∈ s.idx then minmodSeq (args2 alf nbr s.nu p c) else s.tilu c) with ht
      set s' : St2 K := { nu := fun q c => if q = p ∧ c ∈ idx' then tilu' c else s.nu q c,
                          tilu := tilu', idx := idx' } with hs'
      have hu' : ∀ q ∈ ps, s'.nu q = u q ∧ ∀ r, lower r q → s'.nu r = u r := by
        intro q hq
        have hqp : q ≠ p := fun h => hnd.1 (h ▸ hq)
        refine ⟨?_, fun r hr => ?_⟩
        · funext c
          simp only [hs', hqp, false_and, if_false]
          rw [(hu q (List.mem_cons_of_mem _ hq)).1]
        · have hrp : r ≠ p := fun h => hord.1 q hq (h ▸ hr)
          funext c
          simp only [hs', hrp, false_and, if_false]
          rw [(hu q (List.mem_cons_of_mem _ hq)).2 r hr]
      cases k with
      | zero =>
        simp only [List.getElem_cons_zero]
        rw [loop2_other _ _ _ _ _ _ hnd.1]
        have hcond : (c ∈ s.idx ∧ ∀ j, (hj : j < (p :: ps).length) → j ≤ 0 →
            eps < |minmodSeq (args2 alf nbr u (p :: ps)[j] c) - u (p :: ps)[j] c|) ↔ c ∈ idx' := by
          rw [hidx]
          refine and_congr_right fun _ => ?_
          constructor
          · intro h; exact h 0 (by simp) le_rfl
          · intro h j hj hj0
            obtain rfl : j = 0 := by omega
            exact h
        rw [hcond]
        constructor
        · intro h
          have hc : c ∈ s.idx := ((hidx c).mp h).1
          simp only [hs', h, and_self, if_true, ht, hc]
          rw [hargs]
        · intro h
          simp only [hs', h, and_false, if_false]
          rw [hup]
      | succ k =>
        have hk' : k < ps.length := by simpa using hk
        simp only [List.getElem_cons_succ]
        have := ih s' hnd.2 hord.2 hu' k hk'
        have hcond : (c ∈ s.idx ∧ ∀ j, (hj : j < (p :: ps).length) → j ≤ k + 1 →
            eps < |minmodSeq (args2 alf nbr u (p :: ps)[j] c) - u (p :: ps)[j] c|) ↔
            (c ∈ s'.idx ∧ ∀ j, (hj : j < ps.length) → j ≤ k →
              eps < |minmodSeq (args2 alf nbr u ps[j] c) - u ps[j] c|) := by
          have hs'i : s'.idx = idx' := rfl
          rw [hs'i, hidx]
          constructor
          · rintro ⟨h1, h2⟩
            refine ⟨⟨h1, h2 0 (by simp) (by omega)⟩, fun j hj hjk => ?_⟩
            have := h2 (j + 1) (by simpa using hj) (by omega)
            simpa using this
          · rintro ⟨⟨h1, h2⟩, h3⟩
            refine ⟨h1, fun j hj hjk => ?_⟩
            cases j with
            | zero => exact h2
            | succ j =>
              have := h3 j (by simpa using hj) (by omega)
              simpa using this
        rw [hcond]
        exact this

theorem fill2_other (L : List (ℕ × ℕ)) (n : ℕ) (u : ℕ → ℕ → K) (nu : ℕ × ℕ → ℕ → K) (p : ℕ × ℕ)
    (hp : p ∉ L) :
    (L.zipIdx n).foldl (fun nu pl => Function.update nu pl.1 (u pl.2)) nu p = nu p := by
  induction L generalizing n nu with
  | nil => rfl
  | cons q L ih =>
    simp only [List.zipIdx_cons, List.foldl_cons]
    rw [ih _ _ (fun h => hp (List.mem_cons_of_mem _ h))]
    exact Function.update_of_ne (fun h => hp (by simp [h])) _ _

theorem fill2_get (L : List (ℕ × ℕ)) (n : ℕ) (hL : L.Nodup) (u : ℕ → ℕ → K) (nu : ℕ × ℕ → ℕ → K)
    (m : ℕ) (hm : m < L.length) :
    (L.zipIdx n).foldl (fun nu pl => Function.update nu pl.1 (u pl.2)) nu L[m] = u (n + m) := by
  induction L generalizing n nu m with
  | nil => simp at hm
  | cons q L ih =>
    rw [List.nodup_cons] at hL
    simp only [List.zipIdx_cons, List.foldl_cons]
    cases m with
    | zero =>
      rw [List.getElem_cons_zero, fill2_other _ _ _ _ _ hL.1]
      simp
    | succ m =>
      rw [List.getElem_cons_succ, ih _ hL.2 _ _ (by simpa using hm)]
      congr 1
      omega

/-- The moment `p` of the cell `c` in the input solution of the 2D limiter: the DOF `c * P + m` where `m`
is the position of `p` in the order of the moments. -/
def moment2 (L : List (ℕ × ℕ)) (u : List K) (p : ℕ × ℕ) (c : ℕ) : K :=
  if p ∈ L then u.getD (c * L.length + L.idxOf p) 0 else 0

theorem fill2_eq (L : List (ℕ × ℕ)) (hL : L.Nodup) (u : List K) :
    fill2 L (unravel L.length u) = moment2 L u := by
  funext p
  by_cases hp : p ∈ L
  · have hlt := List.idxOf_lt_length_of_mem hp
    have h := fill2_get L 0 hL (unravel L.length u) (fun _ _ => 0) (L.idxOf p) hlt
    rw [List.getElem_idxOf hlt] at h
    funext c
    unfold fill2
    rw [h]
    simp [moment2, hp, unravel]
  · unfold fill2
    rw [fill2_other _ _ _ _ _ hp]
    funext c
    simp [moment2, hp]

/-- Specification: the arguments of minmod for the moment (i, j) of the cell `c`: the moment, the scaled
differences of the moment (i - 1, j) to the right and to the left, and of (i, j - 1) up and down. -/
def diffs2 (alf : ℕ → K) (nbr : ℕ → ℕ → ℤ) (u : ℕ × ℕ → ℕ → K) : ℕ × ℕ → ℕ → List K
  | (0, 0), c => [u (0, 0) c]
  | (i + 1, 0), c =>
    [u (i + 1, 0) c, alf (i + 1) * (u (i, 0) (nbr c 1).toNat - u (i, 0) c),
      alf (i + 1) * (u (i, 0) c - u (i, 0) (nbr c 3).toNat)]
  | (0, j + 1), c =>
    [u (0, j + 1) c, alf (j + 1) * (u (0, j) (nbr c 2).toNat - u (0, j) c),
      alf (j + 1) * (u (0, j) c - u (0, j) (nbr c 0).toNat)]
  | (i + 1, j + 1), c =>
    [u (i + 1, j + 1) c, alf (i + 1) * (u (i, j + 1) (nbr c 1).toNat - u (i, j + 1) c),
      alf (i + 1) * (u (i, j + 1) c - u (i, j + 1) (nbr c 3).toNat),
      alf (j + 1) * (u (i + 1, j) (nbr c 2).toNat - u (i + 1, j) c),
      alf (j + 1) * (u (i + 1, j) c - u (i + 1, j) (nbr c 0).toNat)]

theorem args2_eq_diffs2 (alf : ℕ → K) (nbr : ℕ → ℕ → ℤ) (u : ℕ × ℕ → ℕ → K) (p : ℕ × ℕ) (c : ℕ) :
    args2 alf nbr u p c = diffs2 alf nbr u p c := by
  obtain ⟨i, j⟩ := p
  cases i <;> cases j <;> simp [args2, diffs2]

theorem diffs2_head (alf : ℕ → K) (nbr : ℕ → ℕ → ℤ) (u : ℕ × ℕ → ℕ → K) (p : ℕ × ℕ) (c : ℕ) :
    ∃ xs, diffs2 alf nbr u p c = u p c :: xs := by
  obtain ⟨i, j⟩ := p
  cases i <;> cases j <;> exact ⟨_, rfl⟩

/-- Specification of the 2D limiter: the cells and the moments that are replaced.  The cell has to have all
four neighbours, none of them the cell 0, and all the moments from the position `m` of the order on have to
be changed. -/
def limited2 (alf : ℕ → K) (nbr : ℕ → ℕ → ℤ) (eps : K) (L : List (ℕ × ℕ)) (u : ℕ × ℕ → ℕ → K)
    (m c : ℕ) : Prop :=
  (∀ f, f < 4 → 0 < nbr c f) ∧
  ∀ l p, m ≤ l → L[l]? = some p → ∀ r, IsMinmod (diffs2 alf nbr u p c) r → eps < |r - u p c|

theorem inner2_mem (nbr : ℕ → ℕ → ℤ) (N c : ℕ) :
    c ∈ inner2 nbr N ↔ c < N ∧ ∀ f, f < 4 → 0 < nbr c f := by
  unfold inner2
  simp only [List.mem_filter, List.mem_range, Bool.and_eq_true, decide_eq_true_eq]
  refine and_congr_right fun _ => ?_
  constructor
  · rintro ⟨⟨⟨h0, h1⟩, h2⟩, h3⟩ f hf
    match f, hf with
    | 0, _ => exact h0
    | 1, _ => exact h1
    | 2, _ => exact h2
    | 3, _ => exact h3
  · intro h
    exact ⟨⟨⟨h 0 (by omega), h 1 (by omega)⟩, h 2 (by omega)⟩, h 3 (by omega)⟩

theorem momentLimiter2D_closed (alf : ℕ → K) (nbr : ℕ → ℕ → ℤ) (eps : K) (heps : 0 ≤ eps)
    (L : List (ℕ × ℕ)) (hL : L.Nodup) (h0 : L[0]? = some (0, 0))
    (hord : L.Pairwise fun p q => ¬ lower q p)
    (N : ℕ) (u : List K) (m c : ℕ) (hm : m < L.length) (hc : c < N) :
    (limited2 alf nbr eps L (moment2 L u) m c →
      (momentLimiter2D alf nbr eps L N u).getD (c * L.length + m) 0 =
        minmodSeq (diffs2 alf nbr (moment2 L u) L[m] c)) ∧
    (¬ limited2 alf nbr eps L (moment2 L u) m c →
      (momentLimiter2D alf nbr eps L N u).getD (c * L.length + m) 0 = u.getD (c * L.length + m) 0) := by
  have hmom : moment2 L u L[m] c = u.getD (c * L.length + m) 0 := by
    unfold moment2
    rw [if_pos (List.getElem_mem hm), hL.idxOf_getElem]
  have hne : ∀ p, diffs2 alf nbr (moment2 L u) p c ≠ [] := fun p => by
    obtain ⟨xs, h⟩ := diffs2_head alf nbr (moment2 L u) p c
    rw [h]; simp
  by_cases hL1 : L.length = 1
  · obtain rfl : m = 0 := by omega
    have hnl : ¬ limited2 alf nbr eps L (moment2 L u) 0 c := by
      rintro ⟨-, h⟩
      have h1 := h 0 (0, 0) le_rfl h0 _ (C80_minmod_seq _ (hne _))
      have hself : minmodSeq (diffs2 alf nbr (moment2 L u) (0, 0) c) = moment2 L u (0, 0) c := by
        refine isMinmod_unique (C80_minmod_seq _ (hne _)) ?_ (hne _)
        simp only [diffs2, IsMinmod, List.mem_singleton, forall_eq]
        rcases lt_trichotomy (moment2 L u (0, 0) c) 0 with h | h | h
        · right; left; simp [h]
        · right; right; simp [h]
        · left; simp [h]
      rw [hself] at h1
      simp at h1
      exact absurd h1 (not_lt.mpr heps)
    refine ⟨fun h => absurd h hnl, fun _ => ?_⟩
    unfold momentLimiter2D
    rw [if_pos hL1]
  · unfold momentLimiter2D
    rw [if_neg hL1]
    simp only
    rw [ravel_getD _ _ _ _ _ hm hc, fill2_eq L hL]
    have hgm : L.getD m (0, 0) = L[m] := List.getD_eq_getElem _ _ hm
    rw [hgm]
    have hrev : L.reverse.length = L.length := List.length_reverse
    have hk : L.length - 1 - m < L.reverse.length := by omega
    have hget : ∀ k, (h : k < L.reverse.length) → L.reverse[k] = L[L.length - 1 - k]'(by omega) :=
      fun k h => List.getElem_reverse h
    have hmain := loop2_closed alf nbr eps (moment2 L u) L.reverse
      { nu := moment2 L u, tilu := fun _ => 0, idx := inner2 nbr N } (List.nodup_reverse.mpr hL)
      (List.pairwise_reverse.mpr hord) (fun _ _ => ⟨rfl, fun _ _ => rfl⟩) (L.length - 1 - m) hk c
    have hLL : L.reverse[L.length - 1 - m] = L[m] := by
      rw [hget _ hk]; congr 1; omega
    rw [hLL] at hmain
    have hiff : (c ∈ inner2 nbr N ∧ ∀ j, (hj : j < L.reverse.length) → j ≤ L.length - 1 - m →
        eps < |minmodSeq (args2 alf nbr (moment2 L u) L.reverse[j] c) - moment2 L u L.reverse[j] c|) ↔
        limited2 alf nbr eps L (moment2 L u) m c := by
      rw [inner2_mem]
      constructor
      · rintro ⟨⟨-, h1⟩, h2⟩
        refine ⟨h1, fun l p hml hlp r hr => ?_⟩
        obtain ⟨hl, rfl⟩ := List.getElem?_eq_some_iff.mp hlp
        have hj : L.length - 1 - l < L.reverse.length := by omega
        have h3 := h2 (L.length - 1 - l) hj (by omega)
        have e : L.reverse[L.length - 1 - l] = L[l] := by rw [hget _ hj]; congr 1; omega
        rw [e, args2_eq_diffs2] at h3
        rw [isMinmod_unique hr (C80_minmod_seq _ (hne _)) (hne _)]
        exact h3
      · rintro ⟨h1, h2⟩
        refine ⟨⟨hc, h1⟩, fun j hj hjm => ?_⟩
        rw [hget j hj, args2_eq_diffs2]
        exact h2 (L.length - 1 - j) _ (by omega) (List.getElem?_eq_getElem (by omega)) _
          (C80_minmod_seq _ (hne _))
    rw [hiff] at hmain
    rw [args2_eq_diffs2] at hmain
    rw [← hmom]
    exact hmain

/-- Specification: an order of the moments usable by the limiter: (0, 0) is first, no moment repeats, and
(i - 1, j), (i, j - 1) come before (i, j). -/
def Ordered (L : List (ℕ × ℕ)) : Prop :=
  L.Nodup ∧ L[0]? = some (0, 0) ∧ L.Pairwise fun p q => ¬ lower q p

/-- C80 (2D): what the limiter returns, for every solution, mesh connectivity and order. -/
theorem C80_moment2D (alf : ℕ → K) (nbr : ℕ → ℕ → ℤ) (eps : K) (heps : 0 ≤ eps)
    (L : List (ℕ × ℕ)) (hL : Ordered L) (N : ℕ) (u : List K) (m c : ℕ) (p : ℕ × ℕ)
    (hp : L[m]? = some p) (hc : c < N) :
    (limited2 alf nbr eps L (moment2 L u) m c →
      IsMinmod (diffs2 alf nbr (moment2 L u) p c)
        ((momentLimiter2D alf nbr eps L N u).getD (c * L.length + m) 0)) ∧
    (¬ limited2 alf nbr eps L (moment2 L u) m c →
      (momentLimiter2D alf nbr eps L N u).getD (c * L.length + m) 0 = u.getD (c * L.length + m) 0) := by
  obtain ⟨hm, rfl⟩ := List.getElem?_eq_some_iff.mp hp
  obtain ⟨h1, h2⟩ := momentLimiter2D_closed alf nbr eps heps L hL.1 hL.2.1 hL.2.2 N u m c hm hc
  refine ⟨fun h => ?_, h2⟩
  rw [h1 h]
  refine C80_minmod_seq _ ?_
  obtain ⟨xs, h⟩ := diffs2_head alf nbr (moment2 L u) L[m] c
  rw [h]; simp

/-- C80 (2D): the mean value of each cell is kept. -/
theorem C80_moment2D_mean (alf : ℕ → K) (nbr : ℕ → ℕ → ℤ) (eps : K) (heps : 0 ≤ eps)
    (L : List (ℕ × ℕ)) (hL : Ordered L) (N : ℕ) (u : List K) (c : ℕ) (hc : c < N) :
    (momentLimiter2D alf nbr eps L N u).getD (c * L.length) 0 = u.getD (c * L.length) 0 := by
  have h := C80_moment2D alf nbr eps heps L hL N u 0 c (0, 0) hL.2.1 hc
  by_cases hl : limited2 alf nbr eps L (moment2 L u) 0 c
  · exfalso
    have h1 := hl.2 0 (0, 0) le_rfl hL.2.1 (moment2 L u (0, 0) c) (by
      simp only [diffs2, IsMinmod, List.mem_singleton, forall_eq]
      rcases lt_trichotomy (moment2 L u (0, 0) c) 0 with h | h | h
      · right; left; simp [h]
      · right; right; simp [h]
      · left; simp [h])
    simp at h1
    exact absurd h1 (not_lt.mpr heps)
  · simpa using h.2 hl

/-- C80 (2D): no moment grows or changes its sign. -/
theorem C80_moment2D_shrinks (alf : ℕ → K) (nbr : ℕ → ℕ → ℤ) (eps : K) (heps : 0 ≤ eps)
    (L : List (ℕ × ℕ)) (hL : Ordered L) (N : ℕ) (u : List K) (m c : ℕ) (hm : m < L.length) (hc : c < N) :
    |(momentLimiter2D alf nbr eps L N u).getD (c * L.length + m) 0| ≤ |u.getD (c * L.length + m) 0| ∧
    0 ≤ (momentLimiter2D alf nbr eps L N u).getD (c * L.length + m) 0 * u.getD (c * L.length + m) 0 := by
  obtain ⟨h1, h2⟩ := C80_moment2D alf nbr eps heps L hL N u m c L[m] (List.getElem?_eq_getElem hm) hc
  by_cases h : limited2 alf nbr eps L (moment2 L u) m c
  · have h3 := h1 h
    obtain ⟨xs, hx⟩ := diffs2_head alf nbr (moment2 L u) L[m] c
    rw [hx] at h3
    have hmom : moment2 L u L[m] c = u.getD (c * L.length + m) 0 := by
      unfold moment2
      rw [if_pos (List.getElem_mem hm), hL.1.idxOf_getElem]
    rw [hmom] at h3
    exact ⟨(isMinmod_head h3).2, (isMinmod_head h3).1⟩
  · rw [h2 h]
    exact ⟨le_rfl, mul_self_nonneg _⟩

/-- C80 (2D): the cells on the boundary, and the neighbours of the cell 0, are never limited. -/
theorem C80_moment2D_kept_cells (alf : ℕ → K) (nbr : ℕ → ℕ → ℤ) (eps : K) (heps : 0 ≤ eps)
    (L : List (ℕ × ℕ)) (hL : Ordered L) (N : ℕ) (u : List K) (m c : ℕ) (hm : m < L.length) (hc : c < N)
    (f : ℕ) (hf : f < 4) (h : nbr c f ≤ 0) :
    (momentLimiter2D alf nbr eps L N u).getD (c * L.length + m) 0 = u.getD (c * L.length + m) 0 := by
  refine (C80_moment2D alf nbr eps heps L hL N u m c L[m] (List.getElem?_eq_getElem hm) hc).2 ?_
  rintro ⟨g, -⟩
  exact absurd (g f hf) (not_lt.mpr h)

/-! ## Proofs: several fields -/

theorem composed_aux (fields : List (ℕ × (List K → List K))) (pre : List K) (parts : List (List K))
    (lpre : List K) (tail : List K)
    (hlen : parts.length = fields.length)
    (hl : ∀ (k : ℕ) (f : ℕ × (List K → List K)) (p : List K), fields[k]? = some f → parts[k]? = some p → p.length = f.1 ∧ (f.2 p).length = f.1)
    (hpre : lpre.length = pre.length) :
    ((slices pre.length (fields.map Prod.fst)).zip (fields.map Prod.snd)).foldl
      (fun lu sl => setSlice lu sl.1.1 sl.1.2
        (sl.2 (((pre ++ parts.flatten ++ tail).drop sl.1.1).take (sl.1.2 - sl.1.1))))
      (lpre ++ List.replicate (parts.flatten.length + tail.length) 0) =
    lpre ++ (List.zipWith (fun f p => f.2 p) fields parts).flatten ++ List.replicate tail.length 0 := by
  induction fields generalizing pre parts lpre with
  | nil =>
    cases parts with
    | nil => simp [slices]
    | cons p ps => simp at hlen
  | cons f fs ih =>
    cases parts with
    | nil => simp at hlen
    | cons p ps =>
      obtain ⟨h1, h2⟩ := hl 0 f p rfl rfl
      simp only [List.map_cons, slices, List.zip_cons_cons, List.foldl_cons, List.flatten_cons,
        List.zipWith_cons_cons]
      have e1 : (((pre ++ (p ++ ps.flatten) ++ tail).drop pre.length).take
          (pre.length + f.1 - pre.length)) = p := by
        rw [List.append_assoc, List.drop_left, List.append_assoc, Nat.add_sub_cancel_left, ← h1,
          List.take_left]
      have e2 : setSlice (lpre ++ List.replicate ((p ++ ps.flatten).length + tail.length) (0 : K))
          pre.length (pre.length + f.1) (f.2 p) =
          (lpre ++ f.2 p) ++ List.replicate (ps.flatten.length + tail.length) 0 := by
        unfold setSlice
        rw [← hpre, List.take_left, List.drop_append, List.drop_replicate]
        simp only [List.append_assoc, List.append_cancel_left_eq]
        rw [List.drop_eq_nil_of_le (by omega), List.nil_append]
        congr 1
        simp only [List.length_append]
        omega
      rw [e1, e2]
      have := ih (pre ++ p) ps (lpre ++ f.2 p) (by simpa using hlen)
        (fun k g q hg hq => hl (k + 1) g q (by simpa using hg) (by simpa using hq))
        (by simp [hpre, h1, h2])
      simp only [List.length_append, h1, List.append_assoc] at this ⊢
      rw [this]

/-- C80: the composed limiter limits the DOFs of each field by the limiter of the field. -/
theorem C80_composed (fields : List (ℕ × (List K → List K))) (parts : List (List K)) (tail : List K)
    (hlen : parts.length = fields.length)
    (hl : ∀ (k : ℕ) (f : ℕ × (List K → List K)) (p : List K), fields[k]? = some f → parts[k]? = some p → p.length = f.1 ∧ (f.2 p).length = f.1) :
    composed fields (parts.flatten ++ tail) =
      (List.zipWith (fun f p => f.2 p) fields parts).flatten ++ List.replicate tail.length 0 := by
  have := composed_aux fields [] parts [] tail hlen hl rfl
  unfold composed
  simpa using this

/-- C80: the DOFs beyond those of the fields (a second variable of the same field) are replaced by zeros. -/
theorem C80_composed_tail_lost (n : ℕ) (f : List K → List K) (u tail : List K) (hu : u.length = n)
    (hf : (f u).length = n) : composed [(n, f)] (u ++ tail) = f u ++ List.replicate tail.length 0 := by
  have := C80_composed [(n, f)] [u] tail rfl (by
    intro k g p hg hp
    cases k with
    | zero =>
      simp only [List.getElem?_cons_zero, Option.some.injEq] at hg hp
      subst hg hp
      exact ⟨hu, hf⟩
    | succ k => simp at hg)
  simpa using this

end Dg
