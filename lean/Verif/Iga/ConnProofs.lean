import Verif.Iga.Index
import Verif.Iga.ExtractMain
import Mathlib.Tactic.Ring

/-!
# Proofs: connectivity
-/

namespace Iga

variable {K : Type*} [Field K] [LinearOrder K] [IsStrictOrderedRing K]

theorem mulLoop_spec {t : ℕ → K} {n p : ℕ} (hmono : Monotone t)
    (hlt : t (n - p - 2) < t (n - p - 1)) (fuel a : ℕ) (hf : n ≤ fuel + a) (h : t a < t (a + 1))
    (hp : p ≤ a) (ha : a + p + 2 ≤ n) :
    (a - p) :: cumsum (a - p) (mulLoop t n p fuel (a + 1)) = (spansFrom t n p a).map (· - p) := by
  induction fuel generalizing a with
  | zero => omega
  | succ fuel ih =>
    unfold mulLoop
    by_cases hc : a + 1 < n - p - 1
    · rw [if_pos hc]
      obtain ⟨s1, s2, s3, s4⟩ := scanKnot_spec t (n - p - 1) (n - p - 1) (a + 1) (by omega) (by omega)
      generalize scanKnot t (n - p - 1) (n - p - 1) (a + 1) = b at s1 s2 s3 s4 ⊢
      obtain ⟨m, rfl⟩ : ∃ m, b = a + m := ⟨b - a, by omega⟩
      have hm1 : 1 ≤ m := by omega
      have hm : ∀ x, 1 ≤ x → x ≤ m → t (a + x) = t (a + 1) := fun x h1 h2 => s3 _ (by omega) (by omega)
      have hb : t (a + m) < t (a + m + 1) := by
        by_cases hn : a + m + 1 < n - p - 1
        · exact lt_of_le_of_ne (hmono (by omega)) (s4 hn)
        · rw [show a + m = n - p - 2 by omega, show n - p - 2 + 1 = n - p - 1 by omega]; exact hlt
      have e := ih (a + m) (by omega) hb (by omega) (by omega)
      rw [spansFrom_next h hm1 (by omega) hm, List.map_cons, ← e]
      simp only [cumsum, show a - p + (a + m - (a + 1) + 1) = a + m - p by omega]
    · rw [if_neg hc, spansFrom_last h ha fun x h1 h2 => by rw [show x = a + 1 by omega]]
      rfl

/-- **C77.** For every clamped knot vector the row of an element in the connectivity lists exactly the
B-splines `a - p, …, a` that do not vanish on its knot span `[t a, t (a + 1))`, and there is one row
for every span, in order. -/
theorem C77_connectivity_1d (knots : List K) (p : ℕ) (h : Clamped knots p) :
    conn1d knots p = (spans knots p).map fun a => (List.range (p + 1)).map fun l => a - p + l := by
  have hl := h.long
  have e := mulLoop_spec (n := knots.length) (p := p) (knotFn_mono h.sorted) h.lastLt knots.length p (by omega)
    h.firstLt le_rfl (by omega)
  rw [Nat.sub_self] at e
  unfold conn1d
  rw [cumsum, Nat.zero_add, e, ← spans_eq h, List.map_map]
  refine List.map_congr_left fun a _ => List.map_congr_left fun l _ => ?_
  simp [Nat.add_comm]

theorem foldl_max_eq (l : List ℕ) (m s : ℕ) (hs : s ≤ m) (hle : ∀ x ∈ l, x ≤ m) (hm : m ∈ l ∨ s = m) :
    l.foldl max s = m := by
  induction l generalizing s with
  | nil => rcases hm with h | h <;> simp_all
  | cons x xs ih =>
    have hx := hle x (List.mem_cons_self ..)
    rw [List.foldl_cons]
    apply ih
    · exact max_le hs hx
    · exact fun y hy => hle y (List.mem_cons_of_mem _ hy)
    · rcases hm with h | h
      · rcases List.mem_cons.1 h with e | e
        · right; subst e; exact max_eq_right hs
        · exact Or.inl e
      · right; subst h; exact max_eq_left hx

theorem numFuns_eq {conn : List (List ℕ)} {m : ℕ} (hle : ∀ r ∈ conn, ∀ x ∈ r, x ≤ m)
    (hm : ∃ r ∈ conn, m ∈ r) : numFuns conn = m + 1 := by
  unfold numFuns
  rw [foldl_max_eq _ m 0 (Nat.zero_le _)]
  · intro x hx
    obtain ⟨r, h1, h2⟩ := List.mem_flatten.1 hx
    exact hle r h1 x h2
  · exact Or.inl (List.mem_flatten.2 hm)

/-- **C77.** The number of the functions found from the connectivity is the number of all B-splines of
the knot vector. -/
theorem C77_number_of_functions (knots : List K) (p : ℕ) (h : Clamped knots p) :
    numFuns (conn1d knots p) = knots.length - p - 1 := by
  have hl := h.long
  rw [C77_connectivity_1d knots p h, show knots.length - p - 1 = (knots.length - p - 2) + 1 by omega]
  apply numFuns_eq
  · intro r hr x hx
    obtain ⟨a, ha, rfl⟩ := List.mem_map.1 hr
    obtain ⟨l, hl', rfl⟩ := List.mem_map.1 hx
    have := List.mem_range.1 hl'
    obtain ⟨h1, h2, -⟩ := mem_spans ha
    omega
  · refine ⟨_, List.mem_map.2 ⟨knots.length - p - 2, ?_, rfl⟩, ?_⟩
    · unfold spans
      rw [List.mem_filter, List.mem_range]
      refine ⟨by omega, ?_⟩
      simp only [decide_eq_true_eq]
      refine ⟨by omega, ?_⟩
      rw [show knots.length - p - 2 + 1 = knots.length - p - 1 by omega]
      exact h.lastLt
    · exact List.mem_map.2 ⟨p, List.mem_range.2 (by omega), by omega⟩

theorem numFuns_bconn (nEl p : ℕ) (hn : 0 < nEl) : numFuns (bconn1d nEl p) = p * nEl + 1 := by
  apply numFuns_eq
  · intro r hr x hx
    obtain ⟨e, he, rfl⟩ := List.mem_map.1 hr
    obtain ⟨l, hl, rfl⟩ := List.mem_map.1 hx
    rw [List.mem_range] at he hl
    calc l + p * e ≤ p + p * e := by omega
      _ = p * (e + 1) := by ring
      _ ≤ p * nEl := Nat.mul_le_mul_left _ he
  · refine ⟨_, List.mem_map.2 ⟨nEl - 1, List.mem_range.2 (by omega), rfl⟩, ?_⟩
    refine List.mem_map.2 ⟨p, List.mem_range.2 (by omega), ?_⟩
    obtain ⟨k, rfl⟩ : ∃ k, nEl = k + 1 := ⟨nEl - 1, by omega⟩
    rw [Nat.add_sub_cancel]; ring

/-! ### More dimensions -/

/-- What the connectivity of the element `e` holds, in terms of the 1D connectivities. -/
theorem makeConn_get (conns : List (List (List ℕ))) (nG nEls nEfuns e l : List ℕ) (he : Valid nEls e)
    (hl : Valid nEfuns l) :
    ((makeConn conns nG nEls nEfuns).getD (ravel nEls e) []).getD (ravel nEfuns l) 0
      = ravel nG (List.zipWith (fun c i => c.getD i 0)
          (List.zipWith (fun conn e => conn.getD e []) conns e) l) := by
  unfold makeConn rowNd
  rw [List.getD_eq_getElem?_getD, List.getD_eq_getElem?_getD, List.getElem?_map, tp_get he]
  simp only [Option.map_some, Option.getD_some]
  rw [List.getElem?_map, tp_get hl]
  rfl

/-- One parametric direction of a patch: the knots, the degree, and (for a point) the coordinate. -/
structure Dir (K : Type*) where
  knots : List K
  p : ℕ

/-- The number of the B-splines. -/
def Dir.nFun (d : Dir K) : ℕ := d.knots.length - d.p - 1

/-- The number of the elements. -/
def Dir.nEl (d : Dir K) : ℕ := (spans d.knots d.p).length

/-- The knot span of the element `e`. -/
def Dir.span (d : Dir K) (e : ℕ) : ℕ := (spans d.knots d.p).getD e 0

/-- The global index of the `l`-th B-spline of the element `e`. -/
def Dir.glob (d : Dir K) (e l : ℕ) : ℕ := d.span e - d.p + l

theorem conn1d_get (d : Dir K) (h : Clamped d.knots d.p) (e l : ℕ) (he : e < d.nEl) (hl : l < d.p + 1) :
    ((conn1d d.knots d.p).getD e []).getD l 0 = d.glob e l := by
  rw [C77_connectivity_1d _ _ h, List.getD_eq_getElem?_getD, List.getD_eq_getElem?_getD,
    List.getElem?_map]
  unfold Dir.glob Dir.span
  unfold Dir.nEl at he
  rw [List.getD_eq_getElem?_getD, List.getElem?_eq_getElem he]
  simp [List.getElem?_range hl]

theorem zipWith_conn (ds : List (Dir K)) (h : ∀ d ∈ ds, Clamped d.knots d.p) (e l : List ℕ)
    (he : Valid (ds.map Dir.nEl) e) (hl : Valid (ds.map fun d => d.p + 1) l) :
    List.zipWith (fun c i => c.getD i 0)
      (List.zipWith (fun conn e => conn.getD e []) (ds.map fun d => conn1d d.knots d.p) e) l
      = List.zipWith (fun (g : ℕ → ℕ) i => g i) (List.zipWith Dir.glob ds e) l := by
  induction ds generalizing e l with
  | nil => simp
  | cons d ds ih =>
    cases e with
    | nil => simp
    | cons e0 e =>
    cases l with
    | nil => simp
    | cons l0 l =>
    simp only [List.map_cons, Valid, List.forall₂_cons] at he hl
    simp only [List.map_cons, List.zipWith_cons_cons]
    rw [conn1d_get d (h d (List.mem_cons_self ..)) _ _ he.1 hl.1,
      ih (fun d hd => h d (List.mem_cons_of_mem _ hd)) e l he.2 hl.2]

/-- **C77.** In any number of dimensions: the entry of the connectivity for the element with the
multi-index `e` and its local function with the multi-index `l` is the raveled index of the product of
the B-splines that do not vanish on the spans of the element. -/
theorem C77_connectivity_nd (ds : List (Dir K)) (h : ∀ d ∈ ds, Clamped d.knots d.p) (e l : List ℕ)
    (he : Valid (ds.map Dir.nEl) e) (hl : Valid (ds.map fun d => d.p + 1) l) :
    ((createConn (ds.map Dir.nEl) (ds.map Dir.knots) (ds.map Dir.p)).getD
        (ravel (ds.map Dir.nEl) e) []).getD (ravel (ds.map fun d => d.p + 1) l) 0
      = ravel (ds.map Dir.nFun)
          (List.zipWith (fun (g : ℕ → ℕ) i => g i) (List.zipWith Dir.glob ds e) l) := by
  unfold createConn
  have e1 : List.zipWith conn1d (ds.map Dir.knots) (ds.map Dir.p)
      = ds.map fun d => conn1d d.knots d.p := by
    rw [List.zipWith_map]; exact List.zipWith_self
  have e2 : (ds.map fun d => conn1d d.knots d.p).map numFuns = ds.map Dir.nFun := by
    rw [List.map_map]
    exact List.map_congr_left fun d hd => C77_number_of_functions _ _ (h d hd)
  have e3 : (ds.map Dir.p).map (· + 1) = ds.map fun d => d.p + 1 := by rw [List.map_map]; rfl
  simp only [e1, e2, e3]
  rw [makeConn_get _ _ _ _ _ _ he hl, zipWith_conn ds h e l he hl]

end Iga
