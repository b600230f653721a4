import Verif.Iga.Extract

/-!
# Specification of the Bezier extraction
-/

namespace Iga

variable {K : Type*} [Field K] [LinearOrder K] [IsStrictOrderedRing K]

/-- A clamped (open) knot vector of the degree `p`: sorted, the first and the last `p + 1` knots are
equal and there is something between them. -/
structure Clamped (knots : List K) (p : ℕ) : Prop where
  sorted : knots.Pairwise (· ≤ ·)
  long : 2 * p + 2 ≤ knots.length
  first : ∀ i ≤ p, knotFn knots i = knotFn knots p
  firstLt : knotFn knots p < knotFn knots (p + 1)
  last : ∀ i, knots.length - p - 1 ≤ i → i < knots.length →
    knotFn knots i = knotFn knots (knots.length - p - 1)
  lastLt : knotFn knots (knots.length - p - 2) < knotFn knots (knots.length - p - 1)

/-- The elements: the non-empty knot spans `[t a, t (a + 1))` between the end knots, in order. -/
def spans (knots : List K) (p : ℕ) : List ℕ :=
  (List.range (knots.length - p - 1)).filter fun a =>
    decide (p ≤ a ∧ knotFn knots a < knotFn knots (a + 1))

/-- `C` is the extraction operator of the span `a`: on the span the B-splines that do not vanish there
are its rows applied to the Bernstein basis in the local coordinate. -/
def IsExtraction (t : ℕ → K) (p a : ℕ) (C : Op K) : Prop :=
  ∀ x, t a ≤ x → x < t (a + 1) → ∀ i ≤ p,
    bspline t (a - p + i) p x
      = ∑ k ∈ Finset.range (p + 1), C i k * bern p k ((x - t a) / (t (a + 1) - t a))

end Iga
