import Verif.Ml.Terms
import Mathlib.Tactic.FieldSimp
import Mathlib.Tactic.Ring

/-!
# The elastic term as the contraction of the full tensors
-/

namespace Ml

variable {K : Type*} [Field K]

/-- The position of the component `a b` in the symmetric storage `11, 22, 33, 12, 13, 23` (`11, 22, 12`). -/
def symPos (dim a b : ℕ) : ℕ := if a = b then a else if dim = 3 then a + b + 2 else 2

/-- The small strain `(∂ u_a / ∂ x_b + ∂ u_b / ∂ x_a) / 2`. -/
def strain (G : ℕ → ℕ → K) (a b : ℕ) : K := (G a b + G b a) / 2

theorem sym_contract [CharZero K] (dim : ℕ) (hdim : dim = 2 ∨ dim = 3) (S : ℕ → K) (G : ℕ → ℕ → K) :
    ∑ I ∈ Finset.range ((dim + 1) * dim / 2), S I * strainVec dim G I =
      ∑ a ∈ Finset.range dim, ∑ b ∈ Finset.range dim, S (symPos dim a b) * strain G a b := by
  have h2 : (2 : K) ≠ 0 := two_ne_zero
  rcases hdim with rfl | rfl <;>
    simp [Finset.sum_range_succ, strainVec, symPairs, symPos, strain] <;> field_simp <;> ring

/-- C89: `de_lin_elastic` is the documented `∫ D_ijkl e_ij(v) e_kl(u)` with the full tensors; the stiffness matrix
stores `D_ijkl` in the row of `ij` and the column of `kl`. -/
theorem C89_elastic_tensor [CharZero K] {fe : Bool} {mode : Mode} {b : B} {env : Env K} {size : Char → ℕ} (k1 : Kind)
    (m v u d : ℕ) (hd : 1 < d) (hdim : env.dim = 2 ∨ env.dim = 3) (hk1 : k1 ≠ .ndarray)
    (hnc_v : env.nc v = d) (hnc_u : env.nc u = d)
    (h : build fe 1 none mode (elasticArgs k1 m v u d) = some b) (hs : SizesAgree size env 1 b) (c q₀ i₀ n : ℕ)
    (hn_v : k1 = .virtual → n < env.nn v ∧ i₀ < env.dim) (D : ℕ → ℕ → ℕ → ℕ → ℕ → K)
    (hD : ∀ q i j k l, D q i j k l = env.mat m c q [symPos env.dim i j, symPos env.dim k l]) :
    evalTerm size env 1 b (headIdx mode c q₀ ++ (virtualIdx (elasticArgs k1 m v u d) i₀ n ++ [])) =
      value mode env (elasticArgs k1 m v u d) c q₀ fun q =>
        ∑ i ∈ Finset.range env.dim, ∑ j ∈ Finset.range env.dim, ∑ k ∈ Finset.range env.dim,
          ∑ l ∈ Finset.range env.dim, D q i j k l *
            strain (gradVal env v c q (testDofs env k1 v d c i₀ n)) i j *
            strain (gradVal env u c q (env.dofs u c)) k l := by
  rw [C89_elastic k1 m v u d hd hdim hk1 hnc_v hnc_u h hs c q₀ i₀ n hn_v]
  congr 1
  funext q
  have e1 : ∀ I, ∑ J ∈ Finset.range ((env.dim + 1) * env.dim / 2), env.mat m c q [I, J] *
      (strainVec env.dim (gradVal env v c q (testDofs env k1 v d c i₀ n)) I *
        strainVec env.dim (gradVal env u c q (env.dofs u c)) J) =
      (∑ k ∈ Finset.range env.dim, ∑ l ∈ Finset.range env.dim, env.mat m c q [I, symPos env.dim k l] *
        strain (gradVal env u c q (env.dofs u c)) k l) *
        strainVec env.dim (gradVal env v c q (testDofs env k1 v d c i₀ n)) I := by
    intro I
    rw [← sym_contract env.dim hdim (fun J => env.mat m c q [I, J]), Finset.sum_mul]
    exact Finset.sum_congr rfl fun J _ => by ring
  rw [Finset.sum_congr rfl fun I _ => e1 I, sym_contract env.dim hdim]
  refine Finset.sum_congr rfl fun i _ => Finset.sum_congr rfl fun j _ => ?_
  rw [Finset.sum_mul]
  refine Finset.sum_congr rfl fun k _ => ?_
  rw [Finset.sum_mul]
  refine Finset.sum_congr rfl fun l _ => ?_
  rw [hD]
  ring

end Ml
