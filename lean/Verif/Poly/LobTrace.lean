/-
The functions of the hierarchical fields are continuous: the traces on the edges and on the faces.
-/
import Verif.Poly.LobCont

namespace Verif.Poly.Lob

open Verif.Fem Verif.CMesh
open Finset

/-! ### The functions of a face -/

/-- The orientation key from the comparisons. -/
def kB (ab ac bc ad bd cd : Bool) : ℕ :=
  (if ab then 1 else 0) + (if ac then 2 else 0) + (if bc then 4 else 0) + (if ad then 8 else 0) + (if bd then 16 else 0) +
    (if cd then 32 else 0)

theorem oriKey_kB (x y z w : ℕ) : oriKey [x, y, z, w] =
    kB (decide (x < y)) (decide (x < z)) (decide (y < z)) (decide (x < w)) (decide (y < w)) (decide (z < w)) := by
  simp [oriKey, kB]

/-- The transitivity of the comparisons. -/
def tr (ab ac bc : Bool) : Bool := !(ab && bc && !ac) && !(!ab && !bc && ac)

theorem tr_lt {x y z : ℕ} : tr (decide (x < y)) (decide (x < z)) (decide (y < z)) = true := by
  by_cases h1 : x < y <;> by_cases h2 : y < z <;> by_cases h3 : x < z <;> simp [tr, h1, h2, h3] <;> omega

/-- The sign of a function of a face. -/
def sgnB (m : ℕ) : Bool := m == 1 || m == 2 || m == 5 || m == 6

theorem flipB : ∀ ab ac bc ad bd cd : Bool, tr ab ac bc && tr ab ad bd && tr ac ad cd && tr bc bd cd →
    ∀ p < 2, ∀ q < 2,
    let m := maskOri (translate (kB ab ac bc ad bd cd)) p q
    let m' := maskOri (translate (kB (!ab) bd ad bc ac (!cd))) p q
    (4 ≤ m' ↔ 4 ≤ m) ∧ sgnB m' = xor (sgnB m) (if 4 ≤ m then q == 1 else p == 1) := by decide +kernel

theorem transB : ∀ ab ac bc ad bd cd : Bool, tr ab ac bc && tr ab ad bd && tr ac ad cd && tr bc bd cd →
    ∀ p < 2, ∀ q < 2,
    let m := maskOri (translate (kB ab ac bc ad bd cd)) p q
    let m' := maskOri (translate (kB ad ac (!cd) ab (!bd) (!bc))) p q
    (4 ≤ m' ↔ ¬ 4 ≤ m) ∧ sgnB m' = sgnB m := by decide +kernel

theorem faceBasis_form (m a b : ℕ) (s t : ℝ) :
    faceBasis m a b s t = (if sgnB m then -1 else 1) * (if 4 ≤ m then ell b s * ell a t else ell a s * ell b t) := by
  rw [faceBasis]
  rcases Nat.lt_or_ge m 4 with h | h
  · simp only [show ¬ 4 ≤ m by omega, if_false]
    congr 1
    have : sgnB m = true ↔ (m = 1 ∨ m = 2) := by interval_cases m <;> decide
    simp only [this]
  · simp only [h, if_true]
    congr 1
    have : sgnB m = true ↔ (m = 5 ∨ m = 6) := by simp [sgnB]; omega
    simp only [this]

/-- A combination of the functions of a face. -/
noncomputable def faceFun (n : ℕ) (w : ℕ → ℝ) (key : ℕ) (s t : ℝ) : ℝ :=
  ∑ i ∈ range n, ∑ j ∈ range n,
    faceBasis (maskOri (translate key) ((i + 2) % 2) ((j + 2) % 2)) (i + 2) (j + 2) s t * w (i * n + j)

theorem decide_gt {x y : ℕ} (h : x ≠ y) : decide (y < x) = !decide (x < y) := by
  by_cases h1 : x < y
  · simp [h1]; omega
  · simp [h1]; omega

theorem faceFun_flip (n : ℕ) (u : ℕ → ℝ) {x y z w : ℕ} (hd : [x, y, z, w].Nodup) (s t : ℝ) :
    faceFun n u (oriKey [y, x, w, z]) (1 - s) t = faceFun n u (oriKey [x, y, z, w]) s t := by
  refine sum_congr rfl fun i _ => sum_congr rfl fun j _ => ?_
  congr 1
  simp at hd
  rw [oriKey_kB, oriKey_kB, decide_gt (x := x) (y := y) (by omega), decide_gt (x := z) (y := w) (by omega)]
  obtain ⟨h1, h2⟩ := flipB (decide (x < y)) (decide (x < z)) (decide (y < z)) (decide (x < w)) (decide (y < w))
    (decide (z < w)) (by rw [tr_lt, tr_lt, tr_lt, tr_lt]; rfl) ((i + 2) % 2) (by omega) ((j + 2) % 2) (by omega)
  rw [faceBasis_form, faceBasis_form, h2]
  generalize maskOri (translate (kB (decide (x < y)) (decide (x < z)) (decide (y < z)) (decide (x < w)) (decide (y < w))
    (decide (z < w)))) ((i + 2) % 2) ((j + 2) % 2) = m at *
  simp only [h1, ell_flip]
  have e1 : ((i + 2) % 2 == 1) = decide (i % 2 = 1) := by rw [Nat.add_mod_right]; rfl
  have e2 : ((j + 2) % 2 == 1) = decide (j % 2 = 1) := by rw [Nat.add_mod_right]; rfl
  rw [e1, e2]
  by_cases h4 : 4 ≤ m <;> by_cases hi : i % 2 = 1 <;> by_cases hj : j % 2 = 1 <;> cases sgnB m <;> simp [h4, hi, hj]

theorem faceFun_trans (n : ℕ) (u : ℕ → ℝ) {x y z w : ℕ} (hd : [x, y, z, w].Nodup) (s t : ℝ) :
    faceFun n u (oriKey [x, w, z, y]) t s = faceFun n u (oriKey [x, y, z, w]) s t := by
  refine sum_congr rfl fun i _ => sum_congr rfl fun j _ => ?_
  congr 1
  simp at hd
  rw [oriKey_kB, oriKey_kB, decide_gt (x := y) (y := z) (by omega), decide_gt (x := z) (y := w) (by omega),
    decide_gt (x := y) (y := w) (by omega)]
  obtain ⟨h1, h2⟩ := transB (decide (x < y)) (decide (x < z)) (decide (y < z)) (decide (x < w)) (decide (y < w))
    (decide (z < w)) (by rw [tr_lt, tr_lt, tr_lt, tr_lt]; rfl) ((i + 2) % 2) (by omega) ((j + 2) % 2) (by omega)
  rw [faceBasis_form, faceBasis_form, h2]
  generalize maskOri (translate (kB (decide (x < y)) (decide (x < z)) (decide (y < z)) (decide (x < w)) (decide (y < w))
    (decide (z < w)))) ((i + 2) % 2) ((j + 2) % 2) = m at *
  simp only [h1]
  by_cases h4 : 4 ≤ m <;> simp [h4] <;> ring

theorem faceBasis_ends (m a b : ℕ) (s : ℝ) : faceBasis m (a + 2) (b + 2) 0 s = 0 ∧ faceBasis m (a + 2) (b + 2) 1 s = 0 ∧
    faceBasis m (a + 2) (b + 2) s 0 = 0 ∧ faceBasis m (a + 2) (b + 2) s 1 = 0 := by
  refine ⟨?_, ?_, ?_, ?_⟩ <;> simp [faceBasis, ell_zero, ell_one]

theorem faceFun_ends (n : ℕ) (u : ℕ → ℝ) (key : ℕ) (s : ℝ) : faceFun n u key 0 s = 0 ∧ faceFun n u key 1 s = 0 ∧
    faceFun n u key s 0 = 0 ∧ faceFun n u key s 1 = 0 := by
  refine ⟨?_, ?_, ?_, ?_⟩ <;> refine sum_eq_zero fun i _ => sum_eq_zero fun j _ => ?_
  · rw [(faceBasis_ends _ _ _ _).1, zero_mul]
  · rw [(faceBasis_ends _ _ _ _).2.1, zero_mul]
  · rw [(faceBasis_ends _ _ _ _).2.2.1, zero_mul]
  · rw [(faceBasis_ends _ _ _ _).2.2.2, zero_mul]

/-! ### The explicit forms -/

/-- The function given by the values in the vertices of a quadrilateral and by the functions of its edges. -/
def quadP (V : ℕ → ℝ) (E : ℕ → ℕ → ℝ → ℝ) (a b c d : ℕ) (x y : ℝ) : ℝ :=
  V a * ((1 - x) * (1 - y)) + V b * (x * (1 - y)) + V c * (x * y) + V d * ((1 - x) * y)
    + E a b x * (1 - y) + E b c y * x + E d c x * y + E a d y * (1 - x)

/-- The function given by the values in the vertices of a hexahedron and by the functions of its edges and faces. -/
def hexP (V : ℕ → ℝ) (E : ℕ → ℕ → ℝ → ℝ) (F : ℕ → ℝ → ℝ → ℝ) (x y z : ℝ) : ℝ :=
  V 0 * ((1 - x) * (1 - y) * (1 - z)) + V 1 * (x * (1 - y) * (1 - z)) + V 2 * (x * y * (1 - z)) + V 3 * ((1 - x) * y * (1 - z))
  + V 4 * ((1 - x) * (1 - y) * z) + V 5 * (x * (1 - y) * z) + V 6 * (x * y * z) + V 7 * ((1 - x) * y * z)
  + E 0 1 x * ((1 - y) * (1 - z)) + E 1 2 y * (x * (1 - z)) + E 3 2 x * (y * (1 - z)) + E 0 3 y * ((1 - x) * (1 - z))
  + E 4 5 x * ((1 - y) * z) + E 5 6 y * (x * z) + E 7 6 x * (y * z) + E 4 7 y * ((1 - x) * z)
  + E 0 4 z * ((1 - x) * (1 - y)) + E 1 5 z * (x * (1 - y)) + E 2 6 z * (x * y) + E 3 7 z * ((1 - x) * y)
  + F 0 y x * (1 - z) + F 1 z y * (1 - x) + F 2 x z * (1 - y) + F 3 x y * z + F 4 y z * x + F 5 z x * y

variable {V : ℕ → ℝ} {E : ℕ → ℕ → ℝ → ℝ} {F : ℕ → ℝ → ℝ → ℝ}

theorem quad_vert (h0 : ∀ a b, E a b 0 = 0) (h1 : ∀ a b, E a b 1 = 0) {i : ℕ} (hi : i < 4) :
    quadP V E 0 1 2 3 (vPt 2 i 0) (vPt 2 i 1) = V i := by
  interval_cases i <;> simp [quadP, vPt, vertexMap, h0, h1]

theorem quad_edge (h0 : ∀ a b, E a b 0 = 0) (h1 : ∀ a b, E a b 1 = 0)
    (hs : ∀ a < 4, ∀ b < 4, a ≠ b → ∀ s, E b a (1 - s) = E a b s) {e : ℕ} (he : e < 4) (s : ℝ) :
    quadP V E 0 1 2 3 (ePt 2 (gel24.edges.getD e []) s 0) (ePt 2 (gel24.edges.getD e []) s 1) =
      V ((gel24.edges.getD e []).getD 0 0) * (1 - s) + V ((gel24.edges.getD e []).getD 1 0) * s +
        E ((gel24.edges.getD e []).getD 0 0) ((gel24.edges.getD e []).getD 1 0) s := by
  interval_cases e <;> simp [quadP, ePt, vertexMap, gel24, h0, h1] <;> try ring
  · rw [hs 2 (by decide) 3 (by decide) (by decide)]
  · rw [hs 3 (by decide) 0 (by decide) (by decide)]

variable (h0 : ∀ a b, E a b 0 = 0) (h1 : ∀ a b, E a b 1 = 0)
    (f1 : ∀ f s, F f 0 s = 0) (f2 : ∀ f s, F f 1 s = 0) (f3 : ∀ f s, F f s 0 = 0) (f4 : ∀ f s, F f s 1 = 0)

include h0 h1 f1 f2 f3 f4

omit f3 f4 in
theorem hex_vert {i : ℕ} (hi : i < 8) : hexP V E F (vPt 3 i 0) (vPt 3 i 1) (vPt 3 i 2) = V i := by
  interval_cases i <;> simp [hexP, vPt, vertexMap, h0, h1, f1, f2]

theorem hex_edge (hs : ∀ a < 8, ∀ b < 8, a ≠ b → ∀ s, E b a (1 - s) = E a b s) {e : ℕ} (he : e < 12) (s : ℝ) :
    hexP V E F (ePt 3 (gel38.edges.getD e []) s 0) (ePt 3 (gel38.edges.getD e []) s 1) (ePt 3 (gel38.edges.getD e []) s 2) =
      V ((gel38.edges.getD e []).getD 0 0) * (1 - s) + V ((gel38.edges.getD e []).getD 1 0) * s +
        E ((gel38.edges.getD e []).getD 0 0) ((gel38.edges.getD e []).getD 1 0) s := by
  have a := hs 2 (by decide) 3 (by decide) (by decide) s
  have b := hs 3 (by decide) 0 (by decide) (by decide) s
  have c := hs 6 (by decide) 7 (by decide) (by decide) s
  have d := hs 7 (by decide) 4 (by decide) (by decide) s
  interval_cases e <;> simp [hexP, ePt, vertexMap, gel38, h0, h1, f1, f2, f3, f4, a, b, c, d] <;> ring

theorem hex_face {f : ℕ} (hf : f < 6) (s t : ℝ) :
    hexP V E F (fPt 3 (gel38.faces.getD f []) s t 0) (fPt 3 (gel38.faces.getD f []) s t 1)
        (fPt 3 (gel38.faces.getD f []) s t 2) =
      quadP V E ((gel38.faces.getD f []).getD 0 0) ((gel38.faces.getD f []).getD 1 0)
        ((gel38.faces.getD f []).getD 2 0) ((gel38.faces.getD f []).getD 3 0) s t + F f s t := by
  have pt : ∃ x y z : ℝ, fPt 3 (gel38.faces.getD f []) s t 0 = x ∧ fPt 3 (gel38.faces.getD f []) s t 1 = y ∧
      fPt 3 (gel38.faces.getD f []) s t 2 = z ∧ x = ([t, 0, s, s, 1, t] : List ℝ).getD f 0 ∧
      y = ([s, t, 0, t, s, 1] : List ℝ).getD f 0 ∧ z = ([0, s, t, 1, t, s] : List ℝ).getD f 0 := by
    refine ⟨_, _, _, rfl, rfl, rfl, ?_, ?_, ?_⟩ <;> interval_cases f <;> simp [fPt, vertexMap, gel38] <;> ring
  obtain ⟨x, y, z, e1, e2, e3, e4, e5, e6⟩ := pt
  rw [e1, e2, e3, e4, e5, e6]
  interval_cases f <;> simp [hexP, quadP, gel38, h0, h1, f1, f2, f3, f4] <;> ring

end Verif.Poly.Lob
