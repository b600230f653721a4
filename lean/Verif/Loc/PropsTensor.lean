/-
The coordinates of a point in a quadrilateral or a hexahedron: the Newton iteration of `get_xi_tensor()`.
-/
import Verif.Loc.PropsSimplex
import Verif.Fem.PropsLagTensor
import Verif.Fem.PropsLagGrad

set_option linter.unusedSectionVars false

namespace Verif.Loc

open Finset Verif.Fem

variable {K : Type} [Field K] [LinearOrder K] [IsStrictOrderedRing K]

/-- The bilinear or trilinear map of the reference square or cube with the vertices `vertexMap dim`, given by the images
`e` of the vertices. -/
def mapX (dim : ℕ) (e : ℕ → ℕ → K) (xi : ℕ → K) (r : ℕ) : K :=
  ∑ k ∈ range (2 ^ dim), (∏ d ∈ range dim, if vertexMap dim k d = 1 then xi d else 1 - xi d) * e k r

/-- The vertices of the tensor product element of a dimension. -/
def TensorGel (g : Gel) : Prop := g = gel24 ∨ g = gel38

theorem rows_bits {g : Gel} (hg : TensorGel g) : ∀ k < 2 ^ g.dim, ∀ d < g.dim,
    rowAt (tensorNodes g 1) k (2 * d) = 1 - vertexMap g.dim k d ∧
      rowAt (tensorNodes g 1) k (2 * d + 1) = vertexMap g.dim k d ∧ vertexMap g.dim k d ≤ 1 := by
  rcases hg with rfl | rfl
  · decide
  · decide

/-- The barycentric coordinates of the Newton iteration. -/
def nbc (xi : ℕ → K) (d i : ℕ) : K := if i = 1 then (xi d - 0) / (1 - 0) else 1 - (xi d - 0) / (1 - 0)

theorem lag_bit (xi : ℕ → K) (d b : ℕ) (hb : b ≤ 1) (row : ℕ → ℕ) (h0 : row 0 = 1 - b) (h1 : row 1 = b) :
    lagVal 2 1 (nbc xi d) row = if b = 1 then xi d else 1 - xi d := by
  rw [lag2, h0, h1]
  interval_cases b <;> simp [nbc, ch]

theorem tenVal_bits {g : Gel} (hg : TensorGel g) (xi : ℕ → K) {k : ℕ} (hk : k < 2 ^ g.dim) :
    tenVal g.dim 1 (nbc xi) (rowAt (tensorNodes g 1) k) =
      ∏ d ∈ range g.dim, if vertexMap g.dim k d = 1 then xi d else 1 - xi d := by
  rw [tenVal_eq]
  refine prod_congr rfl fun d hd => ?_
  obtain ⟨h0, h1, hb⟩ := rows_bits hg k hk d (mem_range.1 hd)
  exact lag_bit xi d _ hb _ h0 h1

theorem tensorX_eq {g : Gel} (hg : TensorGel g) (e : ℕ → ℕ → K) (xi : ℕ → K) (r : ℕ) :
    tensorX g.dim (rowAt (tensorNodes g 1)) e xi r = mapX g.dim e xi r := by
  unfold tensorX mapX
  rw [foldl_add, zero_add]
  refine sum_congr rfl fun k hk => ?_
  rw [← tenVal_bits hg xi (mem_range.1 hk)]
  rfl

theorem grad_bit (xi : ℕ → K) (d b : ℕ) (hb : b ≤ 1) (row : ℕ → ℕ) (h0 : row 0 = 1 - b) (h1 : row 1 = b)
    {mtxI : ℕ → ℕ → K} (m0 : mtxI 0 0 = -1) (m1 : mtxI 1 0 = 1) :
    lagGrad 2 1 mtxI (nbc xi d) row 0 = if b = 1 then 1 else -1 := by
  interval_cases b <;> simp [lagGrad, lagVV, lagDval, List.range_succ, h0, h1, m0, m1]

theorem tenGrad_bits {g : Gel} (hg : TensorGel g) {mtxI : ℕ → ℕ → K} (m0 : mtxI 0 0 = -1) (m1 : mtxI 1 0 = 1)
    (xi : ℕ → K) {k r : ℕ} (hk : k < 2 ^ g.dim) (hr : r < g.dim) :
    tenGrad g.dim 1 mtxI (nbc xi) (rowAt (tensorNodes g 1) k) r =
      (if vertexMap g.dim k r = 1 then 1 else -1) *
        ∏ d ∈ (range g.dim).erase r, if vertexMap g.dim k d = 1 then xi d else 1 - xi d := by
  rw [tenGrad_eq _ _ _ _ _ hr]
  congr 1
  · obtain ⟨h0, h1, hb⟩ := rows_bits hg k hk r hr
    exact grad_bit xi r _ hb _ h0 h1 m0 m1
  · refine prod_congr rfl fun d hd => ?_
    obtain ⟨h0, h1, hb⟩ := rows_bits hg k hk d (mem_range.1 (mem_erase.1 hd).2)
    exact lag_bit xi d _ hb _ h0 h1

/-- What the Newton iteration returns maps to the point up to its tolerance. -/
theorem newton_sound {g : Gel} (hg : TensorGel g) (sqrt : K → K) (newtonEps : K) (mtxI : ℕ → ℕ → K) (P : ℕ → K)
    (e : ℕ → ℕ → K) (n : ℕ) (xi xi' : ℕ → K)
    (h : newtonXi sqrt newtonEps g.dim mtxI (rowAt (tensorNodes g 1)) P e n xi = some xi') :
    sqrt (∑ r ∈ range g.dim, (P r - mapX g.dim e xi' r) * (P r - mapX g.dim e xi' r)) < newtonEps := by
  induction n generalizing xi with
  | zero => simp [newtonXi] at h
  | succ n ih =>
    unfold newtonXi at h
    simp only at h
    split at h
    · rename_i herr
      rw [foldl_add, zero_add] at herr
      simp only [tensorX_eq hg] at herr
      cases h
      exact herr
    · exact ih _ h

/-- `get_ref_coors_general()` for one point of a mesh of quadrilaterals or hexahedra
(sfepy/discrete/common/global_interp.py:194-300). -/
def locateTensor (sqrt : K → K) (newtonEps : K) (iMax : ℕ) (g : Gel) (mtxI : ℕ → ℕ → K) (nEl : ℕ) (e : ℕ → ℕ → ℕ → K)
    (centroid : ℕ → ℕ → K) (closeLimit qpEps : K) (incident : List ℕ) (xi0 P : ℕ → K) : Found K :=
  findRefCoors sqrt (decide (0 < closeLimit)) qpEps closeLimit
    (fun c => xiDistTensor sqrt newtonEps iMax g.dim mtxI (rowAt (tensorNodes g 1)) P (e c)) xi0
    (potentialCells g.dim (2 ^ g.dim) nEl e centroid (decide (0 < closeLimit)) incident P)

/-- An accepted cell. -/
theorem accepted_tensor {g : Gel} (hg : TensorGel g) {sqrt : K → K} {newtonEps : K} {iMax : ℕ} {mtxI : ℕ → ℕ → K}
    {P : ℕ → K} {e : ℕ → ℕ → K} {qpEps : K} (hq : qpEps ≤ 10 ^ 4)
    (h : Accepted qpEps (xiDistTensor sqrt newtonEps iMax g.dim mtxI (rowAt (tensorNodes g 1)) P e)) :
    let xi := (xiDistTensor sqrt newtonEps iMax g.dim mtxI (rowAt (tensorNodes g 1)) P e).xi
    sqrt (∑ r ∈ range g.dim, (P r - mapX g.dim e xi r) * (P r - mapX g.dim e xi r)) < newtonEps ∧
      ∀ r < g.dim, (xi r < 0 → xi r * xi r < qpEps) ∧ (1 < xi r → (xi r - 1) * (xi r - 1) < qpEps) := by
  unfold xiDistTensor at h ⊢
  split at h
  · rename_i xi hx
    simp only [hx]
    refine ⟨newton_sound hg sqrt newtonEps mtxI P e iMax _ xi hx, fun r hr => ?_⟩
    have h2 := h.2
    simp only at h2
    have e1 : (List.range g.dim).foldl (fun s (ii : ℕ) => s + pen (xi ii - 1) + pen (0 - xi ii)) 0 =
        ∑ ii ∈ range g.dim, (pen (xi ii - 1) + pen (0 - xi ii)) := by
      simp only [add_assoc]
      rw [foldl_add, zero_add]
    rw [e1] at h2
    have h3 : pen (xi r - 1) + pen (0 - xi r) < qpEps :=
      lt_of_le_of_lt (single_le_sum (f := fun ii => pen (xi ii - 1) + pen (0 - xi ii))
        (fun j _ => add_nonneg (pen_nonneg _) (pen_nonneg _)) (mem_range.2 hr)) h2
    constructor
    · intro hn
      have := pen_lt hq (lt_of_le_of_lt (le_add_of_nonneg_left (pen_nonneg (xi r - 1))) h3) (by linarith)
      linarith [neg_mul_neg (xi r) (xi r)]
    · intro hn
      exact pen_lt hq (lt_of_le_of_lt (le_add_of_nonneg_right (pen_nonneg (0 - xi r))) h3) (by linarith)
  · exact absurd h.1 (by simp)

/-- **C112.** When the status is 0, the returned coordinates are in the reference square or cube up to the square root of
the tolerance and map, in the returned cell, to the point up to the tolerance of the Newton iteration. -/
theorem C112_locate_sound {g : Gel} (hg : TensorGel g) (sqrt : K → K) (newtonEps : K) (iMax : ℕ) (mtxI : ℕ → ℕ → K)
    (nEl : ℕ) (e : ℕ → ℕ → ℕ → K) (centroid : ℕ → ℕ → K) (closeLimit qpEps : K) (hq : qpEps ≤ 10 ^ 4)
    (incident : List ℕ) (hinc : ∀ c ∈ incident, c < nEl) (xi0 P : ℕ → K)
    (h : (locateTensor sqrt newtonEps iMax g mtxI nEl e centroid closeLimit qpEps incident xi0 P).status = 0) :
    let f := locateTensor sqrt newtonEps iMax g mtxI nEl e centroid closeLimit qpEps incident xi0 P
    f.cell < nEl ∧
      sqrt (∑ r ∈ range g.dim, (P r - mapX g.dim (e f.cell) f.xi r) * (P r - mapX g.dim (e f.cell) f.xi r)) <
        newtonEps ∧
      ∀ r < g.dim, (f.xi r < 0 → f.xi r * f.xi r < qpEps) ∧ (1 < f.xi r → (f.xi r - 1) * (f.xi r - 1) < qpEps) := by
  intro f
  obtain ⟨pre, post, h1, _, h3, h4⟩ := C110_first_accepted _ _ _ _ _ _ _ h
  have hlt : f.cell < nEl := mem_potential_lt hinc (P := P) (by rw [h1]; simp [f, locateTensor])
  have hx : f.xi = (xiDistTensor sqrt newtonEps iMax g.dim mtxI (rowAt (tensorNodes g 1)) P (e f.cell)).xi := h4
  obtain ⟨a1, a2⟩ := accepted_tensor hg hq h3
  refine ⟨hlt, ?_, ?_⟩
  · rw [hx]; exact a1
  · rw [hx]; exact a2

/-! ### Potential cells -/

theorem shape_nonneg (dim k : ℕ) {xi : ℕ → K} (h : ∀ d < dim, 0 ≤ xi d ∧ xi d ≤ 1) :
    0 ≤ ∏ d ∈ range dim, if vertexMap dim k d = 1 then xi d else 1 - xi d := by
  refine prod_nonneg fun d hd => ?_
  have := h d (mem_range.1 hd)
  split
  · exact this.1
  · linarith [this.2]

theorem shape_sum {dim : ℕ} (hd : dim = 2 ∨ dim = 3) (xi : ℕ → K) :
    ∑ k ∈ range (2 ^ dim), ∏ d ∈ range dim, (if vertexMap dim k d = 1 then xi d else 1 - xi d) = 1 := by
  rcases hd with rfl | rfl
  · simp [sum_range_succ, prod_range_succ, vertexMap]; ring
  · simp [sum_range_succ, prod_range_succ, vertexMap]; ring

/-- **C112.** A cell in which the point is the image of a point of the reference square or cube is a potential cell. -/
theorem C112_potential_cells_complete {dim : ℕ} (hd : dim = 2 ∨ dim = 3) {nEl : ℕ} (e : ℕ → ℕ → ℕ → K) (centroid : ℕ → ℕ → K)
    (extrapolate : Bool) (incident : List ℕ) {P xi : ℕ → K} {ic : ℕ} (hic : ic < nEl)
    (h : ∀ d < dim, 0 ≤ xi d ∧ xi d ≤ 1) (hP : ∀ r < dim, P r = mapX dim (e ic) xi r) :
    ic ∈ potentialCells dim (2 ^ dim) nEl e centroid extrapolate incident P :=
  C110_potential_cells_complete (l := fun k => ∏ d ∈ range dim, if vertexMap dim k d = 1 then xi d else 1 - xi d) e centroid
    extrapolate incident hic (fun k _ => shape_nonneg dim k h) (shape_sum hd xi) hP

/-! ### Affine cells -/

/-- The cell is a parallelogram or a parallelepiped with the corner `a` and the edges `A d`. -/
def IsAffine (dim : ℕ) (a : ℕ → K) (A : ℕ → ℕ → K) (e : ℕ → ℕ → K) : Prop :=
  ∀ k < 2 ^ dim, ∀ r < dim, e k r = a r + ∑ d ∈ range dim, vertexMap dim k d * A d r

theorem mapX_affine {dim : ℕ} (hd : dim = 2 ∨ dim = 3) {a : ℕ → K} {A e : ℕ → ℕ → K} (h : IsAffine dim a A e)
    (xi : ℕ → K) {r : ℕ} (hr : r < dim) : mapX dim e xi r = a r + ∑ d ∈ range dim, xi d * A d r := by
  unfold mapX
  rw [sum_congr rfl fun k hk => by rw [h k (mem_range.1 hk) r hr]]
  rcases hd with rfl | rfl
  · simp [sum_range_succ, prod_range_succ, vertexMap]; ring
  · simp [sum_range_succ, prod_range_succ, vertexMap]; ring

theorem mtx_affine {g : Gel} (hg : TensorGel g) {mtxI : ℕ → ℕ → K} (m0 : mtxI 0 0 = -1) (m1 : mtxI 1 0 = 1) {a : ℕ → K}
    {A e : ℕ → ℕ → K} (h : IsAffine g.dim a A e) (xi : ℕ → K) {r c : ℕ} (hr : r < g.dim) (hc : c < g.dim) :
    tensorMtx g.dim mtxI (rowAt (tensorNodes g 1)) e xi r c = A r c := by
  unfold tensorMtx
  rw [foldl_add, zero_add]
  have e1 : ∀ k ∈ range (2 ^ g.dim),
      tenGrad g.dim 1 mtxI (fun d i => if i = 1 then (xi d - 0) / (1 - 0) else 1 - (xi d - 0) / (1 - 0))
        (rowAt (tensorNodes g 1) k) r * e k c =
      ((if vertexMap g.dim k r = 1 then 1 else -1) *
        ∏ d ∈ (range g.dim).erase r, if vertexMap g.dim k d = 1 then xi d else 1 - xi d) *
        (a c + ∑ d ∈ range g.dim, vertexMap g.dim k d * A d c) := fun k hk => by
    rw [← tenGrad_bits hg m0 m1 xi (mem_range.1 hk) hr, h k (mem_range.1 hk) c hc]; rfl
  rw [sum_congr rfl e1]
  have q0 : (range 2).erase 0 = {1} := by decide
  have q1 : (range 2).erase 1 = {0} := by decide
  have p0 : (range 3).erase 0 = {1, 2} := by decide
  have p1 : (range 3).erase 1 = {0, 2} := by decide
  have p2 : (range 3).erase 2 = {0, 1} := by decide
  clear e1 h
  rcases hg with rfl | rfl
  · have : gel24.dim = 2 := rfl
    rw [this] at hr ⊢
    interval_cases r
    · simp [q0, sum_range_succ, vertexMap]; ring
    · simp [q1, sum_range_succ, vertexMap]; ring
  · have : gel38.dim = 3 := rfl
    rw [this] at hr ⊢
    interval_cases r
    · simp [p0, sum_range_succ, vertexMap]; ring
    · simp [p1, sum_range_succ, vertexMap]; ring
    · simp [p2, sum_range_succ, vertexMap]; ring

/-- The right inverse of the matrix of the Newton iteration. -/
theorem mul_tensorInv {g : Gel} (hg : TensorGel g) (m : ℕ → ℕ → K)
    (h : 1 / 10 ^ 55 ≤ |(Matrix.of fun r c : Fin g.dim => m r c).det|) {i j : ℕ} (hi : i < g.dim) (hj : j < g.dim) :
    ∑ k ∈ range g.dim, m i k * tensorInv g.dim m k j = if i = j then 1 else 0 := by
  have hl : ∀ i j, i < g.dim → j < g.dim → ∑ k ∈ range g.dim, tensorInv g.dim m i k * m k j = if i = j then 1 else 0 := by
    intro i j hi hj
    rcases hg with rfl | rfl
    · have : tensorInv gel24.dim m = inv2 m := by simp [tensorInv, gel24]
      rw [this]; exact inv2_mul m h i j hi hj
    · have : tensorInv gel38.dim m = inv3 m := by simp [tensorInv, gel38]
      rw [this]; exact inv3_mul m h i j hi hj
  have h1 : (Matrix.of fun i k : Fin g.dim => tensorInv g.dim m i k) * (Matrix.of fun k j : Fin g.dim => m k j) = 1 := by
    ext a b
    rw [Matrix.mul_apply, Matrix.one_apply]
    have := hl a b a.2 b.2
    rw [← Fin.sum_univ_eq_sum_range (fun k => tensorInv g.dim m a k * m k b)] at this
    simpa [Fin.ext_iff] using this
  have h3 := mul_eq_one_comm.1 h1
  have h2 := congrFun (congrFun h3 (⟨i, hi⟩ : Fin g.dim)) (⟨j, hj⟩ : Fin g.dim)
  rw [Matrix.mul_apply, Matrix.one_apply] at h2
  rw [← Fin.sum_univ_eq_sum_range (fun k => m i k * tensorInv g.dim m k j)]
  simpa [Fin.ext_iff] using h2

theorem inv_congr {g : Gel} (hg : TensorGel g) {m m' : ℕ → ℕ → K} (h : ∀ r < g.dim, ∀ c < g.dim, m r c = m' r c)
    (r c : ℕ) : tensorInv g.dim m r c = tensorInv g.dim m' r c := by
  rcases hg with rfl | rfl
  · have h' : ∀ r < 2, ∀ c < 2, m r c = m' r c := h
    have t : ∀ m : ℕ → ℕ → K, tensorInv gel24.dim m = inv2 m := fun m => by simp [tensorInv, gel24]
    rw [t, t]
    unfold inv2
    rw [h' 0 (by omega) 0 (by omega), h' 0 (by omega) 1 (by omega), h' 1 (by omega) 0 (by omega),
      h' 1 (by omega) 1 (by omega)]
  · have h' : ∀ r < 3, ∀ c < 3, m r c = m' r c := h
    have hc : cof3 m = cof3 m' := by
      funext r c
      unfold cof3
      rw [h' 0 (by omega) 0 (by omega), h' 0 (by omega) 1 (by omega), h' 0 (by omega) 2 (by omega),
        h' 1 (by omega) 0 (by omega), h' 1 (by omega) 1 (by omega), h' 1 (by omega) 2 (by omega),
        h' 2 (by omega) 0 (by omega), h' 2 (by omega) 1 (by omega), h' 2 (by omega) 2 (by omega)]
    have t : ∀ m : ℕ → ℕ → K, tensorInv gel38.dim m = inv3 m := fun m => by simp [tensorInv, gel38]
    rw [t, t]
    unfold inv3
    rw [hc]
    rw [h' 0 (by omega) 0 (by omega), h' 0 (by omega) 1 (by omega), h' 0 (by omega) 2 (by omega)]

/-- In an affine cell the Newton iteration finds the coordinates in one step. -/
theorem newton_affine {g : Gel} (hg : TensorGel g) {sqrt : K → K} {newtonEps : K} (h0 : sqrt 0 < newtonEps)
    {mtxI : ℕ → ℕ → K} (m0 : mtxI 0 0 = -1) (m1 : mtxI 1 0 = 1) {a : ℕ → K} {A e : ℕ → ℕ → K}
    (h : IsAffine g.dim a A e) (hA : 1 / 10 ^ 55 ≤ |(Matrix.of fun r c : Fin g.dim => A r c).det|) {P xi : ℕ → K}
    (hP : ∀ r < g.dim, P r = a r + ∑ d ∈ range g.dim, xi d * A d r) (n : ℕ) (x0 : ℕ → K) :
    (∃ x, newtonXi sqrt newtonEps g.dim mtxI (rowAt (tensorNodes g 1)) P e (n + 2) x0 = some x ∧
      ((∀ d < g.dim, x d = xi d) ∨ x = x0)) := by
  have hdim : g.dim = 2 ∨ g.dim = 3 := by rcases hg with rfl | rfl <;> simp [gel24, gel38]
  have hres : ∀ (x : ℕ → K) (r : ℕ), r < g.dim → P r - tensorX g.dim (rowAt (tensorNodes g 1)) e x r =
      ∑ d ∈ range g.dim, (xi d - x d) * A d r := fun x r hr => by
    rw [tensorX_eq hg, mapX_affine hdim h x hr, hP r hr]
    simp only [sub_mul, sum_sub_distrib]
    ring
  unfold newtonXi
  simp only
  split
  · exact ⟨x0, rfl, Or.inr rfl⟩
  · have hstep : ∀ c < g.dim, x0 c + (List.range g.dim).foldl (fun s (r : ℕ) =>
        s + (P r - tensorX g.dim (rowAt (tensorNodes g 1)) e x0 r) *
          tensorInv g.dim (tensorMtx g.dim mtxI (rowAt (tensorNodes g 1)) e x0) r c) 0 = xi c := by
      intro c hc
      rw [foldl_add, zero_add]
      have e1 : ∀ r ∈ range g.dim, (P r - tensorX g.dim (rowAt (tensorNodes g 1)) e x0 r) *
          tensorInv g.dim (tensorMtx g.dim mtxI (rowAt (tensorNodes g 1)) e x0) r c =
          ∑ d ∈ range g.dim, (xi d - x0 d) * (A d r * tensorInv g.dim A r c) := fun r hr => by
        rw [hres x0 r (mem_range.1 hr), inv_congr hg (fun r hr c hc => mtx_affine hg m0 m1 h x0 hr hc), sum_mul]
        exact sum_congr rfl fun d _ => by ring
      rw [sum_congr rfl e1, sum_comm]
      have e2 : ∀ d ∈ range g.dim, ∑ r ∈ range g.dim, (xi d - x0 d) * (A d r * tensorInv g.dim A r c) =
          (xi d - x0 d) * if d = c then 1 else 0 := fun d hd => by
        rw [← mul_sum, mul_tensorInv hg A hA (mem_range.1 hd) hc]
      rw [sum_congr rfl e2]
      simp [hc]
    unfold newtonXi
    simp only
    rw [if_pos]
    · exact ⟨_, rfl, Or.inl hstep⟩
    · rw [foldl_add, zero_add, sum_eq_zero]
      · exact h0
      · intro r hr
        rw [hres _ r (mem_range.1 hr), sum_eq_zero, mul_zero]
        intro d hd
        rw [hstep d (mem_range.1 hd), sub_self, zero_mul]

/-- **C112.** A point of a cell of a mesh of parallelograms or parallelepipeds is found (status 0), for at least two
iterations. -/
theorem C112_locate_complete {g : Gel} (hg : TensorGel g) {sqrt : K → K} {newtonEps : K} (h0 : sqrt 0 < newtonEps)
    {mtxI : ℕ → ℕ → K} (m0 : mtxI 0 0 = -1) (m1 : mtxI 1 0 = 1) {nEl : ℕ} {e : ℕ → ℕ → ℕ → K} {a : ℕ → ℕ → K}
    {A : ℕ → ℕ → ℕ → K} (h : ∀ c < nEl, IsAffine g.dim (a c) (A c) (e c))
    (hA : ∀ c < nEl, 1 / 10 ^ 55 ≤ |(Matrix.of fun r s : Fin g.dim => A c r s).det|) (n : ℕ) (centroid : ℕ → ℕ → K)
    (closeLimit qpEps : K) (hq : 0 < qpEps) (incident : List ℕ) (xi0 P : ℕ → K) {c : ℕ} (hc : c < nEl) {xi : ℕ → K}
    (hx : ∀ d < g.dim, 0 ≤ xi d ∧ xi d ≤ 1) (hP : ∀ r < g.dim, P r = mapX g.dim (e c) xi r) :
    (locateTensor sqrt newtonEps (n + 2) g mtxI nEl e centroid closeLimit qpEps incident xi0 P).status = 0 := by
  have hdim : g.dim = 2 ∨ g.dim = 3 := by rcases hg with rfl | rfl <;> simp [gel24, gel38]
  unfold locateTensor
  rw [C110_status_zero]
  refine ⟨c, C112_potential_cells_complete hdim e centroid _ incident hc hx hP, ?_⟩
  obtain ⟨x, hn, hx'⟩ := newton_affine hg h0 m0 m1 (h c hc) (hA c hc)
    (P := P) (xi := xi) (fun r hr => by rw [hP r hr, mapX_affine hdim (h c hc) xi hr]) n (fun _ => 1 / 5 * (0 + 1))
  have hb : ∀ d < g.dim, 0 ≤ x d ∧ x d ≤ 1 := by
    rcases hx' with hx' | rfl
    · exact fun d hd => by rw [hx' d hd]; exact hx d hd
    · exact fun d _ => ⟨by norm_num, by norm_num⟩
  unfold xiDistTensor
  rw [hn]
  refine ⟨rfl, ?_⟩
  simp only [add_assoc]
  rw [foldl_add, zero_add, sum_eq_zero]
  · exact hq
  · intro d hd
    have := hb d (mem_range.1 hd)
    rw [pen_zero (by linarith [this.2]), pen_zero (by linarith [this.1]), add_zero]

/-- The basis of the Lagrange elements on quadrilaterals and hexahedra: `ctx.eval_basis()` of the context made by
`Field.create_basis_context()`: `eps` is 0 and the errors are not checked
(sfepy/discrete/fem/fields_nodal.py:386-402). -/
def tensorBasis (g : Gel) (o : ℕ) (mtxI : ℕ → ℕ → K) (xi : ℕ → K) (k : ℕ) : K :=
  ((evalTensor g.dim o mtxI 0 false (tensorNodes g o) xi).getD []).getD k 0

/-- **C112.** The evaluation at a point with status 0 or 1 of a Lagrange field whose DOFs in the returned cell are the
values of a polynomial `p` in the nodes of the reference element, of a degree at most the order in each variable, is the
value of `p` at the returned coordinates. -/
theorem C112_evaluate {g : Gel} (hg : IsTensor g) {o : ℕ} (ho : 1 ≤ o) {mtxI : ℕ → ℕ → K}
    (hI : IsRefInv 2 (ends (0 : K) 1) mtxI) (f : Found K) (hf : f.status ≤ 1) (p : MvPolynomial (Fin g.dim) K)
    (hp : ∀ d, p.degreeOf d ≤ o) (econn : ℕ × ℕ → ℤ) (u : ℤ → K)
    (hu : ∀ k < (tensorNodes g o).length, u (econn (f.cell, k)) =
      MvPolynomial.eval (fun r : Fin g.dim => tensorNodeCoor o 0 1 (rowAt (tensorNodes g o) k) r) p) :
    evaluateInRc (tensorBasis g o mtxI) econn u (tensorNodes g o).length f =
      MvPolynomial.eval (fun r : Fin g.dim => f.xi r) p := by
  have hclean : CleanT g.dim mtxI 0 false f.xi := by
    intro d _ i _
    rcases le_or_gt 0 (baryVal 2 mtxI (fun _ => f.xi d) i) with h | h
    · rcases le_or_gt (baryVal 2 mtxI (fun _ => f.xi d) i) 1 with h' | h'
      · exact Or.inl ⟨h, h'⟩
      · exact Or.inr ⟨rfl, Or.inr (by linarith)⟩
    · exact Or.inr ⟨rfl, Or.inl (by linarith)⟩
  obtain ⟨φ, e1, _, e3⟩ := evalTensor_eq (o := o) le_rfl hclean (tensorNodes g o)
  unfold evaluateInRc
  rw [if_pos hf, foldl_add, zero_add, ← ten_repro hg ho hI f.xi p hp]
  refine sum_congr rfl fun k hk => ?_
  rw [mem_range] at hk
  rw [hu k hk, tensorBasis, e1, Option.getD_some, List.getD_eq_getElem?_getD, e3 k hk, Option.getD_some]

end Verif.Loc
