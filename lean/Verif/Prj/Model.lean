import Mathlib.LinearAlgebra.Matrix.NonsingularInverse
import Mathlib.LinearAlgebra.Matrix.ToLinearEquiv
import Mathlib.Algebra.Order.BigOperators.Ring.Finset

/-!
# Projections to finite element spaces

Models `sfepy/discrete/projections.py`: the projection of functions to facets, the L2 and H1
projections to fields, and the projection of tensors by components.  Exact arithmetic; the direct
linear solver is multiplication by the inverse matrix.
-/

namespace Verif.Prj

open Matrix

variable {K : Type} [Field K]

/-- What the assembling uses of a field over its cells or facets: the connectivity, the basis values
(`bf e q c a`: in the entity `e`, the quadrature point `q`, for the DOF `a` of the entity; the
channel `c` is the value or a component of the gradient) and the quadrature weights times Jacobians
(`get_surface_basis()`, sfepy/discrete/projections.py:188; mappings of terms). -/
structure Space (K : Type) (nE nQ nC nB nD : ℕ) where
  conn : Fin nE → Fin nB → Fin nD
  bf : Fin nE → Fin nQ → Fin nC → Fin nB → K
  det : Fin nE → Fin nQ → K

variable {nE nQ nC nB nD : ℕ}

/-! ## `project_to_facets()` -/

/-- `rhs[idof, elc] += lrhs` (sfepy/discrete/projections.py:216): for repeated indices only the last
addition counts. -/
def addAt (rhs : Fin nD → K) (elc : Fin nB → Fin nD) (lrhs : Fin nB → K) : Fin nD → K := fun d =>
  match ((List.finRange nB).filter fun a => decide (elc a = d)).getLast? with
  | some a => rhs d + lrhs a
  | none => rhs d

/-- The right-hand side: the loop over facets (sfepy/discrete/projections.py:203-216) for one DOF
component; `f e q` is the value of the function. -/
def facetRhs (s : Space K nE nQ 1 nB nD) (f : Fin nE → Fin nQ → K) : Fin nD → K :=
  (List.finRange nE).foldl (fun rhs ii =>
    addAt rhs (s.conn ii) fun a => ∑ q, s.bf ii q 0 a * (f ii q * s.det ii q)) 0

/-- The entries of the COO matrix (sfepy/discrete/projections.py:218-224): `meshgrid(elc, elc)` gives
`er[i, j] = elc[j]`, `ec[i, j] = elc[i]`; `lmtx[i, j]`, all raveled. -/
def facetEntries (s : Space K nE nQ 1 nB nD) : List ((Fin nD × Fin nD) × K) :=
  (List.finRange nE).flatMap fun ii => (List.finRange nB).flatMap fun i =>
    (List.finRange nB).map fun j =>
      ((s.conn ii j, s.conn ii i), ∑ q, s.bf ii q 0 i * s.bf ii q 0 j * s.det ii q)

/-- `coo_array(...).tocsc()` (sfepy/discrete/projections.py:229): entries of equal positions are
summed. -/
def facetMtx (s : Space K nE nQ 1 nB nD) : Matrix (Fin nD) (Fin nD) K := fun r c =>
  (((facetEntries s).filter fun t => decide (t.1 = (r, c))).map Prod.snd).sum

/-- `project_to_facets()` for one DOF component (sfepy/discrete/projections.py:174-238). -/
noncomputable def projectToFacets (s : Space K nE nQ 1 nB nD) (f : Fin nE → Fin nQ → K) :
    Fin nD → K :=
  (facetMtx s)⁻¹ *ᵥ facetRhs s f

/-! ## L2 and H1 projections -/

/-- The assembled tangent matrix of `dw_dot(v, u)` (L2, one channel,
sfepy/discrete/projections.py:89-90; `create_mass_matrix()`, 24-39) or of
`dw_dot(v, u) + dw_laplace(v, u)` (H1, sfepy/discrete/projections.py:140-143). -/
def termMtx (s : Space K nE nQ nC nB nD) : Matrix (Fin nD) (Fin nD) K := fun r c =>
  ∑ e, ∑ a, ∑ b, if s.conn e a = r ∧ s.conn e b = c then
    ∑ q, (∑ ch, s.bf e q ch a * s.bf e q ch b) * s.det e q else 0

/-- The assembled `dw_volume_lvf(m.val, v)` (sfepy/discrete/projections.py:103-104) or
`dw_volume_lvf(m.val, v) + dw_diffusion_r(m.gval, v)` (152-155); `f e q ch` are the data in the
quadrature points. -/
def termRhs (s : Space K nE nQ nC nB nD) (f : Fin nE → Fin nQ → Fin nC → K) : Fin nD → K := fun r =>
  ∑ e, ∑ a, if s.conn e a = r then ∑ q, (∑ ch, s.bf e q ch a * f e q ch) * s.det e q else 0

/-- `make_l2_projection_data()` and `make_h1_projection_data()`
(sfepy/discrete/projections.py:64-128, 130-172): the equation `lhs - rhs` solved by one Newton
iteration from the initial state `u0`. -/
noncomputable def project (s : Space K nE nQ nC nB nD) (f : Fin nE → Fin nQ → Fin nC → K)
    (u0 : Fin nD → K) : Fin nD → K :=
  u0 - (termMtx s)⁻¹ *ᵥ (termMtx s *ᵥ u0 - termRhs s f)

/-- `project_by_component()` (sfepy/discrete/projections.py:41-51): the data vector of the tensor
variable, `nm.array(aux).T.ravel()`, for the components `f 0`, `f 1`, .... -/
noncomputable def projectByComponent {nT : ℕ} (s : Space K nE nQ nC nB nD)
    (f : Fin nT → Fin nE → Fin nQ → Fin nC → K) (u0 : Fin nD → K) : List K :=
  let aux := fun ic => project s (f ic) u0
  (List.finRange nD).flatMap fun n => (List.finRange nT).map fun ic => aux ic n

end Verif.Prj
