import Verif.Par.PropsMaps
import Mathlib.Algebra.BigOperators.Group.Finset.Basic
import Mathlib.Algebra.BigOperators.Ring.Finset

/-!
# Distributed assembling

/repo/sfepy/parallel/parallel.py:352-454 (distribution), 527-548 (local ordering), 688-705
(preallocation), 755-837 (right-hand side and matrix assembling)
-/

namespace Par

open Verif.Np

variable {K : Type*}

/-- `cells = nm.union1d(gfd.cell_parts[it], gfd.overlap_cells[it])`: the cells of a task.
/repo/sfepy/parallel/parallel.py:372-375, 394 -/
def rankCells (D : Dist) (t : ℕ) : List ℕ := unique (D.parts.getD t [] ++ D.overlap.getD t [])

/-- `petsc_dofs_range`: `(coffsets[it], coffsets[it] + dof_map[3])`, for a single field.
/repo/sfepy/parallel/parallel.py:379-381, 403-404, 508-510 -/
def rankRange (D : Dist) (t : ℕ) : ℕ × ℕ :=
  match dget D.maps t with
  | some v => (v.off, v.off + v.n)
  | none => (0, 0)

/-- `petsc_dofs_conn = id_map[global_dofs]`, with the DOFs expanded row by row.
/repo/sfepy/parallel/parallel.py:384-388, 397-406, 612-616 -/
def petscConn (m : FEMesh) (nc : ℕ) (D : Dist) (cells : List ℕ) : List (List ℕ) :=
  cells.map fun c => (expandDofs nc (m.econn c)).map D.idMap

/-- `get_local_ordering(field_i, petsc_dofs_conn, use_expand_dofs)`: `petsc_dofs[econn] =
petsc_dofs_conn`; `junk` are the uninitialised values of `nm.empty()`. `lconn` is the connectivity
of the local field.
/repo/sfepy/parallel/parallel.py:527-546 -/
def localOrdering (nc : ℕ) (lconn : List (List ℕ)) (pconn : List (List ℕ)) (junk : ℕ → ℕ) : ℕ → ℕ :=
  scatter junk ((lconn.flatMap (expandDofs nc)).zip pconn.flatten)

/-- The element vector of a cell with the DOFs `row`, as a contribution to the entry `l`. -/
def elemVec [AddCommMonoid K] (row : List ℕ) (v : ℕ → K) (l : ℕ) : K :=
  ∑ a ∈ Finset.range row.length, if row[a]? = some l then v a else 0

/-- The element matrix of a cell with the DOFs `row`, as a contribution to the entry `(i, j)`. -/
def elemMat [AddCommMonoid K] (row : List ℕ) (v : ℕ → ℕ → K) (i j : ℕ) : K :=
  ∑ a ∈ Finset.range row.length, ∑ b ∈ Finset.range row.length,
    if row[a]? = some i ∧ row[b]? = some j then v a b else 0

/-- The vector assembled from the element vectors of a list of cells (see C12, C13). -/
def assembledVec [AddCommMonoid K] (cells : List ℕ) (row : ℕ → List ℕ) (re : ℕ → ℕ → K) (l : ℕ) : K :=
  (cells.map fun c => elemVec (row c) (re c) l).sum

/-- The matrix assembled from the element matrices of a list of cells. -/
def assembledMat [AddCommMonoid K] (cells : List ℕ) (row : ℕ → List ℕ) (ke : ℕ → ℕ → ℕ → K)
    (i j : ℕ) : K :=
  (cells.map fun c => elemMat (row c) (ke c) i j).sum

/-- `rdofs = nm.where((pdofs < drange[0]) | (pdofs >= drange[1]), -1, pdofs)`.
/repo/sfepy/parallel/parallel.py:769 -/
def rdof (pd : ℕ → ℕ) (dr : ℕ × ℕ) (l : ℕ) : ℤ :=
  if pd l < dr.1 ∨ dr.2 ≤ pd l then -1 else (pd l : ℤ)

/-- `prhs.setValues(rdofs, rhs, INSERT_VALUES)` with `IGNORE_NEGATIVE_INDICES`.
/repo/sfepy/parallel/parallel.py:770-771 -/
def insertVec (v : ℕ → K) (n : ℕ) (idx : ℕ → ℤ) (vals : ℕ → K) : ℕ → K :=
  (List.range n).foldl (fun v l => if idx l < 0 then v else upd v (idx l).toNat (vals l)) v

/-- `prhs.setValues(pdofs, rhs, ADD_VALUES)`.
/repo/sfepy/parallel/parallel.py:782 -/
def addVec [AddCommMonoid K] (v : ℕ → K) (n : ℕ) (idx : ℕ → ℕ) (vals : ℕ → K) : ℕ → K :=
  (List.range n).foldl (fun v l => upd v (idx l) (v (idx l) + vals l)) v

/-- The data of one task: the number of the local DOFs, `pdofs`, `drange`, the local right-hand
side, the local matrix and the stored positions of the local CSR matrix. -/
structure Rank (K : Type*) where
  n : ℕ
  pd : ℕ → ℕ
  dr : ℕ × ℕ
  rhs : ℕ → K
  mat : ℕ → ℕ → K
  stored : List (ℕ × ℕ)

/-- `assemble_rhs_to_petsc()` with `is_overlap` of one task.
/repo/sfepy/parallel/parallel.py:765-777 -/
def Rank.setRhs (r : Rank K) (v : ℕ → K) : ℕ → K := insertVec v r.n (rdof r.pd r.dr) r.rhs

/-- `assemble_rhs_to_petsc()` without `is_overlap` of one task.
/repo/sfepy/parallel/parallel.py:779-788 -/
def Rank.addRhs [AddCommMonoid K] (r : Rank K) (v : ℕ → K) : ℕ → K := addVec v r.n r.pd r.rhs

/-- A single matrix entry. -/
def upd2 (p : ℕ → ℕ → K) (i j : ℕ) (x : K) : ℕ → ℕ → K :=
  fun a b => if a = i ∧ b = j then x else p a b

/-- `assemble_mtx_to_petsc()` with `is_overlap` of one task: the values in the rows of the DOFs that
are not owned are set to zero, zeros are removed from the local CSR matrix, the rest is inserted.
/repo/sfepy/parallel/parallel.py:800-817 -/
def Rank.setMtx [Zero K] [DecidableEq K] (r : Rank K) (p : ℕ → ℕ → K) : ℕ → ℕ → K :=
  let mtx2 : ℕ × ℕ → K := fun e =>
    if r.pd e.1 < r.dr.1 ∨ r.dr.2 ≤ r.pd e.1 then 0 else r.mat e.1 e.2
  (r.stored.filter fun e => decide (mtx2 e ≠ 0)).foldl
    (fun p e => upd2 p (r.pd e.1) (r.pd e.2) (mtx2 e)) p

/-- `assemble_mtx_to_petsc()` without `is_overlap` of one task.
/repo/sfepy/parallel/parallel.py:825-832 -/
def Rank.addMtx [AddCommMonoid K] (r : Rank K) (p : ℕ → ℕ → K) : ℕ → ℕ → K :=
  r.stored.foldl (fun p e => upd2 p (r.pd e.1) (r.pd e.2)
    (p (r.pd e.1) (r.pd e.2) + r.mat e.1 e.2)) p

/-- `create_prealloc_data()`: the local rows in the order of the preallocation, i.e. the owned
local DOFs sorted by their PETSc number.
/repo/sfepy/parallel/parallel.py:693-699 -/
def Rank.preallocRows (r : Rank K) : List ℕ :=
  ((List.range r.n).filter fun l => decide (r.dr.1 ≤ r.pd l ∧ r.pd l < r.dr.2)).insertionSort
    (fun a b => r.pd a ≤ r.pd b)

/-! ### The local problem of a task

The local mesh consists of the cells of the task; `loc x` is the number of the node `x` in the local
field. -/

/-- The local field of a task: the nodes of its cells are renumbered, differently for different
nodes, by `0, …, nLoc - 1`. -/
structure LocalField (m : FEMesh) (cells : List ℕ) where
  loc : ℕ → ℕ
  nLoc : ℕ
  bound : ∀ c ∈ cells, ∀ x ∈ m.econn c, loc x < nLoc
  surj : ∀ l < nLoc, ∃ c ∈ cells, ∃ x ∈ m.econn c, loc x = l
  inj : ∀ c ∈ cells, ∀ c' ∈ cells, ∀ x ∈ m.econn c, ∀ y ∈ m.econn c', loc x = loc y → x = y

/-- The local connectivity. -/
def LocalField.lconn {m : FEMesh} {cells : List ℕ} (L : LocalField m cells) (c : ℕ) : List ℕ :=
  (m.econn c).map L.loc

/-- The task `t`, with its local right-hand side and matrix assembled from the element vectors `re`
and matrices `ke` of its cells.
/repo/sfepy/examples/diffusion/poisson_parallel_interactive.py:247-304 -/
def rankOf [AddCommMonoid K] (m : FEMesh) (nc : ℕ) (D : Dist) (re : ℕ → ℕ → K)
    (ke : ℕ → ℕ → ℕ → K) (t : ℕ) (L : LocalField m (rankCells D t)) (junk : ℕ → ℕ)
    (stored : List (ℕ × ℕ)) : Rank K where
  n := nc * L.nLoc
  pd := localOrdering nc ((rankCells D t).map L.lconn) (petscConn m nc D (rankCells D t)) junk
  dr := rankRange D t
  rhs := assembledVec (rankCells D t) (fun c => expandDofs nc (L.lconn c)) re
  mat := assembledMat (rankCells D t) (fun c => expandDofs nc (L.lconn c)) ke
  stored := stored

/-! ### Specification: the serial problem -/

/-- The right-hand side assembled by a single process. -/
def serialVec [AddCommMonoid K] (m : FEMesh) (nc : ℕ) (re : ℕ → ℕ → K) (d : ℕ) : K :=
  assembledVec (List.range m.nCell) (fun c => expandDofs nc (m.econn c)) re d

/-- The matrix assembled by a single process. -/
def serialMat [AddCommMonoid K] (m : FEMesh) (nc : ℕ) (ke : ℕ → ℕ → ℕ → K) (d e : ℕ) : K :=
  assembledMat (List.range m.nCell) (fun c => expandDofs nc (m.econn c)) ke d e

/-! ### Lemmas -/

/-- The local number of a DOF. -/
def LocalField.locD {m : FEMesh} {cells : List ℕ} (L : LocalField m cells) (nc d : ℕ) : ℕ :=
  nc * L.loc (d / nc) + d % nc

theorem expandDofs_map (nc : ℕ) (f : ℕ → ℕ) (l : List ℕ) :
    expandDofs nc (l.map f) = (expandDofs nc l).map fun d => nc * f (d / nc) + d % nc := by
  unfold expandDofs
  rw [List.flatMap_map, List.map_flatMap]
  refine List.flatMap_congr fun x _ => ?_
  rw [List.map_map]
  refine List.map_congr_left fun k hk => ?_
  have hk := List.mem_range.1 hk
  have hnc : 0 < nc := by omega
  simp only [Function.comp]
  rw [Nat.mul_add_div hnc, Nat.div_eq_of_lt hk, Nat.add_zero, Nat.mul_add_mod, Nat.mod_eq_of_lt hk]

variable {m : FEMesh} {cells : List ℕ} (L : LocalField m cells) {nc : ℕ}

theorem LocalField.lconn_expand (c : ℕ) :
    expandDofs nc (L.lconn c) = (expandDofs nc (m.econn c)).map (L.locD nc) :=
  expandDofs_map nc L.loc (m.econn c)

/-- The DOF `d` is a DOF of one of the cells. -/
def DofIn (m : FEMesh) (nc : ℕ) (cells : List ℕ) (d : ℕ) : Prop :=
  0 < nc ∧ ∃ c ∈ cells, d / nc ∈ m.econn c

theorem LocalField.locD_div (hnc : 0 < nc) (d : ℕ) : L.locD nc d / nc = L.loc (d / nc) := by
  unfold locD
  rw [Nat.mul_add_div hnc, Nat.div_eq_of_lt (Nat.mod_lt d hnc), Nat.add_zero]

theorem LocalField.locD_mod (hnc : 0 < nc) (d : ℕ) : L.locD nc d % nc = d % nc := by
  unfold locD
  rw [Nat.mul_add_mod, Nat.mod_eq_of_lt (Nat.mod_lt d hnc)]

theorem LocalField.locD_inj {d e : ℕ} (hd : DofIn m nc cells d) (he : DofIn m nc cells e)
    (h : L.locD nc d = L.locD nc e) : d = e := by
  obtain ⟨hnc, c, hc, hx⟩ := hd
  obtain ⟨-, c', hc', hx'⟩ := he
  have h1 : L.loc (d / nc) = L.loc (e / nc) := by
    rw [← L.locD_div hnc, ← L.locD_div hnc, h]
  have h2 : d % nc = e % nc := by rw [← L.locD_mod hnc d, ← L.locD_mod hnc e, h]
  have h3 := L.inj c hc c' hc' _ hx _ hx' h1
  rw [← Nat.div_add_mod d nc, ← Nat.div_add_mod e nc, h2, h3]

theorem LocalField.locD_lt {d : ℕ} (hd : DofIn m nc cells d) : L.locD nc d < nc * L.nLoc := by
  obtain ⟨hnc, c, hc, hx⟩ := hd
  have h1 := L.bound c hc _ hx
  have h2 := Nat.mod_lt d hnc
  unfold locD
  calc nc * L.loc (d / nc) + d % nc < nc * L.loc (d / nc) + nc := by omega
    _ = nc * (L.loc (d / nc) + 1) := by ring
    _ ≤ nc * L.nLoc := Nat.mul_le_mul_left _ h1

theorem LocalField.locD_surj (l : ℕ) (hl : l < nc * L.nLoc) :
    ∃ d, DofIn m nc cells d ∧ L.locD nc d = l := by
  have hnc : 0 < nc := Nat.pos_of_ne_zero (by rintro rfl; simp at hl)
  obtain ⟨c, hc, x, hx, e⟩ := L.surj (l / nc) (Nat.div_lt_of_lt_mul hl)
  refine ⟨nc * x + l % nc, ⟨hnc, c, hc, ?_⟩, ?_⟩
  · rwa [Nat.mul_add_div hnc, Nat.div_eq_of_lt (Nat.mod_lt l hnc), Nat.add_zero]
  · unfold locD
    rw [Nat.mul_add_div hnc, Nat.div_eq_of_lt (Nat.mod_lt l hnc), Nat.add_zero, e,
      Nat.mul_add_mod, Nat.mod_eq_of_lt (Nat.mod_lt l hnc)]
    exact Nat.div_add_mod l nc

theorem mem_row {c d : ℕ} : d ∈ expandDofs nc (m.econn c) ↔ 0 < nc ∧ d / nc ∈ m.econn c :=
  mem_expandDofs

theorem LocalField.row_get {c : ℕ} (hc : c ∈ cells) {d : ℕ} (hd : DofIn m nc cells d) (a : ℕ) :
    (expandDofs nc (L.lconn c))[a]? = some (L.locD nc d) ↔
      (expandDofs nc (m.econn c))[a]? = some d := by
  rw [L.lconn_expand, List.getElem?_map]
  rcases h : (expandDofs nc (m.econn c))[a]? with _ | e
  · simp
  · have he : e ∈ expandDofs nc (m.econn c) := List.mem_of_getElem? h
    have he' : DofIn m nc cells e := ⟨(mem_row.1 he).1, c, hc, (mem_row.1 he).2⟩
    simp only [Option.map_some, Option.some.injEq]
    exact ⟨fun h => L.locD_inj he' hd h, fun h => by rw [h]⟩

theorem elemVec_local [AddCommMonoid K] {c : ℕ} (hc : c ∈ cells) {d : ℕ} (hd : DofIn m nc cells d)
    (v : ℕ → K) :
    elemVec (expandDofs nc (L.lconn c)) v (L.locD nc d) = elemVec (expandDofs nc (m.econn c)) v d := by
  unfold elemVec
  have hl : (expandDofs nc (L.lconn c)).length = (expandDofs nc (m.econn c)).length := by
    rw [L.lconn_expand, List.length_map]
  rw [hl]
  refine Finset.sum_congr rfl fun a _ => ?_
  simp only [L.row_get hc hd]

theorem elemMat_local [AddCommMonoid K] {c : ℕ} (hc : c ∈ cells) {d e : ℕ}
    (hd : DofIn m nc cells d) (he : DofIn m nc cells e) (v : ℕ → ℕ → K) :
    elemMat (expandDofs nc (L.lconn c)) v (L.locD nc d) (L.locD nc e)
      = elemMat (expandDofs nc (m.econn c)) v d e := by
  unfold elemMat
  have hl : (expandDofs nc (L.lconn c)).length = (expandDofs nc (m.econn c)).length := by
    rw [L.lconn_expand, List.length_map]
  rw [hl]
  refine Finset.sum_congr rfl fun a _ => Finset.sum_congr rfl fun b _ => ?_
  simp only [L.row_get hc hd, L.row_get hc he]

theorem elemVec_zero [AddCommMonoid K] {row : List ℕ} {d : ℕ} (h : d ∉ row) (v : ℕ → K) :
    elemVec row v d = 0 := by
  unfold elemVec
  refine Finset.sum_eq_zero fun a _ => if_neg ?_
  intro e
  exact h (List.mem_of_getElem? e)

theorem elemMat_zero_row [AddCommMonoid K] {row : List ℕ} {d e : ℕ} (h : d ∉ row)
    (v : ℕ → ℕ → K) : elemMat row v d e = 0 := by
  unfold elemMat
  refine Finset.sum_eq_zero fun a _ => Finset.sum_eq_zero fun b _ => if_neg ?_
  intro e
  exact h (List.mem_of_getElem? e.1)

theorem elemMat_zero_col [AddCommMonoid K] {row : List ℕ} {d e : ℕ} (h : e ∉ row)
    (v : ℕ → ℕ → K) : elemMat row v d e = 0 := by
  unfold elemMat
  refine Finset.sum_eq_zero fun a _ => Finset.sum_eq_zero fun b _ => if_neg ?_
  intro e
  exact h (List.mem_of_getElem? e.2)

theorem assembledVec_local [AddCommMonoid K] {d : ℕ} (hd : DofIn m nc cells d) (re : ℕ → ℕ → K) :
    assembledVec cells (fun c => expandDofs nc (L.lconn c)) re (L.locD nc d)
      = assembledVec cells (fun c => expandDofs nc (m.econn c)) re d := by
  unfold assembledVec
  congr 1
  exact List.map_congr_left fun c hc => elemVec_local L hc hd (re c)

theorem assembledMat_local [AddCommMonoid K] {d e : ℕ} (hd : DofIn m nc cells d)
    (he : DofIn m nc cells e) (ke : ℕ → ℕ → ℕ → K) :
    assembledMat cells (fun c => expandDofs nc (L.lconn c)) ke (L.locD nc d) (L.locD nc e)
      = assembledMat cells (fun c => expandDofs nc (m.econn c)) ke d e := by
  unfold assembledMat
  congr 1
  exact List.map_congr_left fun c hc => elemMat_local L hc hd he (ke c)

/-- Summing over a list of cells that contains all cells with a nonzero contribution. -/
theorem sum_cells_eq [AddCommMonoid K] {n : ℕ} {cells : List ℕ} (hnd : cells.Nodup)
    (hb : ∀ c ∈ cells, c < n) (F : ℕ → K) (h0 : ∀ c < n, c ∉ cells → F c = 0) :
    (cells.map F).sum = ((List.range n).map F).sum := by
  rw [← List.sum_toFinset F hnd, ← List.sum_toFinset F List.nodup_range]
  apply Finset.sum_subset
  · intro c hc
    simp only [List.mem_toFinset, List.mem_range] at hc ⊢
    exact hb c hc
  · intro c hc hn
    simp only [List.mem_toFinset, List.mem_range] at hc hn
    exact h0 c hc hn

/-- The PETSc DOFs in the order of the local DOFs. -/
theorem localOrdering_eq (nc : ℕ) (idm : ℕ → ℕ) (junk : ℕ → ℕ) {d : ℕ}
    (hd : DofIn m nc cells d) :
    localOrdering nc (cells.map L.lconn)
      (cells.map fun c => (expandDofs nc (m.econn c)).map idm) junk (L.locD nc d) = idm d := by
  unfold localOrdering
  have hz : ((cells.map L.lconn).flatMap (expandDofs nc)).zip
      (cells.map fun c => (expandDofs nc (m.econn c)).map idm).flatten
      = (cells.flatMap fun c => expandDofs nc (m.econn c)).map fun x => (L.locD nc x, idm x) := by
    have h1 : (cells.map L.lconn).flatMap (expandDofs nc)
        = (cells.flatMap fun c => expandDofs nc (m.econn c)).map (L.locD nc) := by
      rw [List.flatMap_map, List.map_flatMap]
      exact List.flatMap_congr fun c _ => L.lconn_expand c
    have h2 : (cells.map fun c => (expandDofs nc (m.econn c)).map idm).flatten
        = (cells.flatMap fun c => expandDofs nc (m.econn c)).map idm := by
      rw [List.map_flatMap, List.flatMap]
    rw [h1, h2, List.zip_map', ]
  rw [hz]
  apply scatter_eq
  · obtain ⟨hnc, c, hc, hx⟩ := hd
    exact ⟨_, List.mem_map.2 ⟨d, List.mem_flatMap.2 ⟨c, hc, mem_row.2 ⟨hnc, hx⟩⟩, rfl⟩, rfl⟩
  · intro p hp he
    obtain ⟨x, hx, rfl⟩ := List.mem_map.1 hp
    obtain ⟨c, hc, hx⟩ := List.mem_flatMap.1 hx
    have hx' : DofIn m nc cells x := ⟨(mem_row.1 hx).1, c, hc, (mem_row.1 hx).2⟩
    rw [L.locD_inj hx' hd he]

/-! ### The effect of one task on the global vector and matrix -/

theorem insertVec_eq (v : ℕ → K) (n : ℕ) (idx : ℕ → ℤ) (vals : ℕ → K) (i : ℕ) :
    insertVec v n idx vals i = scatter v
      (((List.range n).filter fun l => decide (0 ≤ idx l)).map fun l => ((idx l).toNat, vals l)) i := by
  unfold insertVec
  induction List.range n generalizing v with
  | nil => rfl
  | cons l r ih =>
    rw [List.foldl_cons, ih]
    by_cases h : idx l < 0
    · have h' : ¬ (0 ≤ idx l) := by omega
      simp [h, h']
    · have h' : 0 ≤ idx l := by omega
      simp [h, h']

theorem addVec_eq [AddCommMonoid K] (v : ℕ → K) (n : ℕ) (idx : ℕ → ℕ) (vals : ℕ → K) (i : ℕ) :
    addVec v n idx vals i = v i + ∑ l ∈ Finset.range n, if idx l = i then vals l else 0 := by
  unfold addVec
  induction n with
  | zero => simp
  | succ n ih =>
    rw [List.range_succ, List.foldl_append, List.foldl_cons, List.foldl_nil, Finset.sum_range_succ]
    by_cases h : idx n = i
    · subst h
      rw [upd_same, ih, if_pos rfl, add_assoc]
    · rw [upd_ne _ _ (Ne.symm h), ih, if_neg h, add_zero]

theorem foldl_upd2_notMem {β : Type*} (l : List β) (f g : β → ℕ) (x : β → K) (p : ℕ → ℕ → K) (i j : ℕ)
    (h : ∀ e ∈ l, ¬ (f e = i ∧ g e = j)) :
    l.foldl (fun p e => upd2 p (f e) (g e) (x e)) p i j = p i j := by
  induction l generalizing p with
  | nil => rfl
  | cons a r ih =>
    rw [List.foldl_cons, ih _ (fun e he => h e (List.mem_cons_of_mem _ he))]
    have := h a List.mem_cons_self
    unfold upd2
    rw [if_neg (fun e => this ⟨e.1.symm, e.2.symm⟩)]

theorem foldl_upd2_mem {β : Type*} (l : List β) (f g : β → ℕ) (x : β → K) (p : ℕ → ℕ → K) (i j : ℕ)
    (y : K) (hex : ∃ e ∈ l, f e = i ∧ g e = j) (hy : ∀ e ∈ l, f e = i → g e = j → x e = y) :
    l.foldl (fun p e => upd2 p (f e) (g e) (x e)) p i j = y := by
  induction l generalizing p with
  | nil => simp at hex
  | cons a r ih =>
    rw [List.foldl_cons]
    by_cases hr : ∃ e ∈ r, f e = i ∧ g e = j
    · exact ih _ hr (fun e he => hy e (List.mem_cons_of_mem _ he))
    · have ha : f a = i ∧ g a = j := by
        obtain ⟨e, he, h⟩ := hex
        rcases List.mem_cons.1 he with rfl | he
        · exact h
        · exact absurd ⟨e, he, h⟩ hr
      rw [foldl_upd2_notMem _ _ _ _ _ _ _ (fun e he h => hr ⟨e, he, h⟩)]
      unfold upd2
      rw [if_pos ⟨ha.1.symm, ha.2.symm⟩]
      exact hy a List.mem_cons_self ha.1 ha.2

theorem foldl_addMtx [AddCommMonoid K] {β : Type*} (l : List β) (f g : β → ℕ) (x : β → K)
    (p : ℕ → ℕ → K) (i j : ℕ) :
    l.foldl (fun p e => upd2 p (f e) (g e) (p (f e) (g e) + x e)) p i j
      = p i j + (l.map fun e => if f e = i ∧ g e = j then x e else 0).sum := by
  induction l generalizing p with
  | nil => simp
  | cons a r ih =>
    rw [List.foldl_cons, ih, List.map_cons, List.sum_cons]
    by_cases h : f a = i ∧ g a = j
    · obtain ⟨rfl, rfl⟩ := h
      simp [upd2, add_assoc]
    · have h' : ¬ (i = f a ∧ j = g a) := fun e => h ⟨e.1.symm, e.2.symm⟩
      simp [upd2, h, h']

end Par
