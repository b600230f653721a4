/-
Model of `tiled_mesh1d()` and `gen_tiled_mesh()` (`sfepy/mesh/mesh_generators.py:445-586`).

Preallocated arrays filled by slices are modelled by appending (`C69_tiling` gives the length, that is
the size allocated by the code for `n_rep >= 1`).
-/
import Mathlib.Algebra.Module.Defs
import Mathlib.Data.List.Basic
import Verif.Np.Vec

namespace Verif.Mesh

open Verif.Np

/-- Connectivity, coordinates, vertex groups, map to the nodes of the reference cell. -/
structure TMesh (V : Type) where
  conn : List (List ℕ)
  coors : List V
  ngrps : List ℕ
  ndmap : List ℕ
deriving DecidableEq

/-- `nm.cumsum(mask)` with `mask[s1] = 0` (mesh_generators.py:490-492). -/
def tileCount (s1 : List ℕ) (v : ℕ) : ℕ := ((List.range (v + 1)).filter fun k => k ∉ s1).length

/-- `cidx = nm.where(mask)` (mesh_generators.py:494). -/
def tileCidx (n0 : ℕ) (s1 : List ℕ) : List ℕ := (List.range n0).filter fun k => k ∉ s1

/-- The variables of the loop (mesh_generators.py:478-511). -/
structure TState (V : Type) where
  out : TMesh V
  ndOff : ℕ
  mapto : List ℕ

section

variable {V : Type} [AddCommGroup V]

/-- The iteration `ii == 0` (mesh_generators.py:482-496). -/
def tileFirst (m : TMesh V) (s2 m2 : List ℕ) : TState V :=
  { out := { conn := m.conn, coors := m.coors, ngrps := m.ngrps, ndmap := List.range m.coors.length }
    ndOff := m.coors.length
    mapto := m2.map fun k => s2.getD k 0 }

/-- `remap` of the iterations `ii > 0` (mesh_generators.py:499-500): `remap0 + nd_off`, where
`remap0 = cumsum(mask) - 1`; `nd_off` is positive, so natural numbers can be used. -/
def tileRemap (s1 m1 : List ℕ) (st : TState V) : ℕ → ℕ :=
  scatter (fun v => tileCount s1 v + st.ndOff - 1) (List.zip (m1.map fun k => s1.getD k 0) st.mapto)

/-- The iterations `ii > 0` (mesh_generators.py:498-511). -/
def tileNext (m : TMesh V) (s1 s2 m1 m2 : List ℕ) (dd : V) (ii : ℕ) (st : TState V) : TState V :=
  let n0 := m.coors.length
  let remap := tileRemap s1 m1 st
  let cidx := tileCidx n0 s1
  { out :=
      { conn := st.out.conn ++ m.conn.map fun row => row.map remap
        coors := st.out.coors ++ cidx.map fun c => m.coors.getD c 0 + ii • dd
        ngrps := st.out.ngrps ++ cidx.map fun c => m.ngrps.getD c 0
        ndmap := st.out.ndmap ++ cidx }
    ndOff := st.ndOff + (n0 - s1.length)
    mapto := m2.map fun k => remap (s2.getD k 0) }

/-- The loop for `n + 1` repetitions. -/
def tileLoop (m : TMesh V) (s1 s2 m1 m2 : List ℕ) (dd : V) : ℕ → TState V
  | 0 => tileFirst m s2 m2
  | n + 1 => tileNext m s1 s2 m1 m2 dd (n + 1) (tileLoop m s1 s2 m1 m2 dd n)

/-- `ndmap_out[idxs] = ndmap[ndmap_out[idxs]]`, `idxs = where(ndmap_out > max(ndmap))`
(mesh_generators.py:513-517). -/
def tileNdmap (ndmap : Option (List ℕ)) (out : List ℕ) : List ℕ :=
  match ndmap with
  | none => out
  | some nd => out.map fun v => if nd.foldr max 0 < v then nd.getD v 0 else v

/-- `tiled_mesh1d()` (mesh_generators.py:445-520) for the sets `s1`, `s2` and the matching `m1`, `m2`,
with `n + 1` repetitions; `ndmap` is the argument. -/
def tiled1d (m : TMesh V) (s1 s2 m1 m2 : List ℕ) (dd : V) (n : ℕ) (ndmap : Option (List ℕ)) : TMesh V :=
  let o := (tileLoop m s1 s2 m1 m2 dd n).out
  { o with ndmap := tileNdmap ndmap o.ndmap }

/-- The data of one axis: `s1`, `s2` (mesh_generators.py:448-449), the matching (line 463), `dd`
(lines 460-461), the number of repetitions minus one. -/
structure Axis (V : Type) where
  s1 : List ℕ
  s2 : List ℕ
  m1 : List ℕ
  m2 : List ℕ
  dd : V
  n : ℕ

/-- The loop over axes in `gen_tiled_mesh()` (mesh_generators.py:558-571), `ret_ndmap = True`; scaling
(line 576) is left out. -/
def tiledAxes (m : TMesh V) (ndmap : Option (List ℕ)) : List (Axis V) → TMesh V
  | [] => m
  | a :: rest =>
    let r := tiled1d m a.s1 a.s2 a.m1 a.m2 a.dd a.n ndmap
    tiledAxes r (some r.ndmap) rest

/-- `nm.tile(mat_ids, (nrep,))` (mesh_generators.py:575). -/
def tileMats (mats : List ℕ) (nrep : ℕ) : List ℕ := (List.replicate nrep mats).flatten

end

end Verif.Mesh
