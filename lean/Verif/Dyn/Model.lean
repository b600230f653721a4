/-
Model of the elastodynamics time integration schemes (`sfepy/solvers/ts_solvers.py:485-1335`):
the DOF packing, the initial acceleration and the single steps of `VelocityVerletTS`,
`CentralDifferenceTS`, `NewmarkTS`, `GeneralizedAlphaTS` and `BatheTS`.

The blocks `u`, `e` (extra variables), `v`, `a` of a DOF vector are elements of modules `V`, `E`
over a field `K` (exact arithmetic instead of float64); the packing of the blocks into one vector
is modelled separately, on lists (`Packing`).

`nls.fun(vec)`, the residual of the problem, is a function of the time of the last
`prestep_fun(ts, ...)` call (which fixes the boundary conditions and the material parameters,
problem.py:1355-1366), of the current `ts.time` and of the blocks of `vec`; its value has the same
blocks.  `get_matrices()` (ts_solvers.py:601-632) returns the diagonal blocks of the tangent matrix
at the same arguments.
-/
import Verif.Time.Model
import Mathlib.LinearAlgebra.Prod

namespace Verif.Dyn

open Verif.Time

/-! ### DOF packing -/

/-- `vec[slice(a, b)]` of a vector stored as a list. -/
def slice {α : Type} (l : List α) (a b : Nat) : List α := (l.drop a).take (b - a)

/-- The index ranges used by `gen_multi_vec_packing()` (ts_solvers.py:498-502): the start and
the stop of the displacements, the velocities and the accelerations in the full vector. -/
structure Packing where
  iu : Nat × Nat
  iv : Nat × Nat
  ia : Nat × Nat
  nU : Nat

/-- The assertions of `gen_multi_vec_packing()` (ts_solvers.py:503-508), `ie = (iu.stop, iv.start)`.
-/
def Packing.ok (p : Packing) (extra : Bool) : Bool :=
  p.iu.2 = p.nU ∧ p.ia.1 = p.iv.2 ∧ (extra ∨ p.iv.1 = p.iu.2)

/-- `unpack(vec)` (ts_solvers.py:511-512, 522): the blocks `u`, `e`, `v`, `a`. -/
def Packing.unpack {α : Type} (p : Packing) (l : List α) : List α × List α × List α × List α :=
  (slice l p.iu.1 p.iu.2, slice l p.iu.2 p.iv.1, slice l p.iv.1 p.iv.2, slice l p.ia.1 p.ia.2)

/-- `unpack(vec, mode='nls')` (ts_solvers.py:518-519). -/
def Packing.unpackNls {α : Type} (p : Packing) (l : List α) : List α × List α :=
  (slice l p.iu.1 p.iu.2, slice l p.iu.2 p.iv.1)

/-- `pack(*args)` (ts_solvers.py:524-525). -/
def packBlocks {α : Type} (l : List (List α)) : List α := l.flatten

/-! ### Problem and nonlinear solver -/

variable {K : Type} [Field K] {V E : Type} [AddCommGroup V] [Module K V] [AddCommGroup E]
  [Module K E]

/-- The blocks of a full vector without extra variables. -/
@[ext] structure St (V : Type) where
  u : V
  v : V
  a : V

/-- The blocks of a full vector with extra variables. -/
@[ext] structure StE (V E : Type) where
  u : V
  e : E
  v : V
  a : V

/-- The matrices `M`, `C`, `K` returned by `get_matrices()`. -/
structure Mats (K V W : Type) [Field K] [AddCommGroup V] [Module K V] [AddCommGroup W]
    [Module K W] where
  M : V →ₗ[K] V
  C : V →ₗ[K] V
  S : W →ₗ[K] W

/-- The functions of the problem: `nls.fun` and `get_matrices` (see the header). -/
structure Prob (K V : Type) [Field K] [AddCommGroup V] [Module K V] where
  res : K → K → St V → St V
  mats : K → K → St V → Mats K V V

/-- The functions of a problem with extra variables. -/
structure ProbE (K V E : Type) [Field K] [AddCommGroup V] [Module K V] [AddCommGroup E]
    [Module K E] where
  res : K → K → StE V E → StE V E
  mats : K → K → StE V E → Mats K V (V × E)

/-- `aux[iu] + aux[iv] + aux[ia]` (e.g. ts_solvers.py:996, 875-876). -/
def St.total (s : St V) : V := s.u + s.v + s.a

/-- The functions `fun`, `fun_grad` of the copy `nlst` of the nonlinear solver. -/
structure Nlst (K W : Type) [Field K] [AddCommGroup W] [Module K W] where
  f : W → W
  grad : W → (W →ₗ[K] W)

/-- A nonlinear solver: `nlst(x0)`. -/
abbrev Nls (K W : Type) [Field K] [AddCommGroup W] [Module K W] := Nlst K W → W → W

/-! ### Initial acceleration -/

/-- `get_a0()` (ts_solvers.py:634-645); `lin b A` is `nls.lin_solver(b, mtx=A)`. -/
def getA0 (P : Prob K V) (lin : V → (V →ₗ[K] V) → V) (tm t : K) (u0 v0 : V) : V :=
  let vec : St V := ⟨u0, v0, 0⟩
  let r := (P.res tm t vec).total
  lin (-r) (P.mats tm t vec).M

/-! ### Velocity-Verlet -/

/-- `vm` (ts_solvers.py:784). -/
def vvVm (dt : K) (s : St V) : V := s.v + (1 / 2 * dt : K) • s.a

/-- `u1` (ts_solvers.py:785). -/
def vvU (dt : K) (s : St V) : V := s.u + dt • vvVm dt s

/-- `v1(a)` (ts_solvers.py:786-787). -/
def vvV (dt : K) (s : St V) (a : V) : V := vvVm dt s + (1 / 2 * dt : K) • a

/-- `VelocityVerletTS.create_nlst` (ts_solvers.py:783-811). -/
def vvNlst (P : Prob K V) (tm t dt : K) (s : St V) : Nlst K V where
  f at' := (P.res tm t ⟨vvU dt s, vvVm dt s, at'⟩).total
  grad at' := (P.mats tm t ⟨vvU dt s, vvVm dt s, at'⟩).M

/-- `VelocityVerletTS.step` (ts_solvers.py:813-827); `ts` is not changed. -/
def vvStep (nls : Nls K V) (P : Prob K V) (tm : K) (ts : TS K) (s : St V) : St V × TS K :=
  let atp := nls (vvNlst P tm ts.time ts.dt s) s.a
  (⟨vvU ts.dt s, vvV ts.dt s atp, atp⟩, ts)

/-! ### Central difference -/

/-- `v(a)` (ts_solvers.py:898-899). -/
def cdV (dt : K) (s : St V) (a : V) : V := s.v + (dt * (1 / 2) : K) • (s.a + a)

/-- `u()` (ts_solvers.py:901-902). -/
def cdU (dt : K) (s : St V) : V := s.u + dt • s.v + (dt ^ 2 * (1 / 2) : K) • s.a

/-- `CentralDifferenceTS._create_nlst_a` without RMM (ts_solvers.py:870-893), `create_nlst`
(ts_solvers.py:895-927). -/
def cdNlst (P : Prob K V) (tm t dt : K) (s : St V) : Nlst K V where
  f at' := (P.res tm t ⟨cdU dt s, cdV dt s at', at'⟩).total
  grad at' :=
    let m := P.mats tm t ⟨cdU dt s, cdV dt s at', at'⟩
    m.M + (1 / 2 * dt : K) • m.C

/-- `CentralDifferenceTS.step` (ts_solvers.py:929-943). -/
def cdStep (nls : Nls K V) (P : Prob K V) (tm : K) (ts : TS K) (s : St V) : St V × TS K :=
  let atp := nls (cdNlst P tm ts.time ts.dt s) s.a
  (⟨cdU ts.dt s, cdV ts.dt s atp, atp⟩, ts)

/-- `CentralDifferenceTS.step` with `RMMSolver` (ts_solvers.py:851-868, 904-922, 929-943): the
"nonlinear solver" applies `lin_solver`, here the reciprocal mass matrix operator `lin`, to
minus the residual of the displacement block with zero velocities and accelerations. -/
def rmmStep (lin : V → V) (P : Prob K V) (tm : K) (ts : TS K) (s : St V) : St V × TS K :=
  let atp := lin (-(P.res tm ts.time ⟨cdU ts.dt s, 0, 0⟩).u)
  (⟨cdU ts.dt s, cdV ts.dt s atp, atp⟩, ts)

/-! ### Newmark -/

/-- `v(a)` (ts_solvers.py:979-985). -/
def nmV (gamma dt : K) (v0 a0 a : V) : V := v0 + ((1 - gamma) * dt : K) • a0 + (gamma * dt : K) • a

/-- `u(a)` (ts_solvers.py:981-982, 987-988). -/
def nmU (beta dt : K) (u0 v0 a0 a : V) : V :=
  u0 + dt • v0 + ((1 / 2 - beta) * dt ^ 2 : K) • a0 + (beta * dt ^ 2 : K) • a

/-- `NewmarkTS.create_nlst`, the branch without extra variables (ts_solvers.py:990-1005). -/
def nmNlst (P : Prob K V) (tm t dt gamma beta : K) (s : St V) : Nlst K V where
  f at' := (P.res tm t ⟨nmU beta dt s.u s.v s.a at', nmV gamma dt s.v s.a at', at'⟩).total
  grad at' :=
    let m := P.mats tm t ⟨nmU beta dt s.u s.v s.a at', nmV gamma dt s.v s.a at', at'⟩
    m.M + (gamma * dt : K) • m.C + (beta * dt ^ 2 : K) • m.S

/-- `NewmarkTS.step` (ts_solvers.py:1043-1059) without extra variables. -/
def nmStep (nls : Nls K V) (P : Prob K V) (gamma beta tm : K) (ts : TS K) (s : St V) :
    St V × TS K :=
  let atp := nls (nmNlst P tm ts.time ts.dt gamma beta s) s.a
  (⟨nmU beta ts.dt s.u s.v s.a atp, nmV gamma ts.dt s.v s.a atp, atp⟩, ts)

/-- `NewmarkTS.create_nlst`, the branch with extra variables (ts_solvers.py:1007-1032):
`Kt = K.copy(); Kt[:, iu] *= ck; Kt[iu, iu] += M + cc * C`. -/
def nmNlstE (P : ProbE K V E) (tm t dt gamma beta : K) (s : StE V E) : Nlst K (V × E) where
  f aet :=
    let aux := P.res tm t ⟨nmU beta dt s.u s.v s.a aet.1, aet.2, nmV gamma dt s.v s.a aet.1, aet.1⟩
    (aux.u + aux.v + aux.a, aux.e)
  grad aet :=
    let m := P.mats tm t
      ⟨nmU beta dt s.u s.v s.a aet.1, aet.2, nmV gamma dt s.v s.a aet.1, aet.1⟩
    m.S ∘ₗ (((beta * dt ^ 2 : K) • (LinearMap.id : V →ₗ[K] V)).prodMap (LinearMap.id : E →ₗ[K] E))
      + LinearMap.inl K V E ∘ₗ (m.M + (gamma * dt : K) • m.C) ∘ₗ LinearMap.fst K V E

/-- `NewmarkTS.step` (ts_solvers.py:1043-1059) with extra variables. -/
def nmStepE (nls : Nls K (V × E)) (P : ProbE K V E) (gamma beta tm : K) (ts : TS K)
    (s : StE V E) : StE V E × TS K :=
  let aetp := nls (nmNlstE P tm ts.time ts.dt gamma beta s) (s.a, s.e)
  (⟨nmU beta ts.dt s.u s.v s.a aetp.1, aetp.2, nmV gamma ts.dt s.v s.a aetp.1, aetp.1⟩, ts)

/-! ### Generalized alpha -/

/-- `self.pars` (ts_solvers.py:1105-1121). -/
structure GaPars (K : Type) where
  am : K
  af : K
  gamma : K
  beta : K

/-- The parameters computed by `__init__` (ts_solvers.py:1111-1116) from the optional values. -/
def gaPars (rho : K) (am af beta gamma : Option K) : GaPars K :=
  let am' := am.getD ((2 * rho - 1) / (rho + 1))
  let af' := af.getD (rho / (rho + 1))
  { am := am', af := af'
    beta := beta.getD (1 / 4 * (1 - am' + af') ^ 2)
    gamma := gamma.getD (1 / 2 - am' + af') }

/-- `u1(a)` (ts_solvers.py:1152-1153). -/
def gaU (p : GaPars K) (dt : K) (s : St V) (a : V) : V :=
  s.u + dt • s.v + (dt ^ 2 : K) • ((1 / 2 - p.beta : K) • s.a + p.beta • a)

/-- `v1(a)` (ts_solvers.py:1155-1156). -/
def gaV (p : GaPars K) (dt : K) (s : St V) (a : V) : V :=
  s.v + dt • ((1 - p.gamma : K) • s.a + p.gamma • a)

/-- `um`, `vm`, `am` (ts_solvers.py:1158-1165). -/
def gaMid (p : GaPars K) (dt : K) (s : St V) (a : V) : St V :=
  ⟨(1 - p.af : K) • gaU p dt s a + p.af • s.u, (1 - p.af : K) • gaV p dt s a + p.af • s.v,
    (1 - p.am : K) • a + p.am • s.a⟩

/-- `GeneralizedAlphaTS.create_nlst` and `_create_nlst_a` (ts_solvers.py:1123-1175). -/
def gaNlst (P : Prob K V) (tm t dt : K) (p : GaPars K) (s : St V) : Nlst K V where
  f at' := (P.res tm t (gaMid p dt s at')).total
  grad at' :=
    let m := P.mats tm t (gaMid p dt s at')
    (1 - p.am : K) • m.M + ((1 - p.af) * p.gamma * dt : K) • m.C
      + ((1 - p.af) * p.beta * dt ^ 2 : K) • m.S

/-- `GeneralizedAlphaTS.step` (ts_solvers.py:1177-1201). -/
def gaStep (nls : Nls K V) (P : Prob K V) (p : GaPars K) (tm : K) (ts : TS K) (s : St V) :
    St V × TS K :=
  let dt := ts.dt
  let ts1 := ts.setSubstep (-p.af * dt)
  let atp := nls (gaNlst P tm ts1.time dt p s) s.a
  let ts2 := ts1.restore
  (⟨gaU p dt s atp, gaV p dt s atp, atp⟩, ts2)

/-! ### Bathe -/

/-- `v(u)` of the first sub-step (ts_solvers.py:1265-1268). -/
def baV1 (dt : K) (s : St V) (u : V) : V := (4 / dt : K) • (u - s.u) - s.v

/-- `a(v)` of the first sub-step (ts_solvers.py:1270-1271). -/
def baA1 (dt : K) (s : St V) (v : V) : V := (4 / dt : K) • (v - s.v) - s.a

/-- `v(u)` and `a(v)` of the second sub-step (ts_solvers.py:1284-1292), from the values `x0` at the
beginning and `x1` in the middle of the step. -/
def ba3 (dt : K) (x0 x1 x : V) : V :=
  (1 / dt : K) • x0 - (4 * (1 / dt) : K) • x1 + (3 * (1 / dt) : K) • x

/-- `BatheTS._create_nlst_u` (ts_solvers.py:1226-1259). -/
def baNlst (P : Prob K V) (tm t : K) (vf af : V → V) (cm cc : K) : Nlst K V where
  f ut := (P.res tm t ⟨ut, vf ut, af (vf ut)⟩).total
  grad ut :=
    let m := P.mats tm t ⟨ut, vf ut, af (vf ut)⟩
    cm • m.M + cc • m.C + m.S

/-- `create_nlst1` (ts_solvers.py:1261-1278). -/
def baNlst1 (P : Prob K V) (tm t dt : K) (s : St V) : Nlst K V :=
  baNlst P tm t (baV1 dt s) (baA1 dt s) (4 / dt * (4 / dt)) (4 / dt)

/-- `create_nlst2` (ts_solvers.py:1280-1299). -/
def baNlst2 (P : Prob K V) (tm t dt : K) (u0 u1 v0 v1 : V) : Nlst K V :=
  baNlst P tm t (ba3 dt u0 u1) (ba3 dt v0 v1) (3 * (1 / dt) * (3 * (1 / dt))) (3 * (1 / dt))

/-- `BatheTS.step` (ts_solvers.py:1308-1335); `prestep_fun(ts, vec1)` in the middle sets the time of
the materials to the current `ts.time`.  Returns also the intermediate state `vec1`. -/
def baStep (nls : Nls K V) (P : Prob K V) (tm : K) (ts : TS K) (s : St V) :
    St V × St V × TS K :=
  let dt := ts.dt
  let ut1 := nls (baNlst1 P tm ts.time dt s) s.u
  let vt1 := baV1 dt s ut1
  let at1 := baA1 dt s vt1
  let ts1 := ts.setSubstep (1 / 2 * dt)
  let ut2 := nls (baNlst2 P ts1.time ts1.time dt s.u ut1 s.v vt1) ut1
  let vt2 := ba3 dt s.u ut1 ut2
  let at2 := ba3 dt s.v vt1 vt2
  let ts2 := ts1.restore
  (⟨ut1, vt1, at1⟩, ⟨ut2, vt2, at2⟩, ts2)

end Verif.Dyn
