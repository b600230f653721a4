/-
The tables of sfepy/discrete/fem/_serendipity.py, copied from the source: the basis functions and their gradients as
expressions in `x`, `y`, `z`.
-/
import Verif.Poly.Expr

namespace Verif.Poly

namespace Ser

/-! The arithmetic of the expressions: `sympy` builds the expressions by the operators of Python. -/

local instance : Add PE := ⟨PE.add⟩
local instance : Sub PE := ⟨PE.sub⟩
local instance : Mul PE := ⟨PE.mul⟩
local instance : Neg PE := ⟨fun a => PE.sub (PE.c 0) a⟩
local instance (n : ℕ) : OfNat PE n := ⟨PE.c n⟩
local instance : OfScientific PE := ⟨fun m s e => PE.c (OfScientific.ofScientific m s e)⟩

local notation "x" => PE.v 0
local notation "y" => PE.v 1
local notation "z" => PE.v 2

/-- The functions of the order 1 in 2D (sfepy/discrete/fem/_serendipity.py:8-13). -/
def bfs21 : List PE := [
  x*(y - 1.0) - y + 1.0,
  x*(1.0 - y),
  x*y,
  -x*y + y]

/-- The gradients of the order 1 in 2D (sfepy/discrete/fem/_serendipity.py:14-19). -/
def bfgs21 : List (List PE) := [
  [y - 1.0, x - 1.0],
  [1.0 - y, -x],
  [y, x],
  [-y, 1.0 - x]]

/-- The functions of the order 2 in 2D (sfepy/discrete/fem/_serendipity.py:22-31). -/
def bfs22 : List PE := [
  x*(x*(2.0 - 2.0*y) + y*(5.0 - 2.0*y) - 3.0) + y*(2.0*y - 3.0) + 1.0,
  x*(x*(2.0 - 2.0*y) + y*(2.0*y - 1.0) - 1.0),
  x*(2.0*x*y + y*(2.0*y - 3.0)),
  x*(2.0*x*y + y*(-2.0*y - 1.0)) + y*(2.0*y - 1.0),
  x*(x*(4*y - 4) - 4*y + 4),
  x*y*(4.0 - 4.0*y),
  x*(-4.0*x*y + 4.0*y),
  x*y*(4.0*y - 4.0) + y*(4.0 - 4.0*y)]

/-- The gradients of the order 2 in 2D (sfepy/discrete/fem/_serendipity.py:32-41). -/
def bfgs22 : List (List PE) := [
  [x*(4.0 - 4.0*y) + y*(5.0 - 2.0*y) - 3.0, x*(-2.0*x - 4.0*y + 5.0) + 4.0*y - 3.0],
  [x*(4.0 - 4.0*y) + y*(2.0*y - 1.0) - 1.0, x*(-2.0*x + 4.0*y - 1.0)],
  [4.0*x*y + y*(2.0*y - 3.0), x*(2.0*x + 4.0*y - 3.0)],
  [4.0*x*y + y*(-2.0*y - 1.0), x*(2.0*x - 4.0*y - 1.0) + 4.0*y - 1.0],
  [x*(8*y - 8) - 4*y + 4, x*(4*x - 4)],
  [y*(4.0 - 4.0*y), x*(4.0 - 8.0*y)],
  [-8.0*x*y + 4.0*y, x*(4.0 - 4.0*x)],
  [y*(4.0*y - 4.0), x*(8.0*y - 4.0) - 8.0*y + 4.0]]

/-- The functions of the order 3 in 2D (sfepy/discrete/fem/_serendipity.py:44-57). -/
def bfs23 : List PE := [
  x*(x*(x*(4.5*y - 4.5) - 9.0*y + 9.0) + y*(y*(4.5*y - 9.0) + 10.0) - 5.5) + y*(y*(9.0 - 4.5*y) - 5.5) + 1.0,
  x*(x*(x*(4.5 - 4.5*y) + 4.5*y - 4.5) + y*(y*(9.0 - 4.5*y) - 5.5) + 1.0),
  x*(x*(4.5*x*y - 4.5*y) + y*(y*(4.5*y - 4.5) + 1.0)),
  x*(x*(-4.5*x*y + 9.0*y) + y*(y*(4.5 - 4.5*y) - 5.5)) + y*(y*(4.5*y - 4.5) + 1.0),
  x*(x*(x*(13.5 - 13.5*y) + 22.5*y - 22.5) - 9.0*y + 9.0),
  x*(x*(x*(13.5*y - 13.5) - 18.0*y + 18.0) + 4.5*y - 4.5),
  x*y*(y*(13.5*y - 22.5) + 9.0),
  x*y*(y*(18.0 - 13.5*y) - 4.5),
  x*(x*(-13.5*x*y + 18.0*y) - 4.5*y),
  x*(x*(13.5*x*y - 22.5*y) + 9.0*y),
  x*y*(y*(13.5*y - 18.0) + 4.5) + y*(y*(18.0 - 13.5*y) - 4.5),
  x*y*(y*(22.5 - 13.5*y) - 9.0) + y*(y*(13.5*y - 22.5) + 9.0)]

/-- The gradients of the order 3 in 2D (sfepy/discrete/fem/_serendipity.py:58-71). -/
def bfgs23 : List (List PE) := [
  [x*(x*(13.5*y - 13.5) - 18.0*y + 18.0) + y*(y*(4.5*y - 9.0) + 10.0) - 5.5, x*(x*(4.5*x - 9.0) + y*(13.5*y - 18.0) + 10.0) + y*(18.0 - 13.5*y) - 5.5],
  [x*(x*(13.5 - 13.5*y) + 9.0*y - 9.0) + y*(y*(9.0 - 4.5*y) - 5.5) + 1.0, x*(x*(4.5 - 4.5*x) + y*(18.0 - 13.5*y) - 5.5)],
  [x*(13.5*x*y - 9.0*y) + y*(y*(4.5*y - 4.5) + 1.0), x*(x*(4.5*x - 4.5) + y*(13.5*y - 9.0) + 1.0)],
  [x*(-13.5*x*y + 18.0*y) + y*(y*(4.5 - 4.5*y) - 5.5), x*(x*(9.0 - 4.5*x) + y*(9.0 - 13.5*y) - 5.5) + y*(13.5*y - 9.0) + 1.0],
  [x*(x*(40.5 - 40.5*y) + 45.0*y - 45.0) - 9.0*y + 9.0, x*(x*(22.5 - 13.5*x) - 9.0)],
  [x*(x*(40.5*y - 40.5) - 36.0*y + 36.0) + 4.5*y - 4.5, x*(x*(13.5*x - 18.0) + 4.5)],
  [y*(y*(13.5*y - 22.5) + 9.0), x*(y*(40.5*y - 45.0) + 9.0)],
  [y*(y*(18.0 - 13.5*y) - 4.5), x*(y*(36.0 - 40.5*y) - 4.5)],
  [x*(-40.5*x*y + 36.0*y) - 4.5*y, x*(x*(18.0 - 13.5*x) - 4.5)],
  [x*(40.5*x*y - 45.0*y) + 9.0*y, x*(x*(13.5*x - 22.5) + 9.0)],
  [y*(y*(13.5*y - 18.0) + 4.5), x*(y*(40.5*y - 36.0) + 4.5) + y*(36.0 - 40.5*y) - 4.5],
  [y*(y*(22.5 - 13.5*y) - 9.0), x*(y*(45.0 - 40.5*y) - 9.0) + y*(40.5*y - 45.0) + 9.0]]

/-- The functions of the order 1 in 3D (sfepy/discrete/fem/_serendipity.py:76-85). -/
def bfs31 : List PE := [
  x*(y*(1.0 - z) + z - 1.0) + y*(z - 1.0) - z + 1.0,
  x*(y*(z - 1.0) - z + 1.0),
  x*y*(1.0 - z),
  x*y*(z - 1.0) + y*(1.0 - z),
  x*(y*z - z) - y*z + z,
  x*(-y*z + z),
  x*y*z,
  -x*y*z + y*z]

/-- The gradients of the order 1 in 3D (sfepy/discrete/fem/_serendipity.py:86-95). -/
def bfgs31 : List (List PE) := [
  [y*(1.0 - z) + z - 1.0, x*(1.0 - z) + z - 1.0, x*(1.0 - y) + y - 1.0],
  [y*(z - 1.0) - z + 1.0, x*(z - 1.0), x*(y - 1.0)],
  [y*(1.0 - z), x*(1.0 - z), -x*y],
  [y*(z - 1.0), x*(z - 1.0) - z + 1.0, x*y - y],
  [y*z - z, x*z - z, x*(y - 1.0) - y + 1.0],
  [-y*z + z, -x*z, x*(1.0 - y)],
  [y*z, x*z, x*y],
  [-y*z, -x*z + z, -x*y + y]]

/-- The functions of the order 2 in 3D (sfepy/discrete/fem/_serendipity.py:98-119). -/
def bfs32 : List PE := [
  x*(x*(y*(2.0*z - 2.0) - 2.0*z + 2.0) + y*(y*(2.0*z - 2.0) + z*(2.0*z - 7.0) + 5.0) + z*(5.0 - 2.0*z) - 3.0) + y*(y*(2.0 - 2.0*z) + z*(5.0 - 2.0*z) - 3.0) + z*(2.0*z - 3.0) + 1.0,
  x*(x*(y*(2.0*z - 2.0) - 2.0*z + 2.0) + y*(y*(2.0 - 2.0*z) + z*(3.0 - 2.0*z) - 1.0) + z*(2.0*z - 1.0) - 1.0),
  x*(x*y*(2.0 - 2.0*z) + y*(y*(2.0 - 2.0*z) + z*(2.0*z + 1.0) - 3.0)),
  x*(x*y*(2.0 - 2.0*z) + y*(y*(2.0*z - 2.0) + z*(3.0 - 2.0*z) - 1.0)) + y*(y*(2.0 - 2.0*z) + z*(2.0*z - 1.0) - 1.0),
  x*(x*(-2.0*y*z + 2.0*z) + y*(-2.0*y*z + z*(2.0*z + 3.0)) + z*(-2.0*z - 1.0)) + y*(2.0*y*z + z*(-2.0*z - 1.0)) + z*(2.0*z - 1.0),
  x*(x*(-2.0*y*z + 2.0*z) + y*(2.0*y*z + z*(1.0 - 2.0*z)) + z*(2.0*z - 3.0)),
  x*(2.0*x*y*z + y*(2.0*y*z + z*(2.0*z - 5.0))),
  x*(2.0*x*y*z + y*(-2.0*y*z + z*(1.0 - 2.0*z))) + y*(2.0*y*z + z*(2.0*z - 3.0)),
  x*(x*(y*(4.0 - 4.0*z) + 4.0*z - 4.0) + y*(4.0*z - 4.0) - 4.0*z + 4.0),
  x*y*(y*(4.0*z - 4.0) - 4.0*z + 4.0),
  x*(x*y*(4.0*z - 4.0) + y*(4.0 - 4.0*z)),
  x*y*(y*(4.0 - 4.0*z) + 4.0*z - 4.0) + y*(y*(4.0*z - 4.0) - 4.0*z + 4.0),
  x*(x*(4.0*y*z - 4.0*z) - 4.0*y*z + 4.0*z),
  x*y*(-4.0*y*z + 4.0*z),
  x*(-4.0*x*y*z + 4.0*y*z),
  x*y*(4.0*y*z - 4.0*z) + y*(-4.0*y*z + 4.0*z),
  x*(y*z*(4.0 - 4.0*z) + z*(4.0*z - 4.0)) + y*z*(4.0*z - 4.0) + z*(4.0 - 4.0*z),
  x*(y*z*(4.0*z - 4.0) + z*(4.0 - 4.0*z)),
  x*y*z*(4.0 - 4.0*z),
  x*y*z*(4.0*z - 4.0) + y*z*(4.0 - 4.0*z)]

/-- The gradients of the order 2 in 3D (sfepy/discrete/fem/_serendipity.py:120-141). -/
def bfgs32 : List (List PE) := [
  [x*(y*(4.0*z - 4.0) - 4.0*z + 4.0) + y*(y*(2.0*z - 2.0) + z*(2.0*z - 7.0) + 5.0) + z*(5.0 - 2.0*z) - 3.0, x*(x*(2.0*z - 2.0) + y*(4.0*z - 4.0) + z*(2.0*z - 7.0) + 5.0) + y*(4.0 - 4.0*z) + z*(5.0 - 2.0*z) - 3.0, x*(x*(2.0*y - 2.0) + y*(2.0*y + 4.0*z - 7.0) - 4.0*z + 5.0) + y*(-2.0*y - 4.0*z + 5.0) + 4.0*z - 3.0],
  [x*(y*(4.0*z - 4.0) - 4.0*z + 4.0) + y*(y*(2.0 - 2.0*z) + z*(3.0 - 2.0*z) - 1.0) + z*(2.0*z - 1.0) - 1.0, x*(x*(2.0*z - 2.0) + y*(4.0 - 4.0*z) + z*(3.0 - 2.0*z) - 1.0), x*(x*(2.0*y - 2.0) + y*(-2.0*y - 4.0*z + 3.0) + 4.0*z - 1.0)],
  [x*y*(4.0 - 4.0*z) + y*(y*(2.0 - 2.0*z) + z*(2.0*z + 1.0) - 3.0), x*(x*(2.0 - 2.0*z) + y*(4.0 - 4.0*z) + z*(2.0*z + 1.0) - 3.0), x*(-2.0*x*y + y*(-2.0*y + 4.0*z + 1.0))],
  [x*y*(4.0 - 4.0*z) + y*(y*(2.0*z - 2.0) + z*(3.0 - 2.0*z) - 1.0), x*(x*(2.0 - 2.0*z) + y*(4.0*z - 4.0) + z*(3.0 - 2.0*z) - 1.0) + y*(4.0 - 4.0*z) + z*(2.0*z - 1.0) - 1.0, x*(-2.0*x*y + y*(2.0*y - 4.0*z + 3.0)) + y*(-2.0*y + 4.0*z - 1.0)],
  [x*(-4.0*y*z + 4.0*z) + y*(-2.0*y*z + z*(2.0*z + 3.0)) + z*(-2.0*z - 1.0), x*(-2.0*x*z - 4.0*y*z + z*(2.0*z + 3.0)) + 4.0*y*z + z*(-2.0*z - 1.0), x*(x*(2.0 - 2.0*y) + y*(-2.0*y + 4.0*z + 3.0) - 4.0*z - 1.0) + y*(2.0*y - 4.0*z - 1.0) + 4.0*z - 1.0],
  [x*(-4.0*y*z + 4.0*z) + y*(2.0*y*z + z*(1.0 - 2.0*z)) + z*(2.0*z - 3.0), x*(-2.0*x*z + 4.0*y*z + z*(1.0 - 2.0*z)), x*(x*(2.0 - 2.0*y) + y*(2.0*y - 4.0*z + 1.0) + 4.0*z - 3.0)],
  [4.0*x*y*z + y*(2.0*y*z + z*(2.0*z - 5.0)), x*(2.0*x*z + 4.0*y*z + z*(2.0*z - 5.0)), x*(2.0*x*y + y*(2.0*y + 4.0*z - 5.0))],
  [4.0*x*y*z + y*(-2.0*y*z + z*(1.0 - 2.0*z)), x*(2.0*x*z - 4.0*y*z + z*(1.0 - 2.0*z)) + 4.0*y*z + z*(2.0*z - 3.0), x*(2.0*x*y + y*(-2.0*y - 4.0*z + 1.0)) + y*(2.0*y + 4.0*z - 3.0)],
  [x*(y*(8.0 - 8.0*z) + 8.0*z - 8.0) + y*(4.0*z - 4.0) - 4.0*z + 4.0, x*(x*(4.0 - 4.0*z) + 4.0*z - 4.0), x*(x*(4.0 - 4.0*y) + 4.0*y - 4.0)],
  [y*(y*(4.0*z - 4.0) - 4.0*z + 4.0), x*(y*(8.0*z - 8.0) - 4.0*z + 4.0), x*y*(4.0*y - 4.0)],
  [x*y*(8.0*z - 8.0) + y*(4.0 - 4.0*z), x*(x*(4.0*z - 4.0) - 4.0*z + 4.0), x*(4.0*x*y - 4.0*y)],
  [y*(y*(4.0 - 4.0*z) + 4.0*z - 4.0), x*(y*(8.0 - 8.0*z) + 4.0*z - 4.0) + y*(8.0*z - 8.0) - 4.0*z + 4.0, x*y*(4.0 - 4.0*y) + y*(4.0*y - 4.0)],
  [x*(8.0*y*z - 8.0*z) - 4.0*y*z + 4.0*z, x*(4.0*x*z - 4.0*z), x*(x*(4.0*y - 4.0) - 4.0*y + 4.0)],
  [y*(-4.0*y*z + 4.0*z), x*(-8.0*y*z + 4.0*z), x*y*(4.0 - 4.0*y)],
  [-8.0*x*y*z + 4.0*y*z, x*(-4.0*x*z + 4.0*z), x*(-4.0*x*y + 4.0*y)],
  [y*(4.0*y*z - 4.0*z), x*(8.0*y*z - 4.0*z) - 8.0*y*z + 4.0*z, x*y*(4.0*y - 4.0) + y*(4.0 - 4.0*y)],
  [y*z*(4.0 - 4.0*z) + z*(4.0*z - 4.0), x*z*(4.0 - 4.0*z) + z*(4.0*z - 4.0), x*(y*(4.0 - 8.0*z) + 8.0*z - 4.0) + y*(8.0*z - 4.0) - 8.0*z + 4.0],
  [y*z*(4.0*z - 4.0) + z*(4.0 - 4.0*z), x*z*(4.0*z - 4.0), x*(y*(8.0*z - 4.0) - 8.0*z + 4.0)],
  [y*z*(4.0 - 4.0*z), x*z*(4.0 - 4.0*z), x*y*(4.0 - 8.0*z)],
  [y*z*(4.0*z - 4.0), x*z*(4.0*z - 4.0) + z*(4.0 - 4.0*z), x*y*(8.0*z - 4.0) + y*(4.0 - 8.0*z)]]

/-- The functions of the order 3 in 3D (sfepy/discrete/fem/_serendipity.py:144-177). -/
def bfs33 : List PE := [
  x*(x*(x*(y*(4.5 - 4.5*z) + 4.5*z - 4.5) + y*(9.0*z - 9.0) - 9.0*z + 9.0) + y*(y*(y*(4.5 - 4.5*z) + 9.0*z - 9.0) + z*(z*(9.0 - 4.5*z) - 14.5) + 10.0) + z*(z*(4.5*z - 9.0) + 10.0) - 5.5) + y*(y*(y*(4.5*z - 4.5) - 9.0*z + 9.0) + z*(z*(4.5*z - 9.0) + 10.0) - 5.5) + z*(z*(9.0 - 4.5*z) - 5.5) + 1.0,
  x*(x*(x*(y*(4.5*z - 4.5) - 4.5*z + 4.5) + y*(4.5 - 4.5*z) + 4.5*z - 4.5) + y*(y*(y*(4.5*z - 4.5) - 9.0*z + 9.0) + z*(z*(4.5*z - 9.0) + 10.0) - 5.5) + z*(z*(9.0 - 4.5*z) - 5.5) + 1.0),
  x*(x*(x*y*(4.5 - 4.5*z) + y*(4.5*z - 4.5)) + y*(y*(y*(4.5 - 4.5*z) + 4.5*z - 4.5) + z*(z*(9.0 - 4.5*z) - 5.5) + 1.0)),
  x*(x*(x*y*(4.5*z - 4.5) + y*(9.0 - 9.0*z)) + y*(y*(y*(4.5*z - 4.5) - 4.5*z + 4.5) + z*(z*(4.5*z - 9.0) + 10.0) - 5.5)) + y*(y*(y*(4.5 - 4.5*z) + 4.5*z - 4.5) + z*(z*(9.0 - 4.5*z) - 5.5) + 1.0),
  x*(x*(x*(4.5*y*z - 4.5*z) - 9.0*y*z + 9.0*z) + y*(y*(4.5*y*z - 9.0*z) + z*(z*(4.5*z - 4.5) + 10.0)) + z*(z*(4.5 - 4.5*z) - 5.5)) + y*(y*(-4.5*y*z + 9.0*z) + z*(z*(4.5 - 4.5*z) - 5.5)) + z*(z*(4.5*z - 4.5) + 1.0),
  x*(x*(x*(-4.5*y*z + 4.5*z) + 4.5*y*z - 4.5*z) + y*(y*(-4.5*y*z + 9.0*z) + z*(z*(4.5 - 4.5*z) - 5.5)) + z*(z*(4.5*z - 4.5) + 1.0)),
  x*(x*(4.5*x*y*z - 4.5*y*z) + y*(y*(4.5*y*z - 4.5*z) + z*(z*(4.5*z - 4.5) + 1.0))),
  x*(x*(-4.5*x*y*z + 9.0*y*z) + y*(y*(-4.5*y*z + 4.5*z) + z*(z*(4.5 - 4.5*z) - 5.5))) + y*(y*(4.5*y*z - 4.5*z) + z*(z*(4.5*z - 4.5) + 1.0)),
  x*(x*(x*(y*(13.5*z - 13.5) - 13.5*z + 13.5) + y*(22.5 - 22.5*z) + 22.5*z - 22.5) + y*(9.0*z - 9.0) - 9.0*z + 9.0),
  x*(x*(x*(y*(13.5 - 13.5*z) + 13.5*z - 13.5) + y*(18.0*z - 18.0) - 18.0*z + 18.0) + y*(4.5 - 4.5*z) + 4.5*z - 4.5),
  x*y*(y*(y*(13.5 - 13.5*z) + 22.5*z - 22.5) - 9.0*z + 9.0),
  x*y*(y*(y*(13.5*z - 13.5) - 18.0*z + 18.0) + 4.5*z - 4.5),
  x*(x*(x*y*(13.5*z - 13.5) + y*(18.0 - 18.0*z)) + y*(4.5*z - 4.5)),
  x*(x*(x*y*(13.5 - 13.5*z) + y*(22.5*z - 22.5)) + y*(9.0 - 9.0*z)),
  x*y*(y*(y*(13.5 - 13.5*z) + 18.0*z - 18.0) - 4.5*z + 4.5) + y*(y*(y*(13.5*z - 13.5) - 18.0*z + 18.0) + 4.5*z - 4.5),
  x*y*(y*(y*(13.5*z - 13.5) - 22.5*z + 22.5) + 9.0*z - 9.0) + y*(y*(y*(13.5 - 13.5*z) + 22.5*z - 22.5) - 9.0*z + 9.0),
  x*(x*(x*(-13.5*y*z + 13.5*z) + 22.5*y*z - 22.5*z) - 9.0*y*z + 9.0*z),
  x*(x*(x*(13.5*y*z - 13.5*z) - 18.0*y*z + 18.0*z) + 4.5*y*z - 4.5*z),
  x*y*(y*(13.5*y*z - 22.5*z) + 9.0*z),
  x*y*(y*(-13.5*y*z + 18.0*z) - 4.5*z),
  x*(x*(-13.5*x*y*z + 18.0*y*z) - 4.5*y*z),
  x*(x*(13.5*x*y*z - 22.5*y*z) + 9.0*y*z),
  x*y*(y*(13.5*y*z - 18.0*z) + 4.5*z) + y*(y*(-13.5*y*z + 18.0*z) - 4.5*z),
  x*y*(y*(-13.5*y*z + 22.5*z) - 9.0*z) + y*(y*(13.5*y*z - 22.5*z) + 9.0*z),
  x*(y*z*(z*(13.5*z - 22.5) + 9.0) + z*(z*(22.5 - 13.5*z) - 9.0)) + y*z*(z*(22.5 - 13.5*z) - 9.0) + z*(z*(13.5*z - 22.5) + 9.0),
  x*(y*z*(z*(18.0 - 13.5*z) - 4.5) + z*(z*(13.5*z - 18.0) + 4.5)) + y*z*(z*(13.5*z - 18.0) + 4.5) + z*(z*(18.0 - 13.5*z) - 4.5),
  x*(y*z*(z*(22.5 - 13.5*z) - 9.0) + z*(z*(13.5*z - 22.5) + 9.0)),
  x*(y*z*(z*(13.5*z - 18.0) + 4.5) + z*(z*(18.0 - 13.5*z) - 4.5)),
  x*y*z*(z*(13.5*z - 22.5) + 9.0),
  x*y*z*(z*(18.0 - 13.5*z) - 4.5),
  x*y*z*(z*(22.5 - 13.5*z) - 9.0) + y*z*(z*(13.5*z - 22.5) + 9.0),
  x*y*z*(z*(13.5*z - 18.0) + 4.5) + y*z*(z*(18.0 - 13.5*z) - 4.5)]

/-- The gradients of the order 3 in 3D (sfepy/discrete/fem/_serendipity.py:178-211). -/
def bfgs33 : List (List PE) := [
  [x*(x*(y*(13.5 - 13.5*z) + 13.5*z - 13.5) + y*(18.0*z - 18.0) - 18.0*z + 18.0) + y*(y*(y*(4.5 - 4.5*z) + 9.0*z - 9.0) + z*(z*(9.0 - 4.5*z) - 14.5) + 10.0) + z*(z*(4.5*z - 9.0) + 10.0) - 5.5, x*(x*(x*(4.5 - 4.5*z) + 9.0*z - 9.0) + y*(y*(13.5 - 13.5*z) + 18.0*z - 18.0) + z*(z*(9.0 - 4.5*z) - 14.5) + 10.0) + y*(y*(13.5*z - 13.5) - 18.0*z + 18.0) + z*(z*(4.5*z - 9.0) + 10.0) - 5.5, x*(x*(x*(4.5 - 4.5*y) + 9.0*y - 9.0) + y*(y*(9.0 - 4.5*y) + z*(18.0 - 13.5*z) - 14.5) + z*(13.5*z - 18.0) + 10.0) + y*(y*(4.5*y - 9.0) + z*(13.5*z - 18.0) + 10.0) + z*(18.0 - 13.5*z) - 5.5],
  [x*(x*(y*(13.5*z - 13.5) - 13.5*z + 13.5) + y*(9.0 - 9.0*z) + 9.0*z - 9.0) + y*(y*(y*(4.5*z - 4.5) - 9.0*z + 9.0) + z*(z*(4.5*z - 9.0) + 10.0) - 5.5) + z*(z*(9.0 - 4.5*z) - 5.5) + 1.0, x*(x*(x*(4.5*z - 4.5) - 4.5*z + 4.5) + y*(y*(13.5*z - 13.5) - 18.0*z + 18.0) + z*(z*(4.5*z - 9.0) + 10.0) - 5.5), x*(x*(x*(4.5*y - 4.5) - 4.5*y + 4.5) + y*(y*(4.5*y - 9.0) + z*(13.5*z - 18.0) + 10.0) + z*(18.0 - 13.5*z) - 5.5)],
  [x*(x*y*(13.5 - 13.5*z) + y*(9.0*z - 9.0)) + y*(y*(y*(4.5 - 4.5*z) + 4.5*z - 4.5) + z*(z*(9.0 - 4.5*z) - 5.5) + 1.0), x*(x*(x*(4.5 - 4.5*z) + 4.5*z - 4.5) + y*(y*(13.5 - 13.5*z) + 9.0*z - 9.0) + z*(z*(9.0 - 4.5*z) - 5.5) + 1.0), x*(x*(-4.5*x*y + 4.5*y) + y*(y*(4.5 - 4.5*y) + z*(18.0 - 13.5*z) - 5.5))],
  [x*(x*y*(13.5*z - 13.5) + y*(18.0 - 18.0*z)) + y*(y*(y*(4.5*z - 4.5) - 4.5*z + 4.5) + z*(z*(4.5*z - 9.0) + 10.0) - 5.5), x*(x*(x*(4.5*z - 4.5) - 9.0*z + 9.0) + y*(y*(13.5*z - 13.5) - 9.0*z + 9.0) + z*(z*(4.5*z - 9.0) + 10.0) - 5.5) + y*(y*(13.5 - 13.5*z) + 9.0*z - 9.0) + z*(z*(9.0 - 4.5*z) - 5.5) + 1.0, x*(x*(4.5*x*y - 9.0*y) + y*(y*(4.5*y - 4.5) + z*(13.5*z - 18.0) + 10.0)) + y*(y*(4.5 - 4.5*y) + z*(18.0 - 13.5*z) - 5.5)],
  [x*(x*(13.5*y*z - 13.5*z) - 18.0*y*z + 18.0*z) + y*(y*(4.5*y*z - 9.0*z) + z*(z*(4.5*z - 4.5) + 10.0)) + z*(z*(4.5 - 4.5*z) - 5.5), x*(x*(4.5*x*z - 9.0*z) + y*(13.5*y*z - 18.0*z) + z*(z*(4.5*z - 4.5) + 10.0)) + y*(-13.5*y*z + 18.0*z) + z*(z*(4.5 - 4.5*z) - 5.5), x*(x*(x*(4.5*y - 4.5) - 9.0*y + 9.0) + y*(y*(4.5*y - 9.0) + z*(13.5*z - 9.0) + 10.0) + z*(9.0 - 13.5*z) - 5.5) + y*(y*(9.0 - 4.5*y) + z*(9.0 - 13.5*z) - 5.5) + z*(13.5*z - 9.0) + 1.0],
  [x*(x*(-13.5*y*z + 13.5*z) + 9.0*y*z - 9.0*z) + y*(y*(-4.5*y*z + 9.0*z) + z*(z*(4.5 - 4.5*z) - 5.5)) + z*(z*(4.5*z - 4.5) + 1.0), x*(x*(-4.5*x*z + 4.5*z) + y*(-13.5*y*z + 18.0*z) + z*(z*(4.5 - 4.5*z) - 5.5)), x*(x*(x*(4.5 - 4.5*y) + 4.5*y - 4.5) + y*(y*(9.0 - 4.5*y) + z*(9.0 - 13.5*z) - 5.5) + z*(13.5*z - 9.0) + 1.0)],
  [x*(13.5*x*y*z - 9.0*y*z) + y*(y*(4.5*y*z - 4.5*z) + z*(z*(4.5*z - 4.5) + 1.0)), x*(x*(4.5*x*z - 4.5*z) + y*(13.5*y*z - 9.0*z) + z*(z*(4.5*z - 4.5) + 1.0)), x*(x*(4.5*x*y - 4.5*y) + y*(y*(4.5*y - 4.5) + z*(13.5*z - 9.0) + 1.0))],
  [x*(-13.5*x*y*z + 18.0*y*z) + y*(y*(-4.5*y*z + 4.5*z) + z*(z*(4.5 - 4.5*z) - 5.5)), x*(x*(-4.5*x*z + 9.0*z) + y*(-13.5*y*z + 9.0*z) + z*(z*(4.5 - 4.5*z) - 5.5)) + y*(13.5*y*z - 9.0*z) + z*(z*(4.5*z - 4.5) + 1.0), x*(x*(-4.5*x*y + 9.0*y) + y*(y*(4.5 - 4.5*y) + z*(9.0 - 13.5*z) - 5.5)) + y*(y*(4.5*y - 4.5) + z*(13.5*z - 9.0) + 1.0)],
  [x*(x*(y*(40.5*z - 40.5) - 40.5*z + 40.5) + y*(45.0 - 45.0*z) + 45.0*z - 45.0) + y*(9.0*z - 9.0) - 9.0*z + 9.0, x*(x*(x*(13.5*z - 13.5) - 22.5*z + 22.5) + 9.0*z - 9.0), x*(x*(x*(13.5*y - 13.5) - 22.5*y + 22.5) + 9.0*y - 9.0)],
  [x*(x*(y*(40.5 - 40.5*z) + 40.5*z - 40.5) + y*(36.0*z - 36.0) - 36.0*z + 36.0) + y*(4.5 - 4.5*z) + 4.5*z - 4.5, x*(x*(x*(13.5 - 13.5*z) + 18.0*z - 18.0) - 4.5*z + 4.5), x*(x*(x*(13.5 - 13.5*y) + 18.0*y - 18.0) - 4.5*y + 4.5)],
  [y*(y*(y*(13.5 - 13.5*z) + 22.5*z - 22.5) - 9.0*z + 9.0), x*(y*(y*(40.5 - 40.5*z) + 45.0*z - 45.0) - 9.0*z + 9.0), x*y*(y*(22.5 - 13.5*y) - 9.0)],
  [y*(y*(y*(13.5*z - 13.5) - 18.0*z + 18.0) + 4.5*z - 4.5), x*(y*(y*(40.5*z - 40.5) - 36.0*z + 36.0) + 4.5*z - 4.5), x*y*(y*(13.5*y - 18.0) + 4.5)],
  [x*(x*y*(40.5*z - 40.5) + y*(36.0 - 36.0*z)) + y*(4.5*z - 4.5), x*(x*(x*(13.5*z - 13.5) - 18.0*z + 18.0) + 4.5*z - 4.5), x*(x*(13.5*x*y - 18.0*y) + 4.5*y)],
  [x*(x*y*(40.5 - 40.5*z) + y*(45.0*z - 45.0)) + y*(9.0 - 9.0*z), x*(x*(x*(13.5 - 13.5*z) + 22.5*z - 22.5) - 9.0*z + 9.0), x*(x*(-13.5*x*y + 22.5*y) - 9.0*y)],
  [y*(y*(y*(13.5 - 13.5*z) + 18.0*z - 18.0) - 4.5*z + 4.5), x*(y*(y*(40.5 - 40.5*z) + 36.0*z - 36.0) - 4.5*z + 4.5) + y*(y*(40.5*z - 40.5) - 36.0*z + 36.0) + 4.5*z - 4.5, x*y*(y*(18.0 - 13.5*y) - 4.5) + y*(y*(13.5*y - 18.0) + 4.5)],
  [y*(y*(y*(13.5*z - 13.5) - 22.5*z + 22.5) + 9.0*z - 9.0), x*(y*(y*(40.5*z - 40.5) - 45.0*z + 45.0) + 9.0*z - 9.0) + y*(y*(40.5 - 40.5*z) + 45.0*z - 45.0) - 9.0*z + 9.0, x*y*(y*(13.5*y - 22.5) + 9.0) + y*(y*(22.5 - 13.5*y) - 9.0)],
  [x*(x*(-40.5*y*z + 40.5*z) + 45.0*y*z - 45.0*z) - 9.0*y*z + 9.0*z, x*(x*(-13.5*x*z + 22.5*z) - 9.0*z), x*(x*(x*(13.5 - 13.5*y) + 22.5*y - 22.5) - 9.0*y + 9.0)],
  [x*(x*(40.5*y*z - 40.5*z) - 36.0*y*z + 36.0*z) + 4.5*y*z - 4.5*z, x*(x*(13.5*x*z - 18.0*z) + 4.5*z), x*(x*(x*(13.5*y - 13.5) - 18.0*y + 18.0) + 4.5*y - 4.5)],
  [y*(y*(13.5*y*z - 22.5*z) + 9.0*z), x*(y*(40.5*y*z - 45.0*z) + 9.0*z), x*y*(y*(13.5*y - 22.5) + 9.0)],
  [y*(y*(-13.5*y*z + 18.0*z) - 4.5*z), x*(y*(-40.5*y*z + 36.0*z) - 4.5*z), x*y*(y*(18.0 - 13.5*y) - 4.5)],
  [x*(-40.5*x*y*z + 36.0*y*z) - 4.5*y*z, x*(x*(-13.5*x*z + 18.0*z) - 4.5*z), x*(x*(-13.5*x*y + 18.0*y) - 4.5*y)],
  [x*(40.5*x*y*z - 45.0*y*z) + 9.0*y*z, x*(x*(13.5*x*z - 22.5*z) + 9.0*z), x*(x*(13.5*x*y - 22.5*y) + 9.0*y)],
  [y*(y*(13.5*y*z - 18.0*z) + 4.5*z), x*(y*(40.5*y*z - 36.0*z) + 4.5*z) + y*(-40.5*y*z + 36.0*z) - 4.5*z, x*y*(y*(13.5*y - 18.0) + 4.5) + y*(y*(18.0 - 13.5*y) - 4.5)],
  [y*(y*(-13.5*y*z + 22.5*z) - 9.0*z), x*(y*(-40.5*y*z + 45.0*z) - 9.0*z) + y*(40.5*y*z - 45.0*z) + 9.0*z, x*y*(y*(22.5 - 13.5*y) - 9.0) + y*(y*(13.5*y - 22.5) + 9.0)],
  [y*z*(z*(13.5*z - 22.5) + 9.0) + z*(z*(22.5 - 13.5*z) - 9.0), x*z*(z*(13.5*z - 22.5) + 9.0) + z*(z*(22.5 - 13.5*z) - 9.0), x*(y*(z*(40.5*z - 45.0) + 9.0) + z*(45.0 - 40.5*z) - 9.0) + y*(z*(45.0 - 40.5*z) - 9.0) + z*(40.5*z - 45.0) + 9.0],
  [y*z*(z*(18.0 - 13.5*z) - 4.5) + z*(z*(13.5*z - 18.0) + 4.5), x*z*(z*(18.0 - 13.5*z) - 4.5) + z*(z*(13.5*z - 18.0) + 4.5), x*(y*(z*(36.0 - 40.5*z) - 4.5) + z*(40.5*z - 36.0) + 4.5) + y*(z*(40.5*z - 36.0) + 4.5) + z*(36.0 - 40.5*z) - 4.5],
  [y*z*(z*(22.5 - 13.5*z) - 9.0) + z*(z*(13.5*z - 22.5) + 9.0), x*z*(z*(22.5 - 13.5*z) - 9.0), x*(y*(z*(45.0 - 40.5*z) - 9.0) + z*(40.5*z - 45.0) + 9.0)],
  [y*z*(z*(13.5*z - 18.0) + 4.5) + z*(z*(18.0 - 13.5*z) - 4.5), x*z*(z*(13.5*z - 18.0) + 4.5), x*(y*(z*(40.5*z - 36.0) + 4.5) + z*(36.0 - 40.5*z) - 4.5)],
  [y*z*(z*(13.5*z - 22.5) + 9.0), x*z*(z*(13.5*z - 22.5) + 9.0), x*y*(z*(40.5*z - 45.0) + 9.0)],
  [y*z*(z*(18.0 - 13.5*z) - 4.5), x*z*(z*(18.0 - 13.5*z) - 4.5), x*y*(z*(36.0 - 40.5*z) - 4.5)],
  [y*z*(z*(22.5 - 13.5*z) - 9.0), x*z*(z*(22.5 - 13.5*z) - 9.0) + z*(z*(13.5*z - 22.5) + 9.0), x*y*(z*(45.0 - 40.5*z) - 9.0) + y*(z*(40.5*z - 45.0) + 9.0)],
  [y*z*(z*(13.5*z - 18.0) + 4.5), x*z*(z*(13.5*z - 18.0) + 4.5) + z*(z*(18.0 - 13.5*z) - 4.5), x*y*(z*(40.5*z - 36.0) + 4.5) + y*(z*(36.0 - 40.5*z) - 4.5)]]

/-- `all_bfs[dim][order][0]` (sfepy/discrete/fem/_serendipity.py:5-213). -/
def bfs (dim order : ℕ) : List PE :=
  if dim = 2 then (if order = 1 then bfs21 else if order = 2 then bfs22 else bfs23)
  else if order = 1 then bfs31 else if order = 2 then bfs32 else bfs33

/-- `all_bfs[dim][order][1]` (sfepy/discrete/fem/_serendipity.py:5-213). -/
def bfgs (dim order : ℕ) : List (List PE) :=
  if dim = 2 then (if order = 1 then bfgs21 else if order = 2 then bfgs22 else bfgs23)
  else if order = 1 then bfgs31 else if order = 2 then bfgs32 else bfgs33

end Ser

end Verif.Poly
