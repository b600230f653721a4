/-
The tables of sfepy/discrete/fem/extmods/lobatto1d.c, generated from the source by tools/gen_lobatto.py: the Lobatto
functions, their kernels, the Legendre functions and the derivatives as expressions in `x`; `r` stands for the only
square root in the expression of a function, the lists `..Rad` are the numbers under it (1 if there is none).
-/
import Verif.Poly.Expr

namespace Verif.Poly

namespace Lob

local instance : Add PE := ⟨PE.add⟩
local instance : Sub PE := ⟨PE.sub⟩
local instance : Mul PE := ⟨PE.mul⟩
local instance : Neg PE := ⟨fun a => PE.sub (PE.c 0) a⟩
local instance : Pow PE ℕ := ⟨PE.pow⟩
local instance (n : ℕ) : OfNat PE n := ⟨PE.c n⟩

local notation "x" => PE.v 0
local notation "r" => PE.v 3

/-- Division of an expression by a number. -/
def dv (a : PE) (n : ℕ) : PE := PE.mul a (PE.c (1 / n))

/-- A quotient of two numbers. -/
def q (m n : ℕ) : PE := PE.c (m / n)

/-- `lobatto[]` (sfepy/discrete/fem/extmods/lobatto1d.c:12-65). -/
def lobattoTab : List PE := [
  (dv ((-x)) 2) + (q 1 2),
  (dv (x) 2) + (q 1 2),
  (dv (r * x ^ 2) 4) - (dv (r) 4),
  (dv (x * (r * x ^ 2 - r)) 4),
  (dv (x ^ 2 * (5 * r * x ^ 2 - 6 * r)) 16) + (dv (r) 16),
  (dv (x * (x ^ 2 * (21 * r * x ^ 2 - 30 * r) + 9 * r)) 16),
  (dv (x ^ 2 * (x ^ 2 * (21 * r * x ^ 2 - 35 * r) + 15 * r)) 32) - (dv (r) 32),
  (dv (x * (x ^ 2 * (x ^ 2 * (33 * r * x ^ 2 - 63 * r) + 35 * r) - 5 * r)) 32),
  (dv (x ^ 2 * (x ^ 2 * (x ^ 2 * (429 * r * x ^ 2 - 924 * r) + 630 * r) - 140 * r)) 256) + (dv (5 * r) 256),
  (dv (x * (x ^ 2 * (x ^ 2 * (x ^ 2 * (715 * r * x ^ 2 - 1716 * r) + 1386 * r) - 420 * r) + 35 * r)) 256),
  (dv (x ^ 2 * (x ^ 2 * (x ^ 2 * (x ^ 2 * (2431 * r * x ^ 2 - 6435 * r) + 6006 * r) - 2310 * r) + 315 * r)) 512) - (dv (7 * r) 512)]

/-- The numbers under the square roots of `lobatto[]` (sfepy/discrete/fem/extmods/lobatto1d.c:12-65). -/
def lobattoRad : List ℕ := [1, 1, 6, 10, 14, 2, 22, 26, 30, 34, 38]

/-- `d_lobatto[]` (sfepy/discrete/fem/extmods/lobatto1d.c:69-122). -/
def dLobattoTab : List PE := [
  (dv ((-1)) 2),
  (q 1 2),
  (dv (r * x) 2),
  (dv (3 * r * x ^ 2) 4) - (dv (r) 4),
  (dv (x * (20 * r * x ^ 2 - 12 * r)) 16),
  (dv (x ^ 2 * (105 * r * x ^ 2 - 90 * r)) 16) + (dv (9 * r) 16),
  (dv (x * (x ^ 2 * (126 * r * x ^ 2 - 140 * r) + 30 * r)) 32),
  (dv (x ^ 2 * (x ^ 2 * (231 * r * x ^ 2 - 315 * r) + 105 * r)) 32) - (dv (5 * r) 32),
  (dv (x * (x ^ 2 * (x ^ 2 * (3432 * r * x ^ 2 - 5544 * r) + 2520 * r) - 280 * r)) 256),
  (dv (x ^ 2 * (x ^ 2 * (x ^ 2 * (6435 * r * x ^ 2 - 12012 * r) + 6930 * r) - 1260 * r)) 256) + (dv (35 * r) 256),
  (dv (x * (x ^ 2 * (x ^ 2 * (x ^ 2 * (24310 * r * x ^ 2 - 51480 * r) + 36036 * r) - 9240 * r) + 630 * r)) 512)]

/-- The numbers under the square roots of `d_lobatto[]` (sfepy/discrete/fem/extmods/lobatto1d.c:69-122). -/
def dLobattoRad : List ℕ := [1, 1, 6, 10, 14, 2, 22, 26, 30, 34, 38]

/-- `kernel[]` (sfepy/discrete/fem/extmods/lobatto1d.c:126-169). -/
def kernelTab : List PE := [
  (-r),
  (-r) * x,
  (dv ((-5) * r * x ^ 2) 4) + (dv (r) 4),
  (dv (x * ((-21) * r * x ^ 2 + 9 * r)) 4),
  (dv (x ^ 2 * ((-21) * r * x ^ 2 + 14 * r)) 8) - (dv (r) 8),
  (dv (x * (x ^ 2 * ((-33) * r * x ^ 2 + 30 * r) - 5 * r)) 8),
  (dv (x ^ 2 * (x ^ 2 * ((-429) * r * x ^ 2 + 495 * r) - 135 * r)) 64) + (dv (5 * r) 64),
  (dv (x * (x ^ 2 * (x ^ 2 * ((-715) * r * x ^ 2 + 1001 * r) - 385 * r) + 35 * r)) 64),
  (dv (x ^ 2 * (x ^ 2 * (x ^ 2 * ((-2431) * r * x ^ 2 + 4004 * r) - 2002 * r) + 308 * r)) 128) - (dv (7 * r) 128)]

/-- The numbers under the square roots of `kernel[]` (sfepy/discrete/fem/extmods/lobatto1d.c:126-169). -/
def kernelRad : List ℕ := [6, 10, 14, 2, 22, 26, 30, 34, 38]

/-- `d_kernel[]` (sfepy/discrete/fem/extmods/lobatto1d.c:173-216). -/
def dKernelTab : List PE := [
  0,
  (-r),
  (dv ((-5) * r * x) 2),
  (dv ((-63) * r * x ^ 2) 4) + (dv (9 * r) 4),
  (dv (x * ((-84) * r * x ^ 2 + 28 * r)) 8),
  (dv (x ^ 2 * ((-165) * r * x ^ 2 + 90 * r)) 8) - (dv (5 * r) 8),
  (dv (x * (x ^ 2 * ((-2574) * r * x ^ 2 + 1980 * r) - 270 * r)) 64),
  (dv (x ^ 2 * (x ^ 2 * ((-5005) * r * x ^ 2 + 5005 * r) - 1155 * r)) 64) + (dv (35 * r) 64),
  (dv (x * (x ^ 2 * (x ^ 2 * ((-19448) * r * x ^ 2 + 24024 * r) - 8008 * r) + 616 * r)) 128)]

/-- The numbers under the square roots of `d_kernel[]` (sfepy/discrete/fem/extmods/lobatto1d.c:173-216). -/
def dKernelRad : List ℕ := [1, 10, 14, 2, 22, 26, 30, 34, 38]

/-- `legendre[]` (sfepy/discrete/fem/extmods/lobatto1d.c:220-273). -/
def legendreTab : List PE := [
  1,
  x,
  (dv (3 * x ^ 2) 2) - (q 1 2),
  (dv (x * (5 * x ^ 2 - 3)) 2),
  (dv (x ^ 2 * (35 * x ^ 2 - 30)) 8) + (q 3 8),
  (dv (x * (x ^ 2 * (63 * x ^ 2 - 70) + 15)) 8),
  (dv (x ^ 2 * (x ^ 2 * (231 * x ^ 2 - 315) + 105)) 16) - (q 5 16),
  (dv (x * (x ^ 2 * (x ^ 2 * (429 * x ^ 2 - 693) + 315) - 35)) 16),
  (dv (x ^ 2 * (x ^ 2 * (x ^ 2 * (6435 * x ^ 2 - 12012) + 6930) - 1260)) 128) + (q 35 128),
  (dv (x * (x ^ 2 * (x ^ 2 * (x ^ 2 * (12155 * x ^ 2 - 25740) + 18018) - 4620) + 315)) 128),
  (dv (x ^ 2 * (x ^ 2 * (x ^ 2 * (x ^ 2 * (46189 * x ^ 2 - 109395) + 90090) - 30030) + 3465)) 256) - (q 63 256)]

/-- `d_legendre[]` (sfepy/discrete/fem/extmods/lobatto1d.c:277-330). -/
def dLegendreTab : List PE := [
  0,
  1,
  3 * x,
  (dv (15 * x ^ 2) 2) - (q 3 2),
  (dv (x * (140 * x ^ 2 - 60)) 8),
  (dv (x ^ 2 * (315 * x ^ 2 - 210)) 8) + (q 15 8),
  (dv (x * (x ^ 2 * (1386 * x ^ 2 - 1260) + 210)) 16),
  (dv (x ^ 2 * (x ^ 2 * (3003 * x ^ 2 - 3465) + 945)) 16) - (q 35 16),
  (dv (x * (x ^ 2 * (x ^ 2 * (51480 * x ^ 2 - 72072) + 27720) - 2520)) 128),
  (dv (x ^ 2 * (x ^ 2 * (x ^ 2 * (109395 * x ^ 2 - 180180) + 90090) - 13860)) 128) + (q 315 128),
  (dv (x * (x ^ 2 * (x ^ 2 * (x ^ 2 * (461890 * x ^ 2 - 875160) + 540540) - 120120) + 6930)) 256)]

end Lob

end Verif.Poly
