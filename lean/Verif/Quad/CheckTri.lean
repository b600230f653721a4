/-
GENERATED (tools/gen_quad_checks.py): the kernel checks the moments and the points of the tables.
-/
import Verif.Quad.CheckBase

namespace Quad

set_option maxRecDepth 100000

theorem chk23o1 : checkEntry (K := ℚ) [] t23o1 momSimplex eps0 (expsTot 2 1) (inSimplex 2) = true := by
  decide +kernel

theorem chk23o2 : checkEntry (K := ℚ) [] t23o2 momSimplex eps0 (expsTot 2 2) (inSimplex 2) = true := by
  decide +kernel

theorem chk23o3 : checkEntry (K := ℚ) [] t23o3 momSimplex eps0 (expsTot 2 3) (inSimplex 2) = true := by
  decide +kernel

theorem chk23o4 : checkEntry (K := ℚ) [] t23o4 momSimplex eps0 (expsTot 2 4) (inSimplex 2) = true := by
  decide +kernel

theorem chk23o5 : checkEntry (K := ℚ) [] t23o5 momSimplex eps0 (expsTot 2 5) (inSimplex 2) = true := by
  decide +kernel

theorem chk23o6 : checkEntry (K := ℚ) [] t23o6 momSimplex eps0 (expsTot 2 6) (inSimplex 2) = true := by
  decide +kernel

theorem chk23o7 : checkEntry (K := ℚ) [] t23o7 momSimplex eps0 (expsTot 2 7) (inSimplex 2) = true := by
  decide +kernel

theorem chk23o8 : checkEntry (K := ℚ) [] t23o8 momSimplex eps0 (expsTot 2 8) (inSimplex 2) = true := by
  decide +kernel

theorem chk23o9 : checkEntry (K := ℚ) [] t23o9 momSimplex eps0 (expsTot 2 9) (inSimplex 2) = true := by
  decide +kernel

theorem chk23o10 : checkEntry (K := ℚ) [] t23o10 momSimplex eps0 (expsTot 2 10) (inSimplex 2) = true := by
  decide +kernel

theorem chk23o12 : checkEntry (K := ℚ) [] t23o12 momSimplex eps0 (expsTot 2 12) (inSimplex 2) = true := by
  decide +kernel

theorem chk23o13 : checkEntry (K := ℚ) [] t23o13 momSimplex eps0 (expsTot 2 13) (inSimplex 2) = true := by
  decide +kernel

theorem chk23o14 : checkEntry (K := ℚ) [] t23o14 momSimplex eps0 (expsTot 2 14) (inSimplex 2) = true := by
  decide +kernel

theorem chk23o17 : checkEntry (K := ℚ) [] t23o17 momSimplex eps0 (expsTot 2 17) (inSimplex 2) = true := by
  decide +kernel

theorem chk23o19 : checkEntry (K := ℚ) [] t23o19 momSimplex eps0 (expsTot 2 19) (inSimplex 2) = true := by
  decide +kernel

end Quad
