/-
GENERATED (tools/gen_quad_checks.py): the kernel checks the moments and the points of the tables.
-/
import Verif.Quad.CheckBase

namespace Quad

set_option maxRecDepth 100000

theorem chk12o1 : checkEntry (K := ℚ) [] t12o1 momSimplex eps0 (expsTot 1 1) (inSimplex 1) = true := by
  decide +kernel

theorem chk12o3 : checkEntry (K := ℚ) [] t12o3 momSimplex eps0 (expsTot 1 3) (inSimplex 1) = true := by
  decide +kernel

theorem chk12o5 : checkEntry (K := ℚ) [] t12o5 momSimplex eps0 (expsTot 1 5) (inSimplex 1) = true := by
  decide +kernel

theorem chk12o7 : checkEntry (K := ℚ) [] t12o7 momSimplex eps0 (expsTot 1 7) (inSimplex 1) = true := by
  decide +kernel

theorem chk12o9 : checkEntry (K := ℚ) [] t12o9 momSimplex eps0 (expsTot 1 9) (inSimplex 1) = true := by
  decide +kernel

theorem chk12o11 : checkEntry (K := ℚ) [] t12o11 momSimplex eps0 (expsTot 1 11) (inSimplex 1) = true := by
  decide +kernel

theorem chk12o13 : checkEntry (K := ℚ) [] t12o13 momSimplex eps0 (expsTot 1 13) (inSimplex 1) = true := by
  decide +kernel

theorem chk12o15 : checkEntry (K := ℚ) [] t12o15 momSimplex eps0 (expsTot 1 15) (inSimplex 1) = true := by
  decide +kernel

theorem chk12o17 : checkEntry (K := ℚ) [] t12o17 momSimplex eps0 (expsTot 1 17) (inSimplex 1) = true := by
  decide +kernel

theorem chk12o19 : checkEntry (K := ℚ) [] t12o19 momSimplex eps0 (expsTot 1 19) (inSimplex 1) = true := by
  decide +kernel

theorem chk12o23 : checkEntry (K := ℚ) [] t12o23 momSimplex eps0 (expsTot 1 23) (inSimplex 1) = true := by
  decide +kernel

theorem chk12o31 : checkEntry (K := ℚ) [] t12o31 momSimplex eps0 (expsTot 1 31) (inSimplex 1) = true := by
  decide +kernel

theorem chk12o39 : checkEntry (K := ℚ) [] t12o39 momSimplex eps0 (expsTot 1 39) (inSimplex 1) = true := by
  decide +kernel

theorem chk12o47 : checkEntry (K := ℚ) [] t12o47 momSimplex eps0 (expsTot 1 47) (inSimplex 1) = true := by
  decide +kernel

end Quad
