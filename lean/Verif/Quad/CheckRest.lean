/-
GENERATED (tools/gen_quad_checks.py): the kernel checks the moments and the points of the tables.
-/
import Verif.Quad.CheckBase

namespace Quad

set_option maxRecDepth 100000

theorem chk34o1 : checkEntry (K := ℚ) [] t34o1 momSimplex eps0 (expsTot 3 1) (inSimplex 3) = true := by
  decide +kernel

theorem chk34o2 : checkEntry (K := (Q2 5 1)) [⟨0, 1, 0, 0⟩] t34o2 momSimplex eps0 (expsTot 3 2) (inSimplex 3) = true := by
  decide +kernel

theorem chk34o3 : checkEntry (K := ℚ) [] t34o3 momSimplex eps0 (expsTot 3 3) (inSimplex 3) = true := by
  decide +kernel

theorem chk34o4 : checkEntry (K := ℚ) [] t34o4 momSimplex eps0 (expsTot 3 4) (inSimplex 3) = true := by
  decide +kernel

theorem chk34o6 : checkEntry (K := ℚ) [] t34o6 momSimplex eps0 (expsTot 3 6) (inSimplex 3) = true := by
  decide +kernel

theorem chk24o2 : checkEntry (K := (Q2 6 2)) [⟨0, 1/3, 0, 0⟩, ⟨0, 1, 0, 0⟩, ⟨0, 0, 1, 0⟩] t24o2 momCube eps0 (expsTot 2 2) (inCube 2) = true := by
  decide +kernel

theorem chk24o3 : checkEntry (K := (Q2 3 1)) [⟨0, 1, 0, 0⟩] t24o3 momCube eps0 (expsTot 2 3) (inCube 2) = true := by
  decide +kernel

theorem chk24o5 : checkEntry (K := (Q2 105 1)) [⟨0, 1/15, 0, 0⟩] t24o5 momCube eps0 (expsTot 2 5) (inCube 2) = true := by
  decide +kernel

theorem chk38o2 : checkEntry (K := (Q2 6 3)) [⟨0, 1/3, 0, 0⟩, ⟨0, 0, 1, 0⟩] t38o2 momCube eps0 (expsTot 3 2) (inCube 3) = true := by
  decide +kernel

theorem chk38o3 : checkEntry (K := ℚ) [] t38o3 momCube eps0 (expsTot 3 3) (inCube 3) = true := by
  decide +kernel

theorem chk38o5 : checkEntry (K := (Q2 570 627)) [⟨0, 1/30, 0, 0⟩, ⟨0, 0, 1/33, 0⟩] t38o5 momCube eps0 (expsTot 3 5) (inCube 3) = true := by
  decide +kernel

theorem chk36o3 : checkEntry (K := ℚ) [] t36o3 momWedge eps0 (expsWedge 1 1) inWedge = true := by
  decide +kernel

theorem chk36o6 : checkEntry (K := ℚ) [] t36o6 momWedge eps0 (expsWedge 2 3) inWedge = true := by
  decide +kernel

theorem chk36o9 : checkEntry (K := ℚ) [] t36o9 momWedge eps0 (expsWedge 4 5) inWedge = true := by
  decide +kernel

end Quad
