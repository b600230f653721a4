/-
Concrete cases of C69.
-/
import Mathlib.Algebra.Group.Prod
import Verif.Mesh.PropsTile

namespace Verif.Mesh

/-- A unit square. -/
def tileSquare : TMesh (ℤ × ℤ) :=
  { conn := [[0, 1, 2, 3]], coors := [(0, 0), (1, 0), (1, 1), (0, 1)], ngrps := [7, 7, 7, 8],
    ndmap := [0, 1, 2, 3] }

/-- Three copies in `x`: the left side, the right side. -/
def tileAx1 : Axis (ℤ × ℤ) := { s1 := [0, 3], s2 := [1, 2], m1 := [1, 0], m2 := [1, 0], dd := (1, 0), n := 2 }

/-- Two copies in `y`. -/
def tileAx2 : Axis (ℤ × ℤ) :=
  { s1 := [0, 1, 4, 6], s2 := [2, 3, 5, 7], m1 := [0, 1, 2, 3], m2 := [1, 0, 2, 3], dd := (0, 1), n := 1 }

/-- All the linked pairs. -/
theorem linked_bounded {s1 s2 m1 m2 : List ℕ} {P : ℕ → ℕ → Prop}
    (h : ∀ p ∈ List.zip m1 m2, ∀ i ∈ s1[p.1]?, ∀ j ∈ s2[p.2]?, P i j) :
    ∀ v w, Linked s1 s2 m1 m2 v w → P v w := by
  rintro v w ⟨k, i, j, h1, h2, h3, h4⟩
  have : (i, j) ∈ List.zip m1 m2 := List.mem_of_getElem? (i := k) (by rw [List.getElem?_zip_eq_some]; exact ⟨h1, h2⟩)
  exact h (i, j) this v h3 w h4

theorem tileSquare_ok : TileOk tileSquare tileAx1.s1 tileAx1.s2 tileAx1.m1 tileAx1.m2 :=
  ⟨by decide, by decide, by decide, by decide, by decide, by decide, by decide, by decide⟩

/-- The strip of three squares. -/
example : tiled1d tileSquare tileAx1.s1 tileAx1.s2 tileAx1.m1 tileAx1.m2 tileAx1.dd tileAx1.n none =
    { conn := [[0, 1, 2, 3], [1, 4, 5, 2], [4, 6, 7, 5]]
      coors := [(0, 0), (1, 0), (1, 1), (0, 1), (2, 0), (2, 1), (3, 0), (3, 1)]
      ngrps := [7, 7, 7, 8, 7, 7, 7, 7]
      ndmap := [0, 1, 2, 3, 1, 2, 1, 2] } := by decide +kernel

theorem tileAxes_ok : AxesOk tileSquare none [tileAx1, tileAx2] := by
  refine ⟨tileSquare_ok, linked_bounded (by decide), ⟨by decide, by decide, by decide, by decide, by decide, by decide, by decide, by decide⟩, linked_bounded (by decide +kernel), trivial⟩

theorem tileConn_ok : ConnOk tileSquare := by unfold ConnOk; decide

/-- The second cell of the second row is the square shifted by `(1, 1)`. -/
example : cellPts (tiledAxes tileSquare none [tileAx1, tileAx2]) 4 =
    some [(1, 1), (2, 1), (2, 2), (1, 2)] := by
  have h := C69_tiling_axes [tileAx1, tileAx2] none tileSquare tileConn_ok tileAxes_ok
  rw [h.2.2 4 (by rw [h.1]; decide)]
  decide

example : (tiledAxes tileSquare none [tileAx1, tileAx2]).conn.length = 6 :=
  (C69_tiling_axes [tileAx1, tileAx2] none tileSquare tileConn_ok tileAxes_ok).1

/-- The map to the reference nodes of the final mesh. -/
example : (tiledAxes tileSquare none [tileAx1, tileAx2]).ndmap = [0, 1, 2, 3, 1, 2, 1, 2, 2, 3, 2, 2] := by
  decide +kernel

/-- The hypothesis of the second step of `C69_ndmap`. -/
example : NdOk 4 (tiled1d tileSquare tileAx1.s1 tileAx1.s2 tileAx1.m1 tileAx1.m2 tileAx1.dd tileAx1.n none)
    [0, 1, 2, 3, 1, 2, 1, 2] := ⟨by decide, by decide, by decide, by decide⟩

/-- Groups of cells. -/
example : (tileMats [3, 4] 3)[5]? = some 4 := (C69_groups [3, 4] rfl (by decide)).trans (by decide)

end Verif.Mesh
