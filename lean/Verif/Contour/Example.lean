import Verif.Contour.Orient
set_option autoImplicit false
set_option linter.unusedVariables false

/-!
# Concrete cases for C94
-/

namespace Hexed.Contour.Example

/-- 3 × 3 × 3 samples; only the one in the middle is above zero. -/
def bubble (s : ℕ) : ℚ := if s = 13 then 1 else -1

/-- The contour is a cube around the middle: 26 vertices, 24 quadrilaterals. -/
example : (contour 3 2 bubble 0 (1 / 1000)).verts.length = 26 ∧ (contour 3 2 bubble 0 (1 / 1000)).faces.length = 24 := by decide +kernel

theorem bubble_resolved : Resolved 3 2 bubble 0 0 := resolved_zero 3 2 bubble 0

/-- An edge of the cube is passed once in each direction. -/
example : passes (contour 3 2 bubble 0 0) 32 37 = 1 ∧ passes (contour 3 2 bubble 0 0) 37 32 = 1 := by decide +kernel

example : Neighbours 3 2 0 4 := ⟨by decide, by decide, by decide⟩
example : (bubble 4 > 0) ↔ ¬(bubble (4 + strideS 3 2 0) > 0) := by decide +kernel

/-- Two dimensions: a line through the element. -/
def slope (s : ℕ) : ℚ := (s / 3 : ℕ) - 1 / 2
example : (contour 2 2 slope 0 (1 / 1000)).verts = [5, 6, 7, 8, 9] := by decide +kernel
example : ¬OnBoundary 2 2 6 ∧ starts (contour 2 2 slope 0 0) 6 = 1 ∧ ends (contour 2 2 slope 0 0) 6 = 1 := by
  refine ⟨?_, by decide +kernel, by decide +kernel⟩
  rintro ⟨j, hj, h⟩
  interval_cases j <;> revert h <;> decide

/-- A step from 0 to 1/8 along a slope of 1 with two divisions. -/
example : moveBy 2 (1 / 8 : ℚ) 0 1 0 = 1 / 8 := by decide +kernel

end Hexed.Contour.Example
