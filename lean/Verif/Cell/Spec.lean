import Verif.Cell.Model
set_option autoImplicit false
set_option linter.unusedVariables false

/-!
# Corners of cubes
-/

namespace Hexed.Cell
noncomputable section

/-- Which side of the cube corner `v` is on in dimension `d`: the last dimension is the lowest bit. -/
def side (nDim v d : Nat) : Bool := v.testBit (nDim - 1 - d)

/-- Two corners are joined by an edge of the cube: they are on different sides in exactly one dimension. -/
def Joined (nDim v w : Nat) : Prop := ∃ d < nDim, ∀ i < nDim, side nDim v i ≠ side nDim w i ↔ i = d

/-- The lower corner of cell `pos` of a grid of cubes of the given size. -/
def lower (pos : List Int) (size : ℝ) (origin : Nat → ℝ) (d : Nat) : ℝ := origin d + (pos.getD d 0 : ℤ) * size

end
end Hexed.Cell
