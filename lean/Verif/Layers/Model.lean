import Mathlib.Analysis.SpecialFunctions.Log.Base
import Mathlib.Analysis.SpecialFunctions.Pow.Real
set_option autoImplicit false
set_option linter.unusedVariables false

/-!
# Model of Layer_sequence (src/Layer_sequence.cpp) and Mesh::extrude(Layer_sequence) (include/Mesh.hpp)

Numbers are real.
-/

namespace Hexed.Layers
noncomputable section

/-- The members of `Layer_sequence`, Layer_sequence.hpp:14-16. -/
structure Seq where
  ws : ℝ
  nw : Int
  n_grow : Int

/-- The constructor, Layer_sequence.cpp:7-11. -/
def Seq.new (wall_spacing : ℝ) (n_wall : Int) : Seq := ⟨wall_spacing, n_wall, ⌈Real.log (1 / 2 / wall_spacing) / Real.log 2⌉⟩

/-- `n_layers`, Layer_sequence.cpp:13-16. -/
def Seq.nLayers (s : Seq) : Int := s.nw + s.n_grow

/-- `spacing`, Layer_sequence.cpp:18-22. -/
def Seq.spacing (s : Seq) (i_layer : Int) : ℝ :=
  let first_growth : ℝ := 2 ^ (s.nw - s.nLayers)
  if i_layer < s.nw then s.ws else 2 ^ (i_layer - s.nLayers) * (1 - s.ws * s.nw + first_growth)

/-- `cumulative_height`, Layer_sequence.cpp:24-30. -/
def Seq.cumulativeHeight (s : Seq) (i_layer : Int) : ℝ := (List.range i_layer.toNat).foldl (fun total (j : Nat) => total + s.spacing j) 0

/-- The loop of `extrude(Layer_sequence)`, Mesh.hpp:106-111: the offsets passed to `extrude(true, offset, true)`, and the last height. -/
def Seq.extrudeLoop (s : Seq) : Nat → ℝ → List ℝ × ℝ
  | 0, height => ([], height)
  | i + 1, height =>
    if (i : Int) > 0 then
      let new_height := height - s.spacing i
      let r := s.extrudeLoop i new_height
      (new_height / height :: r.1, r.2)
    else ([], height)

/-- `extrude(Layer_sequence)`, Mesh.hpp:104-112. -/
def Seq.extrude (s : Seq) : List ℝ × ℝ := s.extrudeLoop s.nLayers.toNat 1

end
end Hexed.Layers
