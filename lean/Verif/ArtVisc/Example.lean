import Verif.ArtVisc.Props
import Verif.Metric.Example
set_option autoImplicit false
set_option linter.unusedVariables false

/-!
# The hypotheses of the theorems can be met: the mesh of trapezoids with a hanging face of Metric/Example.lean
-/

namespace Hexed.ArtVisc
open Hexed.Spatial Hexed.Pde Hexed.Solver Hexed.StateFile Hexed.Metric
noncomputable section

/-- Air in motion with some artificial viscosity left over, the indicator at rest. -/
def exWorld : World := ⟨fun _ k => if k.1 < 4 then exAir k.1 else if k.1 = 5 then 7 else if 11 ≤ k.1 then 1 else 0, fun _ _ => 0, fun _ _ _ => 0⟩

/-- Parameters. -/
def exParams : Params := ⟨1, 2, 3, 4, 1, 1, 1, 1, 1, 2⟩

theorem exParams_max : 0 < exParams.usMax := by
  simp only [Params.usMax, exParams]
  have : (0 : ℝ) < √(2 * 1 / 1) := Real.sqrt_pos.2 (by norm_num)
  linarith

theorem exWorld_flow (w0 : World) : UniformFlow (ofNodes gauss2) (exShape.calcJacobian gauss2 (ofNodes gauss2) w0) exAir exWorld where
  mass := by show 0 < exAir 2; norm_num [exAir]
  energy := by show 0 < exAir 3; norm_num [exAir]
  state e he q hq v hv := if_pos hv

theorem exWorld_rest (w0 : World) : Rest (ofNodes gauss2) (exShape.calcJacobian gauss2 (ofNodes gauss2) w0) exWorld where
  adv e he q hq i hi := by
    show (if 2 + 9 + i < 4 then _ else if 2 + 9 + i = 5 then _ else if 11 ≤ 2 + 9 + i then _ else _) = _
    rw [if_neg (by omega), if_neg (by omega), if_pos (by omega)]
  forcing e he q hq i hi := by
    show (if 2 + 5 + i < 4 then _ else if 2 + 5 + i = 5 then _ else if 11 ≤ 2 + 5 + i then _ else _) = _
    rw [if_neg (by omega), if_neg (by omega), if_neg (by omega)]

/-- Left-over viscosity vanishes, and the artificial viscosity had changed. -/
example (w0 : World) (mu kappa : Transport) (nodes : Nat → ℝ) (sr : ℝ) : ∃ w' r, update mu kappa gauss2 (ofNodes gauss2) (exShape.calcJacobian gauss2 (ofNodes gauss2) w0) nodes exParams sr (fun _ => .default) (fun _ _ _ => 1) (fun _ e q => 1 + q) exWorld = some (w', r) ∧
    (∀ e ∈ [0, 1, 2], ∀ q < 4, w'.state e (5, q) = 0) ∧ exWorld.state 0 (5, 0) = 7 := by
  obtain ⟨w', r, h1, h2⟩ := uniform_deformed (s := exShape) (mu := mu) (kappa := kappa) (nodes := nodes) (P := exParams) (sr := sr) (bc := fun _ => .default) (tssA := fun _ _ _ => 1) (tssD := fun _ e q => 1 + q) (w := exWorld) (fs := exAir)
    (ofNodes_isOf gauss2) gauss2_good (mm := 2) (by norm_num) le_rfl (by norm_num [exShape, gauss2]) (fun _ => by decide +kernel) (exShape_ok _) (exShape_space gauss2) exShape_kinds w0 (by decide +kernel) (by decide +kernel)
    (by norm_num [exParams]) (by norm_num [exParams]) exParams_max (fun _ _ _ => zero_le_one) (fun _ e q => by positivity) (exWorld_flow w0) (exWorld_rest w0) (fun c _ _ => trivial)
  refine ⟨w', r, h1, fun e he q hq => h2 e he q hq, ?_⟩
  simp [exWorld]

/-- For any flow with positive density times energy, on this mesh, `forcing` is defined. -/
example (w0 w : World) (mu kappa : Transport) (nodes : Nat → ℝ) (sr : ℝ) (hpos : ∀ e ∈ [0, 1, 2], ∀ q < 4, 0 < w.state e (2, q) * w.state e (3, q)) :
    ∃ wf, forcing mu kappa gauss2 (ofNodes gauss2) (exShape.calcJacobian gauss2 (ofNodes gauss2) w0) nodes exParams sr (fun _ => .noSlip) (fun _ _ _ => 1) (fun _ e q => 1 + q) w = some wf := by
  obtain ⟨wf, h, -⟩ := defined (mu := mu) (kappa := kappa) (nodes := nodes) (P := exParams) (sr := sr) (bc := fun _ => .noSlip) (tssA := fun _ _ _ => 1) (tssD := fun _ e q => 1 + q)
    (metric_ok (ofNodes_isOf gauss2) gauss2_good (le_refl 2) (exShape_ok _) (exShape_space gauss2) w0) (b := gauss2) (by decide +kernel) (w := w) hpos
  exact ⟨wf, h⟩

/-- Walls: a flow in the x direction fits nonpenetrating walls whose normals are in the y direction. -/
example (bs : BasisData) (m : Mesh) (hnd : m.nd = 2) (fs : Nat → ℝ) (h1 : fs 1 = 0) (hn : ∀ c ∈ m.cons, ∀ k < bs.n ^ (m.nd - 1), c.normal (0 * bs.n ^ (m.nd - 1) + k) = 0) : WallsFit bs m fs fun _ => .nonpenetration := by
  intro c hc _ k hk
  rw [hnd, Finset.sum_range_succ, Finset.sum_range_one, h1]
  have := hn c hc k hk
  rw [hnd] at this
  rw [this]; simp

end
end Hexed.ArtVisc
