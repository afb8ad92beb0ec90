import Verif.Repair.Props
import Verif.Metric.Example
set_option autoImplicit false
set_option linter.unusedVariables false

/-!
# The hypotheses of the theorems can be met
-/

namespace Hexed.Repair
open Hexed.Spatial Hexed.Pde Hexed.Solver Hexed.StateFile Hexed.Metric Hexed.ArtVisc
noncomputable section

/-- Spacing 1 everywhere. -/
def exSteps : Steps := ⟨⟨2, gauss2.node, 1, -3⟩, fun _ _ => 1⟩

theorem exSteps_spacing (e q : Nat) : spacingAt exSteps 1 e q = 1 := by
  simp [spacingAt, exSteps, TimeStep.nLinear, Finset.sum_range_succ]

theorem exSteps_ok : exSteps.Ok (ofNodes gauss2) exBound 0.7 where
  eig := by norm_num [exSteps]
  safety := by norm_num
  spacing e he q hq := by rw [show exBound.nd = 1 from rfl, exSteps_spacing]; norm_num

theorem exBound_bounded : Bounded exBound := by
  intro c hc hg
  simp only [exBound, List.mem_cons, List.not_mem_nil, or_false] at hc
  rcases hc with rfl | rfl <;> first | exact ⟨rfl, rfl, rfl⟩ | simp_all

/-- Each vertex of each element by itself. -/
def exVert : Vertices exBound.elems.length 2 2 := ⟨Nat × Nat, inferInstance, fun e v => (e.val, v.val), [], fun _ _ => 1 / 2⟩

/-- Density 1 at one point and -1 at the other. -/
def exFlow : World := ⟨fun _ k => if k.1 = 1 then (if k.2 = 0 then 1 else -1) else 1, fun _ _ => 0, fun _ _ _ => 0⟩

def exData : Admis.Data World exBound.elems.length 2 2 := ⟨exFlow, fun _ => false, fun _ _ => 0, fun _ _ => 0, fun _ _ => 0, 0, 0⟩

/-- A flow whose mass is zero in total: the repair gives up, and the mass is still zero. -/
example (sr : ℝ) (flowTss : World → Nat → Nat → ℝ) : ∃ d', Admis.fix (setting (ofNodes gauss2) exBound exVert exSteps 0.7 sr flowTss true) exData = .failed d' ∧
    exBound.total (ofNodes gauss2) d'.sol.state 1 = exBound.total (ofNodes gauss2) exData.sol.state 1 := by
  have h0 : scaledTotal (ofNodes gauss2) exBound exSteps exData.sol exBound.nd ≤ 0 := by
    refine le_of_eq ?_
    simp only [scaledTotal, show exBound.nd = 1 from rfl, exSteps_spacing]
    simp [exBound, exData, exFlow, ElemRec.det, Finset.sum_range_succ, qw, ofNodes, gauss2]
  obtain ⟨d', h⟩ := hopeless (V := exVert) (T := exSteps) (sr := sr) (flowTss := flowTss) (d := exData) gauss2_good (ofNodes_isOf _) (exBound_ok _) exBound_bounded exSteps_ok (fun e he q hq => by simp [exBound, ElemRec.det]) (by simp [exBound]) (Or.inl h0)
  refine ⟨d', h, ?_⟩
  exact fix_conserves gauss2_good (ofNodes_isOf _) (exBound_ok _) exBound_bounded exSteps_ok (c := 1) (fun e he q hq => exSteps_spacing e q) (Or.inr h) (by decide)

/-- Data on the mesh of trapezoids with a hanging face: vacuum is left as it is and reported. -/
example (w0 : World) (T : Steps) (sr : ℝ) (mu kappa : Transport) (flowTss : World → Nat → Nat → ℝ) (V : Vertices (exShape.calcJacobian gauss2 (ofNodes gauss2) w0).elems.length 4 4)
    (d : Admis.Data World (exShape.calcJacobian gauss2 (ofNodes gauss2) w0).elems.length 4 4) (hd : d.sol = refresh mu kappa (ofNodes gauss2) (exShape.calcJacobian gauss2 (ofNodes gauss2) w0) ⟨fun _ _ => 0, fun _ _ => 0, fun _ _ _ => 0⟩) :
    ∃ d', Admis.fix (setting (ofNodes gauss2) (exShape.calcJacobian gauss2 (ofNodes gauss2) w0) V T 0.7 sr flowTss true) d = .failed d' ∧ Uniform (ofNodes gauss2) (exShape.calcJacobian gauss2 (ofNodes gauss2) w0) (fun _ => 0) d'.sol := by
  have hm := metric_ok (ofNodes_isOf gauss2) gauss2_good (le_refl 2) (exShape_ok _) (exShape_space gauss2) w0
  have hN := metric_sealed (ofNodes_isOf gauss2) gauss2_good (m := 2) (by norm_num) le_rfl (by norm_num [exShape, gauss2]) (fun _ => by decide +kernel) (exShape_ok _) (exShape_space gauss2) exShape_kinds w0
  have hn : 0 < (ofNodes gauss2).n := by decide
  have hf : FEq (refresh mu kappa (ofNodes gauss2) (exShape.calcJacobian gauss2 (ofNodes gauss2) w0) d.sol) d.sol := by
    rw [hd]
    exact refresh_refresh hm hn mu kappa _
  have hu : Uniform (ofNodes gauss2) (exShape.calcJacobian gauss2 (ofNodes gauss2) w0) (fun _ => 0) d.sol := by
    intro e he q hq v hv
    rw [hd, (refresh_spec hm mu kappa _).1]
  obtain ⟨d', h⟩ := uniform_hopeless (V := V) (T := T) (st := 0.7) (sr := sr) (flowTss := flowTss) (ofNodes_isOf gauss2) Metric.gauss2_good.exact hn (by decide) hm hN mu kappa hu hf (fun h => nomatch h) (Or.inl le_rfl)
  exact ⟨d', h, fix_uniform (ofNodes_isOf gauss2) Metric.gauss2_good.exact hn (by decide) hm hN mu kappa hu hf (Or.inr h)⟩

end
end Hexed.Repair
