import Verif.Exact.Simple
set_option autoImplicit false
set_option linter.unusedVariables false

/-!
# Cases that meet the hypotheses of the theorems of C82
-/

namespace Hexed.Exact
open Hexed.Force Hexed.Flow

/-- A doublet of the default radius in a flow along the first axis, at the stagnation point: `doublet_exact` and `doublet_flow` apply. -/
example : ∃ (fs u : Nat → ℝ), (1 : ℝ) < 2 ∧ 0 < fs 2 ∧ 0 < pres 2 fs ∧ doublet 2 fs 2 0 0 1 1 0 = some u ∧ u 2 ≠ 0 ∧ ((1 : ℝ) ≠ 0 ∨ (0 : ℝ) ≠ 0) := by
  have hv : doubletVeloc 1 0 1 0 0 1 1 0 = (0, 0) := by
    rw [doubletVeloc_eq (Or.inl one_ne_zero)]; norm_num
  let fs : Nat → ℝ := fun i => if i = 0 then 1 else if i = 1 then 0 else if i = 2 then 1 else 3 / 2
  refine ⟨fs, fun i => if i = 0 then 0 else if i = 1 then 0 else if i = 2 then 5 / 4 else if i = 3 then 25 / 16 else fs i, by norm_num, by norm_num [fs], by norm_num [pres, fs], ?_, by norm_num, by norm_num⟩
  have h0 : fs 0 = 1 := rfl
  have h1 : fs 1 = 0 := rfl
  have h3 : fs 2 = 1 := rfl
  have h4 : fs 3 = 3 / 2 := rfl
  unfold doublet
  simp only [show 2 + 2 - 2 = 2 from rfl, show 2 + 2 - 1 = 3 from rfl, h0, h1, h3, h4, hv]
  norm_num [quot, power, Real.rpow_one]

/-- `sod_exact`, `gaussian_exact`, `annular_exact` and `random_range`. -/
example : ((7 / 5 : ℝ) ≠ 1) ∧ ([(1 : ℝ), 2] ≠ [] ∧ ∀ d ∈ [(1 : ℝ), 2], d ≠ 0) ∧ (0 : ℝ) < 1 ∧
    ((100000 : Nat) ≠ 0 ∧ [(1 : ℝ), 0].length = [(3 : ℝ), 4].length ∧ ∀ x ∈ [(1 : ℝ), 0], 0 ≤ x) ∧ 3 < 100000 :=
  ⟨by norm_num, ⟨by simp, by norm_num⟩, by norm_num, by norm_num, by norm_num⟩

end Hexed.Exact
