import Verif.FaceSnap.Limits
set_option autoImplicit false
set_option linter.unusedVariables false

/-!
# C86: concrete cases
-/

namespace Hexed.FaceSnap
open Hexed.Spatial Hexed.Metric Hexed.Tensor Hexed.Split
noncomputable section

/-- Equidistant nodes from 0 to 1. -/
def exLob (k : Nat) : Basis.Nodes ℝ := ⟨k, fun i => (i : ℝ) / ((k : ℝ) - 1), fun _ => 1⟩

theorem exLob_is : IsLobatto exLob := by
  intro k hk
  refine ⟨rfl, fun i hi j hj h => ?_⟩
  have hk' : (k : ℝ) - 1 ≠ 0 := by
    have : (2 : ℝ) ≤ k := by exact_mod_cast hk
    linarith
  simp only [exLob] at h
  have := (div_left_inj' hk').1 h
  exact_mod_cast this

/-- Nodes inside of the interval. -/
def exNodes (n : Nat) : Basis.Nodes ℝ := ⟨n, fun i => ((i : ℝ) + 1) / ((n : ℝ) + 1), fun _ => 1⟩

theorem exNodes_distinct (n : Nat) : (exNodes n).Distinct := by
  intro i hi j hj h
  have hn : (n : ℝ) + 1 ≠ 0 := by positivity
  simp only [exNodes] at h
  have := (div_left_inj' hn).1 h
  have : (i : ℝ) = j := by linarith
  exact_mod_cast this

/-- The hypotheses of `snapped_exact` and `snapped_on_surface` are met: with three nodes per row the right side of the trapezoid is snapped to the line, at both ends of the side. -/
example (u : Nat → ℝ) : ∃ e', snapNodeAdj (exNodes 3) exLob u (lineGeom (3 / 2)) 2 wedge 0 1 = .ok e' ∧ e'.problem = false ∧
    ∀ q : Fin 1 → Fin 2, facePoint (exNodes 3) 2 e' 1 (sample (exLob 2) q) 0 = 3 / 2 := by
  obtain ⟨e', h1, h2, _⟩ := wedge_snap (exNodes_distinct 3) (Or.inr rfl) exLob_is (by simp [exLob]) (by norm_num [exLob]) u
  refine ⟨e', h1, h2, fun q => ?_⟩
  exact snapped_on_surface (exNodes_distinct 3) exLob_is u (lineGeom (3 / 2)) (Or.inl rfl) (by norm_num : (0 : Nat) < 2) (by norm_num : 1 < 2) wedge ⟨rfl, rfl⟩ (fun _ _ _ _ _ => rfl) (le_refl 3)
    (lineGeom_sound _) h1 h2 q

/-- The hypotheses of `row2_refuted`, and the distance: 1/6. -/
example (u : Nat → ℝ) : ∃ e', snapNodeAdj (exNodes 2) exLob u (lineGeom (3 / 2)) 2 wedge 0 1 = .ok e' ∧ e'.problem = false ∧ ∃ q, facePoint (exNodes 2) 2 e' 1 (sample (exLob 2) q) 0 = 3 / 2 + 1 / 6 := by
  obtain ⟨_, e', h1, h2, h3⟩ := row2_refuted (exNodes_distinct 2) rfl exLob_is (by simp [exLob]) (by norm_num [exLob]) u
  refine ⟨e', h1, h2, _, h3.trans ?_⟩
  norm_num [exNodes]

example (u : Nat → ℝ) := both_warped_refuted (exNodes_distinct 3) (by norm_num [exNodes]) exLob_is u

/-- A surface that no line meets, in three dimensions. -/
def exGeom : Geometry := ⟨fun _ _ => [], fun p _ => some fun i => p i + 1⟩

def exCube : Elem := ⟨fun v i => if i = 0 then (v / 4 : Nat) else if i = 1 then (v / 2 % 2 : Nat) else if i = 2 then (v % 2 : Nat) else 0, fun _ => 0, 1, true, false, true⟩

/-- The hypotheses of `projected_exact` and `straight_exact` are met: a problem is reported. -/
example (u : Nat → ℝ) (n : Nat) (hn : 2 ≤ n) : ∃ e', snapNodeAdj (exNodes n) exLob u exGeom 3 exCube 1 0 = .ok e' ∧ e'.problem = true := by
  obtain ⟨e', h⟩ := snap_total (exNodes_distinct n) hn exLob_is u exGeom (Or.inr rfl) (by norm_num : 1 < 3) (by norm_num : 0 < 2) exCube ⟨rfl, rfl⟩ (fun _ _ _ _ _ => rfl) (fun p s => ⟨_, rfl⟩)
  refine ⟨e', h, ?_⟩
  obtain ⟨v, a, _, _, h3, _⟩ := problem_exact (exNodes_distinct n) hn exLob_is u exGeom (Or.inr rfl) (by norm_num : 1 < 3) (by norm_num : 0 < 2) exCube ⟨rfl, rfl⟩ (fun _ _ _ _ _ => rfl) h
  rw [h3]
  refine Or.inl ⟨fun _ => ⟨0, by show 0 < max 2 (n - 1); omega⟩, fun s hs => by cases hs⟩

end
end Hexed.FaceSnap
