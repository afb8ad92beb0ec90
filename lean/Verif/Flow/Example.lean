import Verif.Flow.Hil
set_option autoImplicit false
set_option linter.unusedVariables false

/-!
# Examples of functions of the flow
-/

namespace Hexed.Flow
open Hexed.Force
noncomputable section

/-- A gas in two dimensions with velocity (3, 4), density 2 and pressure 7. -/
example : gas (7 / 5) [3, 4] 2 7 = [6, 8, 2, 85 / 2] := by
  simp [gas]; norm_num

/-- The theorems about classes apply to it. -/
example : velocity [0, 0] 0 (gas (7 / 5) [3, 4] 2 7) = some [3, 4] ∧ mass [0, 0] 0 (gas (7 / 5) [3, 4] 2 7) = some [2] ∧ pressure (7 / 5) [0, 0] 0 (gas (7 / 5) [3, 4] 2 7) = some [7] :=
  flow_exact (by norm_num) (by norm_num) rfl

example : ∃ m, mach (7 / 5) [0, 0] 0 (gas (7 / 5) [3, 4] 2 7) = some [m] ∧ m ^ 2 = 250 / 49 := by
  refine ⟨_, mach_exact (by norm_num) (by norm_num) (by norm_num) (by norm_num) rfl, ?_⟩
  rw [div_pow, speed_sq, Real.sq_sqrt (by norm_num)]
  norm_num

example : ∃ rho0 p0, BroughtToRest (7 / 5) [3, 4] 2 7 rho0 p0 ∧ stagPres (7 / 5) [0, 0] 0 (gas (7 / 5) [3, 4] 2 7) = some [p0] := by
  obtain ⟨rho0, p0, h⟩ := rest_exists (g := 7 / 5) (rho := 2) (p := 7) (by norm_num) (by norm_num) (by norm_num) [3, 4]
  exact ⟨rho0, p0, h, stag_exact (by norm_num) (by norm_num) (by norm_num) h⟩

/-- The same gas stored in an element with two points, at the second point. -/
def exState (i : Nat) : ℝ := if i = 1 then 6 else if i = 3 then 8 else if i = 5 then 2 else if i = 7 then 85 / 2 else 1

/-- Variables of an input file. -/
def exSpace : Vars := fun n => if n = "heat_rat" then some (7 / 5) else if n = "specific_gas_air" then some 287 else none

example : ∃ s, stateVars (hilState 2 2 exState (fun _ => 0) (fun _ => 0) (fun _ => 1) 1 exSpace) = some s ∧ s "pressure" = some 7 ∧ s "velocity2" = some 0 := by
  have hs : ∀ (i : Nat), (gas (7 / 5) [3, 4] 2 7)[i]? = if i < [(3 : ℝ), 4].length + 2 then some (exState (i * 2 + 1)) else none := by
    intro i
    rw [show gas (7 / 5) [3, 4] 2 7 = [6, 8, 2, 85 / 2] by simp [gas]; norm_num]
    match i with
    | 0 => simp [exState]
    | 1 => simp [exState]
    | 2 => simp [exState]
    | 3 => simp [exState]
    | n + 4 => simp
  obtain ⟨s, h1, h2, -, -, -, h6, -⟩ := hil_exact (nq := 2) (q := 1) (state := exState) (bulk := fun _ => 0) (lap := fun _ => 0) (tss := fun _ => 1) (space := exSpace) (v := [3, 4]) (g := 7 / 5) (rho := 2)
    (p := 7) (R := 287) (by simp) (by norm_num) (by norm_num) (by norm_num) (by norm_num) hs rfl rfl
  exact ⟨s, h1, h6, (h2 2 (by omega)).1⟩

example : residualExpr (hilState 2 2 exState (fun _ => 0) (fun _ => 0) (fun _ => 1) 1 exSpace) = none := residual_refuted (by omega) _ _ _ _ _ _ _ rfl

/-- Two functions put together. -/
def exF : Func Unit := ⟨fun nd => nd, fun _ i => some ("a" ++ toString i), fun _ => some [1, 2]⟩
def exG : Func Unit := ⟨fun _ => 1, fun _ _ => some "b", fun _ => some [3]⟩

example : (concat [exF, exG]).eval () = some [1, 2, 3] ∧ (concat [exF, exG]).name 2 2 = some "b" ∧ (concat [exF, exG]).nVar 2 = 3 := by
  refine ⟨?_, ?_, rfl⟩
  · simp [concat, concatEval, exF, exG]
  · simp [concat, concatName, exF, exG]

example : ∀ f ∈ [exF, exG], f.Ok 2 () := by
  intro f hf r hr
  simp only [List.mem_cons, List.not_mem_nil, or_false] at hf
  rcases hf with rfl | rfl
  · simp only [exF, Option.some.injEq] at hr; subst hr; rfl
  · simp only [exG, Option.some.injEq] at hr; subst hr; rfl

example : errorFn (fun pos _ => some [0, 1, 1]) [0] 0 [0, 1, 3] = some [0, 0, 4] := by
  simp [errorFn, diffSq, stateVariables]; norm_num

end
end Hexed.Flow
