import Verif.Flow.Props
import Verif.Force.Lemmas
set_option autoImplicit false
set_option linter.unusedVariables false

/-!
# The same quantities as expressions of an input file (C81)
-/

namespace Hexed.Flow
open Hexed.Force
noncomputable section
variable {nd nq q : Nat} {state bulk lap tss : Nat → ℝ} {space : Vars}

/-- The names `hil_properties::state` defines. -/
def stateNames : List String := ["momentum0", "momentum1", "momentum2", "density", "energy", "bulk_art_visc", "laplacian_art_visc", "tss"]

theorem hilState_eq (hnd : 1 ≤ nd ∧ nd ≤ 3) (nq q : Nat) (state bulk lap tss : Nat → ℝ) (space : Vars) :
    (∀ i < 3, hilState nd nq state bulk lap tss q space (suffixed "momentum" i) = some (if i < nd then state (i * nq + q) else 0)) ∧
    hilState nd nq state bulk lap tss q space "density" = some (state (nd * nq + q)) ∧
    hilState nd nq state bulk lap tss q space "energy" = some (state ((nd + 1) * nq + q)) ∧
    hilState nd nq state bulk lap tss q space "bulk_art_visc" = some (bulk q) ∧
    hilState nd nq state bulk lap tss q space "laplacian_art_visc" = some (lap q) ∧
    hilState nd nq state bulk lap tss q space "tss" = some (tss q) ∧
    ∀ name, name ∉ stateNames → hilState nd nq state bulk lap tss q space name = space name := by
  obtain ⟨-, -, -, -, -, -, c0, c1, c2, -⟩ := suffix_cases
  obtain ⟨h1, h3⟩ := hnd
  have hr : nd = 1 ∨ nd = 2 ∨ nd = 3 := by omega
  rcases hr with rfl | rfl | rfl <;>
  · refine ⟨fun i hi => ?_, ?_, ?_, ?_, ?_, ?_, fun name hn => ?_⟩
    · have : i = 0 ∨ i = 1 ∨ i = 2 := by omega
      rcases this with rfl | rfl | rfl <;> simp [hilState, List.range_succ, Vars.assign, c0, c1, c2]
    · simp [hilState, List.range_succ, Vars.assign, c0, c1, c2]
    · simp [hilState, List.range_succ, Vars.assign, c0, c1, c2]
    · simp [hilState, List.range_succ, Vars.assign, c0, c1, c2]
    · simp [hilState, List.range_succ, Vars.assign, c0, c1, c2]
    · simp [hilState, List.range_succ, Vars.assign, c0, c1, c2]
    · simp only [stateNames, List.mem_cons, List.not_mem_nil, or_false, not_or] at hn
      simp [hilState, List.range_succ, Vars.assign, c0, c1, c2, hn]

/-- Evaluating `state_vars` where momentum, density and energy are defined. -/
theorem stateVars_eq {s : Vars} {m : Nat → ℝ} {rho E g R : ℝ} (hm : ∀ i < 3, s (suffixed "momentum" i) = some (m i)) (hd : s "density" = some rho)
    (he : s "energy" = some E) (hg : s "heat_rat" = some g) (hR : s "specific_gas_air" = some R) (hrho : rho ≠ 0) (hR0 : R ≠ 0) {V P c : ℝ}
    (hV : V = √((m 0 / rho) ^ 2 + (m 1 / rho) ^ 2 + (m 2 / rho) ^ 2)) (hP : P = (g - 1) * (E - 1 / 2 * rho * V ^ 2)) (hc : c = √(g * P / rho)) (hpos : 0 < g * P / rho) :
    stateVars s = some ((((((((s.assign "velocity0" (m 0 / rho)).assign "velocity1" (m 1 / rho)).assign "velocity2" (m 2 / rho)).assign "speed" V).assign "pressure" P).assign
      "temperature" (P / (rho * R))).assign "mach" (V / c))) := by
  obtain ⟨-, -, -, -, -, -, c0, c1, c2, d0, d1, d2, -⟩ := suffix_cases
  have m0 := hm 0 (by omega); have m1 := hm 1 (by omega); have m2 := hm 2 (by omega)
  rw [c0] at m0; rw [c1] at m1; rw [c2] at m2
  have h1 : velocityExpr s = some (((s.assign "velocity0" (m 0 / rho)).assign "velocity1" (m 1 / rho)).assign "velocity2" (m 2 / rho)) := by
    simp [velocityExpr, c0, c1, c2, d0, d1, d2, m0, m1, m2, hd, quot, hrho, Vars.assign]
  have hnn : ¬ (m 0 / rho) ^ 2 + (m 1 / rho) ^ 2 + (m 2 / rho) ^ 2 < 0 := not_lt.2 (by positivity)
  have h2 : speedExpr (((s.assign "velocity0" (m 0 / rho)).assign "velocity1" (m 1 / rho)).assign "velocity2" (m 2 / rho)) =
      some ((((s.assign "velocity0" (m 0 / rho)).assign "velocity1" (m 1 / rho)).assign "velocity2" (m 2 / rho)).assign "speed" V) := by
    simp only [speedExpr, get_assign]
    simp only [reduceCtorEq, if_true, String.reduceEq, if_false, Option.bind_some]
    rw [root, if_neg hnn, Option.bind_some, hV]
  generalize hs1 : ((s.assign "velocity0" (m 0 / rho)).assign "velocity1" (m 1 / rho)).assign "velocity2" (m 2 / rho) = s1 at h1 h2
  have o1 : ∀ x, x ≠ "velocity0" → x ≠ "velocity1" → x ≠ "velocity2" → s1 x = s x := fun x a b c => by rw [← hs1]; simp [Vars.assign, a, b, c]
  have h3 : pressureExpr (s1.assign "speed" V) = some ((s1.assign "speed" V).assign "pressure" P) := by
    simp only [pressureExpr, get_assign, String.reduceEq, if_true, if_false, Option.bind_some]
    rw [o1 _ (by decide) (by decide) (by decide), hg, Option.bind_some, o1 _ (by decide) (by decide) (by decide), he, Option.bind_some, o1 _ (by decide) (by decide) (by decide), hd,
      Option.bind_some, hP]
  have h4 : temperatureExpr ((s1.assign "speed" V).assign "pressure" P) = some (((s1.assign "speed" V).assign "pressure" P).assign "temperature" (P / (rho * R))) := by
    simp only [temperatureExpr, get_assign, String.reduceEq, if_true, if_false, Option.bind_some]
    rw [o1 _ (by decide) (by decide) (by decide), hd, Option.bind_some, o1 _ (by decide) (by decide) (by decide), hR, Option.bind_some, quot, if_neg (mul_ne_zero hrho hR0), Option.bind_some]
  have hc0 : c ≠ 0 := by rw [hc]; exact (Real.sqrt_pos.2 hpos).ne'
  have h5 : machExpr (((s1.assign "speed" V).assign "pressure" P).assign "temperature" (P / (rho * R))) =
      some ((((s1.assign "speed" V).assign "pressure" P).assign "temperature" (P / (rho * R))).assign "mach" (V / c)) := by
    simp only [machExpr, get_assign, String.reduceEq, if_true, if_false, Option.bind_some]
    rw [o1 _ (by decide) (by decide) (by decide), hg, Option.bind_some, o1 _ (by decide) (by decide) (by decide), hd, Option.bind_some, quot, if_neg hrho, Option.bind_some, root,
      if_neg (not_lt.2 hpos.le), Option.bind_some, ← hc, quot, if_neg hc0, Option.bind_some]
  rw [stateVars, m0, m1, m2, hd, he]
  simp only [Option.bind_some]
  rw [h1, Option.bind_some, h2, Option.bind_some, h3, Option.bind_some, h4, Option.bind_some, h5]

theorem sum_pad {v : List ℝ} (h : 1 ≤ v.length ∧ v.length ≤ 3) : v.getD 0 0 ^ 2 + v.getD 1 0 ^ 2 + v.getD 2 0 ^ 2 = (v.map fun x => x ^ 2).sum := by
  match v, h with
  | [a], _ => simp
  | [a, b], _ => simp
  | [a, b, c], _ => simp; ring

/-- The expressions `state_vars` at a quadrature point where the gas has the given velocity, density and pressure: components the problem does not have are zero. -/
theorem hil_exact {v : List ℝ} {g rho p R : ℝ} (hnd : 1 ≤ v.length ∧ v.length ≤ 3) (hg : 1 < g) (hr : 0 < rho) (hp : 0 < p) (hR : 0 < R)
    (hstate : ∀ (i : Nat), (gas g v rho p)[i]? = if i < v.length + 2 then some (state (i * nq + q)) else none)
    (hsg : space "heat_rat" = some g) (hsR : space "specific_gas_air" = some R) :
    ∃ s, stateVars (hilState v.length nq state bulk lap tss q space) = some s ∧
      (∀ i < 3, s (suffixed "velocity" i) = some (v.getD i 0) ∧ s (suffixed "momentum" i) = some (rho * v.getD i 0)) ∧
      s "density" = some rho ∧ s "energy" = some (p / (g - 1) + 1 / 2 * rho * speed v ^ 2) ∧ s "speed" = some (speed v) ∧ s "pressure" = some p ∧
      s "temperature" = some (p / (rho * R)) ∧ s "mach" = some (speed v / √(g * p / rho)) := by
  obtain ⟨h1, h2, h3, -, -, -, h7⟩ := hilState_eq hnd nq q state bulk lap tss space
  have hmass : state (v.length * nq + q) = rho := by
    have := hstate v.length
    rw [if_pos (by omega)] at this
    have h := gas_mass g v rho p
    rw [at?, this] at h
    exact Option.some.inj h
  have hen : state ((v.length + 1) * nq + q) = p / (g - 1) + 1 / 2 * rho * speed v ^ 2 := by
    have := hstate (v.length + 1)
    rw [if_pos (by omega)] at this
    have h := gas_energy g v rho p
    rw [at?, this] at h
    rw [speed_sq]
    exact Option.some.inj h
  have hmom : ∀ i, (if i < v.length then state (i * nq + q) else 0) = rho * v.getD i 0 := by
    intro i
    split
    · rename_i hi
      have := hstate i
      rw [if_pos (by omega), gas, List.getElem?_append_left (by simpa using hi), List.getElem?_map, List.getElem?_eq_getElem hi, Option.map_some] at this
      rw [← Option.some.inj this, List.getD_eq_getElem?_getD, List.getElem?_eq_getElem hi, Option.getD_some]
    · rename_i hi
      rw [List.getD_eq_getElem?_getD, List.getElem?_eq_none (by omega), Option.getD_none, mul_zero]
  have hq : ∀ i, (fun i => rho * v.getD i 0) i / rho = v.getD i 0 := fun i => mul_div_cancel_left₀ _ hr.ne'
  have hV : speed v = √(((fun i => rho * v.getD i 0) 0 / rho) ^ 2 + ((fun i => rho * v.getD i 0) 1 / rho) ^ 2 + ((fun i => rho * v.getD i 0) 2 / rho) ^ 2) := by
    rw [hq, hq, hq, sum_pad hnd, speed]
  have hP : p = (g - 1) * (p / (g - 1) + 1 / 2 * rho * speed v ^ 2 - 1 / 2 * rho * speed v ^ 2) := by
    have : g - 1 ≠ 0 := by linarith
    field_simp
    ring
  have hpos : 0 < g * p / rho := by positivity
  have hev := stateVars_eq (s := hilState v.length nq state bulk lap tss q space) (m := fun i => rho * v.getD i 0) (fun i hi => (h1 i hi).trans (congrArg some (hmom i)))
    (h2.trans (congrArg some hmass)) (h3.trans (congrArg some hen)) ((h7 "heat_rat" (by decide)).trans hsg) ((h7 "specific_gas_air" (by decide)).trans hsR) hr.ne' hR.ne' hV hP rfl hpos
  simp only [hq] at hev
  refine ⟨_, hev, fun i hi => ?_, ?_, ?_, ?_, ?_, ?_, ?_⟩
  · obtain ⟨-, -, -, -, -, -, c0, c1, c2, d0, d1, d2, -⟩ := suffix_cases
    have hm := (h1 i hi).trans (congrArg some (hmom i))
    have : i = 0 ∨ i = 1 ∨ i = 2 := by omega
    rcases this with rfl | rfl | rfl
    · rw [c0] at hm ⊢; rw [d0]; simp only [get_assign, String.reduceEq, if_true, if_false, hm, and_self]
    · rw [c1] at hm ⊢; rw [d1]; simp only [get_assign, String.reduceEq, if_true, if_false, hm, and_self]
    · rw [c2] at hm ⊢; rw [d2]; simp only [get_assign, String.reduceEq, if_true, if_false, hm, and_self]
  · simp only [get_assign, String.reduceEq, if_false]; rw [h2, hmass]
  · simp only [get_assign, String.reduceEq, if_false]; rw [h3, hen]
  all_goals simp only [get_assign, String.reduceEq, if_true, if_false]

/-- The classes and the expressions agree. -/
theorem class_hil_agree {v : List ℝ} {g rho p R : ℝ} (hnd : 1 ≤ v.length ∧ v.length ≤ 3) (hg : 1 < g) (hr : 0 < rho) (hp : 0 < p) (hR : 0 < R)
    (hstate : ∀ (i : Nat), (gas g v rho p)[i]? = if i < v.length + 2 then some (state (i * nq + q)) else none)
    (hsg : space "heat_rat" = some g) (hsR : space "specific_gas_air" = some R) {pos : Nat → List ℝ} (hpos : (pos q).length = v.length) (time : ℝ) :
    ∃ s, stateVars (hilState v.length nq state bulk lap tss q space) = some s ∧
      (s "pressure").map (fun x => [x]) = atQpoint (pressure g) (v.length + 2) nq state pos time q ∧
      (s "mach").map (fun x => [x]) = atQpoint (mach g) (v.length + 2) nq state pos time q ∧
      (s "density").map (fun x => [x]) = atQpoint mass (v.length + 2) nq state pos time q ∧
      ∀ r, atQpoint velocity (v.length + 2) nq state pos time q = some r → ∀ i < v.length, s (suffixed "velocity" i) = r[i]? := by
  obtain ⟨s, h1, h2, h3, -, -, h6, -, h8⟩ := hil_exact (bulk := bulk) (lap := lap) (tss := tss) hnd hg hr hp hR hstate hsg hsR
  have hq : ∀ f : DomainFn, atQpoint f (v.length + 2) nq state pos time q = f (pos q) time (gas g v rho p) := fun f =>
    qpoint_state f (gas_length g v rho p) fun i hi => by
      have := hstate i
      rw [gas_length] at hi
      rw [if_pos hi, List.getElem?_eq_getElem (by rw [gas_length]; exact hi)] at this
      exact (Option.some.inj this).symm
  obtain ⟨f1, f2, f3⟩ := flow_exact (p := p) (time := time) hg.ne' hr.ne' hpos
  refine ⟨s, h1, ?_, ?_, ?_, fun r hrr i hi => ?_⟩
  · rw [h6, hq, f3]; rfl
  · rw [h8, hq, mach_exact hg.ne' (by linarith) hr hp hpos]; rfl
  · rw [h3, hq, f2]; rfl
  · rw [hq, f1] at hrr
    obtain rfl := Option.some.inj hrr
    rw [(h2 i (by omega)).1, List.getD_eq_getElem?_getD, List.getElem?_eq_getElem hi, Option.getD_some]

/-- `residual_expr` reads variables that are defined nowhere in the program: unless the user defines them, it fails. -/
theorem residual_refuted {nd : Nat} (hnd : 1 ≤ nd ∧ nd ≤ 3) (nq q : Nat) (state bulk lap tss : Nat → ℝ) (space : Vars) (h : space "prev_momentum0" = none) :
    residualExpr (hilState nd nq state bulk lap tss q space) = none := by
  obtain ⟨h1, -, -, -, -, -, h7⟩ := hilState_eq hnd nq q state bulk lap tss space
  obtain ⟨-, -, -, -, -, -, c0, -⟩ := suffix_cases
  have hp := (h7 "prev_momentum0" (by decide)).trans h
  have hm := h1 0 (by omega)
  rw [c0] at hm
  rw [residualExpr, List.foldlM_cons, hm, Option.bind_some, show "prev_" ++ "momentum0" = "prev_momentum0" by decide, hp]
  rfl

/-- The pressure coefficient is the pressure above that of the freestream in units of the dynamic pressure of the freestream. -/
theorem pressure_coef_exact {s : Vars} {p p0 rho V : ℝ} (h1 : s "pressure" = some p) (h2 : s "freestream_pressure" = some p0) (h3 : s "freestream_density" = some rho)
    (h4 : s "freestream_speed" = some V) (hr : 0 < rho) (hV : 0 < V) :
    ∃ c, pressureCoefExpr s = some (s.assign "pressure_coef" c) ∧ p = p0 + c * (rho * V ^ 2 / 2) := by
  have h0 : (1 / 2 * rho * V ^ 2 : ℝ) ≠ 0 := by positivity
  refine ⟨(p - p0) / (1 / 2 * rho * V ^ 2), ?_, by field_simp; ring⟩
  rw [pressureCoefExpr, h1, h2, h3, h4]
  simp only [Option.bind_some]
  rw [quot, if_neg h0, Option.bind_some]

/-- The skin friction coefficient is the size of the viscous stress over the dynamic pressure. -/
theorem skin_friction_exact {s : Vars} {a b c rho V : ℝ} (h1 : s "visc_stress0" = some a ∧ s "visc_stress1" = some b ∧ s "visc_stress2" = some c) (h3 : s "freestream_density" = some rho)
    (h4 : s "freestream_speed" = some V) (hr : 0 < rho) (hV : 0 < V) :
    ∃ x, skinFrictionExpr s = some (s.assign "skin_friction_coef" x) ∧ 0 ≤ x ∧ a ^ 2 + b ^ 2 + c ^ 2 = (x * (rho * V ^ 2 / 2)) ^ 2 := by
  have h0 : (1 / 2 * rho * V ^ 2 : ℝ) ≠ 0 := by positivity
  have hn : 0 ≤ a ^ 2 + b ^ 2 + c ^ 2 := by positivity
  refine ⟨√(a ^ 2 + b ^ 2 + c ^ 2) / (1 / 2 * rho * V ^ 2), ?_, by positivity, ?_⟩
  · rw [skinFrictionExpr, h1.1, h1.2.1, h1.2.2, h3, h4]
    simp only [Option.bind_some]
    rw [root, if_neg (not_lt.2 hn), Option.bind_some, quot, if_neg h0, Option.bind_some]
  · rw [show √(a ^ 2 + b ^ 2 + c ^ 2) / (1 / 2 * rho * V ^ 2) * (rho * V ^ 2 / 2) = √(a ^ 2 + b ^ 2 + c ^ 2) by field_simp, Real.sq_sqrt hn]

end
end Hexed.Flow
