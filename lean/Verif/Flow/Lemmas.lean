import Verif.Flow.Spec
set_option autoImplicit false
set_option linter.unusedVariables false

/-!
# Evaluating functions of the flow
-/

namespace Hexed.Flow
open Hexed.Force
noncomputable section
variable {g rho p : ℝ} {v : List ℝ}

theorem get_assign (s : Vars) (name n : String) (x : ℝ) : s.assign name x n = if n = name then some x else s n := rfl

theorem gas_length (g : ℝ) (v : List ℝ) (rho p : ℝ) : (gas g v rho p).length = v.length + 2 := by simp [gas]

theorem gas_take (g : ℝ) (v : List ℝ) (rho p : ℝ) : (gas g v rho p).take v.length = v.map fun x => rho * x := by
  rw [gas]
  exact List.take_left' (by simp)

theorem gas_mass (g : ℝ) (v : List ℝ) (rho p : ℝ) : at? (gas g v rho p) v.length = some rho := by
  rw [at?, gas, List.getElem?_append_right (by simp)]
  simp

theorem gas_energy (g : ℝ) (v : List ℝ) (rho p : ℝ) : at? (gas g v rho p) (v.length + 1) = some (p / (g - 1) + 1 / 2 * rho * (v.map fun x => x ^ 2).sum) := by
  rw [at?, gas, List.getElem?_append_right (by simp)]
  simp

theorem dims_gas (g : ℝ) (v : List ℝ) (rho p : ℝ) : dims (gas g v rho p) = some v.length := by
  rw [dims, gas_length, if_neg (by omega)]
  simp

theorem squares_gas (g : ℝ) (v : List ℝ) (rho p : ℝ) : squares (gas g v rho p) v.length = rho ^ 2 * (v.map fun x => x ^ 2).sum := by
  rw [squares, gas_take]
  induction v with
  | nil => simp
  | cons x l ih =>
    simp only [List.map_cons, List.sum_cons]
    rw [ih]
    ring

theorem squares_nonneg (v : List ℝ) : 0 ≤ (v.map fun x => x ^ 2).sum := by
  apply List.sum_nonneg
  intro x hx
  obtain ⟨y, _, rfl⟩ := List.mem_map.1 hx
  positivity

theorem speed_sq (v : List ℝ) : speed v ^ 2 = (v.map fun x => x ^ 2).sum := Real.sq_sqrt (squares_nonneg v)

theorem kinPres_gas (hg : g ≠ 1) (hr : rho ≠ 0) (v : List ℝ) (p : ℝ) :
    kinPres g (gas g v rho p) = some (1 / 2 * rho * speed v ^ 2, p, p / (g - 1) + 1 / 2 * rho * speed v ^ 2) := by
  have hg' : g - 1 ≠ 0 := sub_ne_zero.2 hg
  rw [kinPres, dims_gas, Option.bind_some, gas_mass, Option.bind_some, gas_energy, Option.bind_some, squares_gas, quot, if_neg hr, Option.bind_some, ← speed_sq]
  congr 1
  refine Prod.ext ?_ (Prod.ext ?_ rfl)
  · show 1 / 2 * (rho ^ 2 * speed v ^ 2) / rho = _
    field_simp
  · show (g - 1) * (p / (g - 1) + 1 / 2 * rho * speed v ^ 2 - 1 / 2 * (rho ^ 2 * speed v ^ 2) / rho) = p
    field_simp
    ring

end
end Hexed.Flow
