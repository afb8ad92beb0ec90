import Verif.Setup.Domain
set_option autoImplicit false
set_option linter.unusedVariables false

/-!
# C84: concrete cases
-/

namespace Hexed.Setup
open Hexed.Pde Hexed.Force
noncomputable section

/-- A two-dimensional case of a domain of size 2 by 1 with a freestream, a symmetry plane below and an outflow behind. -/
def exSpace : Space := fun v =>
  if v = "freestream0" then some (.num 300) else if v = "freestream1" then some (.num 0) else if v = "freestream2" then some (.num 1) else if v = "freestream3" then some (.num 300000)
  else if v = "heat_flux_coercion" then some (.num 2) else if v = "extremal_bc00" then some (.text "characteristic") else if v = "extremal_bc01" then some (.text "outflow")
  else if v = "extremal_bc10" then some (.text "nonpenetration") else if v = "extremal_bc11" then some (.text "freestream")
  else if v = "mesh_extreme00" then some (.num 0) else if v = "mesh_extreme01" then some (.num 2) else if v = "mesh_extreme10" then some (.num 0) else if v = "mesh_extreme11" then some (.num 1)
  else none

/-- The thermal boundary condition of a wall that radiates and conducts. -/
def exWall : Space := fun v => if v = "emissivity" then some (.num (4 / 5)) else if v = "heat_transfer_coef" then some (.num 100) else if v = "temperature" then some (.num 300) else none

example : thermal exWall = some (.equilibrium (4 / 5) 100 300) := (thermal_exact _ _).2 (.both _ _ _ rfl rfl rfl rfl)

theorem exFree : ∃ fs, Free.getVector exSpace.vars "freestream" 4 = some fs := Option.isSome_iff_exists.1 (Free.getVector_eq.1 fun i hi => by
  rcases (by omega : i = 0 ∨ i = 1 ∨ i = 2 ∨ i = 3) with rfl | rfl | rfl | rfl <;> rfl)

example : ∃ b, makeBc 2 exSpace exWall "no_slip" = some b ∧ b = .noSlip (.equilibrium (4 / 5) 100 300) 2 := by
  obtain ⟨fs, h⟩ := exFree
  exact ⟨_, (bc_exact 2 exSpace exWall _ _).2 ⟨fs, h, .no_slip _ _ rfl (.both _ _ _ rfl rfl rfl rfl) rfl⟩, rfl⟩

example : makeBc 2 exSpace exWall "pressure_outflow" = none :=
  (pressure_outflow_refuted 2 exSpace exWall (fun i => if i = 0 then 300 else if i = 1 then 0 else if i = 2 then 1 else 300000) (fun i hi => by
    rcases (by omega : i = 0 ∨ i = 1 ∨ i = 2 ∨ i = 3) with rfl | rfl | rfl | rfl <;> rfl) rfl).1

/-- The faces of the domain. -/
theorem exExtremal : ∃ bcs, makeExtremalBcs 2 exSpace exWall = some bcs ∧ bcs[2]? = some .nonpenetration := by
  obtain ⟨fs, h⟩ := exFree
  have b0 := (bc_exact 2 exSpace exWall _ _).2 ⟨fs, h, .characteristic rfl⟩
  have b1 := (bc_exact 2 exSpace exWall _ _).2 ⟨fs, h, .outflow rfl⟩
  have b2 := (bc_exact 2 exSpace exWall _ _).2 ⟨fs, h, .nonpenetration rfl⟩
  have b3 := (bc_exact 2 exSpace exWall _ _).2 ⟨fs, h, .freestream rfl⟩
  have n0 : exSpace.str (indexed "extremal_bc" 0 0) = some "characteristic" := rfl
  have n1 : exSpace.str (indexed "extremal_bc" 0 1) = some "outflow" := rfl
  have n2 : exSpace.str (indexed "extremal_bc" 1 0) = some "nonpenetration" := rfl
  have n3 : exSpace.str (indexed "extremal_bc" 1 1) = some "freestream" := rfl
  refine ⟨[.characteristic fs, .outflow, .nonpenetration, .freestream fs], ?_, rfl⟩
  have r2 : List.range 2 = [0, 1] := rfl
  simp only [makeExtremalBcs, r2, List.foldlM_cons, List.foldlM_nil, n0, n1, n2, n3, Option.bind_some, b0, b1, b2, b3, Option.map_some]
  rfl

/-- The domain is the square with side 2, of which the upper half was not asked for. -/
theorem exRoot : ∃ o, root 1 exSpace = some (2, o) ∧ o 0 = 0 ∧ o 1 = 0 := by
  have he : ∀ d ≤ 1, ∀ sign < 2, exSpace.Is (indexed "mesh_extreme" d sign) (if sign = 0 then 0 else if d = 0 then 2 else 1) := fun d hd sign hs => by
    rcases (by omega : d = 0 ∨ d = 1) with rfl | rfl <;> rcases (by omega : sign = 0 ∨ sign = 1) with rfl | rfl <;> rfl
  obtain ⟨sz, o, h1, h2, ⟨d, hd, h3⟩, _⟩ := (root_exact 1 exSpace (fun d sign => if sign = 0 then 0 else if d = 0 then 2 else 1) he).1 fun d hd => by
    rcases (by omega : d = 0 ∨ d = 1) with rfl | rfl <;> norm_num
  have hsz : sz = 2 := by
    have h4 := (h2 0 (by omega)).2
    rcases (by omega : d = 0 ∨ d = 1) with rfl | rfl
    · norm_num at h3; exact h3
    · norm_num at h3 h4; linarith
  subst hsz
  exact ⟨o, h1, (h2 0 (by omega)).1, (h2 1 (by omega)).1⟩

example : ∃ o, root 1 exSpace = some (2, o) ∧ ∃ p c, Tree.get p (Tree.new 2) = some c ∧ c.children = [] ∧ 1 < c.nominalPosition 2 (fun i => o i) 1 + c.nominalSize 2 := by
  obtain ⟨o, h, _⟩ := exRoot
  refine ⟨o, h, ?_⟩
  have he : ∀ d ≤ 1, ∀ sign < 2, exSpace.Is (indexed "mesh_extreme" d sign) (if sign = 0 then 0 else if d = 0 then 2 else 1) := fun d hd sign hs => by
    rcases (by omega : d = 0 ∨ d = 1) with rfl | rfl <;> rcases (by omega : sign = 0 ∨ sign = 1) with rfl | rfl <;> rfl
  obtain ⟨p, c, h1, h2, h3⟩ := extent_refuted exSpace (fun d sign => if sign = 0 then 0 else if d = 0 then 2 else 1) he (fun d hd => by
    rcases (by omega : d = 0 ∨ d = 1) with rfl | rfl <;> norm_num) 1 0 (by norm_num) h Tree.Reachable.new
  exact ⟨p, c, h1, h2, by simpa using h3⟩

/-- A tolerance that is small enough for this mesh. -/
example : ∃ o, root 1 exSpace = some (2, o) ∧ ∃ c, Tree.get (floodCell 2 (fun i => o i) (fun i : Fin 2 => floodStart 1000 (1 / 1000000) (fun d sign => if sign = 0 then 0 else if d = 0 then 2 else 1) (fun _ => 1000) i) (Tree.new 2)) (Tree.new 2) = some c ∧ c.children = [] := by
  obtain ⟨o, h, _⟩ := exRoot
  refine ⟨o, h, ?_⟩
  have he : ∀ d ≤ 1, ∀ sign < 2, exSpace.Is (indexed "mesh_extreme" d sign) (if sign = 0 then 0 else if d = 0 then 2 else 1) := fun d hd sign hs => by
    rcases (by omega : d = 0 ∨ d = 1) with rfl | rfl <;> rcases (by omega : sign = 0 ∨ sign = 1) with rfl | rfl <;> rfl
  obtain ⟨c, h1, h2, _⟩ := flood_default exSpace (fun d sign => if sign = 0 then 0 else if d = 0 then 2 else 1) he (fun d hd => by
    rcases (by omega : d = 0 ∨ d = 1) with rfl | rfl <;> norm_num) h Tree.Reachable.new 1000 (1 / 1000000) (by norm_num) (by norm_num) (fun p c hp => by
      cases p with
      | nil => obtain rfl := Option.some.inj hp; rw [Tree.nominalSize]; norm_num [Tree.new, Tree.rl]
      | cons i p => simp [Tree.get, Tree.new, Tree.children] at hp) (fun _ => 1000) rfl
  exact ⟨c, h1, h2⟩

/-- A radiating wall at 1000 K. -/
example : wallHeatFlux 2 2 (.equilibrium 1 0 0) (fun i => if i = 0 then 1 else 0) 1 (fun i => if i = 2 then 1 else if i = 3 then 28705287 / 100000 * 1000 * 5 / 2 else 0) (fun _ => 7) =
    2 * Real.pi ^ 5 * (1.380649e-23) ^ 4 / (15 * 299792458 ^ 2 * (6.62607015e-34) ^ 3) * 1000 ^ 4 := by
  have h := equilibrium_exact 2 1 0 0 (fun i => if i = 0 then 1 else 0) (fun i => if i = 2 then 1 else if i = 3 then 28705287 / 100000 * 1000 * 5 / 2 else 0) (fun _ => 7) 1 (by norm_num)
    (by simp [dotN, Finset.sum_range_succ]) (by norm_num)
  have ht : temperatureOf 2 (wallState 2 (.equilibrium 1 0 0) (fun i => if i = 2 then 1 else if i = 3 then 28705287 / 100000 * 1000 * 5 / 2 else 0)) = 1000 := by
    rw [temperatureOf, Pres, h.2.1, h.2.2.1]
    have : dotN 2 (wallState 2 (.equilibrium 1 0 0) (fun i => if i = 2 then 1 else if i = 3 then 28705287 / 100000 * 1000 * 5 / 2 else 0))
        (wallState 2 (.equilibrium 1 0 0) (fun i => if i = 2 then 1 else if i = 3 then 28705287 / 100000 * 1000 * 5 / 2 else 0)) = 0 :=
      Finset.sum_eq_zero fun i hi => by rw [h.1 i (Finset.mem_range.1 hi), mul_zero]
    rw [this]
    norm_num
  rw [h.2.2.2, ht]
  ring

example : ∃ m, transport ["ref_value".toList, "ref_temperature".toList, "offset".toList]
    (fun x => if x = "ref_value" then some (.num (1716 / 100000000)) else if x = "ref_temperature" then some (.num 273) else if x = "offset" then some (.num 111) else none) exSpace = .ok m ∧
    m.coefficient (√273) = 1716 / 100000000 := by
  obtain ⟨m, h1, _, h2⟩ := sutherland_exact ["ref_value".toList, "ref_temperature".toList, "offset".toList] (by simp)
    (fun x => if x = "ref_value" then some (.num (1716 / 100000000)) else if x = "ref_temperature" then some (.num 273) else if x = "offset" then some (.num 111) else none) exSpace
    (1716 / 100000000) 273 111 rfl rfl rfl (by norm_num) (by norm_num)
  exact ⟨m, h1, h2⟩

end
end Hexed.Setup
