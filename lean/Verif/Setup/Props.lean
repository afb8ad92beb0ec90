import Verif.Setup.Spec
import Verif.Solver.Wall
import Verif.Free.Lemmas
set_option autoImplicit false
set_option linter.unusedVariables false

/-!
# C84: a case is set up as the input file says — walls, boundary conditions, transport models
-/

namespace Hexed.Setup
open Hexed.Pde Hexed.Force Hexed.Solver Hexed.Spatial
noncomputable section

theorem num_some {s : Space} {x : String} {v : ℝ} : s.num x = some v ↔ s.Is x v := by
  unfold Space.num Space.Is
  rcases s x with _ | _ | _ <;> simp

theorem has_false {s : Space} {x : String} : s.has x = false ↔ s.Lacks x := by
  unfold Space.has Space.Lacks
  cases s x <;> simp

theorem has_of_is {s : Space} {x : String} {v : ℝ} (h : s.Is x v) : s.has x = true := by
  unfold Space.has; rw [h]; rfl

/-- C84: the thermal boundary condition is the one specified, and any other set of variables is rejected. -/
theorem thermal_exact (s : Space) (b : Thermal) : thermal s = some b ↔ Specified s b := by
  have hg : gasAir = 28705287 / 100000 := rfl
  have hr : heatRat - 1 = 2 / 5 := by norm_num [heatRat]
  unfold thermal member
  constructor
  · intro h
    by_cases h1 : s.has "heat_flux" = true
    · rw [if_pos h1, Option.map_eq_some_iff] at h
      obtain ⟨q, hq, rfl⟩ := h
      exact .heat_flux q (num_some.1 hq)
    rw [if_neg h1] at h
    have l1 := has_false.1 (by simpa using h1)
    by_cases h2 : (s.has "emissivity" || s.has "heat_transfer_coef") = true
    · rw [if_pos h2] at h
      by_cases h3 : s.has "heat_transfer_coef" = s.has "temperature"
      · rw [if_pos h3] at h
        simp only [Option.bind_eq_some_iff, Option.map_eq_some_iff] at h
        obtain ⟨eps, h4, k, h5, t, h6, rfl⟩ := h
        by_cases he : s.has "emissivity" = true <;> by_cases hc : s.has "heat_transfer_coef" = true
        · rw [if_pos he] at h4; rw [if_pos hc] at h5 h6
          exact .both _ _ _ l1 (num_some.1 h4) (num_some.1 h5) (num_some.1 h6)
        · rw [if_pos he] at h4; rw [if_neg hc] at h5 h6
          obtain rfl := Option.some.inj h5
          obtain rfl := Option.some.inj h6
          have hc' : s.has "heat_transfer_coef" = false := by simpa using hc
          exact .radiation _ l1 (num_some.1 h4) (has_false.1 hc') (has_false.1 (h3 ▸ hc'))
        · rw [if_neg he] at h4; rw [if_pos hc] at h5 h6
          obtain rfl := Option.some.inj h4
          exact .conduction _ _ l1 (has_false.1 (by simpa using he)) (num_some.1 h5) (num_some.1 h6)
        · simp [he, hc] at h2
      · rw [if_neg h3] at h; cases h
    · rw [if_neg h2] at h
      simp only [Bool.or_eq_true, not_or, Bool.not_eq_true] at h2
      have l2 := has_false.1 h2.1
      have l3 := has_false.1 h2.2
      by_cases h3 : s.has "internal_energy" = true
      · rw [if_pos h3, Option.map_eq_some_iff] at h
        obtain ⟨q, hq, rfl⟩ := h
        exact .internal_energy q l1 l2 l3 (num_some.1 hq)
      rw [if_neg h3] at h
      by_cases h4 : s.has "temperature" = true
      · rw [if_pos h4, Option.map_eq_some_iff] at h
        obtain ⟨q, hq, rfl⟩ := h
        rw [hg, hr]
        exact .temperature q l1 l2 l3 (has_false.1 (by simpa using h3)) (num_some.1 hq)
      · rw [if_neg h4] at h; cases h
  · intro h
    cases h with
    | heat_flux q h => rw [if_pos (has_of_is h), num_some.2 h]; rfl
    | internal_energy e h1 h2 h3 h4 => simp [has_false.2 h1, has_false.2 h2, has_false.2 h3, has_of_is h4, num_some.2 h4]
    | temperature t h1 h2 h3 h4 h5 => simp [has_false.2 h1, has_false.2 h2, has_false.2 h3, has_false.2 h4, has_of_is h5, num_some.2 h5, hg, hr]
    | radiation e h1 h2 h3 h4 => simp [has_false.2 h1, has_of_is h2, has_false.2 h3, has_false.2 h4, num_some.2 h2]
    | conduction h t h1 h2 h3 h4 => simp [has_false.2 h1, has_false.2 h2, has_of_is h3, has_of_is h4, num_some.2 h3, num_some.2 h4]
    | both e h t h1 h2 h3 h4 => simp [has_false.2 h1, has_of_is h2, has_of_is h3, has_of_is h4, num_some.2 h2, num_some.2 h3, num_some.2 h4]

/-- C84: prescribing internal energy `e` is the same as prescribing temperature `e (γ-1) / R`, as documented. -/
theorem energy_temperature (s s' : Space) (e : ℝ) (h : ∀ x, x = "heat_flux" ∨ x = "emissivity" ∨ x = "heat_transfer_coef" → s.Lacks x ∧ s'.Lacks x)
    (h1 : s.Is "internal_energy" e) (h2 : s'.Lacks "internal_energy") (h3 : s'.Is "temperature" (e * (7 / 5 - 1) / (28705287 / 100000))) :
    ∃ b, thermal s = some b ∧ thermal s' = some b := by
  refine ⟨.energy e, (thermal_exact _ _).2 (.internal_energy e (h _ (by simp)).1 (h _ (by simp)).1 (h _ (by simp)).1 h1), ?_⟩
  have := (thermal_exact s' _).2 (.temperature _ (h _ (by simp)).2 (h _ (by simp)).2 (h _ (by simp)).2 h2 h3)
  rw [this]
  congr 2
  ring

/-- C84: at a wall of prescribed heat flux, with the default coercion, that heat flux flows out of the domain, whatever the flow. -/
theorem heat_flux_exact (nd : Nat) (q : ℝ) (n u f : Nat → ℝ) (sign : ℝ) (hs : sign * sign = 1) (hn : 0 < dotN nd n n) :
    wallHeatFlux nd 2 (.heatFlux q) n sign u f = q := by
  have h := (no_slip_diffusion nd ((Thermal.heatFlux q).ghostHeatFlux nd) (noSlipCache nd ((Thermal.heatFlux q).ghostEnergy nd) u) n f sign hs).2
  rw [wallHeatFlux, h]
  have := (Real.sqrt_pos.2 hn).ne'
  simp only [Thermal.ghostHeatFlux, prescribedHeatFlux]
  field_simp

/-- C84: at a wall of prescribed energy or temperature the heat flux is that of the flow, and the geometric mean of the energies on both sides is the prescribed one per mass;
with temperature `T` that is the energy of gas at rest at this temperature. -/
theorem temperature_exact (nd : Nat) (T : ℝ) (n u f : Nat → ℝ) (sign : ℝ) (hs : sign * sign = 1) (hn : 0 < dotN nd n n) (hE : 0 < u (nd + 1)) (hT : 0 ≤ T) (hm : 0 < u nd)
    {s : Space} {b : Thermal} (hb : Specified s b) (ht : s.Is "temperature" T) (h1 : s.Lacks "heat_flux") (h2 : s.Lacks "emissivity") (h3 : s.Lacks "heat_transfer_coef") (h4 : s.Lacks "internal_energy") :
    wallHeatFlux nd 2 b n sign u f = insideHeatFlux nd n sign f ∧
    temperatureOf nd (fun i => if i < nd then 0 else if i = nd then u nd else √(u (nd + 1) * noSlipState nd (b.ghostEnergy nd) u (nd + 1))) = T := by
  have hb' := (thermal_exact s b).2 hb
  rw [(thermal_exact s _).2 (.temperature T h1 h2 h3 h4 ht)] at hb'
  obtain rfl := Option.some.inj hb'
  constructor
  · have h := (no_slip_diffusion nd ((Thermal.energy (T * (28705287 / 100000) / (2 / 5))).ghostHeatFlux nd) (noSlipCache nd ((Thermal.energy (T * (28705287 / 100000) / (2 / 5))).ghostEnergy nd) u) n f sign hs).2
    rw [wallHeatFlux, h, insideHeatFlux]
    have := (Real.sqrt_pos.2 hn).ne'
    simp only [Thermal.ghostHeatFlux, prescribedEnergyFlux]
    field_simp
  · have n1 : ¬ nd + 1 < nd := by omega
    have n2 : ¬ nd + 1 = nd := by omega
    have hz : dotN nd (fun i => if i < nd then (0 : ℝ) else if i = nd then u nd else √(u (nd + 1) * noSlipState nd ((Thermal.energy (T * (28705287 / 100000) / (2 / 5))).ghostEnergy nd) u (nd + 1)))
        (fun i => if i < nd then (0 : ℝ) else if i = nd then u nd else √(u (nd + 1) * noSlipState nd ((Thermal.energy (T * (28705287 / 100000) / (2 / 5))).ghostEnergy nd) u (nd + 1))) = 0 :=
      Finset.sum_eq_zero fun i hi => by simp [Finset.mem_range.1 hi]
    rw [temperatureOf, Pres, hz]
    simp only [if_neg n1, if_neg n2, lt_irrefl, if_false, if_true, zero_div, sub_zero]
    have := no_slip_energy nd (T * (28705287 / 100000) / (2 / 5)) u hE (by positivity) hm
    simp only [Thermal.ghostEnergy]
    rw [this]
    field_simp

/-- C84: at a wall in thermal equilibrium the heat flux is that of radiation after Stefan and Boltzmann plus conduction, at the temperature of the average of the states on both sides. -/
theorem equilibrium_exact (nd : Nat) (eps h T : ℝ) (n u f : Nat → ℝ) (sign : ℝ) (hs : sign * sign = 1) (hn : 0 < dotN nd n n) (hE : u (nd + 1) ≠ 0) :
    (∀ i < nd, wallState nd (.equilibrium eps h T) u i = 0) ∧ wallState nd (.equilibrium eps h T) u nd = u nd ∧ wallState nd (.equilibrium eps h T) u (nd + 1) = u (nd + 1) ∧
    wallHeatFlux nd 2 (.equilibrium eps h T) n sign u f =
      eps * (2 * Real.pi ^ 5 * (1.380649e-23) ^ 4 / (15 * 299792458 ^ 2 * (6.62607015e-34) ^ 3)) * temperatureOf nd (wallState nd (.equilibrium eps h T) u) ^ 4 +
        h * (temperatureOf nd (wallState nd (.equilibrium eps h T) u) - T) := by
  have n1 : ¬ nd + 1 < nd := by omega
  have n2 : ¬ nd + 1 = nd := by omega
  have w1 : ∀ i < nd, wallState nd (.equilibrium eps h T) u i = 0 := fun i hi => by simp [wallState, noSlipState, hi]
  have w2 : wallState nd (.equilibrium eps h T) u nd = u nd := by simp [wallState, noSlipState]
  have w3 : wallState nd (.equilibrium eps h T) u (nd + 1) = u (nd + 1) := by
    simp only [wallState, noSlipState, if_neg n1, if_neg n2, Thermal.ghostEnergy, keepEnergy]
    field_simp
    ring
  have hc : noSlipCache nd ((Thermal.equilibrium eps h T).ghostEnergy nd) u = wallState nd (.equilibrium eps h T) u := by
    funext i; rw [noSlipCache, wallState, add_comm]
  refine ⟨w1, w2, w3, ?_⟩
  have hd := (no_slip_diffusion nd ((Thermal.equilibrium eps h T).ghostHeatFlux nd) (noSlipCache nd ((Thermal.equilibrium eps h T).ghostEnergy nd) u) n f sign hs).2
  have hz : dotN nd (wallState nd (.equilibrium eps h T) u) (wallState nd (.equilibrium eps h T) u) = 0 :=
    Finset.sum_eq_zero fun i hi => by simp [w1 i (Finset.mem_range.1 hi)]
  have ht : temperatureOf nd (wallState nd (.equilibrium eps h T) u) = u (nd + 1) * (4 / 10) / u nd / gasAir := by
    rw [temperatureOf, Pres, hz, w2, w3, gasAir]; ring
  rw [wallHeatFlux, hd, hc, ht]
  have := (Real.sqrt_pos.2 hn).ne'
  simp only [Thermal.ghostHeatFlux, equilibriumFlux, w2, w3]
  rw [mul_div_cancel_left₀ _ this]
  simp only [stefanBoltzmann, boltzmann, lightSpeed, plank]
  norm_num

/-- C84: with another coercion the heat flux through the wall approaches the prescribed one `q` from that of the flow by half the coercion; so both agree just if the flow has the prescribed one. -/
theorem coercion_exact (nd : Nat) (c q : ℝ) (n u f : Nat → ℝ) (sign : ℝ) (hs : sign * sign = 1) (hn : 0 < dotN nd n n) :
    wallHeatFlux nd c (.heatFlux q) n sign u f = insideHeatFlux nd n sign f + c / 2 * (q - insideHeatFlux nd n sign f) ∧
    (c ≠ 0 → (wallHeatFlux nd c (.heatFlux q) n sign u f = insideHeatFlux nd n sign f ↔ insideHeatFlux nd n sign f = q)) := by
  have key : wallHeatFlux nd c (.heatFlux q) n sign u f = insideHeatFlux nd n sign f + c / 2 * (q - insideHeatFlux nd n sign f) := by
    have n1 : ¬ nd + 1 < nd := by omega
    have n2 : ¬ nd + 1 = nd := by omega
    have hnn : norm nd n = √(dotN nd n n) := rfl
    have := (Real.sqrt_pos.2 hn).ne'
    simp only [wallHeatFlux, insideHeatFlux, noSlipFlux, if_neg n1, if_neg n2, Thermal.ghostHeatFlux, prescribedHeatFlux, hnn]
    field_simp
    linear_combination (√(dotN nd n n) * c * q) * hs
  refine ⟨key, fun hc => ?_⟩
  rw [key]
  constructor
  · intro h
    have : c / 2 * (q - insideHeatFlux nd n sign f) = 0 := by linarith
    rcases mul_eq_zero.1 this with h | h
    · exact absurd (by linarith) hc
    · linarith
  · rintro rfl; ring

/-- C84: with the default `thermal_bc` no energy flows through a no-slip wall, by convection or diffusion. -/
theorem adiabatic (nd : Nat) (visc : Bool) (mu kappa : Transport) (n u f : Nat → ℝ) (sign : ℝ) (hs : sign * sign = 1) (hn : 0 < dotN nd n n)
    {s : Space} {b : Thermal} (h : s.Is "heat_flux" 0) (hb : thermal s = some b) :
    wallHeatFlux nd 2 b n sign u f = 0 ∧ numFlux (ns nd visc mu kappa) nd n u (noSlipState nd (b.ghostEnergy nd) u) (nd + 1) = 0 := by
  rw [(thermal_exact s _).2 (.heat_flux 0 h)] at hb
  obtain rfl := Option.some.inj hb
  exact ⟨heat_flux_exact nd 0 n u f sign hs hn, (no_slip_flux nd visc mu kappa _ n u).2.2 rfl⟩

/-- C84 is false of the documented names: `{emissivity = x; conduction = y; temperature = z}` is rejected, and `{conduction = y; temperature = z}` gives a wall of prescribed temperature. -/
theorem thermal_doc_refuted (x y z : ℝ) :
    thermal (fun v => if v = "emissivity" then some (.num x) else if v = "conduction" then some (.num y) else if v = "temperature" then some (.num z) else none) = none ∧
    thermal (fun v => if v = "conduction" then some (.num y) else if v = "temperature" then some (.num z) else none) = some (.energy (z * (28705287 / 100000) / (2 / 5))) := by
  constructor
  · simp [thermal, Space.has]
  · rw [thermal_exact]
    exact .temperature z rfl rfl rfl rfl rfl

/-- C84: the boundary condition made for a name is the one of that name, with the freestream of the case; other names are rejected. -/
theorem bc_exact (nd : Nat) (s own : Space) (name : String) (b : Bc) :
    makeBc nd s own name = some b ↔ ∃ fs, Free.getVector s.vars "freestream" (nd + 2) = some fs ∧ Named fs s own name b := by
  unfold makeBc
  rcases hfs : Free.getVector s.vars "freestream" (nd + 2) with _ | fs
  · simp
  simp only [Option.bind_some, Option.some.injEq, exists_eq_left']
  have ne : ("freestream" : String) ≠ "characteristic" ∧ ("pressure_outflow" : String) ≠ "characteristic" ∧ ("outflow" : String) ≠ "characteristic" ∧ ("nonpenetration" : String) ≠ "characteristic" ∧
      ("no_slip" : String) ≠ "characteristic" ∧ ("pressure_outflow" : String) ≠ "freestream" ∧ ("outflow" : String) ≠ "freestream" ∧ ("nonpenetration" : String) ≠ "freestream" ∧
      ("no_slip" : String) ≠ "freestream" ∧ ("outflow" : String) ≠ "pressure_outflow" ∧ ("nonpenetration" : String) ≠ "pressure_outflow" ∧ ("no_slip" : String) ≠ "pressure_outflow" ∧
      ("nonpenetration" : String) ≠ "outflow" ∧ ("no_slip" : String) ≠ "outflow" ∧ ("no_slip" : String) ≠ "nonpenetration" := by decide
  obtain ⟨n1, n2, n3, n4, n5, n6, n7, n8, n9, n10, n11, n12, n13, n14, n15⟩ := ne
  constructor
  · intro h
    by_cases h1 : name = "characteristic"
    · rw [if_pos h1] at h; obtain rfl := Option.some.inj h; exact .characteristic h1
    rw [if_neg h1] at h
    by_cases h2 : name = "freestream"
    · rw [if_pos h2] at h; obtain rfl := Option.some.inj h; exact .freestream h2
    rw [if_neg h2] at h
    by_cases h3 : name = "pressure_outflow"
    · rw [if_pos h3, Option.map_eq_some_iff] at h; obtain ⟨p, hp, rfl⟩ := h; exact .pressure_outflow p h3 (num_some.1 hp)
    rw [if_neg h3] at h
    by_cases h4 : name = "outflow"
    · rw [if_pos h4] at h; obtain rfl := Option.some.inj h; exact .outflow h4
    rw [if_neg h4] at h
    by_cases h5 : name = "nonpenetration"
    · rw [if_pos h5] at h; obtain rfl := Option.some.inj h; exact .nonpenetration h5
    rw [if_neg h5] at h
    by_cases h6 : name = "no_slip"
    · rw [if_pos h6, Option.bind_eq_some_iff] at h
      obtain ⟨t, ht, h⟩ := h
      rw [Option.map_eq_some_iff] at h
      obtain ⟨c, hc, rfl⟩ := h
      exact .no_slip t c h6 ((thermal_exact _ _).1 ht) (num_some.1 hc)
    · rw [if_neg h6] at h; cases h
  · intro h
    cases h with
    | characteristic h => rw [if_pos h]
    | freestream h => rw [h, if_neg n1, if_pos rfl]
    | pressure_outflow p h hp => rw [h, if_neg n2, if_neg n6, if_pos rfl, num_some.2 hp]; rfl
    | outflow h => rw [h, if_neg n3, if_neg n7, if_neg n10, if_pos rfl]
    | nonpenetration h => rw [h, if_neg n4, if_neg n8, if_neg n11, if_neg n13, if_pos rfl]
    | no_slip t c h ht hc => rw [h, if_neg n5, if_neg n9, if_neg n12, if_neg n14, if_neg n15, if_pos rfl, (thermal_exact _ _).2 ht, num_some.2 hc]; rfl

/-- C84 is false of `pressure_outflow` where the freestream is given as a state: the freestream has a pressure, but the condition is rejected. -/
theorem pressure_outflow_refuted (nd : Nat) (s own : Space) (fs : Nat → ℝ) (hfs : ∀ i < nd + 2, s.Is (suffixed "freestream" i) (fs i)) (h : s.Lacks "freestream_pressure") :
    makeBc nd s own "pressure_outflow" = none ∧ ∃ b, makeBc nd s own "freestream" = some b := by
  have hv : (Free.getVector s.vars "freestream" (nd + 2)).isSome := Free.getVector_eq.1 fun i hi => by
    have := num_some.2 (hfs i hi)
    rw [Space.vars, this]; rfl
  obtain ⟨v, hv⟩ := Option.isSome_iff_exists.1 hv
  constructor
  · rcases hb : makeBc nd s own "pressure_outflow" with _ | b
    · rfl
    · obtain ⟨fs, _, hn⟩ := (bc_exact nd s own _ b).1 hb
      have ne : ("pressure_outflow" : String) ≠ "characteristic" ∧ ("pressure_outflow" : String) ≠ "freestream" ∧ ("pressure_outflow" : String) ≠ "outflow" ∧
          ("pressure_outflow" : String) ≠ "nonpenetration" ∧ ("pressure_outflow" : String) ≠ "no_slip" := by decide
      cases hn with
      | characteristic h => exact absurd h ne.1
      | freestream h => exact absurd h ne.2.1
      | pressure_outflow p _ hp => rw [Space.Lacks] at h; rw [Space.Is, h] at hp; cases hp
      | outflow h => exact absurd h ne.2.2.1
      | nonpenetration h => exact absurd h ne.2.2.2.1
      | no_slip t c h => exact absurd h ne.2.2.2.2
  · exact ⟨_, (bc_exact nd s own _ _).2 ⟨v, hv, .freestream rfl⟩⟩

end
end Hexed.Setup
