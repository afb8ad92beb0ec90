import Verif.Free.Props
import Verif.Force.Report
set_option autoImplicit false
set_option linter.unusedVariables false

/-!
# Which specifications of the freestream are accepted, and what they are good for (C80)
-/

namespace Hexed.Free
open Hexed.Force Hexed.Pde
noncomputable section

variable {nd : Nat}

theorem thermo_isSome {s : Vars} (hp : ∀ name ∈ ["freestream_density", "freestream_pressure", "freestream_temperature"], ∀ x, s name = some x → 0 < x) :
    (thermoStep s).isSome ↔ count s ["freestream_density", "freestream_pressure", "freestream_temperature"] = 2 := by
  rw [thermoStep]
  split
  swap; · next h => simp [h]
  next h =>
  simp only [h, iff_true]
  have hg := gasAir_pos.ne'
  rcases count_two.1 h with ⟨h1, h2, h3⟩ | ⟨h1, h2, h3⟩ | ⟨h1, h2, h3⟩
  · obtain ⟨rho, hr⟩ := Option.isSome_iff_exists.1 h1
    obtain ⟨p, hpp⟩ := Option.isSome_iff_exists.1 h2
    have := (hp "freestream_density" (by decide) rho hr).ne'
    rw [if_pos h1, hr, Option.bind_some, withDensity, if_pos h2, hpp, Option.bind_some, quot, if_neg (mul_ne_zero hg this)]
    rfl
  · obtain ⟨rho, hr⟩ := Option.isSome_iff_exists.1 h1
    obtain ⟨T, hT⟩ := Option.isSome_iff_exists.1 h3
    rw [if_pos h1, hr, Option.bind_some, withDensity, if_neg (by rw [h2]; simp), hT]
    rfl
  · obtain ⟨p, hpp⟩ := Option.isSome_iff_exists.1 h2
    obtain ⟨T, hT⟩ := Option.isSome_iff_exists.1 h3
    have := (hp "freestream_temperature" (by decide) T hT).ne'
    rw [if_neg (by rw [h1]; simp), withoutDensity, hpp, Option.bind_some, hT, Option.bind_some, quot, if_neg (mul_ne_zero hg this)]
    rfl

theorem angles_isSome (hnd : nd = 1 ∨ nd = 2 ∨ nd = 3) (s : Vars) : (angles nd s).isSome ↔ (2 ≤ nd → (s "attack").isSome) ∧ (nd = 3 → (s "sideslip").isSome) := by
  rcases hnd with rfl | rfl | rfl <;> rcases ha : s "attack" with _ | a <;> rcases hb : s "sideslip" with _ | b <;> simp [angles, ha, hb]

theorem direction_isSome (hnd : nd = 1 ∨ nd = 2 ∨ nd = 3) (s : Vars) : (direction nd s).isSome ↔ DirectionGiven nd s := by
  rw [direction, DirectionGiven]
  split
  · next h =>
    have hne : s "freestream_direction0" ≠ none := by rw [Option.isSome_iff_ne_none] at h; exact h
    simp only [h, hne, false_and, or_false, true_and]
    rw [getVector_eq]
    rcases getVector s "freestream_direction" nd with _ | v <;> simp
  · next h =>
    have hn : s "freestream_direction0" = none := by simpa using h
    rw [angles_isSome hnd]
    simp [hn]

theorem velocity_isSome (hnd : nd = 1 ∨ nd = 2 ∨ nd = 3) {s : Vars} {T : ℝ} (hT : s "freestream_temperature" = some T) (hpos : 0 < T) : (velocity nd s).isSome ↔ VelocityGiven nd s := by
  rw [velocity]
  have hc : (0 : ℝ) < 7 / 5 * Atmos.gasAir * T := mul_pos (mul_pos (by norm_num) gasAir_pos) hpos
  have hroot : root (7 / 5 * Atmos.gasAir * T) = some √(7 / 5 * Atmos.gasAir * T) := by rw [root, if_neg (not_lt.2 hc.le)]
  have hc0 : √(7 / 5 * Atmos.gasAir * T) ≠ 0 := (Real.sqrt_pos.2 hc).ne'
  set c := √(7 / 5 * Atmos.gasAir * T)
  split
  swap
  · next h =>
    simp only [Option.isSome_none, Bool.false_eq_true, false_iff]
    intro hv
    refine h (count_one.2 ?_)
    rcases hv with ⟨h1, h2, h3, _⟩ | ⟨h1, h2, _⟩
    · exact Or.inl ⟨h1, h2, h3⟩
    · exact Or.inr ⟨h1, h2⟩
  next h =>
  rcases count_one.1 h with ⟨h1, h2, h3⟩ | ⟨h1, h2⟩
  · have hne : s "freestream_velocity0" ≠ none := by rw [Option.isSome_iff_ne_none] at h1; exact h1
    rw [if_pos h1, VelocityGiven]
    simp only [h1, h2, h3, hne, true_and, false_and, or_false]
    rw [getVector_eq]
    rcases getVector s "freestream_velocity" nd with _ | v <;> simp
  · have hv : VelocityGiven nd s ↔ DirectionGiven nd s := by
      rw [VelocityGiven]
      simp [h1, h2]
    rw [hv, if_neg (by rw [h1]; simp), soundStep, hT, Option.bind_some, hroot, Option.bind_some, Option.bind_some]
    have e1 : s.assign "freestream_sound_speed" c "freestream_speed" = s "freestream_speed" := by rw [get_assign, if_neg (by decide)]
    have e2 : s.assign "freestream_sound_speed" c "freestream_mach" = s "freestream_mach" := by rw [get_assign, if_neg (by decide)]
    have hstep : ∃ s2 V, speedStep (s.assign "freestream_sound_speed" c) c = some s2 ∧ s2 "freestream_speed" = some V ∧
        ∀ x, x ≠ "freestream_speed" → x ≠ "freestream_mach" → x ≠ "freestream_sound_speed" → s2 x = s x := by
      rw [speedStep, e1, e2]
      rcases h2 with ⟨a1, a2⟩ | ⟨a1, a2⟩
      · obtain ⟨V, hV⟩ := Option.isSome_iff_exists.1 a1
        rw [if_pos a1, hV, Option.bind_some, quot, if_neg hc0, Option.bind_some]
        refine ⟨_, V, rfl, by rw [get_assign, if_neg (by decide), e1, hV], fun x n1 n2 n3 => by rw [get_assign, if_neg n2, get_assign, if_neg n3]⟩
      · obtain ⟨M, hM⟩ := Option.isSome_iff_exists.1 a2
        rw [if_neg (by rw [a1]; simp), hM, Option.bind_some]
        exact ⟨_, _, rfl, by rw [get_assign, if_pos rfl], fun x n1 n2 n3 => by rw [get_assign, if_neg n1, get_assign, if_neg n3]⟩
    obtain ⟨s2, V, k1, k2, k3⟩ := hstep
    rw [k1, Option.bind_some]
    have nm : ∀ i < 5, suffixed "freestream_direction" i ≠ "freestream_speed" ∧ suffixed "freestream_direction" i ≠ "freestream_mach" ∧ suffixed "freestream_direction" i ≠ "freestream_sound_speed" := by decide
    have hd : DirectionGiven nd s2 ↔ DirectionGiven nd s := by
      rw [DirectionGiven, DirectionGiven, k3 "freestream_direction0" (by decide) (by decide) (by decide), k3 "attack" (by decide) (by decide) (by decide), k3 "sideslip" (by decide) (by decide) (by decide)]
      have : (∀ i < nd, (s2 (suffixed "freestream_direction" i)).isSome) ↔ ∀ i < nd, (s (suffixed "freestream_direction" i)).isSome := by
        refine forall_congr' fun i => forall_congr' fun hi => ?_
        obtain ⟨m1, m2, m3⟩ := nm i (by omega)
        rw [k3 _ m1 m2 m3]
      rw [this]
    rw [← hd, ← direction_isSome hnd]
    rcases direction nd s2 with _ | d
    · simp
    · simp [velocStep, k2]

theorem velocityGiven_congr (hn : nd ≤ 3) {s s' : Vars} (h : ∀ x, x ≠ "freestream_density" → x ≠ "freestream_pressure" → x ≠ "freestream_temperature" → s' x = s x) : VelocityGiven nd s' ↔ VelocityGiven nd s := by
  have nmv : ∀ i < 5, suffixed "freestream_velocity" i ≠ "freestream_density" ∧ suffixed "freestream_velocity" i ≠ "freestream_pressure" ∧ suffixed "freestream_velocity" i ≠ "freestream_temperature" := by decide
  have nmd : ∀ i < 5, suffixed "freestream_direction" i ≠ "freestream_density" ∧ suffixed "freestream_direction" i ≠ "freestream_pressure" ∧ suffixed "freestream_direction" i ≠ "freestream_temperature" := by decide
  have e1 : (∀ i < nd, (s' (suffixed "freestream_velocity" i)).isSome) ↔ ∀ i < nd, (s (suffixed "freestream_velocity" i)).isSome := by
    refine forall_congr' fun i => forall_congr' fun hi => ?_
    obtain ⟨m1, m2, m3⟩ := nmv i (by omega)
    rw [h _ m1 m2 m3]
  have e2 : (∀ i < nd, (s' (suffixed "freestream_direction" i)).isSome) ↔ ∀ i < nd, (s (suffixed "freestream_direction" i)).isSome := by
    refine forall_congr' fun i => forall_congr' fun hi => ?_
    obtain ⟨m1, m2, m3⟩ := nmd i (by omega)
    rw [h _ m1 m2 m3]
  rw [VelocityGiven, VelocityGiven, DirectionGiven, DirectionGiven, e1, e2, h "freestream_velocity0" (by decide) (by decide) (by decide), h "freestream_speed" (by decide) (by decide) (by decide),
    h "freestream_mach" (by decide) (by decide) (by decide), h "freestream_direction0" (by decide) (by decide) (by decide), h "attack" (by decide) (by decide) (by decide), h "sideslip" (by decide) (by decide) (by decide)]

theorem stateStep_isSome {s : Vars} {v d : Nat → ℝ} {rho p : ℝ} (hr : s "freestream_density" = some rho) (hp : s "freestream_pressure" = some p) : (stateStep nd s v d).isSome := by
  have fr1 : ∀ x ∈ scalars, setVector s "freestream_direction" 3 (padded nd d) x = s x := fun x hx => setVector_other fun i hi => (names_apart.1 x hx i (by omega)).2.2
  simp only [stateStep, fr1 "freestream_density" (by decide), fr1 "freestream_pressure" (by decide), hr, hp, Option.bind_some, Option.isSome_some]

/-- C80: the specifications that are accepted are exactly the documented ones: altitude or two of density, pressure and temperature; one of
velocity, speed and Mach number; and all components of a vector that is used. -/
theorem accepted_iff (hnd : nd = 1 ∨ nd = 2 ∨ nd = 3) {s : Vars} (h0 : s "freestream0" = none) (hp : Physical s) : (create nd s).isSome ↔ ThermoGiven s ∧ VelocityGiven nd s := by
  rw [create, if_pos hnd, if_neg (by rw [h0]; simp), compute]
  -- after the first step
  have tail : ∀ s1 : Vars, (∀ x, x ≠ "freestream_density" → x ≠ "freestream_pressure" → s1 x = s x) →
      (∀ name ∈ ["freestream_density", "freestream_pressure", "freestream_temperature"], ∀ x, s1 name = some x → 0 < x) →
      (((thermoStep s1).bind fun s => (velocity nd s).bind fun x => stateStep nd x.1 x.2.1 x.2.2).isSome ↔
        count s1 ["freestream_density", "freestream_pressure", "freestream_temperature"] = 2 ∧ VelocityGiven nd s) := by
    intro s1 hs1 hpos
    rw [← thermo_isSome hpos]
    rcases hs2 : thermoStep s1 with _ | s2
    · simp
    · obtain ⟨rho, p, T, t1, t2, t3, t4, t5, t6⟩ := thermo_eq hs2
      have hc2 : count s1 ["freestream_density", "freestream_pressure", "freestream_temperature"] = 2 := (thermo_isSome hpos).1 (by rw [hs2]; rfl)
      have hT : 0 < T := by
        have pos1 : ∀ x, s1 "freestream_density" = some x → 0 < rho := fun x hx => by have := t5 _ _ hx; rw [t1] at this; rw [Option.some.inj this]; exact hpos _ (by decide) x hx
        have pos2 : ∀ x, s1 "freestream_pressure" = some x → 0 < p := fun x hx => by have := t5 _ _ hx; rw [t2] at this; rw [Option.some.inj this]; exact hpos _ (by decide) x hx
        have pos3 : ∀ x, s1 "freestream_temperature" = some x → 0 < T := fun x hx => by have := t5 _ _ hx; rw [t3] at this; rw [Option.some.inj this]; exact hpos _ (by decide) x hx
        rcases count_two.1 hc2 with ⟨a1, a2, a3⟩ | ⟨a1, a2, a3⟩ | ⟨a1, a2, a3⟩
        · obtain ⟨x, hx⟩ := Option.isSome_iff_exists.1 a1
          obtain ⟨y, hy⟩ := Option.isSome_iff_exists.1 a2
          have b1 := pos1 x hx; have b2 := pos2 y hy
          rw [t4] at b2
          exact (pos_iff_pos_of_mul_pos b2).1 (mul_pos b1 gasAir_pos)
        · obtain ⟨x, hx⟩ := Option.isSome_iff_exists.1 a3; exact pos3 x hx
        · obtain ⟨x, hx⟩ := Option.isSome_iff_exists.1 a3; exact pos3 x hx
      rw [Option.bind_some]
      have hvg := velocityGiven_congr (nd := nd) (by omega) fun x n1 n2 n3 => (t6 x n1 n2 n3).trans (hs1 x n1 n2)
      simp only [Option.isSome_some, true_and]
      rw [← hvg, ← velocity_isSome hnd t3 hT]
      rcases hv : velocity nd s2 with _ | ⟨s3, v, d⟩
      · simp
      · obtain ⟨_, _, v3, _⟩ := velocity_eq hnd t3 hv
        rw [Option.bind_some]
        simp only [Option.isSome_some, iff_true]
        exact stateStep_isSome (by rw [v3 _ (by decide) (by decide) (by decide) (by decide), t1]) (by rw [v3 _ (by decide) (by decide) (by decide) (by decide), t2])
  rcases ha : s "altitude" with _ | alt
  · rw [altitudeStep, if_neg (by rw [ha]; simp), Option.bind_some, tail s (fun _ _ _ => rfl) hp.given, count_two, ThermoGiven]
    simp [ha]
  · rw [altitudeStep, if_pos (by rw [ha]; rfl), ha, Option.bind_some]
    by_cases hT : s "freestream_temperature" = none
    · rw [if_neg (by rw [hT]; simp)]
      rcases ho : s "temperature_offset" with _ | off
      · simp [ThermoGiven, ha, ho]
      · rw [Option.bind_some]
        rcases hg : Atmos.geom alt off with _ | r
        · simp [ThermoGiven, ha, ho, hg]
        · rw [Option.bind_some, Option.bind_some, tail]
          · simp [ThermoGiven, ha, ho, hT, hg, count_two, get_assign]
          · intro x n1 n2; rw [get_assign, if_neg n2, get_assign, if_neg n1]
          · intro name hn x hx
            have hr := hp.atmosphere alt off r ha ho hg
            simp only [List.mem_cons, List.not_mem_nil, or_false] at hn
            rcases hn with rfl | rfl | rfl
            · rw [get_assign, if_neg (by decide), get_assign, if_pos rfl] at hx; rw [← Option.some.inj hx]; exact hr.1
            · rw [get_assign, if_pos rfl] at hx; rw [← Option.some.inj hx]; exact hr.2
            · rw [get_assign, if_neg (by decide), get_assign, if_neg (by decide), hT] at hx; cases hx
    · rw [if_pos (by rw [Option.isSome_iff_ne_none]; exact hT)]
      simp [ThermoGiven, ha, hT]

end
end Hexed.Free
