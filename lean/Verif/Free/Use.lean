import Verif.Free.Accept
set_option autoImplicit false
set_option linter.unusedVariables false

/-!
# What the freestream variables are good for, and what is silently ignored (C80)
-/

namespace Hexed.Free
open Hexed.Force Hexed.Pde
noncomputable section

variable {nd : Nat}

/-- C80: the direction with given angles is a unit vector, inclined by the angle of attack to the horizontal plane (the first axis in two
dimensions), and positive sideslip turns its horizontal part from the first to the second axis. -/
theorem angles_exact (a b : ℝ) :
    dotN 1 (angleDirection 1 a b) (angleDirection 1 a b) = 1 ∧ dotN 2 (angleDirection 2 a b) (angleDirection 2 a b) = 1 ∧ dotN 3 (angleDirection 3 a b) (angleDirection 3 a b) = 1 ∧
    angleDirection 2 a b 1 = Real.sin a ∧ angleDirection 3 a b 2 = Real.sin a ∧
    angleDirection 3 a b 0 * Real.sin b = angleDirection 3 a b 1 * Real.cos b := by
  have ha := Real.sin_sq_add_cos_sq a
  have hb := Real.sin_sq_add_cos_sq b
  refine ⟨by simp [dotN, angleDirection], ?_, ?_, by simp [angleDirection], by simp [angleDirection], by simp [angleDirection]; ring⟩
  · simp [dotN, angleDirection, Finset.sum_range_succ]; nlinarith
  · simp [dotN, angleDirection, Finset.sum_range_succ]
    linear_combination Real.cos a ^ 2 * hb + ha

/-- C80: the speed of sound and the Mach number are those of the state vector. -/
theorem mach_exact {s t : Vars} {rho p T : ℝ} {v d fs : Nat → ℝ} (hr : 0 < rho) (hT : 0 ≤ T) (hp : p = rho * Atmos.gasAir * T) (hs : StateOf nd fs rho p v) (h : FromSpeed nd s t T v d)
    (hd : dotN nd d d = 1) : ∃ V M, t "freestream_speed" = some V ∧ t "freestream_mach" = some M ∧ t "freestream_sound_speed" = some (Sound nd fs) ∧
      |V| = Speed nd fs ∧ V = M * Sound nd fs := by
  obtain ⟨V, M, c, h1, h2, h3, h4, h5, h6, h7, h8, h9⟩ := h
  have hc : c = Sound nd fs := by
    rw [Sound, hs.pres, hs.mass, h6, hp]
    congr 1
    field_simp
  refine ⟨V, M, h2, h3, by rw [← hc]; exact h4, ?_, by rw [← hc]; exact h7⟩
  have e : dotN nd (Vel nd fs) (Vel nd fs) = V ^ 2 := by
    have : dotN nd (Vel nd fs) (Vel nd fs) = V ^ 2 * dotN nd d d := by
      rw [dotN, dotN, Finset.mul_sum]
      refine Finset.sum_congr rfl fun i hi => ?_
      rw [hs.veloc i (Finset.mem_range.1 hi), h8 i (Finset.mem_range.1 hi)]; ring
    rw [this, hd, mul_one]
  rw [Speed, e, Real.sqrt_sq_eq_abs]

/-- C80: if speed or Mach number was given, `compute_force` has the variables that it needs. -/
theorem forces_given {s t : Vars} {rho p T : ℝ} {v d fs : Nat → ℝ} (hr : rho ≠ 0) (hdesc : Describes nd t rho p T v d fs) (h : FromSpeed nd s t T v d) :
    ∃ V, t "freestream_speed" = some V ∧ (V ≠ 0 → Given t (fun i : Fin 3 => if i.val < nd then d i.val else 0) rho V) := by
  obtain ⟨V, M, c, h1, h2, h3, h4, h5, h6, h7, h8, h9⟩ := h
  exact ⟨V, h2, fun hV => ⟨⟨hdesc.direction 0 (by norm_num), hdesc.direction 1 (by norm_num), hdesc.direction 2 (by norm_num)⟩, hdesc.density, h2, hr, hV⟩⟩

theorem coefStep_speed {name : String} {s t : Vars} (h : coefStep name s = some t) : (s "freestream_speed").isSome := by
  rw [coefStep] at h
  obtain ⟨_, _, h⟩ := Option.bind_eq_some_iff.1 h
  obtain ⟨_, _, h⟩ := Option.bind_eq_some_iff.1 h
  obtain ⟨_, hv, _⟩ := Option.bind_eq_some_iff.1 h
  rw [hv]; rfl

theorem no_speed_no_force (F : Nat → ℝ) {t : Vars} (h : t "freestream_speed" = none) : computeForce nd F t = none := by
  rw [← Option.not_isSome_iff_eq_none]
  intro hsome
  obtain ⟨t', ht⟩ := Option.isSome_iff_exists.1 hsome
  rw [computeForce] at ht
  obtain ⟨s1, h1, ht⟩ := Option.bind_eq_some_iff.1 ht
  obtain ⟨s2, h2, ht⟩ := Option.bind_eq_some_iff.1 ht
  obtain ⟨s3, h3, ht⟩ := Option.bind_eq_some_iff.1 ht
  have e1 : s1 "freestream_speed" = none := by
    rw [dragStep] at h1
    obtain ⟨x, _, h1⟩ := Option.bind_eq_some_iff.1 h1
    obtain rfl := Option.some.inj h1
    simp [get_assign, setForces, h]
  have e2 : s2 "freestream_speed" = none := by
    rw [caseStep] at h2
    split at h2
    · obtain rfl := Option.some.inj h2; exact e1
    · split at h2
      · rw [case2] at h2
        obtain ⟨x, _, h2⟩ := Option.bind_eq_some_iff.1 h2
        obtain rfl := Option.some.inj h2
        simp [get_assign, e1]
      · split at h2
        · rw [case3] at h2
          obtain ⟨x, _, h2⟩ := Option.bind_eq_some_iff.1 h2
          obtain ⟨hn, _, h2⟩ := Option.bind_eq_some_iff.1 h2
          obtain ⟨y, _, h2⟩ := Option.bind_eq_some_iff.1 h2
          obtain ⟨z, _, h2⟩ := Option.bind_eq_some_iff.1 h2
          obtain rfl := Option.some.inj h2
          simp [get_assign, e1]
        · cases h2
  have := coefStep_speed h3
  rw [e2] at this; cases this

/-- Variables by name. -/
def table (l : List (String × ℝ)) : Vars := fun n => (l.find? fun x => x.1 = n).map Prod.snd

/-- The default angles. -/
def defaults : List (String × ℝ) := [("temperature_offset", 0), ("attack", 0), ("sideslip", 0)]

/-- C80 (code): a freestream given by its velocity is accepted, but speed, Mach number and speed of sound are not set, and `compute_force`
fails. -/
theorem velocity_force_refuted : ¬ ∀ (nd : Nat) (F : Nat → ℝ) (s t : Vars), s "freestream0" = none → Physical s → ThermoGiven s → VelocityGiven nd s → create nd s = some t → (t "freestream_speed").isSome := by
  intro h
  let s := table (("freestream_density", 1) :: ("freestream_pressure", 1) :: ("freestream_velocity0", 1) :: defaults)
  have hphys : Physical s := by
    refine ⟨fun name hn x hx => ?_, fun alt off r ha => by simp [s, table, defaults] at ha⟩
    simp only [List.mem_cons, List.not_mem_nil, or_false] at hn
    rcases hn with rfl | rfl | rfl <;> simp [s, table, defaults] at hx <;> rw [← hx] <;> norm_num
  have hth : ThermoGiven s := Or.inr ⟨by simp [s, table, defaults], Or.inl ⟨by simp [s, table], by simp [s, table], by simp [s, table, defaults]⟩⟩
  have hv : VelocityGiven 1 s := Or.inl ⟨by simp [s, table], by simp [s, table, defaults], by simp [s, table, defaults], fun i hi => by
    obtain rfl : i = 0 := by omega
    have : suffixed "freestream_velocity" 0 = "freestream_velocity0" := by decide
    rw [this]; simp [s, table]⟩
  have h0 : s "freestream0" = none := by simp [s, table, defaults]
  obtain ⟨t, ht⟩ := Option.isSome_iff_exists.1 ((accepted_iff (nd := 1) (by norm_num) h0 hphys).2 ⟨hth, hv⟩)
  have h1 := h 1 (fun _ => 0) s t h0 hphys hth hv ht
  -- the variables afterwards
  have gn := gasAir_pos.ne'
  have : t "freestream_speed" = none := by
    rw [create, if_pos (by norm_num), if_neg (by rw [h0]; simp), compute] at ht
    obtain ⟨s1, hs1, ht⟩ := Option.bind_eq_some_iff.1 ht
    obtain ⟨s2, hs2, ht⟩ := Option.bind_eq_some_iff.1 ht
    obtain ⟨⟨s3, v, d⟩, hs3, hlast⟩ := Option.bind_eq_some_iff.1 ht
    obtain ⟨_, rfl⟩ | ⟨alt, _, _, ha, _⟩ := altitude_eq hs1
    swap; · simp [s, table, defaults] at ha
    obtain ⟨rho, p, T, t1, t2, t3, t4, t5, t6⟩ := thermo_eq hs2
    have e2 : s2 "freestream_speed" = none := by rw [t6 _ (by decide) (by decide) (by decide)]; simp [s, table, defaults]
    have e3 : s3 = s2 := by
      rw [velocity] at hs3
      split at hs3
      · rw [if_pos (by rw [t6 _ (by decide) (by decide) (by decide)]; simp [s, table])] at hs3
        obtain ⟨w, _, hs3⟩ := Option.bind_eq_some_iff.1 hs3
        simp only [Option.some.injEq, Prod.mk.injEq] at hs3
        exact hs3.1.symm
      · cases hs3
    rw [e3] at hlast
    simp only [stateStep] at hlast
    obtain ⟨_, _, hlast⟩ := Option.bind_eq_some_iff.1 hlast
    obtain ⟨_, _, hlast⟩ := Option.bind_eq_some_iff.1 hlast
    rw [← Option.some.inj hlast, setVector_other fun i hi => (names_apart.1 "freestream_speed" (by decide) i hi).1, setVector_other fun i hi => (names_apart.1 "freestream_speed" (by decide) i (by omega)).2.2, e2]
  rw [this] at h1; cases h1

/-- C80 (code): a state vector given directly is accepted but describes nothing: none of the other variables is set, so `compute_force` fails
whatever the force, and so does a boundary condition that needs the pressure. -/
theorem state_vector_only (hnd : nd = 1 ∨ nd = 2 ∨ nd = 3) {s : Vars} (h0 : (s "freestream0").isSome) :
    ((create nd s).isSome ↔ ∀ i < nd + 2, (s (suffixed "freestream" i)).isSome) ∧ (∀ t, create nd s = some t → t = s) ∧
    (s "freestream_speed" = none → ∀ t F, create nd s = some t → computeForce nd F t = none) := by
  rw [create, if_pos hnd, if_pos h0, getVector_eq]
  have hs : ∀ t, ((getVector s "freestream" (nd + 2)).bind fun _ => some s) = some t → t = s := fun t ht => by
    obtain ⟨_, _, ht⟩ := Option.bind_eq_some_iff.1 ht
    exact (Option.some.inj ht).symm
  refine ⟨?_, hs, fun hn t F ht => ?_⟩
  · rcases getVector s "freestream" (nd + 2) with _ | v <;> simp
  · rw [hs t ht]; exact no_speed_no_force F hn

/-- C80 (code): altitude silently overrides a given density or pressure. -/
theorem altitude_overrides {s : Vars} (h0 : s "freestream0" = none) {alt off : ℝ} (ha : s "altitude" = some alt) (ho : s "temperature_offset" = some off) {t : Vars} (h : create nd s = some t) :
    ∃ r, Atmos.geom alt off = some r ∧ t "freestream_density" = some r.1 ∧ t "freestream_pressure" = some r.2 := by
  obtain ⟨rho, p, T, v, d, fs, hd, _, _, _, hcase⟩ := freestream_exact h0 h
  rcases hcase with ⟨alt', off', ha', ho', _, hg⟩ | ⟨hn, _⟩
  · rw [ha] at ha'; rw [ho] at ho'
    obtain rfl := Option.some.inj ha'
    obtain rfl := Option.some.inj ho'
    exact ⟨_, hg, hd.density, hd.pressure⟩
  · rw [ha] at hn; cases hn

/-- C80 (code): "all components or none" is not enforced: a vector without its first component is ignored. -/
theorem components_refuted : ¬ ∀ (nd : Nat) (s t : Vars), s "freestream0" = none → create nd s = some t → ∀ j < nd, (s (suffixed "freestream_direction" j)).isSome → ∀ i < nd, (s (suffixed "freestream_direction" i)).isSome := by
  intro h
  let s := table (("freestream_density", 1) :: ("freestream_pressure", 1) :: ("freestream_speed", 1) :: ("freestream_direction1", 1) :: defaults)
  have hphys : Physical s := by
    refine ⟨fun name hn x hx => ?_, fun alt off r ha => by simp [s, table, defaults] at ha⟩
    simp only [List.mem_cons, List.not_mem_nil, or_false] at hn
    rcases hn with rfl | rfl | rfl <;> simp [s, table, defaults] at hx <;> rw [← hx] <;> norm_num
  have hth : ThermoGiven s := Or.inr ⟨by simp [s, table, defaults], Or.inl ⟨by simp [s, table], by simp [s, table], by simp [s, table, defaults]⟩⟩
  have hv : VelocityGiven 2 s := Or.inr ⟨by simp [s, table, defaults], Or.inl ⟨by simp [s, table], by simp [s, table, defaults]⟩, Or.inr ⟨by simp [s, table, defaults], fun _ => by simp [s, table, defaults], by simp⟩⟩
  have h0 : s "freestream0" = none := by simp [s, table, defaults]
  obtain ⟨t, ht⟩ := Option.isSome_iff_exists.1 ((accepted_iff (nd := 2) (by norm_num) h0 hphys).2 ⟨hth, hv⟩)
  have e1 : suffixed "freestream_direction" 1 = "freestream_direction1" := by decide
  have e0 : suffixed "freestream_direction" 0 = "freestream_direction0" := by decide
  have := h 2 s t h0 ht 1 (by norm_num) (by rw [e1]; simp [s, table]) 0 (by norm_num)
  rw [e0] at this
  simp [s, table, defaults] at this

/-- C80 (code): with the zero vector as direction, the gas is at rest whatever its speed. -/
theorem zero_direction {s t : Vars} (h0 : s "freestream0" = none) (h : create nd s = some t) (hv : s "freestream_velocity0" = none) (hz : ∀ i < nd, s (suffixed "freestream_direction" i) = some 0) :
    ∀ i < nd, t (suffixed "freestream_velocity" i) = some 0 := by
  rw [create] at h
  split at h
  swap; · cases h
  next hnd =>
  rw [if_neg (by rw [h0]; simp), compute] at h
  obtain ⟨s1, hs1, h⟩ := Option.bind_eq_some_iff.1 h
  obtain ⟨s2, hs2, h⟩ := Option.bind_eq_some_iff.1 h
  obtain ⟨⟨s3, v, d⟩, hs3, h⟩ := Option.bind_eq_some_iff.1 h
  obtain ⟨rho, p, T, t1, t2, t3, t4, t5, t6⟩ := thermo_eq hs2
  have hsame : ∀ x, x ≠ "freestream_density" → x ≠ "freestream_pressure" → s1 x = s x := by
    intro x n1 n2
    rcases altitude_eq hs1 with ⟨_, rfl⟩ | ⟨_, _, r, _, _, _, _, rfl⟩
    · rfl
    · rw [get_assign, if_neg n2, get_assign, if_neg n1]
  have hsame2 : ∀ x, x ≠ "freestream_density" → x ≠ "freestream_pressure" → x ≠ "freestream_temperature" → s2 x = s x := fun x n1 n2 n3 => by rw [t6 x n1 n2 n3, hsame x n1 n2]
  have nmd : ∀ i < 5, suffixed "freestream_direction" i ≠ "freestream_density" ∧ suffixed "freestream_direction" i ≠ "freestream_pressure" ∧ suffixed "freestream_direction" i ≠ "freestream_temperature" ∧
      suffixed "freestream_direction" i ≠ "freestream_speed" ∧ suffixed "freestream_direction" i ≠ "freestream_mach" ∧ suffixed "freestream_direction" i ≠ "freestream_sound_speed" := by decide
  have hv2 : s2 "freestream_velocity0" = none := by rw [hsame2 _ (by decide) (by decide) (by decide), hv]
  obtain ⟨v1, v2, v3, v4, v5⟩ := velocity_eq hnd t3 hs3
  have hd : ∀ i < nd, v i = 0 := by
    rw [velocity] at hs3
    split at hs3
    swap; · cases hs3
    rw [if_neg (by rw [hv2]; simp)] at hs3
    obtain ⟨⟨s4, c⟩, hs4, hs3⟩ := Option.bind_eq_some_iff.1 hs3
    obtain ⟨s5, hs5, hs3⟩ := Option.bind_eq_some_iff.1 hs3
    obtain ⟨d', hd', hs3⟩ := Option.bind_eq_some_iff.1 hs3
    have k4 : ∀ x, x ≠ "freestream_sound_speed" → s4 x = s2 x := by
      rw [soundStep] at hs4
      obtain ⟨_, _, hs4⟩ := Option.bind_eq_some_iff.1 hs4
      obtain ⟨_, _, hs4⟩ := Option.bind_eq_some_iff.1 hs4
      simp only [Option.some.injEq, Prod.mk.injEq] at hs4
      intro x hx
      rw [← hs4.1, get_assign, if_neg hx]
    have k5 : ∀ x, x ≠ "freestream_speed" → x ≠ "freestream_mach" → s5 x = s4 x := by
      simp only [speedStep] at hs5
      intro x n1 n2
      split at hs5
      · obtain ⟨_, _, hs5⟩ := Option.bind_eq_some_iff.1 hs5
        obtain ⟨_, _, hs5⟩ := Option.bind_eq_some_iff.1 hs5
        rw [← Option.some.inj hs5, get_assign, if_neg n2]
      · obtain ⟨_, _, hs5⟩ := Option.bind_eq_some_iff.1 hs5
        rw [← Option.some.inj hs5, get_assign, if_neg n1]
    have k : ∀ i < nd, s5 (suffixed "freestream_direction" i) = some 0 := fun i hi => by
      obtain ⟨m1, m2, m3, m4, m5, m6⟩ := nmd i (by omega)
      rw [k5 _ m4 m5, k4 _ m6, hsame2 _ m1 m2 m3, hz i hi]
    have hd0 : ∀ i < nd, d' i = 0 := by
      have e0 : suffixed "freestream_direction" 0 = "freestream_direction0" := by decide
      rw [direction, if_pos (by rw [← e0, k 0 (by omega)]; rfl)] at hd'
      obtain ⟨w, hw, hd'⟩ := Option.bind_eq_some_iff.1 hd'
      obtain rfl := Option.some.inj hd'
      exact normalized_zero fun i hi => by
        have := getVector_some hw i hi
        rw [k i hi] at this
        exact (Option.some.inj this).symm
    simp only [velocStep] at hs3
    obtain ⟨V, _, hs3⟩ := Option.bind_eq_some_iff.1 hs3
    simp only [Option.some.injEq, Prod.mk.injEq] at hs3
    obtain ⟨_, rfl, _⟩ := hs3
    intro i hi
    show V * d' i = 0
    rw [hd0 i hi, mul_zero]
  simp only [stateStep] at h
  obtain ⟨_, _, h⟩ := Option.bind_eq_some_iff.1 h
  obtain ⟨_, _, h⟩ := Option.bind_eq_some_iff.1 h
  obtain rfl := Option.some.inj h
  intro i hi
  rw [setVector_other fun j hj => (names_apart.2 i (by omega) j hj).1, setVector_other fun j hj => (names_apart.2 i (by omega) j (by omega)).2.1, v2 i hi, hd i hi]

/-! ## A case -/

/-- Air at sea level, at Mach 1/2, with angles of attack and sideslip. -/
def exCase : Vars := table [("freestream_density", 5 / 4), ("freestream_temperature", 300), ("freestream_mach", 1 / 2), ("attack", 1 / 10), ("sideslip", 1 / 5)]

theorem exCase_physical : Physical exCase := by
  refine ⟨fun name hn x hx => ?_, fun alt off r ha => by simp [exCase, table] at ha⟩
  simp only [List.mem_cons, List.not_mem_nil, or_false] at hn
  rcases hn with rfl | rfl | rfl <;> simp [exCase, table] at hx <;> rw [← hx] <;> norm_num

example : ∃ t, create 3 exCase = some t ∧ t "freestream_pressure" = some (5 / 4 * Atmos.gasAir * 300) ∧ t "freestream_mach" = some (1 / 2) := by
  have h0 : exCase "freestream0" = none := by simp [exCase, table]
  obtain ⟨t, ht⟩ := Option.isSome_iff_exists.1 ((accepted_iff (nd := 3) (by norm_num) h0 exCase_physical).2
    ⟨Or.inr ⟨by simp [exCase, table], Or.inr (Or.inl ⟨by simp [exCase, table], by simp [exCase, table], by simp [exCase, table]⟩)⟩,
     Or.inr ⟨by simp [exCase, table], Or.inr ⟨by simp [exCase, table], by simp [exCase, table]⟩, Or.inr ⟨by simp [exCase, table], fun _ => by simp [exCase, table], fun _ => by simp [exCase, table]⟩⟩⟩)
  obtain ⟨rho, p, T, v, d, fs, h1, h2, h3, h4, h5⟩ := freestream_exact h0 ht
  refine ⟨t, ht, ?_, ?_⟩
  · rcases h5 with ⟨alt, _, ha, _⟩ | ⟨_, e1, _, e3⟩
    · simp [exCase, table] at ha
    · rw [h1.pressure, h3, e1 (5 / 4) (by simp [exCase, table]), e3 300 (by simp [exCase, table])]
  · rcases h4 with ⟨_, hm, _⟩ | ⟨V, M, c, _, _, hM, _, ha, _⟩
    · simp [exCase, table] at hm
    · rcases ha with ha | ha
      · simp [exCase, table] at ha
      · rw [hM, ← ha]; simp [exCase, table]

end
end Hexed.Free
