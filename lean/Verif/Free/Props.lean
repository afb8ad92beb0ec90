import Verif.Free.Lemmas
set_option autoImplicit false
set_option linter.unusedVariables false

/-!
# The freestream is the one that was specified (C80)
-/

namespace Hexed.Free
open Hexed.Force Hexed.Pde
noncomputable section

variable {nd : Nat}

/-- Velocity given as a vector: `d` points in its direction, unless it is zero. -/
def FromVelocity (nd : Nat) (s : Vars) (v d : Nat → ℝ) : Prop :=
  s "freestream_speed" = none ∧ s "freestream_mach" = none ∧ (∀ i < nd, s (suffixed "freestream_velocity" i) = some (v i)) ∧ ((∃ i < nd, v i ≠ 0) → Points nd d v)

/-- The direction is that of the given vector, unless that is zero, or else the one with the given angles. -/
def FromDirection (nd : Nat) (s : Vars) (d : Nat → ℝ) : Prop :=
  (∃ w, (∀ i < nd, s (suffixed "freestream_direction" i) = some (w i)) ∧ ((∃ i < nd, w i ≠ 0) → Points nd d w)) ∨
  (s "freestream_direction0" = none ∧ ∃ a b, (2 ≤ nd → s "attack" = some a) ∧ (nd = 3 → s "sideslip" = some b) ∧ ∀ i < nd, d i = angleDirection nd a b i)

/-- Speed or Mach number is given: `V` is the speed and `c` the speed of sound. -/
def FromSpeed (nd : Nat) (s t : Vars) (T : ℝ) (v d : Nat → ℝ) : Prop :=
  ∃ V M c, s "freestream_velocity0" = none ∧ t "freestream_speed" = some V ∧ t "freestream_mach" = some M ∧ t "freestream_sound_speed" = some c ∧
    (s "freestream_speed" = some V ∨ s "freestream_mach" = some M) ∧
    c = √(7 / 5 * Atmos.gasAir * T) ∧ V = M * c ∧ (∀ i < nd, v i = V * d i) ∧ FromDirection nd s d

theorem direction_eq (hnd : nd = 1 ∨ nd = 2 ∨ nd = 3) {s : Vars} {d : Nat → ℝ} (h : direction nd s = some d) : FromDirection nd s d := by
  rw [direction] at h
  split at h
  · obtain ⟨w, hw, h⟩ := Option.bind_eq_some_iff.1 h
    obtain rfl := Option.some.inj h
    exact Or.inl ⟨w, getVector_some hw, normalized_points⟩
  · next h1 => exact Or.inr ⟨by simpa using h1, angles_eq hnd h⟩

theorem fromDirection_congr {s s' : Vars} {d : Nat → ℝ} (hv : ∀ i < nd, s' (suffixed "freestream_direction" i) = s (suffixed "freestream_direction" i))
    (h0 : s' "freestream_direction0" = s "freestream_direction0") (ha : s' "attack" = s "attack") (hb : s' "sideslip" = s "sideslip") (h : FromDirection nd s' d) : FromDirection nd s d := by
  rcases h with ⟨w, h1, h2⟩ | ⟨h1, a, b, h2, h3, h4⟩
  · exact Or.inl ⟨w, fun i hi => by rw [← hv i hi]; exact h1 i hi, h2⟩
  · exact Or.inr ⟨by rw [← h0]; exact h1, a, b, by rw [← ha]; exact h2, by rw [← hb]; exact h3, h4⟩

/-- What `velocity` does. -/
theorem velocity_eq (hnd : nd = 1 ∨ nd = 2 ∨ nd = 3) {s t : Vars} {v d : Nat → ℝ} {T : ℝ} (hT : s "freestream_temperature" = some T) (h : velocity nd s = some (t, v, d)) :
    (FromVelocity nd s v d ∨ FromSpeed nd s t T v d) ∧ (∀ i < nd, t (suffixed "freestream_velocity" i) = some (v i)) ∧
    (∀ x ∈ scalars, x ≠ "freestream_speed" → x ≠ "freestream_mach" → x ≠ "freestream_sound_speed" → t x = s x) ∧
    (∀ y, s "freestream_speed" = some y → t "freestream_speed" = some y) ∧ (∀ y, s "freestream_mach" = some y → t "freestream_mach" = some y) := by
  rw [velocity] at h
  split at h
  swap; · cases h
  next hc =>
  have hn5 : nd ≤ 5 := by omega
  rcases count_one.1 hc with ⟨h1, h2, h3⟩ | ⟨h1, h2⟩
  · rw [if_pos h1] at h
    obtain ⟨w, hw, h⟩ := Option.bind_eq_some_iff.1 h
    simp only [Option.some.injEq, Prod.mk.injEq] at h
    obtain ⟨rfl, rfl, rfl⟩ := h
    exact ⟨Or.inl ⟨h2, h3, getVector_some hw, normalized_points⟩, getVector_some hw, fun _ _ _ _ _ => rfl, fun _ hy => hy, fun _ hy => hy⟩
  · rw [if_neg (by rw [h1]; simp)] at h
    obtain ⟨⟨s1, c⟩, hs1, h⟩ := Option.bind_eq_some_iff.1 h
    obtain ⟨s2, hs2, h⟩ := Option.bind_eq_some_iff.1 h
    obtain ⟨d', hd, hlast⟩ := Option.bind_eq_some_iff.1 h
    rw [soundStep, hT, Option.bind_some] at hs1
    obtain ⟨c', hc', hs1⟩ := Option.bind_eq_some_iff.1 hs1
    simp only [Option.some.injEq, Prod.mk.injEq] at hs1
    obtain ⟨rfl, rfl⟩ := hs1
    have hcc : c' = √(7 / 5 * Atmos.gasAir * T) := by
      rw [root] at hc'
      split at hc'
      · cases hc'
      · exact (Option.some.inj hc').symm
    -- the speed and the Mach number
    have key : ∃ V M, s2 "freestream_speed" = some V ∧ s2 "freestream_mach" = some M ∧ V = M * c' ∧ (s "freestream_speed" = some V ∨ s "freestream_mach" = some M) ∧
        (∀ x, x ≠ "freestream_speed" → x ≠ "freestream_mach" → s2 x = s.assign "freestream_sound_speed" c' x) ∧
        (∀ y, s "freestream_speed" = some y → s2 "freestream_speed" = some y) ∧ (∀ y, s "freestream_mach" = some y → s2 "freestream_mach" = some y) := by
      rw [speedStep] at hs2
      have e1 : s.assign "freestream_sound_speed" c' "freestream_speed" = s "freestream_speed" := by rw [get_assign, if_neg (by decide)]
      have e2 : s.assign "freestream_sound_speed" c' "freestream_mach" = s "freestream_mach" := by rw [get_assign, if_neg (by decide)]
      simp only [e1, e2] at hs2
      rcases h2 with ⟨a1, a2⟩ | ⟨a1, a2⟩
      · obtain ⟨V, hV⟩ := Option.isSome_iff_exists.1 a1
        rw [if_pos a1, hV, Option.bind_some] at hs2
        obtain ⟨M, hM, hs2⟩ := Option.bind_eq_some_iff.1 hs2
        obtain rfl := Option.some.inj hs2
        obtain ⟨q1, rfl⟩ := quot_some hM
        refine ⟨V, V / c', by rw [get_assign, if_neg (by decide), e1, hV], by rw [get_assign, if_pos rfl], by field_simp, Or.inl hV, fun x _ hx => by rw [get_assign, if_neg hx], fun y hy => ?_, fun y hy => ?_⟩
        · rw [get_assign, if_neg (by decide), e1, hy]
        · rw [a2] at hy; cases hy
      · obtain ⟨M, hM⟩ := Option.isSome_iff_exists.1 a2
        rw [if_neg (by rw [a1]; simp), hM, Option.bind_some] at hs2
        obtain rfl := Option.some.inj hs2
        refine ⟨M * c', M, by rw [get_assign, if_pos rfl], by rw [get_assign, if_neg (by decide), e2, hM], rfl, Or.inr hM, fun x hx _ => by rw [get_assign, if_neg hx], fun y hy => ?_, fun y hy => ?_⟩
        · rw [a1] at hy; cases hy
        · rw [get_assign, if_neg (by decide), e2, hy]
    obtain ⟨V, M, k1, k2, k3, k4, k5, k6, k7⟩ := key
    simp only [velocStep, k1, Option.bind_some, Option.some.injEq, Prod.mk.injEq] at hlast
    obtain ⟨rfl, rfl, rfl⟩ := hlast
    have hframe : ∀ x ∈ scalars, setVector s2 "freestream_velocity" nd (fun i => V * d' i) x = s2 x := fun x hx => setVector_other fun i hi => (names_apart.1 x hx i (by omega)).2.1
    have hd' : FromDirection nd s d' := by
      have nm : ∀ i < 5, suffixed "freestream_direction" i ≠ "freestream_speed" ∧ suffixed "freestream_direction" i ≠ "freestream_mach" ∧ suffixed "freestream_direction" i ≠ "freestream_sound_speed" := by decide
      refine fromDirection_congr (fun i hi => ?_) ?_ ?_ ?_ (direction_eq hnd hd)
      · obtain ⟨m1, m2, m3⟩ := nm i (by omega)
        rw [k5 _ m1 m2, get_assign, if_neg m3]
      · rw [k5 _ (by decide) (by decide), get_assign, if_neg (by decide)]
      · rw [k5 _ (by decide) (by decide), get_assign, if_neg (by decide)]
      · rw [k5 _ (by decide) (by decide), get_assign, if_neg (by decide)]
    refine ⟨Or.inr ⟨V, M, c', h1, ?_, ?_, ?_, k4, hcc, k3, fun i _ => rfl, hd'⟩, fun i hi => setVector_at (fun a ha b hb => names_inj.2.1 a (by omega) b (by omega)) hi, ?_, ?_, ?_⟩
    · rw [hframe _ (by decide), k1]
    · rw [hframe _ (by decide), k2]
    · rw [hframe _ (by decide), k5 _ (by decide) (by decide), get_assign, if_pos rfl]
    · intro x hx n1 n2 n3
      rw [hframe x hx, k5 x n1 n2, get_assign, if_neg n3]
    · intro y hy; rw [hframe _ (by decide), k6 y hy]
    · intro y hy; rw [hframe _ (by decide), k7 y hy]

theorem stateOf_exact (hnd : nd = 1 ∨ nd = 2 ∨ nd = 3) {rho p : ℝ} (hr : rho ≠ 0) (v : Nat → ℝ) : StateOf nd (stateOf nd rho p v) rho p v := by
  have e : stateOf nd rho p v nd = rho := by rw [stateOf, if_neg (lt_irrefl _), if_pos rfl]
  refine ⟨e, fun i hi => ?_, ?_, fun i hi => ?_⟩
  · rw [Vel, e, stateOf, if_pos hi]; field_simp
  · have e2 : stateOf nd rho p v (nd + 1) = p / (7 / 5 - 1) + 1 / 2 * rho * sumN nd (fun j => v j * v j) := by rw [stateOf, if_neg (by omega), if_neg (by omega), if_pos rfl]
    have e3 : dotN nd (stateOf nd rho p v) (stateOf nd rho p v) = rho * rho * sumN nd (fun j => v j * v j) := by
      rw [dotN, sumN_eq, Finset.mul_sum]
      refine Finset.sum_congr rfl fun i hi => ?_
      rw [stateOf, if_pos (Finset.mem_range.1 hi)]; ring
    rw [Pres, e, e2, e3]
    field_simp
    ring
  · rw [stateOf, if_neg (by omega), if_neg (by omega), if_neg (by omega)]

/-- C80: when `create_solver` computes the freestream, the variables describe one gas state: density, pressure and temperature obey the ideal
gas law, two of them are as given or are those of the standard atmosphere at the given altitude, velocity, speed, Mach number, speed of sound
and direction are consistent and agree with what was given, and the state vector (used for boundary and initial conditions) has that density,
velocity and pressure. -/
theorem freestream_exact {s t : Vars} (h0 : s "freestream0" = none) (h : create nd s = some t) :
    ∃ rho p T v d fs, Describes nd t rho p T v d fs ∧ (rho ≠ 0 → StateOf nd fs rho p v) ∧ p = rho * Atmos.gasAir * T ∧
      (FromVelocity nd s v d ∨ FromSpeed nd s t T v d) ∧
      ((∃ alt off, s "altitude" = some alt ∧ s "temperature_offset" = some off ∧ s "freestream_temperature" = none ∧ Atmos.geom alt off = some (rho, p)) ∨
       (s "altitude" = none ∧ (∀ x, s "freestream_density" = some x → rho = x) ∧ (∀ x, s "freestream_pressure" = some x → p = x) ∧ ∀ x, s "freestream_temperature" = some x → T = x)) := by
  rw [create] at h
  split at h
  swap; · cases h
  next hnd =>
  rw [if_neg (by rw [h0]; simp), compute] at h
  obtain ⟨s1, hs1, h⟩ := Option.bind_eq_some_iff.1 h
  obtain ⟨s2, hs2, h⟩ := Option.bind_eq_some_iff.1 h
  obtain ⟨⟨s3, v, d⟩, hs3, h⟩ := Option.bind_eq_some_iff.1 h
  obtain ⟨rho, p, T, t1, t2, t3, t4, t5, t6⟩ := thermo_eq hs2
  obtain ⟨v1, v2, v3, v4, v5⟩ := velocity_eq hnd t3 hs3
  simp only [stateStep] at h
  have fr1 : ∀ x ∈ scalars, setVector s3 "freestream_direction" 3 (padded nd d) x = s3 x := fun x hx => setVector_other fun i hi => (names_apart.1 x hx i (by omega)).2.2
  rw [fr1 "freestream_density" (by decide), fr1 "freestream_pressure" (by decide), v3 "freestream_density" (by decide) (by decide) (by decide) (by decide),
    v3 "freestream_pressure" (by decide) (by decide) (by decide) (by decide), t1, t2, Option.bind_some, Option.bind_some] at h
  obtain rfl := Option.some.inj h
  have fr2 : ∀ x ∈ scalars, setVector (setVector s3 "freestream_direction" 3 (padded nd d)) "freestream" 5 (stateOf nd rho p v) x = s3 x := fun x hx => by
    rw [setVector_other fun i hi => (names_apart.1 x hx i hi).1, fr1 x hx]
  -- what the first step leaves
  have hsame : ∀ x, x ≠ "freestream_density" → x ≠ "freestream_pressure" → s1 x = s x := by
    intro x n1 n2
    rcases altitude_eq hs1 with ⟨_, rfl⟩ | ⟨_, _, r, _, _, _, _, rfl⟩
    · rfl
    · rw [get_assign, if_neg n2, get_assign, if_neg n1]
  have hsame2 : ∀ x, x ≠ "freestream_density" → x ≠ "freestream_pressure" → x ≠ "freestream_temperature" → s2 x = s x := fun x n1 n2 n3 => by rw [t6 x n1 n2 n3, hsame x n1 n2]
  have nmv : ∀ i < 5, suffixed "freestream_velocity" i ≠ "freestream_density" ∧ suffixed "freestream_velocity" i ≠ "freestream_pressure" ∧ suffixed "freestream_velocity" i ≠ "freestream_temperature" := by decide
  have nmd : ∀ i < 5, suffixed "freestream_direction" i ≠ "freestream_density" ∧ suffixed "freestream_direction" i ≠ "freestream_pressure" ∧ suffixed "freestream_direction" i ≠ "freestream_temperature" := by decide
  refine ⟨rho, p, T, v, d, stateOf nd rho p v, ⟨?_, ?_, ?_, fun i hi => ?_, fun i hi => ?_, fun i hi => setVector_at names_inj.1 hi⟩, fun hr => stateOf_exact hnd hr v, t4, ?_, ?_⟩
  · rw [fr2 _ (by decide), v3 _ (by decide) (by decide) (by decide) (by decide), t1]
  · rw [fr2 _ (by decide), v3 _ (by decide) (by decide) (by decide) (by decide), t2]
  · rw [fr2 _ (by decide), v3 _ (by decide) (by decide) (by decide) (by decide), t3]
  · rw [setVector_other fun j hj => (names_apart.2 i (by omega) j hj).1, setVector_other fun j hj => (names_apart.2 i (by omega) j (by omega)).2.1, v2 i hi]
  · rw [setVector_other fun j hj => (names_apart.2 i (by omega) j hj).2.2, setVector_at (fun a ha b hb => names_inj.2.2 a (by omega) b (by omega)) hi, padded]
  · rcases v1 with ⟨a1, a2, a3, a4⟩ | ⟨V, M, c, a1, a2, a3, a4, a5, a6, a7, a8, a9⟩
    · refine Or.inl ⟨by rw [← hsame2 _ (by decide) (by decide) (by decide)]; exact a1, by rw [← hsame2 _ (by decide) (by decide) (by decide)]; exact a2, fun i hi => ?_, a4⟩
      obtain ⟨m1, m2, m3⟩ := nmv i (by omega)
      rw [← hsame2 _ m1 m2 m3]; exact a3 i hi
    · refine Or.inr ⟨V, M, c, by rw [← hsame2 _ (by decide) (by decide) (by decide)]; exact a1, by rw [fr2 _ (by decide)]; exact a2, by rw [fr2 _ (by decide)]; exact a3, by rw [fr2 _ (by decide)]; exact a4, ?_, a6, a7, a8, ?_⟩
      · rw [← hsame2 "freestream_speed" (by decide) (by decide) (by decide), ← hsame2 "freestream_mach" (by decide) (by decide) (by decide)]; exact a5
      · refine fromDirection_congr (fun i hi => ?_) ?_ ?_ ?_ a9
        · obtain ⟨m1, m2, m3⟩ := nmd i (by omega)
          exact hsame2 _ m1 m2 m3
        · exact hsame2 _ (by decide) (by decide) (by decide)
        · exact hsame2 _ (by decide) (by decide) (by decide)
        · exact hsame2 _ (by decide) (by decide) (by decide)
  · rcases altitude_eq hs1 with ⟨ha, rfl⟩ | ⟨alt, off, r, ha, ho, hT, hg, rfl⟩
    · refine Or.inr ⟨ha, fun x hx => ?_, fun x hx => ?_, fun x hx => ?_⟩
      · have := t5 _ _ hx; rw [t1] at this; exact Option.some.inj this
      · have := t5 _ _ hx; rw [t2] at this; exact Option.some.inj this
      · have := t5 _ _ hx; rw [t3] at this; exact Option.some.inj this
    · refine Or.inl ⟨alt, off, ha, ho, hT, ?_⟩
      have e1 := t5 "freestream_density" r.1 (by rw [get_assign, if_neg (by decide), get_assign, if_pos rfl])
      have e2 := t5 "freestream_pressure" r.2 (by rw [get_assign, if_pos rfl])
      rw [t1] at e1; rw [t2] at e2
      rw [hg, Option.some.inj e1, Option.some.inj e2]

end
end Hexed.Free
