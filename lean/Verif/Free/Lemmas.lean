import Verif.Free.Spec
import Verif.Pde.Lemmas
set_option autoImplicit false
set_option linter.unusedVariables false

/-!
# Steps of the computation of the freestream
-/

namespace Hexed.Free
open Hexed.Force Hexed.Pde
noncomputable section

theorem get_assign (s : Vars) (name n : String) (x : ℝ) : s.assign name x n = if n = name then some x else s n := rfl

theorem setVector_other {s : Vars} {name x : String} {n : Nat} {v : Nat → ℝ} (h : ∀ i < n, x ≠ suffixed name i) : setVector s name n v x = s x := by
  rw [setVector]
  induction n with
  | zero => rfl
  | succ n ih =>
    rw [List.range_succ, List.foldl_append, List.foldl_cons, List.foldl_nil, get_assign, if_neg (h n (by omega))]
    exact ih fun i hi => h i (by omega)

theorem setVector_at {s : Vars} {name : String} {n : Nat} {v : Nat → ℝ} (hinj : ∀ i < n, ∀ j < n, suffixed name i = suffixed name j → i = j) {i : Nat} (hi : i < n) :
    setVector s name n v (suffixed name i) = some (v i) := by
  rw [setVector]
  induction n with
  | zero => omega
  | succ n ih =>
    rw [List.range_succ, List.foldl_append, List.foldl_cons, List.foldl_nil, get_assign]
    split
    · next h => rw [hinj i hi n (by omega) h]
    · next h =>
      have hne : i ≠ n := fun e => h (by rw [e])
      exact ih (fun a ha b hb => hinj a (by omega) b (by omega)) (by omega)

theorem names_inj : (∀ i < 5, ∀ j < 5, suffixed "freestream" i = suffixed "freestream" j → i = j) ∧
    (∀ i < 5, ∀ j < 5, suffixed "freestream_velocity" i = suffixed "freestream_velocity" j → i = j) ∧
    ∀ i < 5, ∀ j < 5, suffixed "freestream_direction" i = suffixed "freestream_direction" j → i = j := by decide

/-- The scalar variables. -/
def scalars : List String := ["freestream_density", "freestream_pressure", "freestream_temperature", "freestream_speed", "freestream_mach", "freestream_sound_speed", "altitude", "temperature_offset",
  "attack", "sideslip"]

theorem names_apart : (∀ x ∈ scalars, ∀ i < 5, x ≠ suffixed "freestream" i ∧ x ≠ suffixed "freestream_velocity" i ∧ x ≠ suffixed "freestream_direction" i) ∧
    (∀ i < 5, ∀ j < 5, suffixed "freestream_velocity" i ≠ suffixed "freestream" j ∧ suffixed "freestream_velocity" i ≠ suffixed "freestream_direction" j ∧
      suffixed "freestream_direction" i ≠ suffixed "freestream" j) := by decide

theorem getVector_eq {s : Vars} {name : String} {n : Nat} : (∀ i < n, (s (suffixed name i)).isSome) ↔ (getVector s name n).isSome := by
  rw [getVector]
  split
  · next h => simp only [List.all_eq_true, List.mem_range] at h; simp only [Option.isSome_some, iff_true]; exact h
  · next h => simp only [List.all_eq_true, List.mem_range] at h; simp only [Option.isSome_none, Bool.false_eq_true, iff_false]; exact h

theorem getVector_some {s : Vars} {name : String} {n : Nat} {v : Nat → ℝ} (h : getVector s name n = some v) : ∀ i < n, s (suffixed name i) = some (v i) := by
  rw [getVector] at h
  split at h
  · next hs =>
    simp only [List.all_eq_true, List.mem_range] at hs
    obtain rfl := Option.some.inj h
    intro i hi
    obtain ⟨x, hx⟩ := Option.isSome_iff_exists.1 (hs i hi)
    simp [hx]
  · cases h

theorem normalized_points {nd : Nat} {w : Nat → ℝ} (h : ∃ i < nd, w i ≠ 0) : Points nd (normalized nd w) w := by
  obtain ⟨i, hi, hw⟩ := h
  have hpos : 0 < sumN nd (fun j => w j * w j) := by
    rw [sumN_eq]
    exact Finset.sum_pos' (fun j _ => mul_self_nonneg _) ⟨i, Finset.mem_range.2 hi, mul_self_pos.2 hw⟩
  have hr := Real.sqrt_pos.2 hpos
  constructor
  · have e : dotN nd (normalized nd w) (normalized nd w) = dotN nd w w / (√(sumN nd fun j => w j * w j) * √(sumN nd fun j => w j * w j)) := by
      rw [dotN, dotN, Finset.sum_div]
      refine Finset.sum_congr rfl fun j _ => ?_
      rw [normalized, if_pos hpos]; field_simp
    rw [e, Real.mul_self_sqrt hpos.le]
    exact div_self hpos.ne'
  · refine ⟨_, hr, fun j _ => ?_⟩
    rw [normalized, if_pos hpos]
    exact (mul_div_cancel₀ _ hr.ne').symm

theorem normalized_zero {nd : Nat} {w : Nat → ℝ} (h : ∀ i < nd, w i = 0) : ∀ i < nd, normalized nd w i = 0 := by
  intro i hi
  rw [normalized]
  have : sumN nd (fun j => w j * w j) = 0 := by
    rw [sumN_eq]; exact Finset.sum_eq_zero fun j hj => by rw [h j (Finset.mem_range.1 hj), mul_zero]
  rw [this, if_neg (lt_irrefl _), h i hi]

theorem count_two {s : Vars} {a b c : String} : count s [a, b, c] = 2 ↔
    ((s a).isSome ∧ (s b).isSome ∧ s c = none) ∨ ((s a).isSome ∧ s b = none ∧ (s c).isSome) ∨ (s a = none ∧ (s b).isSome ∧ (s c).isSome) := by
  rcases ha : s a with _ | x <;> rcases hb : s b with _ | y <;> rcases hc : s c with _ | z <;> simp [count, ha, hb, hc]

theorem count_one {s : Vars} {a b c : String} : count s [a, b, c] = 1 ↔
    ((s a).isSome ∧ s b = none ∧ s c = none) ∨ (s a = none ∧ (((s b).isSome ∧ s c = none) ∨ (s b = none ∧ (s c).isSome))) := by
  rcases ha : s a with _ | x <;> rcases hb : s b with _ | y <;> rcases hc : s c with _ | z <;> simp [count, ha, hb, hc]

theorem gasAir_pos : 0 < Atmos.gasAir := by norm_num [Atmos.gasAir]

theorem quot_some {a b x : ℝ} (h : quot a b = some x) : b ≠ 0 ∧ x = a / b := by
  rw [quot] at h
  split at h
  · cases h
  · next hb => exact ⟨hb, (Option.some.inj h).symm⟩

/-- What `thermoStep` does. -/
theorem thermo_eq {s s2 : Vars} (h : thermoStep s = some s2) : ∃ rho p T, s2 "freestream_density" = some rho ∧ s2 "freestream_pressure" = some p ∧ s2 "freestream_temperature" = some T ∧
    p = rho * Atmos.gasAir * T ∧ (∀ x y, s x = some y → s2 x = some y) ∧
    ∀ x, x ≠ "freestream_density" → x ≠ "freestream_pressure" → x ≠ "freestream_temperature" → s2 x = s x := by
  rw [thermoStep] at h
  split at h
  swap; · cases h
  next hc =>
  have hg := gasAir_pos.ne'
  rcases count_two.1 hc with ⟨h1, h2, h3⟩ | ⟨h1, h2, h3⟩ | ⟨h1, h2, h3⟩
  · obtain ⟨rho, hr⟩ := Option.isSome_iff_exists.1 h1
    obtain ⟨p, hp⟩ := Option.isSome_iff_exists.1 h2
    rw [if_pos h1, hr, Option.bind_some, withDensity, if_pos h2, hp, Option.bind_some] at h
    obtain ⟨T, hT, h⟩ := Option.bind_eq_some_iff.1 h
    obtain rfl := Option.some.inj h
    obtain ⟨q1, rfl⟩ := quot_some hT
    have hr0 : rho ≠ 0 := right_ne_zero_of_mul q1
    refine ⟨rho, p, _, by rw [get_assign, if_neg (by decide), hr], by rw [get_assign, if_neg (by decide), hp], by rw [get_assign, if_pos rfl], by field_simp, fun x y hx => ?_, fun x _ _ hx => by rw [get_assign, if_neg hx]⟩
    rw [get_assign, if_neg, hx]
    rintro rfl; rw [h3] at hx; cases hx
  · obtain ⟨rho, hr⟩ := Option.isSome_iff_exists.1 h1
    obtain ⟨T, hT⟩ := Option.isSome_iff_exists.1 h3
    rw [if_pos h1, hr, Option.bind_some, withDensity, if_neg (by rw [h2]; simp), hT, Option.bind_some] at h
    obtain rfl := Option.some.inj h
    refine ⟨rho, _, T, by rw [get_assign, if_neg (by decide), hr], by rw [get_assign, if_pos rfl], by rw [get_assign, if_neg (by decide), hT], rfl, fun x y hx => ?_, fun x _ hx _ => by rw [get_assign, if_neg hx]⟩
    rw [get_assign, if_neg, hx]
    rintro rfl; rw [h2] at hx; cases hx
  · obtain ⟨p, hp⟩ := Option.isSome_iff_exists.1 h2
    obtain ⟨T, hT⟩ := Option.isSome_iff_exists.1 h3
    rw [if_neg (by rw [h1]; simp), withoutDensity, hp, Option.bind_some, hT, Option.bind_some] at h
    obtain ⟨rho, hr, h⟩ := Option.bind_eq_some_iff.1 h
    obtain rfl := Option.some.inj h
    obtain ⟨q1, rfl⟩ := quot_some hr
    have hT0 : T ≠ 0 := right_ne_zero_of_mul q1
    refine ⟨_, p, T, by rw [get_assign, if_pos rfl], by rw [get_assign, if_neg (by decide), hp], by rw [get_assign, if_neg (by decide), hT], by field_simp, fun x y hx => ?_, fun x hx _ _ => by rw [get_assign, if_neg hx]⟩
    rw [get_assign, if_neg, hx]
    rintro rfl; rw [h1] at hx; cases hx

/-- What `altitudeStep` does. -/
theorem altitude_eq {s s1 : Vars} (h : altitudeStep s = some s1) : (s "altitude" = none ∧ s1 = s) ∨
    ∃ alt off r, s "altitude" = some alt ∧ s "temperature_offset" = some off ∧ s "freestream_temperature" = none ∧ Atmos.geom alt off = some r ∧
      s1 = (s.assign "freestream_density" r.1).assign "freestream_pressure" r.2 := by
  rw [altitudeStep] at h
  split at h
  · next h1 =>
    obtain ⟨alt, ha⟩ := Option.isSome_iff_exists.1 h1
    split at h
    · cases h
    · next h2 =>
      rw [ha, Option.bind_some] at h
      obtain ⟨off, ho, h⟩ := Option.bind_eq_some_iff.1 h
      obtain ⟨r, hr, h⟩ := Option.bind_eq_some_iff.1 h
      exact Or.inr ⟨alt, off, r, ha, ho, by simpa using h2, hr, (Option.some.inj h).symm⟩
  · next h1 => exact Or.inl ⟨by simpa using h1, (Option.some.inj h).symm⟩

theorem angles_eq {nd : Nat} (hnd : nd = 1 ∨ nd = 2 ∨ nd = 3) {s : Vars} {d : Nat → ℝ} (h : angles nd s = some d) :
    ∃ a b, (2 ≤ nd → s "attack" = some a) ∧ (nd = 3 → s "sideslip" = some b) ∧ ∀ i < nd, d i = angleDirection nd a b i := by
  rw [angles] at h
  rcases hnd with rfl | rfl | rfl
  · simp only [OfNat.one_ne_ofNat, if_false, Option.some.injEq] at h
    subst h
    exact ⟨0, 0, by simp, by simp, fun i hi => by simp [angleDirection]⟩
  · rw [if_pos rfl] at h
    obtain ⟨a, ha, h⟩ := Option.bind_eq_some_iff.1 h
    obtain rfl := Option.some.inj h
    refine ⟨a, 0, fun _ => ha, by simp, fun i hi => ?_⟩
    have : i = 0 ∨ i = 1 := by omega
    rcases this with rfl | rfl <;> simp [angleDirection, rotate2]
  · rw [if_neg (by decide), if_pos rfl] at h
    obtain ⟨a, ha, h⟩ := Option.bind_eq_some_iff.1 h
    obtain ⟨b, hb, h⟩ := Option.bind_eq_some_iff.1 h
    obtain rfl := Option.some.inj h
    refine ⟨a, b, fun _ => ha, fun _ => hb, fun i hi => ?_⟩
    have : i = 0 ∨ i = 1 ∨ i = 2 := by omega
    rcases this with rfl | rfl | rfl <;> simp [angleDirection, rotateY, rotateZ] <;> ring

end
end Hexed.Free
