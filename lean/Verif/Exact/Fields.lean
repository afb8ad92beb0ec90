import Verif.Exact.Props
import Verif.Flow.Props
import Mathlib.Analysis.SpecialFunctions.Log.Deriv
import Mathlib.Algebra.BigOperators.Intervals
set_option autoImplicit false
set_option linter.unusedVariables false

/-!
# The other analytic fields (C82)
-/

namespace Hexed.Exact
open Hexed.Force Hexed.Flow
noncomputable section

theorem polar (x y : ℝ) : √(x * x + y * y) * Real.cos (atan2 y x) = x ∧ √(x * x + y * y) * Real.sin (atan2 y x) = y := by
  have hn : √(x * x + y * y) = ‖(⟨x, y⟩ : ℂ)‖ := by rw [Complex.norm_def, Complex.normSq_mk]
  rw [hn, atan2]
  exact ⟨Complex.norm_mul_cos_arg _, Complex.norm_mul_sin_arg _⟩

/-- The velocity of a doublet in Cartesian coordinates. -/
theorem doubletVeloc_eq {f0 f1 rho l0 l1 radius p0 p1 : ℝ} (hp : p0 ≠ l0 ∨ p1 ≠ l1) :
    doubletVeloc f0 f1 rho l0 l1 radius p0 p1 =
      (f0 / rho - radius ^ 2 * (f0 / rho * ((p0 - l0) ^ 2 - (p1 - l1) ^ 2) + 2 * (f1 / rho) * (p0 - l0) * (p1 - l1)) / ((p0 - l0) ^ 2 + (p1 - l1) ^ 2) ^ 2,
       f1 / rho - radius ^ 2 * (2 * (f0 / rho) * (p0 - l0) * (p1 - l1) - f1 / rho * ((p0 - l0) ^ 2 - (p1 - l1) ^ 2)) / ((p0 - l0) ^ 2 + (p1 - l1) ^ 2) ^ 2) := by
  obtain ⟨a1, a2⟩ := polar (f0 / rho) (f1 / rho)
  obtain ⟨b1, b2⟩ := polar (p0 - l0) (p1 - l1)
  have hpos : 0 < (p0 - l0) * (p0 - l0) + (p1 - l1) * (p1 - l1) := by
    rcases hp with h | h
    · have := mul_self_pos.2 (sub_ne_zero.2 h); nlinarith [mul_self_nonneg (p1 - l1)]
    · have := mul_self_pos.2 (sub_ne_zero.2 h); nlinarith [mul_self_nonneg (p0 - l0)]
  have hm := Real.sqrt_pos.2 hpos
  have hsq := Real.mul_self_sqrt hpos.le
  simp only [doubletVeloc, zero_add, Real.cos_sub, Real.sin_sub]
  generalize p0 - l0 = x at *
  generalize p1 - l1 = y at *
  generalize f0 / rho = a at *
  generalize f1 / rho = b at *
  generalize √(a * a + b * b) = S at *
  generalize Real.cos (atan2 b a) = ca at *
  generalize Real.sin (atan2 b a) = sa at *
  generalize Real.cos (atan2 y x) = ct at *
  generalize Real.sin (atan2 y x) = st at *
  have hr2 : x ^ 2 + y ^ 2 = √(x * x + y * y) * √(x * x + y * y) := by rw [hsq]; ring
  rw [hr2]
  generalize √(x * x + y * y) = r at *
  have hct : ct ^ 2 + st ^ 2 = 1 := by
    have : (r * ct) ^ 2 + (r * st) ^ 2 = r * r := by rw [b1, b2]; linarith
    have h2 : r ^ 2 * (ct ^ 2 + st ^ 2 - 1) = 0 := by linear_combination this
    rcases mul_eq_zero.1 h2 with h | h
    · exact absurd (pow_eq_zero_iff two_ne_zero |>.1 h) hm.ne'
    · linarith
  subst b1 b2 a1 a2
  ext
  · simp only
    field_simp
    linear_combination (S * ca) * hct * r ^ 2
  · simp only
    field_simp
    linear_combination (S * sa) * hct * r ^ 2

/-- The velocity of a doublet is that of an incompressible irrotational flow, the circle is a streamline, and away from it the flow approaches the freestream
with the square of the distance. -/
theorem doublet_flow {f0 f1 rho l0 l1 radius p0 p1 : ℝ} (hp : p0 ≠ l0 ∨ p1 ≠ l1) :
    Incompressible (fun x y => doubletVeloc f0 f1 rho l0 l1 radius x y) p0 p1 ∧
    (let v := doubletVeloc f0 f1 rho l0 l1 radius p0 p1
     ((p0 - l0) ^ 2 + (p1 - l1) ^ 2 = radius ^ 2 → (p0 - l0) * v.1 + (p1 - l1) * v.2 = 0) ∧
     ((p0 - l0) ^ 2 + (p1 - l1) ^ 2) ^ 2 * ((v.1 - f0 / rho) ^ 2 + (v.2 - f1 / rho) ^ 2) = radius ^ 4 * ((f0 / rho) ^ 2 + (f1 / rho) ^ 2)) := by
  have hpos : (p0 - l0) ^ 2 + (p1 - l1) ^ 2 ≠ 0 := by
    intro h
    have h0 : p0 - l0 = 0 := by nlinarith [sq_nonneg (p0 - l0), sq_nonneg (p1 - l1)]
    have h1 : p1 - l1 = 0 := by nlinarith [sq_nonneg (p0 - l0), sq_nonneg (p1 - l1)]
    rcases hp with hp | hp
    · exact hp (by linarith)
    · exact hp (by linarith)
  refine ⟨?_, ?_, ?_⟩
  · have hx : HasDerivAt (fun s => s - l0) 1 p0 := (hasDerivAt_id p0).sub_const l0
    have hy : HasDerivAt (fun s => s - l1) 1 p1 := (hasDerivAt_id p1).sub_const l1
    have hcx : HasDerivAt (fun s : ℝ => p1 - l1) 0 p0 := hasDerivAt_const _ _
    have hcy : HasDerivAt (fun s : ℝ => p0 - l0) 0 p1 := hasDerivAt_const _ _
    have U : ∀ {X Y : ℝ → ℝ} {X' Y' s : ℝ} (hX : HasDerivAt X X' s) (hY : HasDerivAt Y Y' s) (h0 : X s ^ 2 + Y s ^ 2 ≠ 0), HasDerivAt (fun s => f0 / rho -
        radius ^ 2 * (f0 / rho * (X s ^ 2 - Y s ^ 2) + 2 * (f1 / rho) * X s * Y s) / (X s ^ 2 + Y s ^ 2) ^ 2)
        (-((radius ^ 2 * (f0 / rho * (2 * X s * X' - 2 * Y s * Y') + (2 * (f1 / rho) * X' * Y s + 2 * (f1 / rho) * X s * Y')) * (X s ^ 2 + Y s ^ 2) ^ 2 -
          radius ^ 2 * (f0 / rho * (X s ^ 2 - Y s ^ 2) + 2 * (f1 / rho) * X s * Y s) * (2 * (X s ^ 2 + Y s ^ 2) * (2 * X s * X' + 2 * Y s * Y'))) / ((X s ^ 2 + Y s ^ 2) ^ 2) ^ 2)) s := by
      intro X Y X' Y' s hX hY h0
      have h := ((((((hX.fun_pow 2).fun_sub (hY.fun_pow 2)).const_mul (f0 / rho)).fun_add ((hX.const_mul (2 * (f1 / rho))).fun_mul hY)).const_mul (radius ^ 2)).fun_div
        (((hX.fun_pow 2).fun_add (hY.fun_pow 2)).fun_pow 2) (pow_ne_zero 2 h0)).const_sub (f0 / rho)
      refine h.congr_deriv ?_
      norm_num
    have V : ∀ {X Y : ℝ → ℝ} {X' Y' s : ℝ} (hX : HasDerivAt X X' s) (hY : HasDerivAt Y Y' s) (h0 : X s ^ 2 + Y s ^ 2 ≠ 0), HasDerivAt (fun s => f1 / rho -
        radius ^ 2 * (2 * (f0 / rho) * X s * Y s - f1 / rho * (X s ^ 2 - Y s ^ 2)) / (X s ^ 2 + Y s ^ 2) ^ 2)
        (-((radius ^ 2 * ((2 * (f0 / rho) * X' * Y s + 2 * (f0 / rho) * X s * Y') - f1 / rho * (2 * X s * X' - 2 * Y s * Y')) * (X s ^ 2 + Y s ^ 2) ^ 2 -
          radius ^ 2 * (2 * (f0 / rho) * X s * Y s - f1 / rho * (X s ^ 2 - Y s ^ 2)) * (2 * (X s ^ 2 + Y s ^ 2) * (2 * X s * X' + 2 * Y s * Y'))) / ((X s ^ 2 + Y s ^ 2) ^ 2) ^ 2)) s := by
      intro X Y X' Y' s hX hY h0
      have h := (((((hX.const_mul (2 * (f0 / rho))).fun_mul hY).fun_sub (((hX.fun_pow 2).fun_sub (hY.fun_pow 2)).const_mul (f1 / rho))).const_mul (radius ^ 2)).fun_div
        (((hX.fun_pow 2).fun_add (hY.fun_pow 2)).fun_pow 2) (pow_ne_zero 2 h0)).const_sub (f1 / rho)
      refine h.congr_deriv ?_
      norm_num
    have nx : ∀ᶠ s in nhds p0, s ≠ l0 ∨ p1 ≠ l1 := by
      rcases hp with h | h
      · exact (eventually_ne_nhds h).mono fun s hs => Or.inl hs
      · exact Filter.Eventually.of_forall fun s => Or.inr h
    have ny : ∀ᶠ s in nhds p1, p0 ≠ l0 ∨ s ≠ l1 := by
      rcases hp with h | h
      · exact Filter.Eventually.of_forall fun s => Or.inl h
      · exact (eventually_ne_nhds h).mono fun s hs => Or.inr hs
    refine ⟨_, _, _, _, (U hx hcx hpos).congr_of_eventuallyEq (nx.mono fun s hs => congrArg Prod.fst (doubletVeloc_eq hs)),
      (U hcy hy hpos).congr_of_eventuallyEq (ny.mono fun s hs => congrArg Prod.fst (doubletVeloc_eq hs)),
      (V hx hcx hpos).congr_of_eventuallyEq (nx.mono fun s hs => congrArg Prod.snd (doubletVeloc_eq hs)),
      (V hcy hy hpos).congr_of_eventuallyEq (ny.mono fun s hs => congrArg Prod.snd (doubletVeloc_eq hs)), ?_, ?_⟩
    · field_simp
      ring
    · field_simp
      ring
  · intro h
    rw [doubletVeloc_eq hp]
    simp only
    field_simp
    rw [← h]
    ring
  · simp only [doubletVeloc_eq hp]
    field_simp
    ring

/-- A doublet in two dimensions has the entropy and stagnation enthalpy of the freestream, and the velocity of the incompressible flow. -/
theorem doublet_exact {fs u : Nat → ℝ} {g l0 l1 radius p0 p1 : ℝ} (hg : 1 < g) (hr : 0 < fs 2) (hp : 0 < pres g fs)
    (h : doublet 2 fs g l0 l1 radius p0 p1 = some u) (hu : u 2 ≠ 0) :
    (u 0 / u 2, u 1 / u 2) = doubletVeloc (fs 0) (fs 1) (fs 2) l0 l1 radius p0 p1 ∧ pres g u / u 2 ^ g = pres g fs / fs 2 ^ g ∧ (u 3 + pres g u) / u 2 = (fs 3 + pres g fs) / fs 2 := by
  have hg0 : 0 < g := by linarith
  have hg1 : 0 < g - 1 := by linarith
  unfold doublet at h
  simp only [show 2 + 2 - 2 = 2 from rfl, show 2 + 2 - 1 = 3 from rfl, zero_add] at h
  split at h
  · exact absurd h (by simp)
  generalize hv : doubletVeloc (fs 0) (fs 1) (fs 2) l0 l1 radius p0 p1 = v at h ⊢
  obtain ⟨r, h1, h⟩ := Option.bind_eq_some_iff.1 h
  obtain ⟨e, h2, h⟩ := Option.bind_eq_some_iff.1 h
  obtain ⟨y, h3, h⟩ := Option.bind_eq_some_iff.1 h
  obtain ⟨k, h4, h⟩ := Option.bind_eq_some_iff.1 h
  have hsq : √(fs 0 / fs 2 * (fs 0 / fs 2) + fs 1 / fs 2 * (fs 1 / fs 2)) * √(fs 0 / fs 2 * (fs 0 / fs 2) + fs 1 / fs 2 * (fs 1 / fs 2)) = (fs 0 ^ 2 + fs 1 ^ 2) / fs 2 ^ 2 := by
    rw [Real.mul_self_sqrt (add_nonneg (mul_self_nonneg _) (mul_self_nonneg _))]
    field_simp
  have hpres : (g - 1) * (fs 3 - 1 / 2 * √(fs 0 / fs 2 * (fs 0 / fs 2) + fs 1 / fs 2 * (fs 1 / fs 2)) * √(fs 0 / fs 2 * (fs 0 / fs 2) + fs 1 / fs 2 * (fs 1 / fs 2)) * fs 2) = pres g fs := by
    rw [show ∀ s : ℝ, 1 / 2 * s * s = 1 / 2 * (s * s) from fun s => by ring, hsq, pres]
    field_simp
  have hhalf : 1 / 2 * √(fs 0 / fs 2 * (fs 0 / fs 2) + fs 1 / fs 2 * (fs 1 / fs 2)) * √(fs 0 / fs 2 * (fs 0 / fs 2) + fs 1 / fs 2 * (fs 1 / fs 2)) = 1 / 2 * ((fs 0 ^ 2 + fs 1 ^ 2) / fs 2 ^ 2) := by
    rw [← hsq]; ring
  rw [hpres] at h1 h4
  rw [hhalf] at h1
  have hfree : (fs 3 + pres g fs) / fs 2 - 1 / 2 * ((fs 0 ^ 2 + fs 1 ^ 2) / fs 2 ^ 2) = g / (g - 1) * (pres g fs / fs 2) := by
    rw [pres]; field_simp; ring
  rw [hfree] at h1
  generalize hh : (fs 3 + pres g fs) / fs 2 - 1 / 2 * (v.1 * v.1 + v.2 * v.2) = hm at h1 h4
  have hH : (fs 3 + pres g fs) / fs 2 = hm + 1 / 2 * (v.1 * v.1 + v.2 * v.2) := by linarith
  have hden : g / (g - 1) * (pres g fs / fs 2) ≠ 0 := by positivity
  rw [quot, if_neg hden] at h1
  rw [quot, if_neg hg1.ne'] at h2
  rw [quot, if_neg hg0.ne'] at h4
  obtain rfl := (Option.some.inj h1)
  obtain rfl := (Option.some.inj h2)
  obtain rfl := (Option.some.inj h4)
  obtain rfl := (Option.some.inj h)
  have hr0 : ¬ hm / (g / (g - 1) * (pres g fs / fs 2)) < 0 := by intro hneg; rw [power, if_pos hneg] at h3; exact absurd h3 (by simp)
  rw [power, if_neg hr0] at h3
  split at h3
  · exact absurd h3 (by simp)
  have h3' := Option.some.inj h3
  simp only [show (2 : Nat) ≠ 0 by decide, show (2 : Nat) ≠ 1 by decide, if_true, if_false] at hu
  have hy : y ≠ 0 := right_ne_zero_of_mul hu
  have hrat : 0 < hm / (g / (g - 1) * (pres g fs / fs 2)) := by
    refine lt_of_le_of_ne (not_lt.1 hr0) fun h0 => hy ?_
    rw [← h3', ← h0, Real.zero_rpow (by positivity)]
  have hm0 : 0 < hm := by
    have hpos : 0 < g / (g - 1) * (pres g fs / fs 2) := by positivity
    exact (div_pos_iff_of_pos_right hpos).1 hrat
  have hypos : 0 < y := h3' ▸ Real.rpow_pos_of_pos hrat _
  have hP : pres g (fun i => if i = 0 then v.1 * (fs 2 * y) else if i = 1 then v.2 * (fs 2 * y) else if i = 2 then fs 2 * y else if i = 3 then fs 2 * y * (hm / g + 1 / 2 * (v.1 * v.1 + v.2 * v.2)) else fs i) =
      (g - 1) / g * hm * (fs 2 * y) := by
    simp only [pres]
    norm_num
    field_simp
    ring
  refine ⟨?_, ?_, ?_⟩
  · simp only [show (2 : Nat) ≠ 0 by decide, show (2 : Nat) ≠ 1 by decide, show (1 : Nat) ≠ 0 by decide, if_true, if_false]
    rw [mul_div_cancel_right₀ _ hu, mul_div_cancel_right₀ _ hu]
  · rw [hP]
    simp only [show (2 : Nat) ≠ 0 by decide, show (2 : Nat) ≠ 1 by decide, if_true, if_false]
    have hyg : y ^ g = hm / (g / (g - 1) * (pres g fs / fs 2)) * y := by
      rw [← h3', ← Real.rpow_mul hrat.le, ← Real.rpow_one_add' hrat.le (by positivity)]
      congr 1
      field_simp
      ring
    rw [Real.mul_rpow hr.le hypos.le, hyg]
    have hq := Real.rpow_pos_of_pos hr g
    field_simp
  · rw [hP, hH]
    simp only [show (2 : Nat) ≠ 0 by decide, show (2 : Nat) ≠ 1 by decide, show (3 : Nat) ≠ 0 by decide, show (3 : Nat) ≠ 1 by decide, show (3 : Nat) ≠ 2 by decide, if_true, if_false]
    have := hr.ne'
    field_simp
    ring

end
end Hexed.Exact
