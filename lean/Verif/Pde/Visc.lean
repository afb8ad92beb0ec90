import Verif.Pde.Char
import Mathlib.Tactic.IntervalCases
import Mathlib.Analysis.SpecialFunctions.Pow.Real
set_option autoImplicit false
set_option linter.unusedVariables false

/-!
# The viscous flux is that of a Newtonian, Fourier gas (C50)
-/

namespace Hexed.Pde
noncomputable section

/-- Temperature by the ideal gas law. -/
def Temp (nd : Nat) (u : Nat → ℝ) : ℝ := Pres nd u / (u nd * gasAir)

/-- C50: the gradient of velocity that the stress is computed from is the gradient of velocity. -/
theorem velocity_gradient_exact (nd : Nat) (u : ℝ → Nat → ℝ) (hm : u 0 nd ≠ 0) (gradient : Nat → Nat → ℝ) (j : Nat) (hu : IsGrad nd u fun v => gradient v j) (i : Nat) (hi : i < nd) :
    HasDerivAt (fun t => Vel nd (u t) i) (velocGrad nd (u 0) gradient i j) 0 := by
  refine ((hu i (by omega)).fun_div (hu nd (by omega)) hm).congr_deriv ?_
  rw [velocGrad]; field_simp

theorem dot_deriv (nd : Nat) (u : ℝ → Nat → ℝ) (d : Nat → ℝ) (h : ∀ i < nd, HasDerivAt (fun t => u t i) (d i) 0) :
    HasDerivAt (fun t => dotN nd (u t) (u t)) (2 * dotN nd (u 0) d) 0 := by
  have : HasDerivAt (fun t => ∑ i ∈ Finset.range nd, u t i * u t i) (∑ i ∈ Finset.range nd, (d i * u 0 i + u 0 i * d i)) 0 := by
    refine HasDerivAt.fun_sum fun i hi => ?_
    exact (h i (Finset.mem_range.1 hi)).fun_mul (h i (Finset.mem_range.1 hi))
  refine this.congr_deriv ?_
  rw [dotN, Finset.mul_sum]
  exact Finset.sum_congr rfl fun i _ => by ring

theorem gasAir_pos : 0 < gasAir := by norm_num [gasAir]

/-- C50: and likewise the gradient of temperature. -/
theorem temperature_gradient_exact (nd : Nat) (u : ℝ → Nat → ℝ) (hm : u 0 nd ≠ 0) (gradient : Nat → Nat → ℝ) (j : Nat) (hu : IsGrad nd u fun v => gradient v j) :
    HasDerivAt (fun t => Temp nd (u t)) ((heatRat - 1) / gasAir * intEnerGrad nd (u 0) gradient j) 0 := by
  have hd := dot_deriv nd u (fun v => gradient v j) fun i hi => hu i (by omega)
  have hr := hu nd (by omega)
  have he := hu (nd + 1) (by omega)
  have hg := gasAir_pos.ne'
  have h := ((he.fun_sub (hd.fun_div (hr.const_mul 2) (mul_ne_zero two_ne_zero hm))).const_mul (2 / 5 : ℝ)).fun_div (hr.mul_const gasAir) (mul_ne_zero hm hg)
  refine h.congr_deriv ?_
  rw [intEnerGrad, heatRat]
  have e : (sumN nd fun i => u 0 i / u 0 nd * velocGrad nd (u 0) gradient i j) = dotN nd (u 0) (fun v => gradient v j) / u 0 nd / u 0 nd - dotN nd (u 0) (u 0) * gradient nd j / u 0 nd / u 0 nd / u 0 nd := by
    rw [sumN_eq, dotN, dotN, Finset.sum_div, Finset.sum_div, Finset.sum_mul, Finset.sum_div, Finset.sum_div, Finset.sum_div, ← Finset.sum_sub_distrib]
    refine Finset.sum_congr rfl fun i _ => ?_
    rw [velocGrad]; field_simp
  rw [e]
  field_simp
  ring

/-- C50: the diffusive flux of the code. `U j` is any curve of states through `state` whose velocity at 0 is the given gradient in
direction `j`; `G` and `dT` are the velocity and temperature gradients. `|state (nd+3)|` is the Laplacian artificial viscosity and
`|state (nd+2)|` the artificial bulk viscosity. -/
theorem viscous_flux_exact (nd : Nat) (dyn_visc therm_cond : Transport) (state : Nat → ℝ) (hm : state nd ≠ 0) (normal gradient : Nat → Nat → ℝ) (U : Nat → ℝ → Nat → ℝ)
    (hU : ∀ j < nd, U j 0 = state ∧ IsGrad nd (U j) fun v => gradient v j)
    (G : Nat → Nat → ℝ) (hG : ∀ i < nd, ∀ j < nd, HasDerivAt (fun t => Vel nd (U j t) i) (G i j) 0)
    (dT : Nat → ℝ) (hT : ∀ j < nd, HasDerivAt (fun t => Temp nd (U j t)) (dT j) 0) (v : Nat) (hv : v < nd + 2) (d : Nat) :
    fluxDiff nd dyn_visc therm_cond state normal gradient v d =
      let tau := Newton nd (dyn_visc.coefficient (sqrtTemp nd state)) (abs (state (nd + 2)) * state nd) G
      ∑ j ∈ Finset.range nd, -(abs (state (nd + 3)) * gradient v j +
        (if v < nd then tau v j else if v = nd then 0
         else ∑ i ∈ Finset.range nd, Vel nd state i * tau i j + therm_cond.coefficient (sqrtTemp nd state) * dT j)) * normal j d := by
  have hg : ∀ i < nd, ∀ j < nd, velocGrad nd state gradient i j = G i j := by
    intro i hi j hj
    have h := velocity_gradient_exact nd (U j) (by rw [(hU j hj).1]; exact hm) gradient j (hU j hj).2 i hi
    rw [(hU j hj).1] at h
    exact h.unique (hG i hi j hj)
  have ht : ∀ j < nd, (heatRat - 1) / gasAir * intEnerGrad nd state gradient j = dT j := by
    intro j hj
    have h := temperature_gradient_exact nd (U j) (by rw [(hU j hj).1]; exact hm) gradient j (hU j hj).2
    rw [(hU j hj).1] at h
    exact h.unique (hT j hj)
  have hs : ∀ i < nd, ∀ j < nd, ∀ mu, stress nd mu state gradient i j = Newton nd mu (abs (state (nd + 2)) * state nd) G i j := by
    intro i hi j hj mu
    simp only [stress, Newton, hg i hi j hj, hg j hj i hi]
    have : (sumN nd fun k => velocGrad nd state gradient k k) = ∑ k ∈ Finset.range nd, G k k :=
      Finset.sum_congr rfl fun k hk => hg k (Finset.mem_range.1 hk) k (Finset.mem_range.1 hk)
    rw [this]
  rw [fluxDiff, sumN_eq]
  refine Finset.sum_congr rfl fun j hj => ?_
  have hj := Finset.mem_range.1 hj
  simp only [fluxDiff0]
  congr 1
  by_cases h1 : v < nd
  · simp only [if_pos h1, hs v h1 j hj]; ring
  · by_cases h2 : v = nd
    · have h3 : ¬ v = nd + 1 := by omega
      simp only [if_neg h1, if_neg h3, if_pos h2]; ring
    · have h3 : v = nd + 1 := by omega
      simp only [if_neg h1, if_neg h2, if_pos h3, ← ht j hj]
      have : (sumN nd fun i => state i / state nd * stress nd (dyn_visc.coefficient (sqrtTemp nd state)) state gradient i j) =
          ∑ i ∈ Finset.range nd, Vel nd state i * Newton nd (dyn_visc.coefficient (sqrtTemp nd state)) (abs (state (nd + 2)) * state nd) G i j := by
        rw [sumN_eq]
        refine Finset.sum_congr rfl fun i hi => ?_
        rw [hs i (Finset.mem_range.1 hi) j hj]; rfl
      rw [this]; ring

/-- The square root of temperature that transport coefficients are computed from. -/
theorem sqrt_temp_exact (nd : Nat) (u : Nat → ℝ) (hm : 0 < u nd) (hp : 0 ≤ Pres nd u) : sqrtTemp nd u = √(Temp nd u) := by
  have h : (u (nd + 1) - kinEner nd u) / u nd = 5 / 2 * Pres nd u / u nd := by
    rw [← pressure_eq, pressure, heatRat]; ring
  rw [sqrtTemp, h, max_eq_left (div_nonneg (mul_nonneg (by norm_num) hp) hm.le), Temp, heatRat]
  congr 1
  field_simp
  ring

/-! ## Friction never creates mechanical energy -/

/-- C50: with nonnegative viscosities, the work of the viscous stress on the velocity gradient is never negative, in up to three
dimensions. -/
theorem dissipation_nonneg (nd : Nat) (hnd : nd ≤ 3) (mu bulk : ℝ) (hmu : 0 ≤ mu) (hb : 0 ≤ bulk) (g : Nat → Nat → ℝ) :
    0 ≤ ∑ i ∈ Finset.range nd, ∑ j ∈ Finset.range nd, Newton nd mu bulk g i j * g i j := by
  interval_cases nd
  · simp
  · simp only [Finset.sum_range_one, Newton, if_true]
    nlinarith [mul_nonneg hmu (mul_self_nonneg (g 0 0)), mul_nonneg hb (mul_self_nonneg (g 0 0))]
  · simp only [Finset.sum_range_succ, Finset.sum_range_zero, Newton]
    norm_num
    nlinarith [mul_nonneg hmu (mul_self_nonneg (g 0 1 + g 1 0)), mul_nonneg hb (mul_self_nonneg (g 0 0 + g 1 1)), mul_nonneg hmu (mul_self_nonneg (g 0 0 - g 1 1)),
      mul_nonneg hmu (mul_self_nonneg (g 0 0)), mul_nonneg hmu (mul_self_nonneg (g 1 1))]
  · simp only [Finset.sum_range_succ, Finset.sum_range_zero, Newton]
    norm_num
    nlinarith [mul_nonneg hmu (mul_self_nonneg (g 0 1 + g 1 0)), mul_nonneg hmu (mul_self_nonneg (g 0 2 + g 2 0)), mul_nonneg hmu (mul_self_nonneg (g 1 2 + g 2 1)),
      mul_nonneg hb (mul_self_nonneg (g 0 0 + g 1 1 + g 2 2)), mul_nonneg hmu (mul_self_nonneg (g 0 0 - g 1 1)), mul_nonneg hmu (mul_self_nonneg (g 0 0 - g 2 2)),
      mul_nonneg hmu (mul_self_nonneg (g 1 1 - g 2 2))]

/-! ## Transport coefficients -/

/-- Sutherland's law: μ = μ₀ (T/T₀)^(3/2) (T₀+S)/(T+S), where `coefficient` is given √T. -/
theorem sutherland_law (mu0 T0 S T : ℝ) (h0 : 0 < T0) (hT : 0 ≤ T) :
    (Transport.sutherland mu0 T0 S).coefficient (√T) = mu0 * (T / T0) ^ (3 / 2 : ℝ) * (T0 + S) / (T + S) := by
  have h : (√T / √T0) ^ 3 = (T / T0) ^ (3 / 2 : ℝ) := by
    rw [← Real.sqrt_div hT, Real.sqrt_eq_rpow, ← Real.rpow_natCast, ← Real.rpow_mul (div_nonneg hT h0.le)]
    norm_num
  simp only [Transport.coefficient, Transport.sutherland, h, Real.mul_self_sqrt hT, zero_add]

/-- At the reference temperature it is the reference value. -/
theorem sutherland_reference (mu0 T0 S : ℝ) (h0 : 0 < T0) (hS : 0 ≤ S) : (Transport.sutherland mu0 T0 S).coefficient (√T0) = mu0 := by
  rw [sutherland_law mu0 T0 S T0 h0 h0.le, div_self h0.ne', Real.one_rpow, mul_one, mul_div_assoc, div_self (by linarith), mul_one]

/-- Constant and zero coefficients are what they say, at every temperature. -/
theorem constant_law (c T : ℝ) : (Transport.constant c).coefficient (√T) = c ∧ Transport.inviscid.coefficient (√T) = 0 := by
  simp [Transport.coefficient, Transport.constant, Transport.inviscid]

/-- Coefficients are never negative. -/
theorem sutherland_nonneg (mu0 T0 S T : ℝ) (hmu : 0 ≤ mu0) (h0 : 0 < T0) (hS : 0 ≤ S) (hT : 0 ≤ T) : 0 ≤ (Transport.sutherland mu0 T0 S).coefficient (√T) := by
  rw [sutherland_law mu0 T0 S T h0 hT]
  exact div_nonneg (mul_nonneg (mul_nonneg hmu (Real.rpow_nonneg (div_nonneg hT h0.le) _)) (by linarith)) (by linarith)

/-! ## Non-vacuity -/

/-- Every gradient is the derivative of some curve of states. -/
theorem grad_exists (nd : Nat) (state d : Nat → ℝ) : ∃ U : ℝ → Nat → ℝ, U 0 = state ∧ IsGrad nd U d := by
  refine ⟨fun t v => state v + t * d v, by funext v; simp, fun v _ => ?_⟩
  simpa using ((hasDerivAt_id (0 : ℝ)).mul_const (d v)).const_add (state v)

/-- Every hypothesis of `viscous_flux_exact` can be met, for every state and gradient. -/
example (gradient : Nat → Nat → ℝ) : ∃ (U : Nat → ℝ → Nat → ℝ) (G : Nat → Nat → ℝ) (dT : Nat → ℝ),
    (∀ j < 2, U j 0 = exState ∧ IsGrad 2 (U j) fun v => gradient v j) ∧ (∀ i < 2, ∀ j < 2, HasDerivAt (fun t => Vel 2 (U j t) i) (G i j) 0) ∧
    ∀ j < 2, HasDerivAt (fun t => Temp 2 (U j t)) (dT j) 0 := by
  choose U hU using fun j : Nat => grad_exists 2 exState fun v => gradient v j
  have hm : exState 2 ≠ 0 := exState_admissible.mass.ne'
  refine ⟨U, velocGrad 2 exState gradient, fun j => (heatRat - 1) / gasAir * intEnerGrad 2 exState gradient j, fun j _ => hU j, fun i hi j _ => ?_, fun j _ => ?_⟩
  · have h := velocity_gradient_exact 2 (U j) (by rw [(hU j).1]; exact hm) gradient j (hU j).2 i hi
    rwa [(hU j).1] at h
  · have h := temperature_gradient_exact 2 (U j) (by rw [(hU j).1]; exact hm) gradient j (hU j).2
    rwa [(hU j).1] at h

end
end Hexed.Pde
