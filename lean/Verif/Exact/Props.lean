import Verif.Exact.Vortex
import Mathlib.Analysis.Complex.ExponentialBounds
set_option autoImplicit false
set_option linter.unusedVariables false

/-!
# The vortex of an input file (C82)
-/

namespace Hexed.Exact
noncomputable section
variable {e : Vortex}

theorem Vortex.gaussian_shift (e : Vortex) (t x y : ℝ) : e.gaussian t x y = e.gaussian 0 (x - e.velocX * t) (y - e.velocY * t) := by
  simp [Vortex.gaussian, Vortex.velocX, Vortex.velocY]

theorem Vortex.mass_shift (e : Vortex) (t x y : ℝ) : e.mass t x y = e.mass 0 (x - e.velocX * t) (y - e.velocY * t) := by
  simp only [Vortex.mass, Vortex.scalar]
  rw [Vortex.gaussian_shift]

/-- The vortex as an initial condition is the initial state of an exact solution of the Euler equations; the expression for density gives the density of that
solution at all times; and if the freestream is at rest, the expressions are the solution at all times. -/
theorem vortex_exact (h : e.Ok) : ∃ U, SolvesEuler e.heat_rat U ∧ (∀ x y i, U 0 x y i = e.state 0 x y i) ∧ (∀ t x y, e.mass t x y = U t x y 2) ∧
    (e.freestream0 = 0 → e.freestream1 = 0 → U = e.state) := by
  refine ⟨e.moving, Vortex.moving_solves h, fun x y i => by simp [Vortex.moving], fun t x y => ?_, fun h0 h1 => ?_⟩
  · rw [Vortex.moving, Vortex.mass_shift]
    simp [Vortex.state]
  · funext t x y i
    have g0 : e.gaussian t x y = e.gaussian 0 x y := by simp [Vortex.gaussian, h0, h1]
    have hm : e.mass t x y = e.mass 0 x y := by simp only [Vortex.mass, Vortex.scalar, g0]
    have hs : e.scalar t x y = e.scalar 0 x y := by simp only [Vortex.scalar, g0]
    simp only [Vortex.moving, Vortex.velocX, Vortex.velocY, h0, h1, zero_div, zero_mul, sub_zero]
    simp only [Vortex.state, Vortex.energy, Vortex.momentum0, Vortex.momentum1, g0, hm, hs]

/-- If the freestream moves, the expressions for momentum at later times do not belong to the expression for density: mass is conserved only at special places. -/
theorem vortex_moving (h : e.Ok) (hM : e.vortex_nondim_veloc ≠ 0) (t x y : ℝ) :
    Balance e.heat_rat e.state t x y 2 ↔ t * (e.freestream1 * x - e.freestream0 * y) * (e.scalar t x y - e.gaussian t x y ^ 2) = 0 := by
  have hR := h.radius
  have Xt : HasDerivAt (fun s => x - e.velocX * s) (-e.velocX) t := by simpa using ((hasDerivAt_id t).const_mul e.velocX).const_sub x
  have Yt : HasDerivAt (fun s => y - e.velocY * s) (-e.velocY) t := by simpa using ((hasDerivAt_id t).const_mul e.velocY).const_sub y
  have Xx : HasDerivAt (fun s => s - e.velocX * t) 1 x := (hasDerivAt_id x).sub_const _
  have Yx : HasDerivAt (fun s : ℝ => y - e.velocY * t) 0 x := hasDerivAt_const _ _
  have Xy : HasDerivAt (fun s : ℝ => x - e.velocX * t) 0 y := hasDerivAt_const _ _
  have Yy : HasDerivAt (fun s => s - e.velocY * t) 1 y := (hasDerivAt_id y).sub_const _
  have dt := Vortex.mass_deriv h Xt Yt
  have dx := ((((Vortex.gaussian_deriv h Xx Yx).const_mul (y / e.vortex_argmax_radius)).mul_const e.soundSpeed).const_sub e.velocX).fun_mul (Vortex.mass_deriv h Xx Yx)
  have dy := ((((Vortex.gaussian_deriv h Xy Yy).const_mul (x / e.vortex_argmax_radius)).mul_const e.soundSpeed).const_add e.velocY).fun_mul (Vortex.mass_deriv h Xy Yy)
  have ft : (fun s => e.state s x y 2) = fun s => e.mass 0 (x - e.velocX * s) (y - e.velocY * s) := by
    funext s
    rw [← Vortex.mass_shift]; simp [Vortex.state]
  have fx : (fun s => flux e.heat_rat 0 (e.state t s y) 2) = fun s => (e.velocX - y / e.vortex_argmax_radius * e.gaussian 0 (s - e.velocX * t) (y - e.velocY * t) * e.soundSpeed) *
      e.mass 0 (s - e.velocX * t) (y - e.velocY * t) := by
    funext s
    rw [← Vortex.mass_shift, ← Vortex.gaussian_shift]; simp [flux, Vortex.state, Vortex.momentum0, Vortex.velocX]
  have fy : (fun s => flux e.heat_rat 1 (e.state t x s) 2) = fun s => (e.velocY + x / e.vortex_argmax_radius * e.gaussian 0 (x - e.velocX * t) (s - e.velocY * t) * e.soundSpeed) *
      e.mass 0 (x - e.velocX * t) (s - e.velocY * t) := by
    funext s
    rw [← Vortex.mass_shift, ← Vortex.gaussian_shift]; simp [flux, Vortex.state, Vortex.momentum1, Vortex.velocY]
  have hsc : e.scalar t x y = e.scalar 0 (x - e.velocX * t) (y - e.velocY * t) := by simp only [Vortex.scalar]; rw [Vortex.gaussian_shift]
  have hvx : e.freestream0 = e.velocX * e.freestream2 := (div_mul_cancel₀ _ h.density.ne').symm
  have hvy : e.freestream1 = e.velocY * e.freestream2 := (div_mul_cancel₀ _ h.density.ne').symm
  have hD := (Vortex.mass_pos h 0 (x - e.velocX * t) (y - e.velocY * t)).ne'
  have hS := (Vortex.scalar_pos h 0 (x - e.velocX * t) (y - e.velocY * t)).ne'
  have hG : e.gaussian 0 (x - e.velocX * t) (y - e.velocY * t) ≠ 0 := by rw [Vortex.gaussian_zero]; exact mul_ne_zero hM (Real.exp_pos _).ne'
  have hc := (Vortex.soundSpeed_pos h).ne'
  have hr := h.density.ne'
  rw [Balance, ft, fx, fy, hsc, Vortex.gaussian_shift, hvx, hvy]
  have iff : (∃ a b c, HasDerivAt (fun s => e.mass 0 (x - e.velocX * s) (y - e.velocY * s)) a t ∧
      HasDerivAt (fun s => (e.velocX - y / e.vortex_argmax_radius * e.gaussian 0 (s - e.velocX * t) (y - e.velocY * t) * e.soundSpeed) * e.mass 0 (s - e.velocX * t) (y - e.velocY * t)) b x ∧
      HasDerivAt (fun s => (e.velocY + x / e.vortex_argmax_radius * e.gaussian 0 (x - e.velocX * t) (s - e.velocY * t) * e.soundSpeed) * e.mass 0 (x - e.velocX * t) (s - e.velocY * t)) c y ∧
      a + b + c = 0) ↔ _ := ⟨fun ⟨a, b, c, ha, hb, hc, hsum⟩ => (ha.unique dt) ▸ (hb.unique dx) ▸ (hc.unique dy) ▸ hsum, fun hsum => ⟨_, _, _, dt, dx, dy, hsum⟩⟩
  rw [iff]
  generalize e.gaussian 0 (x - e.velocX * t) (y - e.velocY * t) = G at *
  generalize e.mass 0 (x - e.velocX * t) (y - e.velocY * t) = D at *
  generalize e.scalar 0 (x - e.velocX * t) (y - e.velocY * t) = S at *
  have hk : e.soundSpeed * G * D / (e.vortex_argmax_radius ^ 3 * S * e.freestream2) ≠ 0 := by positivity
  rw [← mul_right_inj' hk (b := t * _ * _), mul_zero (_ / _)]
  refine Eq.congr ?_ rfl
  field_simp
  ring

/-- The vortex with its preset parameters in a moving freestream is not a solution at later times. -/
theorem vortex_moving_refuted : ¬ ∀ e : Vortex, e.Ok → SolvesEuler e.heat_rat e.state := by
  intro hall
  have hexp : Real.exp 1 < 3 := lt_trans Real.exp_one_lt_d9 (by norm_num)
  have hok : (Vortex.preset 1 0 1 3).Ok := ⟨by norm_num [Vortex.preset], by norm_num [Vortex.preset], by norm_num [Vortex.preset], by norm_num [Vortex.preset], by
    norm_num [Vortex.preset]; linarith⟩
  have h := (vortex_moving hok (by norm_num [Vortex.preset]) 1 1 (1 / 10)).1 (hall _ hok 1 1 (1 / 10) 2 (by norm_num))
  have hg : (Vortex.preset 1 0 1 3).gaussian 1 1 (1 / 10) = 3 / 10 := by
    simp [Vortex.gaussian, Vortex.preset]
  rw [Vortex.scalar, hg] at h
  norm_num [Vortex.preset] at h

theorem peak_le {z : ℝ} (hz : 0 ≤ z) : z * Real.exp ((1 - z ^ 2) / 2) ≤ 1 ∧ (z * Real.exp ((1 - z ^ 2) / 2) = 1 ↔ z = 1) := by
  have hpos := Real.exp_pos ((1 - z ^ 2) / 2)
  have hsq : (z * Real.exp ((1 - z ^ 2) / 2)) ^ 2 = z ^ 2 * Real.exp (1 - z ^ 2) := by rw [mul_pow, ← Real.exp_nat_mul]; congr 2; push_cast; ring
  have h0 : 0 ≤ z * Real.exp ((1 - z ^ 2) / 2) := by positivity
  have hinv : Real.exp (1 - z ^ 2) * Real.exp (z ^ 2 - 1) = 1 := by rw [← Real.exp_add]; simp
  have hlow := Real.add_one_le_exp (z ^ 2 - 1)
  have hE := Real.exp_pos (1 - z ^ 2)
  refine ⟨?_, fun h => ?_, fun h => by rw [h]; simp⟩
  · have : (z * Real.exp ((1 - z ^ 2) / 2)) ^ 2 ≤ 1 ^ 2 := by rw [hsq]; nlinarith
    exact (sq_le_sq₀ h0 zero_le_one).1 this
  · by_contra hne
    have hz1 : z ^ 2 - 1 ≠ 0 := by
      intro h1
      have : (z - 1) * (z + 1) = 0 := by linarith
      rcases mul_eq_zero.1 this with h2 | h2
      · exact hne (by linarith)
      · linarith
    have := Real.add_one_lt_exp hz1
    rw [h] at hsq
    nlinarith

/-- The gas of the vortex moves around its center; the speed relative to the freestream is largest at the distance `vortex_argmax_radius`, where its Mach number (with the
speed of sound of the freestream) is `vortex_nondim_veloc`; entropy is that of the freestream everywhere. -/
theorem vortex_shape (h : e.Ok) (hM : 0 < e.vortex_nondim_veloc) (x y : ℝ) :
    let u := e.state 0 x y
    let du := u 0 / u 2 - e.freestream0 / e.freestream2
    let dv := u 1 / u 2 - e.freestream1 / e.freestream2
    x * du + y * dv = 0 ∧ √(du ^ 2 + dv ^ 2) ≤ e.vortex_nondim_veloc * e.soundSpeed ∧
    (√(du ^ 2 + dv ^ 2) = e.vortex_nondim_veloc * e.soundSpeed ↔ √(x ^ 2 + y ^ 2) = e.vortex_argmax_radius) ∧
    pres e.heat_rat u / u 2 ^ e.heat_rat = pres e.heat_rat (fun i => if i = 0 then e.freestream0 else if i = 1 then e.freestream1 else if i = 2 then e.freestream2 else e.freestream3) /
      e.freestream2 ^ e.heat_rat := by
  have hm := (Vortex.mass_pos h 0 x y).ne'
  have hR := h.radius
  have hc := Vortex.soundSpeed_pos h
  have hrho := h.density
  have hg1 : e.heat_rat - 1 ≠ 0 := by have := h.heatRat; linarith
  have e0 : e.state 0 x y 0 / e.state 0 x y 2 - e.freestream0 / e.freestream2 = -(y / e.vortex_argmax_radius * e.gaussian 0 x y * e.soundSpeed) := by
    simp only [Vortex.state]; norm_num; rw [Vortex.momentum0, mul_div_cancel_right₀ _ hm]; ring
  have e1 : e.state 0 x y 1 / e.state 0 x y 2 - e.freestream1 / e.freestream2 = x / e.vortex_argmax_radius * e.gaussian 0 x y * e.soundSpeed := by
    simp only [Vortex.state]; norm_num; rw [Vortex.momentum1, mul_div_cancel_right₀ _ hm]; ring
  intro u du dv
  have hz : 0 ≤ √(x ^ 2 + y ^ 2) / e.vortex_argmax_radius := by positivity
  have hsum : 0 ≤ x ^ 2 + y ^ 2 := by positivity
  have hspeed : √(du ^ 2 + dv ^ 2) = e.vortex_nondim_veloc * e.soundSpeed *
      (√(x ^ 2 + y ^ 2) / e.vortex_argmax_radius * Real.exp ((1 - (√(x ^ 2 + y ^ 2) / e.vortex_argmax_radius) ^ 2) / 2)) := by
    have hnn : 0 ≤ e.vortex_nondim_veloc * e.soundSpeed *
      (√(x ^ 2 + y ^ 2) / e.vortex_argmax_radius * Real.exp ((1 - (√(x ^ 2 + y ^ 2) / e.vortex_argmax_radius) ^ 2) / 2)) := by positivity
    rw [← Real.sqrt_sq hnn]
    congr 1
    rw [show du = -(y / e.vortex_argmax_radius * e.gaussian 0 x y * e.soundSpeed) from e0, show dv = x / e.vortex_argmax_radius * e.gaussian 0 x y * e.soundSpeed from e1,
      Vortex.gaussian_zero]
    simp only [mul_pow, div_pow, Real.sq_sqrt hsum, neg_sq]
    ring
  obtain ⟨p1, p2⟩ := peak_le hz
  have hk : 0 < e.vortex_nondim_veloc * e.soundSpeed := mul_pos hM hc
  refine ⟨?_, ?_, ?_, ?_⟩
  · rw [show du = -(y / e.vortex_argmax_radius * e.gaussian 0 x y * e.soundSpeed) from e0, show dv = x / e.vortex_argmax_radius * e.gaussian 0 x y * e.soundSpeed from e1]
    ring
  · rw [hspeed]; nlinarith
  · rw [hspeed, mul_eq_left₀ hk.ne', p2, div_eq_one_iff_eq hR.ne']
  · have hp : pres e.heat_rat u = e.pressure x y := by
      show pres e.heat_rat (e.state 0 x y) = _
      rw [Vortex.state_cons h]
      exact pres_cons h.heatRat.ne' hm
    have hu2 : u 2 = e.freestream2 * e.scalar 0 x y ^ (1 / (e.heat_rat - 1)) := by show e.state 0 x y 2 = _; simp [Vortex.state, Vortex.mass]
    have hs := Vortex.scalar_pos h 0 x y
    have hm2 : e.mass 0 x y = e.freestream2 * e.scalar 0 x y ^ (1 / (e.heat_rat - 1)) := rfl
    rw [hp, hu2, Vortex.pressure, hm2, Real.mul_rpow hrho.le (Real.rpow_nonneg hs.le _), ← Real.rpow_mul hs.le]
    have hexp : e.scalar 0 x y ^ (1 / (e.heat_rat - 1) * e.heat_rat) = e.scalar 0 x y * e.scalar 0 x y ^ (1 / (e.heat_rat - 1)) := by
      rw [← Real.rpow_one_add' hs.le (by have := h.heatRat; positivity)]
      congr 1
      field_simp
      ring
    rw [hexp]
    have hw := Real.rpow_pos_of_pos hs (1 / (e.heat_rat - 1))
    have hq := Real.rpow_pos_of_pos hrho e.heat_rat
    simp only [pres]
    norm_num
    rw [Vortex.specIntEner]
    field_simp

/-- The preset vortex at rest in air. -/
example : (Vortex.preset 0 0 1 250000).Ok := by
  have hexp : Real.exp 1 < 3 := lt_trans Real.exp_one_lt_d9 (by norm_num)
  exact ⟨by norm_num [Vortex.preset], by norm_num [Vortex.preset], by norm_num [Vortex.preset], by norm_num [Vortex.preset], by norm_num [Vortex.preset]; linarith⟩

end
end Hexed.Exact
