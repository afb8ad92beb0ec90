import Verif.Exact.Spec
import Mathlib.Analysis.SpecialFunctions.ExpDeriv
import Mathlib.Analysis.SpecialFunctions.Pow.Deriv
set_option autoImplicit false
set_option linter.unusedVariables false

/-!
# The isentropic vortex
-/

namespace Hexed.Exact
noncomputable section

/-- The state of a gas with density, velocity and pressure. -/
def cons (g r u v p : ℝ) (i : Nat) : ℝ := if i = 0 then u * r else if i = 1 then v * r else if i = 2 then r else p / (g - 1) + 1 / 2 * r * (u ^ 2 + v ^ 2)

theorem pres_cons {g r u v p : ℝ} (hg : g ≠ 1) (hr : r ≠ 0) : pres g (cons g r u v p) = p := by
  have : g - 1 ≠ 0 := sub_ne_zero.2 hg
  simp only [pres, cons]
  norm_num
  field_simp
  ring

theorem flux_cons {g r u v p : ℝ} (hg : g ≠ 1) (hr : r ≠ 0) :
    (flux g 0 (cons g r u v p) 0 = r * u * u + p ∧ flux g 0 (cons g r u v p) 1 = r * v * u ∧ flux g 0 (cons g r u v p) 2 = r * u ∧
      flux g 0 (cons g r u v p) 3 = (g / (g - 1) * p + 1 / 2 * r * (u ^ 2 + v ^ 2)) * u) ∧
    (flux g 1 (cons g r u v p) 0 = r * u * v ∧ flux g 1 (cons g r u v p) 1 = r * v * v + p ∧ flux g 1 (cons g r u v p) 2 = r * v ∧
      flux g 1 (cons g r u v p) 3 = (g / (g - 1) * p + 1 / 2 * r * (u ^ 2 + v ^ 2)) * v) := by
  have hg' : g - 1 ≠ 0 := sub_ne_zero.2 hg
  simp only [flux, pres_cons hg hr]
  simp only [cons]
  norm_num
  refine ⟨⟨?_, ?_, ?_, ?_⟩, ⟨?_, ?_, ?_, ?_⟩⟩ <;> field_simp <;> ring

/-- A flow whose density, velocity and pressure satisfy the Euler equations in primitive form satisfies them in conservation form. -/
theorem balance_of_primitive {g : ℝ} (hg : g ≠ 1) {r u v p : ℝ → ℝ → ℝ → ℝ} (hr : ∀ t x y, r t x y ≠ 0) {t x y : ℝ} {rt rx ry ut ux uy vt vx vy pt px py : ℝ}
    (hrt : HasDerivAt (fun s => r s x y) rt t) (hrx : HasDerivAt (fun s => r t s y) rx x) (hry : HasDerivAt (fun s => r t x s) ry y)
    (hut : HasDerivAt (fun s => u s x y) ut t) (hux : HasDerivAt (fun s => u t s y) ux x) (huy : HasDerivAt (fun s => u t x s) uy y)
    (hvt : HasDerivAt (fun s => v s x y) vt t) (hvx : HasDerivAt (fun s => v t s y) vx x) (hvy : HasDerivAt (fun s => v t x s) vy y)
    (hpt : HasDerivAt (fun s => p s x y) pt t) (hpx : HasDerivAt (fun s => p t s y) px x) (hpy : HasDerivAt (fun s => p t x s) py y)
    (emass : rt + u t x y * rx + v t x y * ry + r t x y * (ux + vy) = 0)
    (eu : r t x y * (ut + u t x y * ux + v t x y * uy) + px = 0) (ev : r t x y * (vt + u t x y * vx + v t x y * vy) + py = 0)
    (ep : pt + u t x y * px + v t x y * py + g * p t x y * (ux + vy) = 0) :
    ∀ k < 4, Balance g (fun t x y => cons g (r t x y) (u t x y) (v t x y) (p t x y)) t x y k := by
  have hg' : g - 1 ≠ 0 := sub_ne_zero.2 hg
  intro k hk
  have hk' : k = 0 ∨ k = 1 ∨ k = 2 ∨ k = 3 := by omega
  rcases hk' with rfl | rfl | rfl | rfl
  · have ht := hut.fun_mul hrt
    have hx := ((hrx.fun_mul hux).fun_mul hux).fun_add hpx
    have hy := (hry.fun_mul huy).fun_mul hvy
    refine ⟨_, _, _, (by simpa [cons] using ht), hx.congr_of_eventuallyEq (Filter.Eventually.of_forall fun s => (flux_cons hg (hr t s y)).1.1),
      hy.congr_of_eventuallyEq (Filter.Eventually.of_forall fun s => (flux_cons hg (hr t x s)).2.1), ?_⟩
    linear_combination u t x y * emass + eu
  · have ht := hvt.fun_mul hrt
    have hx := (hrx.fun_mul hvx).fun_mul hux
    have hy := ((hry.fun_mul hvy).fun_mul hvy).fun_add hpy
    refine ⟨_, _, _, (by simpa [cons] using ht), hx.congr_of_eventuallyEq (Filter.Eventually.of_forall fun s => (flux_cons hg (hr t s y)).1.2.1),
      hy.congr_of_eventuallyEq (Filter.Eventually.of_forall fun s => (flux_cons hg (hr t x s)).2.2.1), ?_⟩
    linear_combination v t x y * emass + ev
  · have ht := hrt
    have hx := hrx.fun_mul hux
    have hy := hry.fun_mul hvy
    refine ⟨_, _, _, (by simpa [cons] using ht), hx.congr_of_eventuallyEq (Filter.Eventually.of_forall fun s => (flux_cons hg (hr t s y)).1.2.2.1),
      hy.congr_of_eventuallyEq (Filter.Eventually.of_forall fun s => (flux_cons hg (hr t x s)).2.2.2.1), ?_⟩
    linear_combination emass
  · have ht := (hpt.div_const (g - 1)).fun_add ((hrt.const_mul (1 / 2)).fun_mul ((hut.fun_pow 2).fun_add (hvt.fun_pow 2)))
    have hx := (((hpx.const_mul (g / (g - 1))).fun_add ((hrx.const_mul (1 / 2)).fun_mul ((hux.fun_pow 2).fun_add (hvx.fun_pow 2)))).fun_mul hux)
    have hy := (((hpy.const_mul (g / (g - 1))).fun_add ((hry.const_mul (1 / 2)).fun_mul ((huy.fun_pow 2).fun_add (hvy.fun_pow 2)))).fun_mul hvy)
    refine ⟨_, _, _, (by simpa [cons] using ht), hx.congr_of_eventuallyEq (Filter.Eventually.of_forall fun s => (flux_cons hg (hr t s y)).1.2.2.2),
      hy.congr_of_eventuallyEq (Filter.Eventually.of_forall fun s => (flux_cons hg (hr t x s)).2.2.2.2), ?_⟩
    have hp : g / (g - 1) = 1 + 1 / (g - 1) := by field_simp; ring
    have ep' : (pt + u t x y * px + v t x y * py) / (g - 1) = -(g / (g - 1)) * p t x y * (ux + vy) := by
      field_simp
      linear_combination ep
    norm_num
    have e1 : pt / (g - 1) + g / (g - 1) * px * u t x y + g / (g - 1) * p t x y * ux + g / (g - 1) * py * v t x y + g / (g - 1) * p t x y * vy = u t x y * px + v t x y * py := by
      have : pt / (g - 1) + 1 / (g - 1) * px * u t x y + 1 / (g - 1) * py * v t x y = (pt + u t x y * px + v t x y * py) / (g - 1) := by ring
      rw [hp] at ep' ⊢
      linear_combination this + ep'
    linear_combination e1 + 1 / 2 * (u t x y ^ 2 + v t x y ^ 2) * emass + u t x y * eu + v t x y * ev


namespace Vortex
variable {e : Vortex}

theorem gaussian_zero (x y : ℝ) : e.gaussian 0 x y = e.vortex_nondim_veloc * Real.exp ((1 - (x ^ 2 + y ^ 2) / e.vortex_argmax_radius ^ 2) / 2) := by
  simp [gaussian]

theorem gaussian_sq_le (h : e.Ok) (t x y : ℝ) : e.gaussian t x y ^ 2 ≤ e.vortex_nondim_veloc ^ 2 * Real.exp 1 := by
  rw [gaussian, mul_pow, ← Real.exp_nat_mul]
  refine mul_le_mul_of_nonneg_left (Real.exp_le_exp.2 ?_) (sq_nonneg _)
  have : 0 ≤ ((x - e.freestream0 / e.freestream2 * t) ^ 2 + (y - e.freestream1 / e.freestream2 * t) ^ 2) / e.vortex_argmax_radius ^ 2 := by positivity
  push_cast
  linarith

theorem scalar_pos (h : e.Ok) (t x y : ℝ) : 0 < e.scalar t x y := by
  have h1 := gaussian_sq_le h t x y
  have h2 := h.strength
  have h3 := h.heatRat
  rw [scalar]
  nlinarith

theorem mass_pos (h : e.Ok) (t x y : ℝ) : 0 < e.mass t x y := mul_pos h.density (Real.rpow_pos_of_pos (scalar_pos h t x y) _)

theorem specIntEner_pos (h : e.Ok) : 0 < e.specIntEner := by
  have h1 := h.density
  have : e.specIntEner = (e.freestream3 - (e.freestream0 ^ 2 + e.freestream1 ^ 2) / (2 * e.freestream2)) / e.freestream2 := by rw [specIntEner]; field_simp
  rw [this]
  exact div_pos h.energy h1

theorem soundSpeed_sq (h : e.Ok) : e.soundSpeed ^ 2 = e.heat_rat * (e.heat_rat - 1) * e.specIntEner := by
  have h1 := specIntEner_pos h
  have h2 := h.heatRat
  exact Real.sq_sqrt (mul_nonneg (mul_nonneg (by linarith) (by linarith)) h1.le)

theorem soundSpeed_pos (h : e.Ok) : 0 < e.soundSpeed := by
  have h1 := specIntEner_pos h
  have h2 := h.heatRat
  exact Real.sqrt_pos.2 (mul_pos (mul_pos (by linarith) (by linarith)) h1)

variable {X Y : ℝ → ℝ} {X' Y' s : ℝ}

theorem gaussian_deriv (h : e.Ok) (hX : HasDerivAt X X' s) (hY : HasDerivAt Y Y' s) :
    HasDerivAt (fun s => e.gaussian 0 (X s) (Y s)) (-((X s * X' + Y s * Y') / e.vortex_argmax_radius ^ 2 * e.gaussian 0 (X s) (Y s))) s := by
  simp only [gaussian_zero]
  have hR := h.radius.ne'
  have h1 := ((((((hX.fun_pow 2).fun_add (hY.fun_pow 2)).div_const (e.vortex_argmax_radius ^ 2)).const_sub 1).div_const 2).exp).const_mul e.vortex_nondim_veloc
  refine h1.congr_deriv ?_
  field_simp
  ring

theorem scalar_deriv (h : e.Ok) (hX : HasDerivAt X X' s) (hY : HasDerivAt Y Y' s) :
    HasDerivAt (fun s => e.scalar 0 (X s) (Y s)) ((e.heat_rat - 1) * e.gaussian 0 (X s) (Y s) ^ 2 * ((X s * X' + Y s * Y') / e.vortex_argmax_radius ^ 2)) s := by
  have h1 := (((gaussian_deriv h hX hY).fun_pow 2).const_mul ((e.heat_rat - 1) / 2)).const_sub 1
  refine h1.congr_deriv ?_
  ring

theorem mass_deriv (h : e.Ok) (hX : HasDerivAt X X' s) (hY : HasDerivAt Y Y' s) :
    HasDerivAt (fun s => e.mass 0 (X s) (Y s))
      (e.mass 0 (X s) (Y s) * e.gaussian 0 (X s) (Y s) ^ 2 / e.scalar 0 (X s) (Y s) * ((X s * X' + Y s * Y') / e.vortex_argmax_radius ^ 2)) s := by
  have hs := scalar_pos h 0 (X s) (Y s)
  have hg : e.heat_rat - 1 ≠ 0 := by have := h.heatRat; linarith
  have h1 := ((scalar_deriv h hX hY).rpow_const (p := 1 / (e.heat_rat - 1)) (Or.inl hs.ne')).const_mul e.freestream2
  refine h1.congr_deriv ?_
  rw [Real.rpow_sub_one hs.ne', mass]
  have hR := h.radius.ne'
  field_simp

/-- The pressure of the vortex. -/
def pressure (e : Vortex) (x y : ℝ) : ℝ := (e.heat_rat - 1) * e.specIntEner * e.scalar 0 x y * e.mass 0 x y

theorem pressure_deriv (h : e.Ok) (hX : HasDerivAt X X' s) (hY : HasDerivAt Y Y' s) :
    HasDerivAt (fun s => e.pressure (X s) (Y s))
      (e.soundSpeed ^ 2 * e.mass 0 (X s) (Y s) * e.gaussian 0 (X s) (Y s) ^ 2 * ((X s * X' + Y s * Y') / e.vortex_argmax_radius ^ 2)) s := by
  have hs := scalar_pos h 0 (X s) (Y s)
  have h1 := ((scalar_deriv h hX hY).const_mul ((e.heat_rat - 1) * e.specIntEner)).fun_mul (mass_deriv h hX hY)
  refine h1.congr_deriv ?_
  rw [soundSpeed_sq h]
  have hR := h.radius.ne'
  field_simp
  ring

/-- Velocity of the freestream. -/
def velocX (e : Vortex) : ℝ := e.freestream0 / e.freestream2
def velocY (e : Vortex) : ℝ := e.freestream1 / e.freestream2

/-- The vortex moves with the freestream: the state at time `t` is that at time 0 where the gas was then. -/
def moving (e : Vortex) (t x y : ℝ) : Nat → ℝ := e.state 0 (x - e.velocX * t) (y - e.velocY * t)

theorem state_cons (h : e.Ok) (x y : ℝ) :
    e.state 0 x y = cons e.heat_rat (e.mass 0 x y) (e.velocX - y / e.vortex_argmax_radius * e.gaussian 0 x y * e.soundSpeed)
      (e.velocY + x / e.vortex_argmax_radius * e.gaussian 0 x y * e.soundSpeed) (e.pressure x y) := by
  have hm := (mass_pos h 0 x y).ne'
  have hg : e.heat_rat - 1 ≠ 0 := by have := h.heatRat; linarith
  funext i
  simp only [state, cons]
  split
  · rw [momentum0, velocX]
  split
  · rw [momentum1, velocY]
  split
  · rfl
  · rw [energy, momentum0, momentum1, pressure, velocX, velocY]
    field_simp

theorem u_deriv (h : e.Ok) (hX : HasDerivAt X X' s) (hY : HasDerivAt Y Y' s) :
    HasDerivAt (fun s => e.velocX - Y s / e.vortex_argmax_radius * e.gaussian 0 (X s) (Y s) * e.soundSpeed)
      (-((Y' / e.vortex_argmax_radius * e.gaussian 0 (X s) (Y s) +
        Y s / e.vortex_argmax_radius * -((X s * X' + Y s * Y') / e.vortex_argmax_radius ^ 2 * e.gaussian 0 (X s) (Y s))) * e.soundSpeed)) s :=
  (((hY.div_const e.vortex_argmax_radius).fun_mul (gaussian_deriv h hX hY)).mul_const e.soundSpeed).const_sub e.velocX

theorem v_deriv (h : e.Ok) (hX : HasDerivAt X X' s) (hY : HasDerivAt Y Y' s) :
    HasDerivAt (fun s => e.velocY + X s / e.vortex_argmax_radius * e.gaussian 0 (X s) (Y s) * e.soundSpeed)
      ((X' / e.vortex_argmax_radius * e.gaussian 0 (X s) (Y s) +
        X s / e.vortex_argmax_radius * -((X s * X' + Y s * Y') / e.vortex_argmax_radius ^ 2 * e.gaussian 0 (X s) (Y s))) * e.soundSpeed) s :=
  (((hX.div_const e.vortex_argmax_radius).fun_mul (gaussian_deriv h hX hY)).mul_const e.soundSpeed).const_add e.velocY

/-- The vortex moving with the freestream is a solution of the Euler equations. -/
theorem moving_solves (h : e.Ok) : SolvesEuler e.heat_rat e.moving := by
  intro t x y
  have hg : e.heat_rat ≠ 1 := h.heatRat.ne'
  have hR := h.radius.ne'
  have Xt : HasDerivAt (fun s => x - e.velocX * s) (-e.velocX) t := by simpa using ((hasDerivAt_id t).const_mul e.velocX).const_sub x
  have Yt : HasDerivAt (fun s => y - e.velocY * s) (-e.velocY) t := by simpa using ((hasDerivAt_id t).const_mul e.velocY).const_sub y
  have Xx : HasDerivAt (fun s => s - e.velocX * t) 1 x := (hasDerivAt_id x).sub_const _
  have Yx : HasDerivAt (fun s : ℝ => y - e.velocY * t) 0 x := hasDerivAt_const _ _
  have Xy : HasDerivAt (fun s : ℝ => x - e.velocX * t) 0 y := hasDerivAt_const _ _
  have Yy : HasDerivAt (fun s => s - e.velocY * t) 1 y := (hasDerivAt_id y).sub_const _
  have hfun : e.moving = fun t x y => cons e.heat_rat (e.mass 0 (x - e.velocX * t) (y - e.velocY * t))
      (e.velocX - (y - e.velocY * t) / e.vortex_argmax_radius * e.gaussian 0 (x - e.velocX * t) (y - e.velocY * t) * e.soundSpeed)
      (e.velocY + (x - e.velocX * t) / e.vortex_argmax_radius * e.gaussian 0 (x - e.velocX * t) (y - e.velocY * t) * e.soundSpeed)
      (e.pressure (x - e.velocX * t) (y - e.velocY * t)) := by
    funext t x y
    exact state_cons h _ _
  rw [hfun]
  have hs := (scalar_pos h 0 (x - e.velocX * t) (y - e.velocY * t)).ne'
  refine balance_of_primitive (g := e.heat_rat) hg (r := fun t x y => e.mass 0 (x - e.velocX * t) (y - e.velocY * t))
    (u := fun t x y => e.velocX - (y - e.velocY * t) / e.vortex_argmax_radius * e.gaussian 0 (x - e.velocX * t) (y - e.velocY * t) * e.soundSpeed)
    (v := fun t x y => e.velocY + (x - e.velocX * t) / e.vortex_argmax_radius * e.gaussian 0 (x - e.velocX * t) (y - e.velocY * t) * e.soundSpeed)
    (p := fun t x y => e.pressure (x - e.velocX * t) (y - e.velocY * t)) (fun t x y => (mass_pos h _ _ _).ne') (t := t) (x := x) (y := y)
    (mass_deriv h Xt Yt) (mass_deriv h Xx Yx) (mass_deriv h Xy Yy) (u_deriv h Xt Yt) (u_deriv h Xx Yx) (u_deriv h Xy Yy) (v_deriv h Xt Yt) (v_deriv h Xx Yx) (v_deriv h Xy Yy)
    (pressure_deriv h Xt Yt) (pressure_deriv h Xx Yx) (pressure_deriv h Xy Yy) ?_ ?_ ?_ ?_
  all_goals
    generalize e.gaussian 0 (x - e.velocX * t) (y - e.velocY * t) = G
    generalize e.mass 0 (x - e.velocX * t) (y - e.velocY * t) = D
    generalize e.scalar 0 (x - e.velocX * t) (y - e.velocY * t) = S at hs
    generalize e.pressure (x - e.velocX * t) (y - e.velocY * t) = P
    field_simp
    ring

end Vortex

end
end Hexed.Exact
