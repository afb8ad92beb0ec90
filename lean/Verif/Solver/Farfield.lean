import Verif.Solver.Wall
set_option autoImplicit false
set_option linter.unusedVariables false

/-!
# Inflow and outflow boundaries (C52)
-/

namespace Hexed.Solver
open Hexed.Spatial Hexed.Pde
noncomputable section

/-- The three wave speeds relative to the unit normal. -/
def WaveSpeed (nd : Nat) (u n : Nat → ℝ) : Fin 3 → ℝ :=
  ![dotN nd (Vel nd u) (Unit nd n) - Sound nd u, dotN nd (Vel nd u) (Unit nd n) + Sound nd u, dotN nd (Vel nd u) (Unit nd n)]

theorem decomp_sub (nd : Nat) (ch : Characteristics) (a b : Nat → ℝ) (v : Nat) (j : Fin 3) :
    ch.decomp nd (fun i => a i - b i) v j = ch.decomp nd a v j - ch.decomp nd b v j := by
  have hn : nrml nd ch.dir (fun i => a i - b i) = nrml nd ch.dir a - nrml nd ch.dir b := by
    simp only [nrml, sumN_eq, mul_sub, Finset.sum_sub_distrib]
  have ht : ∀ i, tang nd ch.dir (fun i => a i - b i) i = tang nd ch.dir a i - tang nd ch.dir b i := by
    intro i; simp only [tang, hn]; ring
  have hc : (sumN nd fun i => ch.veloc i * ((tang nd ch.dir a i - tang nd ch.dir b i) - (a nd - b nd) * tang nd ch.dir ch.veloc i)) =
      (sumN nd fun i => ch.veloc i * (tang nd ch.dir a i - a nd * tang nd ch.dir ch.veloc i)) - sumN nd fun i => ch.veloc i * (tang nd ch.dir b i - b nd * tang nd ch.dir ch.veloc i) := by
    rw [sumN_eq, sumN_eq, sumN_eq, ← Finset.sum_sub_distrib]
    exact Finset.sum_congr rfl fun i _ => by ring
  have hv : ∀ x y : Fin 3 → ℝ, ch.vecs⁻¹.mulVec (fun i => x i - y i) = fun i => ch.vecs⁻¹.mulVec x i - ch.vecs⁻¹.mulVec y i := by
    intro x y; have := Matrix.mulVec_sub ch.vecs⁻¹ x y; exact this
  have h3 : (![nrml nd ch.dir a - nrml nd ch.dir b, a nd - b nd, a (nd + 1) - b (nd + 1) - ((sumN nd fun i => ch.veloc i * (tang nd ch.dir a i - a nd * tang nd ch.dir ch.veloc i)) - sumN nd fun i => ch.veloc i * (tang nd ch.dir b i - b nd * tang nd ch.dir ch.veloc i))] : Fin 3 → ℝ) =
      fun i => (![nrml nd ch.dir a, a nd, a (nd + 1) - sumN nd fun i => ch.veloc i * (tang nd ch.dir a i - a nd * tang nd ch.dir ch.veloc i)] : Fin 3 → ℝ) i -
        (![nrml nd ch.dir b, b nd, b (nd + 1) - sumN nd fun i => ch.veloc i * (tang nd ch.dir b i - b nd * tang nd ch.dir ch.veloc i)] : Fin 3 → ℝ) i := by
    funext i; fin_cases i
    · rfl
    · rfl
    · show _ - _ - (_ - _) = _ - _ - (_ - _); ring
  simp only [Characteristics.decomp, hn, ht, hc, h3, hv]
  split
  · split <;> ring
  · split
    · ring
    · split <;> ring

/-- The ghost state (before the limiter) differs from the interior state exactly by the incoming waves of the jump to the freestream: the
jump splits into three eigenvectors of the Euler flux Jacobian at the interior state, and the ones travelling inwards are added. -/
theorem riemann_waves (nd : Nat) (fs normal inside : Nat → ℝ) (sign : ℝ) (hu : Admissible nd inside) (hn : 0 < dotN nd normal normal) :
    ∃ d : Fin 3 → Nat → ℝ, (∀ j, IsEigen nd inside (Unit nd normal) (d j) (WaveSpeed nd inside normal j)) ∧ (∀ v < nd + 2, fs v - inside v = ∑ j, d j v) ∧
      ∀ v < nd + 2, applyChar nd inside normal sign inside fs v = inside v + ∑ j, (if 0 < sign * WaveSpeed nd inside normal j then d j v else 0) := by
  refine ⟨fun j v => (Characteristics.new nd inside normal).decomp nd (fun i => fs i - inside i) v j, fun j => ?_, fun v hv => ?_, fun v hv => ?_⟩
  · obtain ⟨e, h⟩ := characteristic_eigen nd inside normal hu hn (fun i => fs i - inside i) j
    rw [e] at h; exact h
  · exact (characteristic_sum nd inside normal hu hn (fun i => fs i - inside i) v hv).symm
  · rw [applyChar, List.sum_ofFn, ← characteristic_sum nd inside normal hu hn inside v hv, ← Finset.sum_add_distrib]
    refine Finset.sum_congr rfl fun j _ => ?_
    have e : (Characteristics.new nd inside normal).vals j = WaveSpeed nd inside normal j := (characteristic_eigen nd inside normal hu hn inside j).1
    beta_reduce
    rw [e, decomp_sub]
    by_cases h : 0 < sign * WaveSpeed nd inside normal j
    · rw [if_pos h, if_pos h]; ring
    · rw [if_neg h, if_neg h]; ring

theorem limit_id {nd : Nat} {st inside : Nat → ℝ} (hu : Admissible nd inside) (hs : Admissible nd st) (hm : inside nd / 2 ≤ st nd) (hp : Pres nd inside / 2 ≤ Pres nd st) (v : Nat) (hv : v < nd + 2) :
    riemannLimit nd st inside v = st v := by
  have e1 : ∀ x : Nat → ℝ, x nd ≠ 0 → Pres nd x = 2 / 5 * (x (nd + 1) - 1 / 2 * dotN nd x x / x nd) := by
    intro x hx; rw [Pres]; congr 2; field_simp
  have h1 := hs.mass
  have h2 := hs.pres
  rw [e1 inside hu.mass.ne', e1 st h1.ne'] at hp
  rw [e1 st h1.ne'] at h2
  have hmx : max (st nd) (inside nd / 2) = st nd := max_eq_left hm
  have d1 : (sumN nd fun i => st i * st i) = dotN nd st st := rfl
  have d2 : (sumN nd fun i => inside i * inside i) = dotN nd inside inside := rfl
  simp only [riemannLimit, hmx, d1, d2]
  by_cases c1 : v < nd
  · rw [if_pos c1]
  · rw [if_neg c1]
    by_cases c2 : v = nd
    · rw [if_pos c2, c2]
    · rw [if_neg c2]
      obtain rfl : v = nd + 1 := by omega
      rw [max_eq_left (a := st (nd + 1) - 1 / 2 * dotN nd st st / st nd) (by linarith), add_sub_cancel, max_eq_left]
      have : 0 ≤ 1 / 2 * dotN nd st st / st nd := div_nonneg (mul_nonneg (by norm_num) (dot_self_nonneg nd st)) h1.le
      linarith

/-- The limiter changes nothing when density and pressure are at least half of those inside. -/
theorem limit_congr {nd : Nat} {st st' inside : Nat → ℝ} (h : ∀ v < nd + 2, st v = st' v) (v : Nat) (hv : v < nd + 2) : riemannLimit nd st inside v = riemannLimit nd st' inside v := by
  have d : (sumN nd fun i => st i * st i) = sumN nd fun i => st' i * st' i := by
    rw [sumN_eq, sumN_eq]; exact Finset.sum_congr rfl fun i hi => by rw [h i (by have := Finset.mem_range.1 hi; omega)]
  simp only [riemannLimit, d, h nd (by omega), h (nd + 1) (by omega)]
  split
  · exact h v hv
  · rfl

/-- Supersonic outflow: nothing comes from outside, the ghost state is the state inside. -/
theorem riemann_outflow (nd : Nat) (fs normal inside : Nat → ℝ) (sign : ℝ) (hu : Admissible nd inside) (hn : 0 < dotN nd normal normal)
    (hout : ∀ j, sign * WaveSpeed nd inside normal j ≤ 0) (v : Nat) (hv : v < nd + 2) : riemannState nd fs normal sign inside v = inside v := by
  obtain ⟨d, -, -, h⟩ := riemann_waves nd fs normal inside sign hu hn
  have e : ∀ v < nd + 2, applyChar nd inside normal sign inside fs v = inside v := by
    intro v hv
    rw [h v hv, Finset.sum_eq_zero, add_zero]
    intro j _; rw [if_neg (not_lt.2 (hout j))]
  have hm := hu.mass
  have hp := hu.pres
  rw [riemannState, limit_congr e v hv, limit_id hu hu (by linarith) (by linarith) v hv]

/-- Supersonic inflow: the ghost state is the freestream, unless its density or pressure is less than half of that inside. -/
theorem riemann_inflow (nd : Nat) (fs normal inside : Nat → ℝ) (sign : ℝ) (hu : Admissible nd inside) (hn : 0 < dotN nd normal normal)
    (hin : ∀ j, 0 < sign * WaveSpeed nd inside normal j) (hfs : Admissible nd fs) (hm : inside nd / 2 ≤ fs nd) (hp : Pres nd inside / 2 ≤ Pres nd fs) (v : Nat) (hv : v < nd + 2) :
    riemannState nd fs normal sign inside v = fs v := by
  obtain ⟨d, -, hd, h⟩ := riemann_waves nd fs normal inside sign hu hn
  have e : ∀ v < nd + 2, applyChar nd inside normal sign inside fs v = fs v := by
    intro v hv
    rw [h v hv, Finset.sum_congr rfl (fun j _ => if_pos (hin j)), ← hd v hv]; ring
  rw [riemannState, limit_congr e v hv, limit_id hu hfs hm hp v hv]

/-- Pressure outflow: a subsonic outflow (and any inflow) gets the prescribed pressure; a supersonic outflow is left alone; mass and
momentum are always those inside. -/
theorem pressure_outflow (nd : Nat) (pspec : ℝ) (normal inside : Nat → ℝ) (sign : ℝ) (hu : Admissible nd inside) :
    (∀ v ≤ nd, pressureOutflow nd pspec normal sign inside v = inside v) ∧
    (dotN nd (Vel nd inside) (Unit nd normal) * sign < Sound nd inside → Pres nd (pressureOutflow nd pspec normal sign inside) = pspec) ∧
    (Sound nd inside ≤ dotN nd (Vel nd inside) (Unit nd normal) * sign → pressureOutflow nd pspec normal sign inside (nd + 1) = inside (nd + 1)) := by
  have hm := hu.mass
  have hp := hu.pres
  have e1 : Pres nd inside = 2 / 5 * (inside (nd + 1) - 1 / 2 * dotN nd inside inside / inside nd) := by
    rw [Pres]; congr 2; field_simp
  have hlow : ∀ v ≤ nd, pressureOutflow nd pspec normal sign inside v = inside v := by
    intro v hv; simp only [pressureOutflow]; rw [if_neg (by omega)]
  have hc : √(7 / 5 * max (2 / 5 * (inside (nd + 1) - 1 / 2 * (sumN nd fun i => inside i * inside i) / inside nd)) 0 / inside nd) = Sound nd inside := by
    have d : (sumN nd fun i => inside i * inside i) = dotN nd inside inside := rfl
    rw [d, ← e1, max_eq_left hp.le, Sound]
  have hv : sumN nd (fun i => inside i * normal i) / inside nd / norm nd normal = dotN nd (Vel nd inside) (Unit nd normal) := by
    rw [sumN_eq, dotN, Finset.sum_div, Finset.sum_div]
    refine Finset.sum_congr rfl fun i _ => ?_
    simp only [Vel, Pde.Unit]; rw [norm_eq]; ring
  refine ⟨hlow, fun h => ?_, fun h => ?_⟩
  · have e : pressureOutflow nd pspec normal sign inside (nd + 1) = pspec / (2 / 5) + 1 / 2 * dotN nd inside inside / inside nd := by
      simp only [pressureOutflow, hc, hv, if_true]; rw [if_pos h]; rfl
    rw [Pres, e, hlow nd le_rfl, dot_congr (fun i hi => hlow i (by omega)) (fun i hi => hlow i (by omega))]
    field_simp; ring
  · simp only [pressureOutflow, hc, hv, if_true]; rw [if_neg (not_lt.2 h)]

/-! ## Non-vacuity -/

example (v : Nat) (hv : v < 4) : riemannState 2 exState (fun i => if i = 0 then 3 else 4) 1 exState v = exState v :=
  riemann_freestream 2 exState _ 1 exState_admissible (by norm_num [dotN, Finset.sum_range_succ]) v hv

/-- A supersonic state. -/
def exFast (i : Nat) : ℝ := match i with | 0 => 10 | 1 => 0 | 2 => 1 | _ => 50 + 25 / 14

theorem exFast_admissible : Admissible 2 exFast := by
  constructor
  · simp [exFast]
  · norm_num [Pres, dotN, exFast, Finset.sum_range_succ]

theorem exFast_speed (j : Fin 3) : 0 < WaveSpeed 2 exFast (fun i => if i = 0 then 2 else 0) j := by
  have hs : Sound 2 exFast = 1 := by
    rw [Sound, show 7 / 5 * Pres 2 exFast / exFast 2 = 1 by norm_num [Pres, dotN, exFast, Finset.sum_range_succ]]; exact Real.sqrt_one
  have hd : dotN 2 (Vel 2 exFast) (Unit 2 fun i => if i = 0 then 2 else 0) = 10 := by
    have h4 : √(4 : ℝ) = 2 := by rw [show (4 : ℝ) = 2 ^ 2 by norm_num]; exact Real.sqrt_sq (by norm_num)
    norm_num [dotN, Vel, Pde.Unit, exFast, Finset.sum_range_succ, h4]
  fin_cases j <;> simp [WaveSpeed, hs, hd]
  norm_num

example (fs : Nat → ℝ) (v : Nat) (hv : v < 4) : riemannState 2 fs (fun i => if i = 0 then 2 else 0) (-1) exFast v = exFast v :=
  riemann_outflow 2 fs _ exFast (-1) exFast_admissible (by norm_num [dotN, Finset.sum_range_succ]) (fun j => by have := exFast_speed j; linarith) v hv

end
end Hexed.Solver
