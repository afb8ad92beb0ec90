import Verif.Atmos.Lemmas

set_option autoImplicit false
set_option linter.unusedVariables false

/-!
# C64: the standard atmosphere
-/

noncomputable section

namespace Hexed.Atmos

open MeasureTheory intervalIntegral

/-- Within a ten-billionth of a meter below one of the altitudes where the lapse rate changes. -/
def BelowBoundary (alt : ℝ) : Prop :=
  ∃ b ∈ ([11000, 20000, 32000, 47000, 51000, 71000] : List ℝ), b - 1e-10 < alt ∧ alt < b

theorem near_iff (alt : ℝ) : Near altTemp alt ↔ BelowBoundary alt := Iff.rfl

theorem layers_all (alt : ℝ) (h0 : 0 ≤ alt) (h1 : alt ≤ 80000) :
    ∃ e d : ℝ, layers alt altTemp (atmosphere, 0) =
        (icaoPres alt * Real.exp (-(stdGrav / gasAir) * e), icaoTemp alt + d) ∧
      -(epsilon / 190) ≤ e ∧ e ≤ 0 ∧ |d| ≤ 1e-11 ∧ (¬ BelowBoundary alt → e = 0 ∧ d = 0) :=
  layers_good altTemp altTemp_chain 0 288.15 _ _ rfl (atmosphere, 0)
    (by rw [icaoPres_eq]; simp [total]) h0 h1

/-- **C64.** From 0 to 80 km of geopotential altitude the pressure is the one in hydrostatic equilibrium
with the ICAO temperatures, whatever the temperature offset, and density and pressure obey the ideal gas
law at the ICAO temperature plus the offset.  Excepted are six intervals of 1e-10 m. -/
theorem atmosphere_exact (alt off : ℝ) (h0 : 0 ≤ alt) (h1 : alt ≤ 80000) (hb : ¬ BelowBoundary alt) :
    geopot alt off = some (icaoPres alt / 287.05287 / (icaoTemp alt + off), icaoPres alt) := by
  obtain ⟨e, d, q1, _, _, _, q5⟩ := layers_all alt h0 h1
  obtain ⟨rfl, rfl⟩ := q5 hb
  have he : (0 : ℝ) < epsilon := by unfold epsilon; norm_num
  unfold geopot
  rw [if_pos ⟨by linarith, by linarith⟩, q1]
  simp [gasAir]

/-- **C64.** In those six intervals the pressure is too large by at most one part in `10^13`, and the
temperature wrong by at most `10^-11` K. -/
theorem atmosphere_close (alt off : ℝ) (h0 : 0 ≤ alt) (h1 : alt ≤ 80000) :
    ∃ pres temp, geopot alt off = some (pres / 287.05287 / (temp + off), pres) ∧
      icaoPres alt ≤ pres ∧ pres ≤ icaoPres alt * (1 + 1e-13) ∧ |temp - icaoTemp alt| ≤ 1e-11 := by
  obtain ⟨e, d, q1, q2, q3, q4, _⟩ := layers_all alt h0 h1
  obtain ⟨f1, f2⟩ := factor_bounds q2 q3
  have he : (0 : ℝ) < epsilon := by unfold epsilon; norm_num
  have hp := icaoPres_pos alt
  refine ⟨icaoPres alt * Real.exp (-(stdGrav / gasAir) * e), icaoTemp alt + d, ?_, ?_, mul_le_mul_of_nonneg_left f2 hp.le, ?_⟩
  · unfold geopot
    rw [if_pos ⟨by linarith, by linarith⟩, q1]
    rfl
  · nlinarith
  · rwa [add_sub_cancel_left]

/-- **C64.** Altitudes more than 1e-10 m outside the range are rejected, all others are not. -/
theorem atmosphere_range (alt off : ℝ) :
    (geopot alt off).isSome ↔ -1e-10 < alt ∧ alt < 80000 + 1e-10 := by
  unfold geopot epsilon
  split_ifs with h
  · simp only [Option.isSome_some, true_iff]
    exact ⟨by linarith [h.1], h.2⟩
  · simp only [Option.isSome_none, Bool.false_eq_true, false_iff]
    exact fun hh => h ⟨by linarith [hh.1], hh.2⟩

/-- **C64.** A geometric altitude `z` is converted to the geopotential altitude: the work against gravity,
which decreases with the square of the distance from the center of the Earth, divided by the standard
gravity.  All geometric altitudes from 0 to 80 km are accepted. -/
theorem atmosphere_geometric (z off : ℝ) (hz : 0 ≤ z) :
    geom z off = geopot (∫ s in (0 : ℝ)..z, (6356766 / (6356766 + s)) ^ 2) off ∧
      (z ≤ 80000 → (geom z off).isSome) := by
  have hint : ∫ s in (0 : ℝ)..z, (6356766 / (6356766 + s)) ^ 2 = 6356766 * z / (6356766 + z) := by
    have h1 : ∀ x ∈ Set.uIcc 0 z, HasDerivAt (fun s : ℝ => 6356766 * s / (6356766 + s))
        ((6356766 / (6356766 + x)) ^ 2) x := by
      intro x hx
      rw [Set.uIcc_of_le hz] at hx
      have hne : (6356766 : ℝ) + x ≠ 0 := by linarith [hx.1]
      have h2 := ((hasDerivAt_id x).const_mul (6356766 : ℝ)).div
        ((hasDerivAt_id x).const_add (6356766 : ℝ)) hne
      have h3 : (6356766 / (6356766 + x)) ^ 2 =
          (6356766 * 1 * (6356766 + id x) - 6356766 * id x * 1) / (6356766 + id x) ^ 2 := by
        simp only [id]
        field_simp
        ring
      rw [h3]
      exact h2
    rw [integral_eq_sub_of_hasDerivAt h1]
    · simp
    · refine ContinuousOn.intervalIntegrable ?_
      rw [Set.uIcc_of_le hz]
      refine (ContinuousOn.div continuousOn_const (by fun_prop) fun x hx => ?_).pow 2
      linarith [hx.1]
  have hg : geom z off = geopot (6356766 * z / (6356766 + z)) off := rfl
  refine ⟨by rw [hint, hg], fun hz1 => ?_⟩
  rw [hg, atmosphere_range]
  have hp : (0 : ℝ) < 6356766 + z := by linarith
  constructor
  · have : 0 ≤ 6356766 * z / (6356766 + z) := by positivity
    linarith
  · rw [div_lt_iff₀ hp]
    nlinarith

/-- **C64, refuted.** The pressure does not decrease everywhere: just below 11 km, where the next layer is
taken into account before it begins, it jumps up. -/
theorem pressure_increases_refuted :
    ∃ a b d p d' p', 0 ≤ a ∧ a < b ∧ b ≤ 80000 ∧ geopot a 0 = some (d, p) ∧ geopot b 0 = some (d', p') ∧
      p < p' := by
  have he : (0 : ℝ) < epsilon := by unfold epsilon; norm_num
  have he1 : epsilon ≤ 1 := by unfold epsilon; norm_num
  set a : ℝ := 11000 - epsilon with ha
  set b : ℝ := 11000 - 3 / 4 * epsilon with hb
  have hab : a < b := by linarith
  have hea : epsilon = 1e-10 := rfl
  have h1 := atmosphere_exact a 0 (by linarith) (by linarith) (by
    rintro ⟨x, hx, h1, h2⟩
    simp only [List.mem_cons, List.not_mem_nil, or_false] at hx
    rcases hx with rfl | rfl | rfl | rfl | rfl | rfl <;> linarith)
  have h2 : geopot b 0 = some (icaoPres b * Real.exp (-(stdGrav / gasAir) * expo 11000 216.65 0 b) /
      287.05287 / (216.65 + 0 * (b - 11000) + 0),
      icaoPres b * Real.exp (-(stdGrav / gasAir) * expo 11000 216.65 0 b)) := by
    unfold geopot
    rw [if_pos ⟨by linarith, by linarith⟩]
    unfold altTemp
    rw [layers, if_pos (by linarith), seg0.inside _ (by rw [icaoPres_eq]; simp [total]) (by linarith)
      (by linarith), layers, if_pos (by linarith), seg1.extra _ (by linarith) (by linarith), layers,
      if_neg (by linarith)]
    rfl
  refine ⟨a, b, _, _, _, _, by linarith, hab, by linarith, h1, h2, ?_⟩
  have hpos : ∀ s ∈ Set.Icc a b, (216.65 : ℝ) ≤ 288.15 + (-0.0065) * (s - 0) := by
    intro s hs
    have := hs.2
    linarith
  have hint := integral_lin (h0 := 0) (t0 := 288.15) (l := -0.0065) hab.le (by norm_num)
    fun s hs => by linarith [hpos s hs]
  have hle : ‖∫ s in a..b, lin 0 288.15 (-0.0065) s‖ ≤ 1 / 216.65 * |b - a| :=
    norm_integral_le_of_norm_le_const fun s hs => by
      rw [Set.uIoc_of_le hab.le] at hs
      have := hpos s ⟨hs.1.le, hs.2⟩
      unfold lin
      rw [Real.norm_eq_abs, abs_of_pos (by have : (0:ℝ) < 288.15 + -0.0065 * (s - 0) := by linarith
                                           positivity)]
      exact one_div_le_one_div_of_le (by norm_num) this
  rw [hint, Real.norm_eq_abs, abs_of_pos (sub_pos.2 hab)] at hle
  have hle' := le_of_abs_le hle
  have ta := seg0.total (x := a) (by linarith) (by linarith)
  have tb := seg0.total (x := b) (by linarith) (by linarith)
  have hx : expo 11000 216.65 0 b = (b - 11000) / 216.65 := by simp [expo]
  rw [icaoPres_eq, icaoPres_eq, mul_assoc, ← Real.exp_add]
  refine mul_lt_mul_of_pos_left (Real.exp_lt_exp.2 ?_) (by unfold atmosphere; norm_num)
  have hc : 0 < stdGrav / gasAir := by unfold stdGrav gasAir; norm_num
  have hkey : total b + expo 11000 216.65 0 b < total a := by
    rw [hx]
    have : (b - 11000) / 216.65 = -(3 / 4 * epsilon) / 216.65 := by rw [hb]; ring
    rw [this]
    have hba : b - a = 1 / 4 * epsilon := by rw [ha, hb]; ring
    rw [hba] at hle'
    have h3 : 1 / 216.65 * (1 / 4 * epsilon) < 3 / 4 * epsilon / 216.65 := by
      rw [div_mul_eq_mul_div, div_lt_div_iff_of_pos_right (by norm_num)]
      linarith
    have h4 : -(3 / 4 * epsilon) / 216.65 = -(3 / 4 * epsilon / 216.65) := neg_div _ _
    linarith
  nlinarith

/-- The hypotheses are met, and the result is not trivial: at 11 km the ICAO temperature is 216.65 K. -/
example : geopot 11000 0 = some (icaoPres 11000 / 287.05287 / 216.65, icaoPres 11000) := by
  have h := atmosphere_exact 11000 0 (by norm_num) (by norm_num) (by
    rintro ⟨b, hb, h1, h2⟩
    simp only [List.mem_cons, List.not_mem_nil, or_false] at hb
    rcases hb with rfl | rfl | rfl | rfl | rfl | rfl <;> first | (norm_num at h1; done) | (norm_num at h2; done))
  rw [h]
  norm_num [icaoTemp]

end Hexed.Atmos

end
