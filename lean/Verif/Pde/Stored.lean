import Verif.Pde.Visc
set_option autoImplicit false
set_option linter.unusedVariables false

/-!
# The equations on the data that elements store (C50)

Elements store the state, the scale of the local time step and then the bulk and the Laplacian artificial viscosity.
-/

namespace Hexed.Pde
noncomputable section

theorem fetch_state (nd : Nat) (data : Nat → ℝ) : (∀ v < nd + 2, fetchState nd data v = data v) ∧ fetchState nd data (nd + 2) = data (nd + 3) ∧ fetchState nd data (nd + 3) = data (nd + 4) := by
  refine ⟨fun v hv => if_pos hv, ?_, ?_⟩ <;> simp [fetchState]

theorem pres_congr {nd : Nat} {s u : Nat → ℝ} (h : ∀ v < nd + 2, s v = u v) : Pres nd s = Pres nd u := by
  unfold Pres dotN
  rw [h nd (by omega), h (nd + 1) (by omega), Finset.sum_congr rfl fun i hi => by rw [h i (by have := Finset.mem_range.1 hi; omega)]]

theorem temp_congr {nd : Nat} {s u : Nat → ℝ} (h : ∀ v < nd + 2, s v = u v) : Temp nd s = Temp nd u := by
  rw [Temp, Temp, pres_congr h, h nd (by omega)]

theorem vel_congr {nd : Nat} {s u : Nat → ℝ} (h : ∀ v < nd + 2, s v = u v) {i : Nat} (hi : i < nd) : Vel nd s i = Vel nd u i := by
  rw [Vel, Vel, h i (by omega), h nd (by omega)]

theorem sqrtTemp_fetch {nd : Nat} {data : Nat → ℝ} (hd : Admissible nd data) : sqrtTemp nd (fetchState nd data) = √(Temp nd data) := by
  have h := (fetch_state nd data).1
  rw [sqrt_temp_exact nd _ (by rw [h nd (by omega)]; exact hd.1) (by rw [pres_congr h]; exact hd.2.le), temp_congr h]

/-- The diffusive flux at a point of an element is that of a Newtonian gas with the conservation of energy, in terms of the data that the element stores there. -/
theorem stored_flux (nd : Nat) (visc : Bool) (mu kappa : Transport) (data : Nat → ℝ) (hd : Admissible nd data) (normal gradient : Nat → Nat → ℝ) (U : Nat → ℝ → Nat → ℝ)
    (hU : ∀ j < nd, (∀ v < nd + 2, U j 0 v = data v) ∧ IsGrad nd (U j) fun v => gradient v j)
    (G : Nat → Nat → ℝ) (hG : ∀ i < nd, ∀ j < nd, HasDerivAt (fun t => Vel nd (U j t) i) (G i j) 0)
    (dT : Nat → ℝ) (hT : ∀ j < nd, HasDerivAt (fun t => Temp nd (U j t)) (dT j) 0) (v : Nat) (hv : v < nd + 2) (d : Nat) :
    (ns nd visc mu kappa).fluxDiff data normal gradient v d =
      let tau := Newton nd (mu.coefficient √(Temp nd data)) (abs (data (nd + 3)) * data nd) G
      ∑ j ∈ Finset.range nd, -(abs (data (nd + 4)) * gradient v j +
        (if v < nd then tau v j else if v = nd then 0
         else ∑ i ∈ Finset.range nd, Vel nd data i * tau i j + kappa.coefficient √(Temp nd data) * dT j)) * normal j d := by
  obtain ⟨h0, h1, h2⟩ := fetch_state nd data
  let U' : Nat → ℝ → Nat → ℝ := fun j t v => if v < nd + 2 then U j t v else fetchState nd data v
  have hUU : ∀ j t, ∀ v < nd + 2, U' j t v = U j t v := fun j t v hv => if_pos hv
  have key := viscous_flux_exact nd mu kappa (fetchState nd data) (by rw [h0 nd (by omega)]; exact hd.1.ne') normal gradient U' (fun j hj => ⟨?_, fun w hw => ?_⟩) G (fun i hi j hj => ?_) dT (fun j hj => ?_) v hv d
  · show fluxDiff nd mu kappa (fetchState nd data) normal gradient v d = _
    rw [key]
    simp only [sqrtTemp_fetch hd, h1, h2, h0 nd (by omega)]
    refine Finset.sum_congr rfl fun j hj => ?_
    rw [Finset.sum_congr rfl fun i hi => by rw [vel_congr h0 (Finset.mem_range.1 hi)]]
  · funext w
    by_cases hw : w < nd + 2
    · rw [hUU j 0 w hw, (hU j hj).1 w hw, h0 w hw]
    · exact if_neg hw
  · have := (hU j hj).2 w hw
    simpa only [hUU j _ w hw] using this
  · have := hG i hi j hj
    simpa only [vel_congr (hUU j _) hi] using this
  · have := hT j hj
    simpa only [temp_congr (hUU j _)] using this

/-- The diffusivity that limits the time step is the sum of the Laplacian viscosity and the larger of the kinematic viscosity, with the bulk viscosity, and the thermal diffusivity at constant volume. -/
theorem stored_diffusivity (nd : Nat) (mu kappa : Transport) (data : Nat → ℝ) (hd : Admissible nd data) (cv : ℝ) (hcv : cv = gasAir / (7 / 5 - 1)) :
    diffusivity nd mu kappa (fetchState nd data) =
      abs (data (nd + 4)) + max (abs (data (nd + 3)) + mu.coefficient √(Temp nd data) / data nd) (kappa.coefficient √(Temp nd data) / (data nd * cv)) := by
  obtain ⟨h0, h1, h2⟩ := fetch_state nd data
  have hc : cv = gasAir / (heatRat - 1) := hcv
  simp only [diffusivity, sqrtTemp_fetch hd, h1, h2, h0 nd (by omega), abs_abs, hc]
  have hm := hd.1.ne'
  congr 2
  have : heatRat - 1 ≠ 0 := by norm_num [heatRat]
  have : gasAir ≠ 0 := by norm_num [gasAir]
  field_simp

/-- An update adds to the state and changes nothing else that the element stores. -/
theorem stored_update (nd : Nat) (visc : Bool) (mu kappa : Transport) (update data : Nat → ℝ) (critical : Bool) :
    (∀ v < nd + 2, (ns nd visc mu kappa).writeUpdate update critical data v = data v + update v) ∧ ∀ v, nd + 2 ≤ v → (ns nd visc mu kappa).writeUpdate update critical data v = data v :=
  ⟨fun v hv => if_pos hv, fun v hv => if_neg (by omega)⟩

/-- For every state there are curves as `stored_flux` supposes. -/
example (nd : Nat) (data : Nat → ℝ) (hd : Admissible nd data) (gradient : Nat → Nat → ℝ) : ∃ (U : Nat → ℝ → Nat → ℝ) (G : Nat → Nat → ℝ) (dT : Nat → ℝ),
    (∀ j < nd, (∀ v < nd + 2, U j 0 v = data v) ∧ IsGrad nd (U j) fun v => gradient v j) ∧ (∀ i < nd, ∀ j < nd, HasDerivAt (fun t => Vel nd (U j t) i) (G i j) 0) ∧
      ∀ j < nd, HasDerivAt (fun t => Temp nd (U j t)) (dT j) 0 := by
  let U : Nat → ℝ → Nat → ℝ := fun j t v => data v + t * gradient v j
  have h0 : ∀ j, U j 0 = data := fun j => by funext v; simp [U]
  have hg : ∀ j, IsGrad nd (U j) fun v => gradient v j := fun j v _ => by
    simpa [U] using ((hasDerivAt_id (0 : ℝ)).mul_const (gradient v j)).const_add (data v)
  have hm : ∀ j, U j 0 nd ≠ 0 := fun j => by rw [h0 j]; exact hd.1.ne'
  exact ⟨U, _, _, fun j _ => ⟨fun v _ => by rw [h0 j], hg j⟩, fun i hi j _ => (h0 j) ▸ velocity_gradient_exact nd (U j) (hm j) gradient j (hg j) i hi, fun j _ => (h0 j) ▸ temperature_gradient_exact nd (U j) (hm j) gradient j (hg j)⟩

/-- A gas of density 1 at rest with artificial viscosities 3 and 4 and viscosity 1/10 that does not conduct heat. -/
example : diffusivity 2 (.constant (1 / 10)) .inviscid (fetchState 2 fun v => if v = 2 then 1 else if v = 3 then 5 / 2 else if v = 5 then 3 else if v = 6 then -4 else 0) = 71 / 10 := by
  rw [stored_diffusivity _ _ _ _ ⟨by norm_num, by norm_num [Pres, dotN, Finset.sum_range_succ]⟩ _ rfl]
  norm_num [Transport.coefficient, Transport.constant, Transport.inviscid]

end
end Hexed.Pde
