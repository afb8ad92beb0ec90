import Verif.Solver.Model
import Verif.Spatial.Props
import Verif.Pde.Char
set_option autoImplicit false
set_option linter.unusedVariables false

/-!
# Wall boundary conditions at a point (C35)
-/

namespace Hexed.Solver
open Hexed.Spatial Hexed.Pde
noncomputable section

/-! ## The code's flux only looks at the state -/

theorem fluxConv_fetch (nd : Nat) (u n : Nat → ℝ) (v : Nat) (hv : v < nd + 2) : fluxConv nd (fetchExtrapState nd u) n v = fluxConv nd u n v := by
  have h : ∀ i < nd + 2, fetchExtrapState nd u i = u i := fun i hi => by simp [fetchExtrapState, hi]
  have s1 : sumN nd (fun j => fetchExtrapState nd u j * n j) = sumN nd fun j => u j * n j := by
    rw [sumN_eq, sumN_eq]; exact Finset.sum_congr rfl fun i hi => by rw [h i (by have := Finset.mem_range.1 hi; omega)]
  have s2 : sumN nd (fun j => fetchExtrapState nd u j * fetchExtrapState nd u j) = sumN nd fun j => u j * u j := by
    rw [sumN_eq, sumN_eq]; exact Finset.sum_congr rfl fun i hi => by rw [h i (by have := Finset.mem_range.1 hi; omega)]
  simp only [fluxConv, pressure, kinEner, s1, s2, h nd (by omega), h (nd + 1) (by omega), h v hv]

theorem numFlux_ns (nd : Nat) (visc : Bool) (mu kappa : Transport) (n u g : Nat → ℝ) :
    ∃ a : ℝ, ∀ v < nd + 2, numFlux (ns nd visc mu kappa) nd n u g v = 1 / 2 * (fluxConv nd u n v + fluxConv nd g n v + a * (u v - g v)) := by
  refine ⟨max (charSpeed nd (fetchExtrapState nd u)) (charSpeed nd (fetchExtrapState nd g)) * √((List.range nd).map fun j => n j * n j).sum, fun v hv => ?_⟩
  have h : ∀ x : Nat → ℝ, fetchExtrapState nd x v = x v := fun x => by simp [fetchExtrapState, hv]
  simp only [numFlux, ns, fluxConv_fetch nd u n v hv, fluxConv_fetch nd g n v hv, h]

/-- Mirror states: same mass, energy and speed, opposite momentum through the face. -/
theorem mirror_flux (nd : Nat) (visc : Bool) (mu kappa : Transport) (n u g : Nat → ℝ) (hm : g nd = u nd) (he : g (nd + 1) = u (nd + 1)) (hg : dotN nd g g = dotN nd u u) (hn : dotN nd g n = -dotN nd u n) :
    numFlux (ns nd visc mu kappa) nd n u g nd = 0 ∧ numFlux (ns nd visc mu kappa) nd n u g (nd + 1) = 0 := by
  obtain ⟨a, ha⟩ := numFlux_ns nd visc mu kappa n u g
  have p : pressure nd g = pressure nd u := by rw [pressure_eq, pressure_eq, Pres, Pres, hm, he, hg]
  have s : ∀ x : Nat → ℝ, (sumN nd fun j => x j * n j) = dotN nd x n := fun _ => rfl
  rw [ha nd (by omega), ha (nd + 1) (by omega)]
  have n1 : ¬ nd + 1 < nd := by omega
  have n2 : ¬ nd + 1 = nd := by omega
  simp only [fluxConv, lt_irrefl, if_false, if_true, if_neg n1, if_neg n2, s, hm, he, hn, p]
  constructor <;> ring

/-! ## Nonpenetration -/

theorem reflect_mom (nd : Nat) (n u : Nat → ℝ) (i : Nat) (hi : i < nd) : reflectNormal nd n u i = u i - 2 * dotN nd u n / dotN nd n n * n i := by
  have : reflectNormal nd n u i = u i - 2 * dotN nd u n * n i / dotN nd n n := by rw [reflectNormal]; simp only [if_pos hi]; rfl
  rw [this]; ring

theorem reflect_other (nd : Nat) (n u : Nat → ℝ) (i : Nat) (hi : ¬ i < nd) : reflectNormal nd n u i = u i := by
  rw [reflectNormal]; simp only [if_neg hi]

theorem reflect_dot (nd : Nat) (n u x : Nat → ℝ) : dotN nd (reflectNormal nd n u) x = dotN nd u x - 2 * dotN nd u n / dotN nd n n * dotN nd n x := by
  rw [dot_congr (a' := fun i => u i - 2 * dotN nd u n / dotN nd n n * n i) (fun i hi => reflect_mom nd n u i hi) (fun _ _ => rfl), dot_sub_left, dot_smul_left]

/-- Reflecting turns the normal momentum around and keeps its size. -/
theorem reflect_exact (nd : Nat) (n u : Nat → ℝ) (hn : dotN nd n n ≠ 0) :
    dotN nd (reflectNormal nd n u) n = -dotN nd u n ∧ dotN nd (reflectNormal nd n u) (reflectNormal nd n u) = dotN nd u u := by
  constructor
  · rw [reflect_dot]; field_simp; ring
  · rw [reflect_dot, dot_comm nd u, reflect_dot, dot_comm nd n (reflectNormal nd n u), reflect_dot, dot_comm nd n u]; field_simp; ring

/-- C35: reflecting twice is the identity. -/
theorem reflect_twice (nd : Nat) (n u : Nat → ℝ) (hn : dotN nd n n ≠ 0) (v : Nat) : reflectNormal nd n (reflectNormal nd n u) v = u v := by
  by_cases h : v < nd
  · rw [reflect_mom nd n _ v h, (reflect_exact nd n u hn).1, reflect_mom nd n u v h]; ring
  · rw [reflect_other nd n _ v h, reflect_other nd n u v h]

/-- C35: at a nonpenetration wall the average of the inside and the ghost momentum has no normal component, and the momentum along the wall,
the mass and the energy of the ghost are those inside. -/
theorem nonpenetration_state (nd : Nat) (n u : Nat → ℝ) (hn : dotN nd n n ≠ 0) :
    dotN nd (fun i => (u i + nonpenState nd n u i) / 2) n = 0 ∧ (∀ t, dotN nd t n = 0 → dotN nd (nonpenState nd n u) t = dotN nd u t) ∧
    nonpenState nd n u nd = u nd ∧ nonpenState nd n u (nd + 1) = u (nd + 1) := by
  refine ⟨?_, fun t ht => ?_, reflect_other nd n u nd (by omega), reflect_other nd n u (nd + 1) (by omega)⟩
  · rw [dot_div_left, dot_add_left, nonpenState, (reflect_exact nd n u hn).1]; ring
  · rw [nonpenState, reflect_dot, dot_comm nd n t, ht]; ring

/-- C35: neither mass nor energy flows through a nonpenetration wall, and the force on it is along the normal. `n` is the normal the flux
is computed along: the surface normal or its opposite. -/
theorem nonpenetration_flux (nd : Nat) (visc : Bool) (mu kappa : Transport) (normal u : Nat → ℝ) (hn : dotN nd normal normal ≠ 0) (s : ℝ) :
    let n := fun i => s * normal i
    numFlux (ns nd visc mu kappa) nd n u (nonpenState nd normal u) nd = 0 ∧ numFlux (ns nd visc mu kappa) nd n u (nonpenState nd normal u) (nd + 1) = 0 ∧
    ∃ force : ℝ, ∀ i < nd, numFlux (ns nd visc mu kappa) nd n u (nonpenState nd normal u) i = force * normal i := by
  intro n
  obtain ⟨r1, r2⟩ := reflect_exact nd normal u hn
  have hgn : dotN nd (nonpenState nd normal u) n = -dotN nd u n := by
    rw [dot_comm, dot_comm nd u, dot_smul_left, dot_smul_left, dot_comm nd normal, dot_comm nd normal u, nonpenState, r1]; ring
  have hm : nonpenState nd normal u nd = u nd := reflect_other nd normal u nd (by omega)
  have he : nonpenState nd normal u (nd + 1) = u (nd + 1) := reflect_other nd normal u (nd + 1) (by omega)
  obtain ⟨a1, a2⟩ := mirror_flux nd visc mu kappa n u (nonpenState nd normal u) hm he r2 hgn
  obtain ⟨a, ha⟩ := numFlux_ns nd visc mu kappa n u (nonpenState nd normal u)
  refine ⟨a1, a2, (dotN nd u normal / dotN nd normal normal) * (dotN nd u n / u nd) + pressure nd u * s + a * (dotN nd u normal / dotN nd normal normal), fun i hi => ?_⟩
  rw [ha i (by omega)]
  have p : pressure nd (nonpenState nd normal u) = pressure nd u := by
    rw [pressure_eq, pressure_eq, Pres, Pres, hm, he]
    have : dotN nd (nonpenState nd normal u) (nonpenState nd normal u) = dotN nd u u := r2
    rw [this]
  have sm : ∀ x : Nat → ℝ, (sumN nd fun j => x j * n j) = dotN nd x n := fun _ => rfl
  simp only [fluxConv, if_pos hi, sm, hgn, hm, p]
  rw [nonpenState, reflect_mom nd normal u i hi]
  show _ = _
  simp only [n]
  ring

/-- C35: nor is there a diffusive flux of mass or energy, or friction: the sum of the inside and ghost fluxes of momentum is normal. -/
theorem nonpenetration_diffusion (nd : Nat) (n f : Nat → ℝ) (hn : dotN nd n n ≠ 0) :
    f nd + nonpenFlux nd n f nd = 0 ∧ f (nd + 1) + nonpenFlux nd n f (nd + 1) = 0 ∧ ∃ force : ℝ, ∀ i < nd, f i + nonpenFlux nd n f i = force * n i := by
  refine ⟨?_, ?_, 2 * dotN nd f n / dotN nd n n, fun i hi => ?_⟩
  · rw [nonpenFlux, reflect_other _ _ _ _ (by omega)]; ring
  · rw [nonpenFlux, reflect_other _ _ _ _ (by omega)]; ring
  · rw [nonpenFlux, reflect_mom nd n _ i hi, dot_neg_left]; ring

/-! ## No slip -/

/-- C35: at a no-slip wall the average momentum is zero, no mass flows, and with the energy kept (insulated wall) no energy is convected. -/
theorem no_slip_flux (nd : Nat) (visc : Bool) (mu kappa : Transport) (ge : (Nat → ℝ) → ℝ) (n u : Nat → ℝ) :
    (∀ i < nd, (u i + noSlipState nd ge u i) / 2 = 0) ∧ numFlux (ns nd visc mu kappa) nd n u (noSlipState nd ge u) nd = 0 ∧
    (ge = keepEnergy nd → numFlux (ns nd visc mu kappa) nd n u (noSlipState nd ge u) (nd + 1) = 0) := by
  have hneg : ∀ i < nd, noSlipState nd ge u i = -u i := fun i hi => by simp [noSlipState, hi]
  have hgn : dotN nd (noSlipState nd ge u) n = -dotN nd u n := by
    rw [dot_congr (a' := fun i => -u i) hneg (fun _ _ => rfl), dot_neg_left]
  have hgg : dotN nd (noSlipState nd ge u) (noSlipState nd ge u) = dotN nd u u := by
    rw [dot_congr (a' := fun i => -u i) (b' := fun i => -u i) hneg hneg, dot_neg_left, dot_comm, dot_neg_left, neg_neg]
  have hm : noSlipState nd ge u nd = u nd := by simp [noSlipState]
  refine ⟨fun i hi => by rw [hneg i hi]; ring, ?_, fun hge => ?_⟩
  · obtain ⟨a, ha⟩ := numFlux_ns nd visc mu kappa n u (noSlipState nd ge u)
    have sm : ∀ x : Nat → ℝ, (sumN nd fun j => x j * n j) = dotN nd x n := fun _ => rfl
    rw [ha nd (by omega)]
    simp only [fluxConv, lt_irrefl, if_false, if_true, sm, hgn, hm]; ring
  · have he : noSlipState nd ge u (nd + 1) = u (nd + 1) := by
      have n1 : ¬ nd + 1 < nd := by omega
      have n2 : ¬ nd + 1 = nd := by omega
      simp only [noSlipState, if_neg n1, if_neg n2, hge, keepEnergy]
      by_cases h : u (nd + 1) = 0
      · simp [h]
      · field_simp
    exact (mirror_flux nd visc mu kappa n u _ hm he hgg hgn).2

/-- C35: a wall of prescribed energy (temperature): the geometric mean of the inside and ghost energy is the prescribed energy. -/
theorem no_slip_energy (nd : Nat) (epm : ℝ) (u : Nat → ℝ) (hE : 0 < u (nd + 1)) (hepm : 0 ≤ epm) (hm : 0 < u nd) :
    √(u (nd + 1) * noSlipState nd (prescribedEnergy nd epm) u (nd + 1)) = epm * u nd := by
  have n1 : ¬ nd + 1 < nd := by omega
  have n2 : ¬ nd + 1 = nd := by omega
  simp only [noSlipState, if_neg n1, if_neg n2, prescribedEnergy]
  rw [mul_div_cancel₀ _ hE.ne', Real.sqrt_sq (mul_nonneg hepm hm.le)]

/-- C35: the diffusive flux through a no-slip wall: no mass, and (with the default coercion 2) exactly the heat flux demanded by the thermal
boundary condition, per area; `sign` turns fluxes along the axis into outward fluxes. -/
theorem no_slip_diffusion (nd : Nat) (hf : (Nat → ℝ) → ℝ → ℝ) (cache normal f : Nat → ℝ) (sign : ℝ) (hs : sign * sign = 1) :
    f nd + noSlipFlux nd 2 hf cache normal sign f nd = 0 ∧
    sign * ((f (nd + 1) + noSlipFlux nd 2 hf cache normal sign f (nd + 1)) / 2) = √(dotN nd normal normal) * hf cache (f (nd + 1) * sign / √(dotN nd normal normal)) := by
  have n1 : ¬ nd + 1 < nd := by omega
  have n2 : ¬ nd + 1 = nd := by omega
  constructor
  · simp [noSlipFlux]
  · simp only [noSlipFlux, if_neg n1, if_neg n2]
    have : norm nd normal = √(dotN nd normal normal) := rfl
    rw [this]
    generalize hf cache _ = q
    linear_combination √(dotN nd normal normal) * q * hs

/-- C35, advected scalars: fixed to 1 at open boundaries, no flow through walls. -/
theorem advection_bcs (nd : Nat) (n u : Nat → ℝ) (hn : dotN nd n n ≠ 0) :
    (∀ v, nd ≤ v → (u v + defaultAdvection nd u v) / 2 = 1) ∧ dotN nd (fun i => (u i + nonpenAdvection nd n u i) / 2) n = 0 ∧ ∀ i < nd, (u i + noSlipAdvection nd u i) / 2 = 0 := by
  refine ⟨fun v hv => ?_, ?_, fun i hi => ?_⟩
  · rw [defaultAdvection, if_neg (by omega)]; ring
  · exact (nonpenetration_state nd n u hn).1
  · rw [noSlipAdvection, if_pos hi]; ring

/-! ## Riemann invariants -/

/-- With the freestream inside as well, the ghost is the freestream (as long as it is admissible): the boundary does not disturb it. -/
theorem riemann_freestream (nd : Nat) (fs normal : Nat → ℝ) (sign : ℝ) (hu : Admissible nd fs) (hn : 0 < dotN nd normal normal) (v : Nat) (hv : v < nd + 2) : riemannState nd fs normal sign fs v = fs v := by
  have hc : ∀ v < nd + 2, applyChar nd fs normal sign fs fs v = fs v := by
    intro v hv
    have h := characteristic_sum nd fs normal hu hn fs v hv
    rw [applyChar]
    simp only [ite_self]
    rw [List.sum_ofFn]
    exact h
  have hs : (sumN nd fun i => applyChar nd fs normal sign fs fs i * applyChar nd fs normal sign fs fs i) = dotN nd fs fs := by
    rw [sumN_eq, dotN]; exact Finset.sum_congr rfl fun i hi => by rw [hc i (by have := Finset.mem_range.1 hi; omega)]
  have hs' : (sumN nd fun i => fs i * fs i) = dotN nd fs fs := rfl
  have hm := hu.mass
  have hmx : max (fs nd) (fs nd / 2) = fs nd := max_eq_left (by linarith)
  have hp : 0 < fs (nd + 1) - 1 / 2 * dotN nd fs fs / fs nd := by
    have h := hu.pres
    rw [Pres] at h
    have e : dotN nd fs fs / (2 * fs nd) = 1 / 2 * dotN nd fs fs / fs nd := by field_simp
    rw [e] at h; linarith
  simp only [riemannState, riemannLimit, hs, hs', hc nd (by omega), hc (nd + 1) (by omega), hmx]
  by_cases h1 : v < nd
  · rw [if_pos h1, hc v hv]
  · rw [if_neg h1]
    by_cases h2 : v = nd
    · rw [if_pos h2, h2]
    · rw [if_neg h2]
      obtain rfl : v = nd + 1 := by omega
      rw [max_eq_left (a := fs (nd + 1) - 1 / 2 * dotN nd fs fs / fs nd) (by linarith), add_sub_cancel, max_eq_left]
      have : 0 ≤ 1 / 2 * dotN nd fs fs / fs nd := div_nonneg (mul_nonneg (by norm_num) (dot_self_nonneg nd fs)) hm.le
      linarith

/-- Whatever the freestream and the state inside, the ghost state is admissible if the state inside is: its mass is at least half and its
internal energy at least half of those inside. -/
theorem riemann_admissible (nd : Nat) (fs normal inside : Nat → ℝ) (sign : ℝ) (hu : Admissible nd inside) : Admissible nd (riemannState nd fs normal sign inside) ∧
    inside nd / 2 ≤ riemannState nd fs normal sign inside nd ∧ Pres nd inside / 2 ≤ Pres nd (riemannState nd fs normal sign inside) := by
  set st := applyChar nd inside normal sign inside fs with hst
  set g := riemannState nd fs normal sign inside with hg
  have hgm : g nd = max (st nd) (inside nd / 2) := by
    rw [hg, riemannState, riemannLimit]; simp only [lt_irrefl, if_false, if_true, hst]
  have hmom : ∀ i < nd, g i = st i := fun i hi => by rw [hg, riemannState, riemannLimit]; simp only [if_pos hi, hst]
  have hdd : dotN nd g g = sumN nd fun i => st i * st i := by rw [dot_congr hmom hmom]; rfl
  have hm := hu.mass
  have h1 : inside nd / 2 ≤ g nd := by rw [hgm]; exact le_max_right _ _
  have hgp : 0 < g nd := by linarith
  have hE : g (nd + 1) = max (1 / 2 * dotN nd g g / g nd + max (st (nd + 1) - 1 / 2 * dotN nd g g / g nd) ((inside (nd + 1) - 1 / 2 * dotN nd inside inside / inside nd) / 2)) 0 := by
    rw [hdd, hgm, hg, riemannState, riemannLimit]
    have n1 : ¬ nd + 1 < nd := by omega
    have n2 : ¬ nd + 1 = nd := by omega
    simp only [if_neg n1, if_neg n2, hst]; rfl
  have e1 : ∀ x : Nat → ℝ, x nd ≠ 0 → Pres nd x = 2 / 5 * (x (nd + 1) - 1 / 2 * dotN nd x x / x nd) := by
    intro x hx; rw [Pres]; congr 2; field_simp
  have h2 : Pres nd inside / 2 ≤ Pres nd g := by
    rw [e1 inside hm.ne', e1 g hgp.ne']
    have : 1 / 2 * dotN nd g g / g nd + (inside (nd + 1) - 1 / 2 * dotN nd inside inside / inside nd) / 2 ≤ g (nd + 1) := by
      rw [hE]
      exact le_trans (add_le_add_right (le_max_right _ _) _) (le_max_left _ _)
    linarith
  exact ⟨⟨hgp, by have := hu.pres; linarith⟩, h1, h2⟩

end
end Hexed.Solver
