import Verif.Solver.Farfield
set_option autoImplicit false
set_option linter.unusedVariables false

/-!
# Diffusive fluxes at open boundaries and the whole ghost data of advected scalars (C52, C35)
-/

namespace Hexed.Solver
open Hexed.Pde
noncomputable section

/-- The diffusive flux at a boundary with Riemann invariants: the flux inside splits into three eigenvectors of the Euler flux Jacobian
at the cached state; the ghost flux has the ones travelling inwards and nothing of the others. -/
theorem riemann_flux_waves (nd : Nat) (cache normal flux : Nat → ℝ) (sign : ℝ) (hu : Admissible nd cache) (hn : 0 < dotN nd normal normal) :
    ∃ d : Fin 3 → Nat → ℝ, (∀ j, IsEigen nd cache (Unit nd normal) (d j) (WaveSpeed nd cache normal j)) ∧ (∀ v < nd + 2, flux v = ∑ j, d j v) ∧
      ∀ v < nd + 2, riemannFlux nd cache normal sign flux v = ∑ j, (if 0 < sign * WaveSpeed nd cache normal j then d j v else 0) := by
  refine ⟨fun j v => (Characteristics.new nd cache normal).decomp nd flux v j, fun j => ?_, fun v hv => ?_, fun v hv => ?_⟩
  · obtain ⟨e, h⟩ := characteristic_eigen nd cache normal hu hn flux j
    rw [e] at h; exact h
  · exact (characteristic_sum nd cache normal hu hn flux v hv).symm
  · rw [riemannFlux, applyChar, List.sum_ofFn]
    refine Finset.sum_congr rfl fun j _ => ?_
    have e : (Characteristics.new nd cache normal).vals j = WaveSpeed nd cache normal j := (characteristic_eigen nd cache normal hu hn flux j).1
    have z : (Characteristics.new nd cache normal).decomp nd (fun _ => 0) v j = 0 := by
      have h := decomp_sub nd (Characteristics.new nd cache normal) (fun _ => 0) (fun _ => 0) v j
      simp only [sub_self] at h
      exact h
    beta_reduce
    rw [e, z]

/-- Supersonic outflow: the diffusive flux on the ghost side is zero. Supersonic inflow: it is the flux inside. -/
theorem riemann_flux_supersonic (nd : Nat) (cache normal flux : Nat → ℝ) (sign : ℝ) (hu : Admissible nd cache) (hn : 0 < dotN nd normal normal) (v : Nat) (hv : v < nd + 2) :
    ((∀ j, sign * WaveSpeed nd cache normal j ≤ 0) → riemannFlux nd cache normal sign flux v = 0) ∧
    ((∀ j, 0 < sign * WaveSpeed nd cache normal j) → riemannFlux nd cache normal sign flux v = flux v) := by
  obtain ⟨d, -, hd, h⟩ := riemann_flux_waves nd cache normal flux sign hu hn
  refine ⟨fun ho => ?_, fun hi => ?_⟩
  · rw [h v hv, Finset.sum_eq_zero]
    intro j _; rw [if_neg (not_lt.2 (ho j))]
  · rw [h v hv, Finset.sum_congr rfl (fun j _ => if_pos (hi j)), ← hd v hv]

/-- All ghost data for advected scalars. Open boundaries: the velocity is that inside, scalars are one on average. Walls without
penetration: no velocity through the wall, the same velocity along it, scalars unchanged. Walls without slip: no velocity, scalars
unchanged. -/
theorem advection_ghosts (nd : Nat) (n u : Nat → ℝ) (hn : dotN nd n n ≠ 0) :
    ((∀ i < nd, defaultAdvection nd u i = u i) ∧ ∀ v, nd ≤ v → (u v + defaultAdvection nd u v) / 2 = 1) ∧
    (dotN nd (fun i => (u i + nonpenAdvection nd n u i) / 2) n = 0 ∧ (∀ t, dotN nd t n = 0 → dotN nd (nonpenAdvection nd n u) t = dotN nd u t) ∧
      ∀ v, nd ≤ v → nonpenAdvection nd n u v = u v) ∧
    ((∀ i < nd, (u i + noSlipAdvection nd u i) / 2 = 0) ∧ ∀ v, nd ≤ v → noSlipAdvection nd u v = u v) := by
  obtain ⟨a, b, c⟩ := advection_bcs nd n u hn
  refine ⟨⟨fun i hi => if_pos hi, a⟩, ⟨b, (nonpenetration_state nd n u hn).2.1, fun v hv => ?_⟩, ⟨c, fun v hv => ?_⟩⟩
  · rw [nonpenAdvection]; exact if_neg (by omega)
  · rw [noSlipAdvection, if_neg (by omega)]

/-- A supersonic state meets the hypotheses, outwards and inwards. -/
example (flux : Nat → ℝ) (v : Nat) (hv : v < 4) : riemannFlux 2 exFast (fun i => if i = 0 then 2 else 0) (-1) flux v = 0 ∧
    riemannFlux 2 exFast (fun i => if i = 0 then 2 else 0) 1 flux v = flux v :=
  ⟨(riemann_flux_supersonic 2 exFast _ flux (-1) exFast_admissible (by norm_num [dotN, Finset.sum_range_succ]) v hv).1
      (fun j => by have := exFast_speed j; linarith),
    (riemann_flux_supersonic 2 exFast _ flux 1 exFast_admissible (by norm_num [dotN, Finset.sum_range_succ]) v hv).2
      (fun j => by have := exFast_speed j; linarith)⟩

end
end Hexed.Solver
