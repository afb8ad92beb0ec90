import Verif.Residual.Props
import Verif.Solver.Freestream
import Verif.Spatial.Props
set_option autoImplicit false
set_option linter.unusedVariables false

/-!
# Cases that meet the hypotheses of C96

Three squares of two sizes with a hanging face, boundary conditions of two kinds on the outer faces, viscous flow with any transport coefficients.
-/

namespace Hexed.Residual
open Hexed.Spatial Hexed.Pde Hexed.Solver
noncomputable section

/-- A flow of air over three elements, outflow on one side and characteristic conditions on the other. -/
def exSetup (mu kappa : Transport) (sr : ℝ) : Setup where
  useLdg := true
  mu := mu
  kappa := kappa
  bs := ofNodes gauss2
  mesh := exFar
  stepRatio := sr
  filter := true
  stateRule := fun c => (if c.dir.s0 then Far.outflow else .riemann).state 2 exAir c.dir.s0
  fluxRule := fun c => (if c.dir.s0 then Far.outflow else .riemann).flux 2 exAir c.dir.s0

theorem exSetup_ok (mu kappa : Transport) (sr : ℝ) : (exSetup mu kappa sr).mesh.Ok (exSetup mu kappa sr).bs := exFar_ok _
theorem exSetup_n (mu kappa : Transport) (sr : ℝ) : 0 < (exSetup mu kappa sr).bs.n := by norm_num [exSetup, ofNodes, gauss2]

/-- The time step scale of the mesh of the example. -/
def exTss (e q : Nat) : ℝ := (exFar.elem e).tss q

/-- Residual, step, visualization, residual and step after any initial state: the same as two steps. -/
example (mu kappa : Transport) (sr : ℝ) (w : World) : ∃ y z,
    (exSetup mu kappa sr).run [.residual, .step (fun st => st 0 (2, 0)) (fun _ => exTss), .vis (fun st e q => st e (2, q)) (fun _ _ _ => 1) true, .residual,
      .step (fun st => st 1 (2, 0)) (fun st e q => st e (3, q))] ⟨(exSetup mu kappa sr).writeFaces w, exTss⟩ = some y ∧
    (exSetup mu kappa sr).run [.step (fun st => st 0 (2, 0)) (fun _ => exTss), .step (fun st => st 1 (2, 0)) (fun st e q => st e (3, q))] ⟨(exSetup mu kappa sr).writeFaces w, exTss⟩ = some z ∧
    y.world.state = z.world.state :=
  observation (exSetup_ok mu kappa sr) (exSetup_n mu kappa sr) _ (by simp [Op.succeeds]) _ ((ready (exSetup_ok mu kappa sr) (exSetup_n mu kappa sr) w).1)

/-- The residual with one time step scale is the rate of change of a step with another. -/
example (mu kappa : Transport) (sr : ℝ) (w : World) : ∃ wr w1, (exSetup mu kappa sr).computeResidual exTss w = some wr ∧ (exSetup mu kappa sr).stage (fun _ _ => 2) (1 / 10) w = some w1 ∧
    (physical 2 exTss wr 1 3).val 2 = rate (fun _ _ => 2) (1 / 10) w w1 1 2 3 := by
  obtain ⟨wr, w1, h1, h2, h3⟩ := residual_is_rate (exSetup_ok mu kappa sr) (exSetup_n mu kappa sr) exTss (fun _ _ => 2) (dt := 1 / 10) (by norm_num) w
  exact ⟨wr, w1, h1, h2, h3 1 (by simp [exSetup, exFar]) 2 (show 2 < 2 + 2 by decide) 3 (by show (1 : ℝ) + (3 : ℕ) ≠ 0; norm_num) (by norm_num)⟩

/-- After one step of uniform flow the residuals are exactly zero, so that nothing changes any more. -/
example (mu kappa : Transport) (sr : ℝ) (tss' : Nat → Nat → ℝ) (dt : ℝ) (u : Nat → ℝ) : ∃ w wr w',
    (exSetup mu kappa sr).step exTss 1 (exWorld gauss2 (uniform 2 exAir fun _ x => x 0 * x 1)) = some w ∧
    (exSetup mu kappa sr).computeResidual exTss w = some wr ∧ residuals gauss2 u (exSetup mu kappa sr) exTss wr = some (0, 0, 0) ∧
    (exSetup mu kappa sr).step tss' dt w = some w' ∧ w'.state = w.state := by
  set s := exSetup mu kappa sr with hs
  have hm := exSetup_ok mu kappa sr
  have hn := exSetup_n mu kappa sr
  obtain ⟨U1, U2⟩ := uniform_stages (ofNodes_isOf gauss2) Basis.gauss2_exact (by norm_num [gauss2]) (by norm_num [gauss2]) (exFar_ok _) (exFar_cubes gauss2 rfl) exAir (fun _ x => x 0 * x 1)
    (exSetup mu kappa sr).stateRule (exSetup mu kappa sr).fluxRule
    (by
      intro c hcm hgh k hk inside hin v hv
      have hg : c.deformed = true := by
        simp only [exFar, List.mem_cons, List.not_mem_nil, or_false] at hcm
        rcases hcm with rfl | rfl | rfl | rfl | rfl | rfl | rfl | rfl | rfl | rfl <;> first | rfl | (cases hgh; done)
      show Far.state 2 exAir c.dir.s0 (if c.dir.s0 then Far.outflow else .riemann) _ inside v = _
      cases c.dir.s0 with
      | true => exact hin v hv
      | false =>
        show riemannState 2 exAir _ _ inside v = exAir v
        rw [riemann_congr (nd := 2) hin hv]
        refine riemann_freestream 2 exAir _ _ exAir_adm ?_ v hv
        have hax : c.dir.i0.val < 2 := ((exFar_ok (ofNodes gauss2)).legal c hcm).1.1
        have e : ∀ i < 2, c.normal (i * gauss2.n ^ (exFar.nd - 1) + k) = if i = c.dir.i0.val then 1 else 0 := fun i hi => (exFar_cubes gauss2 rfl).normal c hcm hg i hi k hk
        rw [dot_congr e e, dotN]
        simp [hax])
    (by
      intro c hcm hgh k hk inside hin v hv
      show Far.flux 2 exAir c.dir.s0 (if c.dir.s0 then Far.outflow else .riemann) _ inside v = _
      cases c.dir.s0 with
      | true => show -inside v = 0; rw [hin v hv, neg_zero]
      | false => exact riemannFlux_zero hin hv)
    true mu kappa sr true
  obtain ⟨w, hw⟩ : ∃ w, s.step exTss 1 (exWorld gauss2 (uniform 2 exAir fun _ x => x 0 * x 1)) = some w := flowStep_defined _ _ _ _ _ _ _ _ _ _ _
  obtain ⟨S1, S2⟩ := U2 [1] _ w (exWorld_samples _ _) (fun c hc s hg v hv k hk => by rw [exWorld_faces gauss2 rfl _ 4 c hc s v hv k hk, uniform_at _ _ _ hv]) (by
    rw [flow, List.foldlM_cons]
    exact (congrArg (fun o => o >>= fun x => some x) hw : _))
  obtain ⟨wr, w1, h1, h2, h3, h4⟩ := stage_rate hm hn exTss 1 w
  obtain ⟨T1, _⟩ := U1 1 w w1 S1 S2 h2
  have hz : ∀ v < 4, normSq s.bs s.mesh (fun e q => wr.cache e (v, q) / exTss e q) = 0 := by
    intro v hv
    have : ∀ e ∈ exFar.elems, ∀ q < 2 ^ 2, wr.cache e (v, q) = 0 := by
      intro e he q hq
      have a : w1.state e (v, q) = if v < 2 + 2 then w.state e (v, q) + 1 * wr.cache e (v, q) else w.state e (v, q) := h3 e he v q
      rw [if_pos (show v < 2 + 2 from hv), T1 e he q hq v, S1 e he q hq v] at a
      linarith
    unfold normSq
    refine List.sum_eq_zero ?_
    intro x hx
    obtain ⟨e, he, rfl⟩ := List.mem_map.1 hx
    rw [Finset.sum_eq_zero fun q hq => by beta_reduce; rw [this e he q (Finset.mem_range.1 hq)]; ring, mul_zero]
  have h0 : residuals gauss2 u s exTss wr = some (0, 0, 0) := by
    rw [residuals_norm (by norm_num [gauss2]) (ofNodes_isOf gauss2) (show 1 ≤ 2 by decide)]
    rw [Finset.sum_eq_zero fun d hd => hz d (by have := Finset.mem_range.1 hd; have h2 : s.mesh.nd = 2 := rfl; omega), hz s.mesh.nd (show 2 < 4 by decide), hz (s.mesh.nd + 1) (show 3 < 4 by decide), Real.sqrt_zero]
  obtain ⟨w', a, b⟩ := converged hm Spatial.gauss2_good (ofNodes_isOf gauss2) (fun e he q hq => by show (0 : ℝ) < 1; norm_num) u (tss := exTss)
    (fun e he q hq => by show (1 : ℝ) + (q : ℕ) ≠ 0; positivity) ((ready hm hn _).2 _ _ _ hw) h1 h0 tss' dt
  exact ⟨w, wr, w', hw, h1, h0, a, b⟩

end
end Hexed.Residual
