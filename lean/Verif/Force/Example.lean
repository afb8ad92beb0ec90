import Verif.Force.Report
import Verif.Solver.Freestream
import Verif.Metric.Example
set_option autoImplicit false
set_option linter.unusedVariables false

/-!
# Cases that meet the hypotheses of C79
-/

namespace Hexed.Force
open Hexed.Pde Hexed.Spatial Hexed.Solver Hexed.Tensor
noncomputable section

/-- A slanted face at the lower end of its line. -/
def exFace : Face := ⟨false, fun i => if i = 0 then 3 else if i = 1 then 4 else 0, fun v => if v = 2 then 1 else if v = 3 then 10 else 1, fun v => v⟩

theorem exFace_dot : dotN 2 (exFace.nrml 1 0) (exFace.nrml 1 0) = 25 := by
  norm_num [dotN, Face.nrml, exFace, Finset.sum_range_succ]

theorem exFace_mag : exFace.mag 2 1 0 = 5 := by
  have h := mag_sq (nd := 2) 1 exFace 0
  rw [exFace_dot] at h
  have h0 : 0 ≤ exFace.mag 2 1 0 := Real.sqrt_nonneg _
  nlinarith

example : ∃ s n, hilSurface 2 1 true exFace 0 (fun _ => none) = some s ∧ surfaceNormal 2 1 exFace 0 = some n ∧ Inward 2 (outward 1 exFace 0) n ∧
    (∀ i < 2, s (suffixed "normal" i) = some (n i)) ∧ ∀ i, 2 ≤ i → i < 3 → s (suffixed "normal" i) = some 0 :=
  normal_inward (by norm_num) 1 true exFace 0 _ (by rw [exFace_dot]; norm_num)

/-- Variables of a case. -/
def exSpace : Vars := fun n => if n = "heat_rat" then some (7 / 5) else none

example : ∃ r n P, forceIntegrand 2 1 true exSpace exFace 0 = some r ∧ r.size = forceNames.length ∧ Inward 2 (outward 1 exFace 0) n ∧ pressureStress (7 / 5) 2 1 exFace 0 = some P ∧
    r.val 4 = Pres 2 (stateAt 1 exFace 0) ∧
    (∀ i < 2, P i = -Pres 2 (stateAt 1 exFace 0) * n i ∧ r.val (5 + i) = P i + viscousStress 2 1 exFace 0 i) ∧ ∀ i, 2 ≤ i → i < 3 → r.val (5 + i) = 0 :=
  stress_exact (by norm_num) 1 exSpace rfl exFace 0 (by rw [exFace_dot]; norm_num) (by norm_num [exFace])

/-- The hypotheses of `viscous_traction`, with any gradient of the state. -/
example (mu kappa : Transport) (gradient : Nat → Nat → ℝ) : ∃ (f : Face) (U : Nat → ℝ → Nat → ℝ) (G : Nat → Nat → ℝ) (dT : Nat → ℝ), 1 / 1000 < f.mag 2 1 0 ∧ exState 2 ≠ 0 ∧
    (∀ v < 2 + 2, f.flux (v * 1 + 0) = fluxDiff 2 mu kappa exState (fun j _ => f.nrml 1 0 j) gradient v 0) ∧
    (∀ j < 2, U j 0 = exState ∧ IsGrad 2 (U j) fun v => gradient v j) ∧ (∀ i < 2, ∀ j < 2, HasDerivAt (fun t => Vel 2 (U j t) i) (G i j) 0) ∧
    ∀ j < 2, HasDerivAt (fun t => Temp 2 (U j t)) (dT j) 0 := by
  choose U hU using fun j : Nat => grad_exists 2 exState fun v => gradient v j
  have hm : exState 2 ≠ 0 := exState_admissible.mass.ne'
  refine ⟨{ exFace with flux := fun v => fluxDiff 2 mu kappa exState (fun j _ => exFace.nrml 1 0 j) gradient v 0 }, U, velocGrad 2 exState gradient,
    fun j => (heatRat - 1) / gasAir * intEnerGrad 2 exState gradient j, ?_, hm, fun v _ => by simp [Face.nrml], fun j _ => hU j, fun i hi j _ => ?_, fun j _ => ?_⟩
  · show 1 / 1000 < exFace.mag 2 1 0
    rw [exFace_mag]; norm_num
  · have h := velocity_gradient_exact 2 (U j) (by rw [(hU j).1]; exact hm) gradient j (hU j).2 i hi
    rwa [(hU j).1] at h
  · have h := temperature_gradient_exact 2 (U j) (by rw [(hU j).1]; exact hm) gradient j (hU j).2
    rwa [(hU j).1] at h

/-! ## Air at rest in a box: one square of edge 1 and, to its right, two squares of edge 1/2, with hanging faces -/

/-- Air at rest. -/
def exRest (v : Nat) : ℝ := if v = 2 then 1 else if v = 3 then 3 else 0

/-- No-slip walls. -/
def exStateRule : Rule := fun c => (Wall.noSlip 2 0).state 2
def exFluxRule : Rule := fun c => (Wall.noSlip 2 0).flux 2 c.dir.s0

/-- The surface: the right side of the box, two faces. -/
def exSn (c : ConRec) : Nat := if c.dir.i0 = 0 ∧ c.dir.s0 = true then 1 else 0

/-- The boundary connections. -/
def exBcon (j : Nat) : ConRec := (exFar.cons.drop 3).getD j (exFar.cons.headD ⟨false, ⟨0, 0, true, false⟩, fun _ => .ghost 0, fun _ => 0⟩)

theorem exIds : (List.range 7).map exBcon = exFar.cons.filter fun c => (c.side true).isGhost := by
  simp [exFar, exBcon, List.range_succ, Buf.isGhost]

theorem exBoundary {c : ConRec} (hc : c ∈ exFar.cons) (hg : (c.side true).isGhost = true) : ∃ (d : Fin 3) (s : Bool) (a : Buf) (g : Nat), d.val < 2 ∧
    c = ⟨true, ⟨d, d, s, !s⟩, fun s => if s then .ghost g else a, fun i => if i / 2 = d.val then 1 else 0⟩ := by
  simp only [exFar, List.mem_cons, List.not_mem_nil, or_false] at hc
  rcases hc with rfl | rfl | rfl | rfl | rfl | rfl | rfl | rfl | rfl | rfl <;> first | (cases hg; done) | exact ⟨_, _, _, _, by decide, rfl⟩

theorem exSurface : SurfaceOk (ofNodes gauss2) exFar fun c => decide (exSn c = 1) := by
  intro c hc hg _
  obtain ⟨d, s, a, g, hd, rfl⟩ := exBoundary hc hg
  have key : ∀ k < 2 ^ (2 - 1), dotN 2 (fun i => if (i * 2 ^ (2 - 1) + k) / 2 = d.val then (1 : ℝ) else 0) (fun i => if (i * 2 ^ (2 - 1) + k) / 2 = d.val then (1 : ℝ) else 0) = 1 := by
    intro k hk
    have hk : k < 2 := by simpa using hk
    have e : ∀ i : Nat, (i * 2 ^ (2 - 1) + k) / 2 = i := fun i => by omega
    simp only [e, dotN]
    have : d.val = 0 ∨ d.val = 1 := by omega
    rcases this with h | h <;> simp [h, Finset.sum_range_succ]
  refine ⟨⟨rfl, ⟨rfl, rfl⟩, fun k hk => ?_⟩, fun k hk => ?_⟩
  · exact ne_of_eq_of_ne (key k hk) one_ne_zero
  · have := key k hk
    show 1 / 1000 < √(dotN 2 (fun i => if (i * 2 ^ (2 - 1) + k) / 2 = d.val then (1 : ℝ) else 0) (fun i => if (i * 2 ^ (2 - 1) + k) / 2 = d.val then (1 : ℝ) else 0))
    rw [this, Real.sqrt_one]; norm_num

theorem exState_rule (c : ConRec) (n inside : Nat → ℝ) (h : ∀ v < 4, inside v = exRest v) (v : Nat) (hv : v < 4) : exStateRule c n inside v = exRest v := by
  show noSlipState 2 (keepEnergy 2) inside v = exRest v
  rw [(no_slip_met 2 inside).2 (fun i hi => ?_) v hv, h v hv]
  rw [h i (by omega)]
  have : i = 0 ∨ i = 1 := by omega
  rcases this with rfl | rfl <;> norm_num [exRest]

theorem exFlux_rule (c : ConRec) (n inside : Nat → ℝ) (h : ∀ v < 4, inside v = 0) (v : Nat) (hv : v < 4) : exFluxRule c n inside v = 0 := by
  show noSlipFlux 2 2 (prescribedHeatFlux 0) (fun _ => 0) n (if c.dir.s0 then 1 else -1) inside v = 0
  rw [noSlipFlux]
  simp only [h v hv, prescribedHeatFlux]
  split <;> [rfl; (split <;> simp)]

theorem exMet {w : World} (h : exFar.InnerSamples gauss2 exCorner (2 + 2) (fun B => w.buf B false) fun v _ => exRest v) (S : ConRec → Bool) : StateMet (ofNodes gauss2) exFar exStateRule S w := by
  intro c hc hg _ k hk
  have hin : ∀ v < 4, insideAt (ofNodes gauss2).n exFar.nd false c w k v = exRest v := fun v hv => h c hc false ((exFar_ok (ofNodes gauss2)).ghost c hc) v hv k hk
  refine ⟨fun a ha => ?_, ?_, ?_⟩
  · rw [exState_rule c _ _ hin a ha, hin a ha]
  · show dotN 2 _ _ = 0
    rw [dotN, Finset.sum_eq_zero]
    intro i hi
    have hi := Finset.mem_range.1 hi
    rw [hin i (by omega)]
    have : i = 0 ∨ i = 1 := by omega
    rcases this with rfl | rfl <;> norm_num [exRest]
  · rw [hin exFar.nd (by decide)]
    norm_num [exRest, exFar]

/-- The hypotheses of `momentum_budget` (and so of `force_is_momentum_flux`) are met by viscous air at rest, which presses on the right
side of the box. -/
example (mu kappa : Transport) (sr dt : ℝ) :
    let w := exWorld gauss2 (uniform 2 exRest fun _ x => x 0 * x 1)
    let state_bc := runBc 2 2 4 false exStateRule exFar.cons
    let flux_bc := runBc 2 2 4 true exFluxRule exFar.cons
    let cached := ldgWorld (ns 2 true mu kappa) (ofNodes gauss2) exFar id ⟨dt, false, false, true⟩ (state_bc w)
    ∃ w1 w' t0 t1, firstStage mu kappa (ofNodes gauss2) exFar sr dt true state_bc flux_bc w = some w1 ∧
      flowStep true mu kappa (ofNodes gauss2) exFar sr dt true state_bc flux_bc w = some w' ∧
      reportForce gauss2 (fun _ => 0) exFar (List.range 7) exBcon exSn 1 true exSpace w cached = some t0 ∧
      reportForce gauss2 (fun _ => 0) exFar (List.range 7) exBcon exSn 1 true exSpace w1 cached = some t1 ∧
      ∀ i < 2, exFar.change (ofNodes gauss2) w.state w'.state i = -dt * ((1 - sr) * t0.val (5 + i) + sr * t1.val (5 + i)) - dt *
        ((1 - sr) * throughFlux (ns 2 false mu kappa) (ofNodes gauss2) exFar (state_bc w).buf (fun c => !decide (exSn c = 1)) i +
         sr * throughFlux (ns 2 false mu kappa) (ofNodes gauss2) exFar (state_bc w1).buf (fun c => !decide (exSn c = 1)) i +
         throughFluxDiff (ns 2 true mu kappa) (ofNodes gauss2) exFar (flux_bc cached).buf (fun c => !decide (exSn c = 1)) i) := by
  intro w state_bc flux_bc cached
  obtain ⟨w', hw⟩ := flowStep_defined true mu kappa (ofNodes gauss2) exFar sr dt true state_bc flux_bc w
  have h1 := hw
  rw [flowStep] at h1
  obtain ⟨w1, h1, _⟩ := Option.bind_eq_some_iff.1 h1
  rw [if_pos rfl] at h1
  have hin : exFar.InnerSamples gauss2 exCorner (2 + 2) (fun B => w.buf B false) (fun v _ => exRest v) := by
    intro c hc s hg v hv k hk
    rw [exWorld_faces gauss2 rfl _ 4 c hc s v hv k hk, uniform_at _ _ _ hv]
  have hst := (uniform_stages (ofNodes_isOf gauss2) Basis.gauss2_exact (by norm_num [gauss2]) (by norm_num [gauss2]) (exFar_ok _) (exFar_cubes gauss2 rfl) exRest (fun _ x => x 0 * x 1)
    exStateRule exFluxRule (fun c _ _ k _ inside h => exState_rule c _ inside h) (fun c _ _ k _ inside h => exFlux_rule c _ inside h) true mu kappa sr true).1 dt w w1 (exWorld_samples _ _) hin (by rw [if_pos rfl]; exact h1)
  obtain ⟨t0, t1, a1, a2, a3⟩ := momentum_budget gauss2_good (ofNodes_isOf gauss2) (exFar_ok _) (fun e _ q _ => by show (1 + (q : ℝ)) ≠ 0; positivity) (fun _ => 0) exIds exSn 1 exSpace rfl exStateRule exFluxRule exSurface mu kappa sr dt true
    h1 hw (exMet hin _) (exMet hst.2.1 _) (fun i hi c _ _ _ k _ => by
      show noSlipFlux 2 2 (prescribedHeatFlux 0) (fun _ => 0) _ (if c.dir.s0 then 1 else -1) _ i = _
      rw [noSlipFlux]; exact if_pos hi)
  exact ⟨w1, w', t0, t1, h1, hw, a1, a2, a3⟩

/-! ## Components -/

/-- Given by a case with a freestream at an angle. -/
def exGiven : Vars := fun n => if n = "freestream_direction0" then some (3 / 5) else if n = "freestream_direction1" then some 0 else if n = "freestream_direction2" then some (4 / 5)
  else if n = "freestream_density" then some 2 else if n = "freestream_speed" then some 10 else none

example : ∃ t drag lift side lift_axis side_axis, computeForce 3 (fun i => i + 1) exGiven = some t ∧ Triad ![3 / 5, 0, 4 / 5] lift_axis side_axis ∧
    Sets t (fun i => i + 1) (1 / 2 * 2 * 10 ^ 2) drag lift side ∧ drag = 3 := by
  obtain ⟨t, drag, lift, side, la, sa, h1, h2, h3, h4, _⟩ := compute_force_exact 3 (by norm_num) (fun i => i + 1) exGiven ![3 / 5, 0, 4 / 5] 2 10 ⟨⟨rfl, rfl, rfl⟩, rfl, rfl, by norm_num⟩
    (by simp [Fin.sum_univ_three]; norm_num) (by norm_num) (by norm_num) (fun i h1 h2 => by omega) (fun _ => by norm_num)
  exact ⟨t, drag, lift, side, la, sa, h1, h2, h3, by rw [h4]; simp [Fin.sum_univ_three]; norm_num⟩

end
end Hexed.Force
