import Verif.Force.Wall
set_option autoImplicit false
set_option linter.unusedVariables false

/-!
# Reported stress, heat flux and force (C79)
-/

namespace Hexed.Force
open Hexed.Pde Hexed.Spatial Hexed.Solver Hexed.Tensor
noncomputable section

/-! ## At a point -/

/-- C79: the normal reported on surfaces (by HIL variables and to surface functions) is the unit vector perpendicular to the surface that
points into the flow. -/
theorem normal_inward {nd : Nat} (hnd : 1 ≤ nd ∧ nd ≤ 3) (nfq : Nat) (viscous : Bool) (f : Face) (q : Nat) (space : Vars) (hmag : dotN nd (f.nrml nfq q) (f.nrml nfq q) ≠ 0) :
    ∃ s n, hilSurface nd nfq viscous f q space = some s ∧ surfaceNormal nd nfq f q = some n ∧ Inward nd (outward nfq f q) n ∧
      (∀ i < nd, s (suffixed "normal" i) = some (n i)) ∧ ∀ i, nd ≤ i → i < 3 → s (suffixed "normal" i) = some 0 := by
  obtain ⟨s, h1, h2, _⟩ := hilSurface_eq hnd nfq viscous f q space (mag_pos hmag).ne'
  have hmp := mag_pos hmag
  have hsn : Pde.norm nd (fun i => f.nrml nfq q i * f.nrmlSign) = f.mag nd nfq q := by
    rw [Pde.norm, Face.mag, Pde.norm]
    congr 1
    rw [sumN_eq, sumN_eq]
    exact Finset.sum_congr rfl fun i _ => by linear_combination f.nrml nfq q i * f.nrml nfq q i * nrmlSign_sq f
  refine ⟨s, fun i => f.nrml nfq q i * f.nrmlSign / f.mag nd nfq q, h1, ?_, ⟨?_, 1 / f.mag nd nfq q, by positivity, fun i hi => ?_⟩, fun i hi => ?_, fun i hi hi3 => ?_⟩
  · rw [surfaceNormal]
    simp only [hsn]
    rw [if_neg hmp.ne']
  · rw [dot_div_left, dot_comm, dot_div_left, dot_smul_right', dot_comm, dot_smul_right', ← mag_sq]
    have := nrmlSign_sq f
    field_simp
    linear_combination this
  · rw [outward, nrmlSign_cases, Face.nrml]; ring
  · rw [(h2 i (by omega)).1, if_pos hi]
  · rw [(h2 i hi3).1, if_neg (by omega)]

/-- C79: the viscous stress reported by `Viscous_stress` and, in a viscous flow, by HIL, is the traction of the viscous stress tensor on
the surface: if the flux extrapolated to the surface is the diffusive flux of a state with velocity gradient `G`, then it is the Newtonian
stress times the normal (plus the artificial Laplacian diffusion of momentum). -/
theorem viscous_traction {nd : Nat} (hnd : 1 ≤ nd ∧ nd ≤ 3) (nfq : Nat) (f : Face) (q : Nat) (space : Vars) (hmag : 1 / 1000 < f.mag nd nfq q)
    (dyn_visc therm_cond : Transport) (state : Nat → ℝ) (hm : state nd ≠ 0) (gradient : Nat → Nat → ℝ) (hflux : ∀ v < nd + 2, f.flux (v * nfq + q) = fluxDiff nd dyn_visc therm_cond state (fun j _ => f.nrml nfq q j) gradient v 0)
    (U : Nat → ℝ → Nat → ℝ) (hU : ∀ j < nd, U j 0 = state ∧ IsGrad nd (U j) fun v => gradient v j)
    (G : Nat → Nat → ℝ) (hG : ∀ i < nd, ∀ j < nd, HasDerivAt (fun t => Vel nd (U j t) i) (G i j) 0) (dT : Nat → ℝ) (hT : ∀ j < nd, HasDerivAt (fun t => Temp nd (U j t)) (dT j) 0) :
    let tau := Newton nd (dyn_visc.coefficient (sqrtTemp nd state)) (abs (state (nd + 2)) * state nd) G
    ∃ s n, hilSurface nd nfq true f q space = some s ∧ Inward nd (outward nfq f q) n ∧
      (∀ i < nd, viscousStress nd nfq f q i = ∑ j ∈ Finset.range nd, (tau i j + abs (state (nd + 3)) * gradient i j) * n j ∧ s (suffixed "visc_stress" i) = some (viscousStress nd nfq f q i)) ∧
      s "heat_flux" = some (∑ j ∈ Finset.range nd, (therm_cond.coefficient (sqrtTemp nd state) * dT j + ∑ i ∈ Finset.range nd, Vel nd state i * tau i j + abs (state (nd + 3)) * gradient (nd + 1) j) * n j) ∧
      s "mass_flux" = some (∑ j ∈ Finset.range nd, abs (state (nd + 3)) * gradient nd j * n j) := by
  intro tau
  have hmp : 0 < f.mag nd nfq q := lt_trans (by norm_num) hmag
  have hd : dotN nd (f.nrml nfq q) (f.nrml nfq q) ≠ 0 := by rw [← mag_sq]; exact mul_ne_zero hmp.ne' hmp.ne'
  obtain ⟨s, n, h1, h2, h3, h4, _⟩ := normal_inward hnd nfq true f q space hd
  obtain ⟨s', g1, g2, g3, g4, g5, g6, g7⟩ := hilSurface_eq hnd nfq true f q space hmp.ne'
  obtain rfl : s = s' := Option.some.inj (h1.symm.trans g1)
  have hn : ∀ i < nd, n i = f.nrml nfq q i * f.nrmlSign / f.mag nd nfq q := fun i hi => by
    have := (h4 i hi).symm.trans (g2 i (by omega)).1
    rw [if_pos hi] at this
    exact Option.some.inj this
  have hx : ∀ v < nd + 2, -f.flux (v * nfq + q) * f.nrmlSign / f.mag nd nfq q = ∑ j ∈ Finset.range nd, (abs (state (nd + 3)) * gradient v j +
        (if v < nd then tau v j else if v = nd then 0
         else ∑ i ∈ Finset.range nd, Vel nd state i * tau i j + therm_cond.coefficient (sqrtTemp nd state) * dT j)) * n j := by
    intro v hv
    rw [hflux v hv, viscous_flux_exact nd dyn_visc therm_cond state hm _ gradient U hU G hG dT hT v hv 0]
    simp only [neg_mul, Finset.sum_neg_distrib, neg_neg]
    rw [Finset.sum_mul, Finset.sum_div]
    refine Finset.sum_congr rfl fun j hj => ?_
    rw [hn j (Finset.mem_range.1 hj)]; ring
  refine ⟨s, n, h1, h3, fun i hi => ?_, ?_, ?_⟩
  · constructor
    · rw [viscousStress]
      simp only [if_pos hmag]
      rw [hx i (by omega)]
      refine Finset.sum_congr rfl fun j hj => ?_
      rw [if_pos hi]; ring
    · rw [(g2 i (by omega)).2.1, if_pos hi, if_pos ⟨hmag, rfl⟩, viscousStress]
      simp only [if_pos hmag]
  · rw [g6, if_pos ⟨hmag, rfl⟩, hx (nd + 1) (by omega)]
    congr 1
    refine Finset.sum_congr rfl fun j hj => ?_
    rw [if_neg (by omega), if_neg (by omega)]; ring
  · rw [g5, if_pos ⟨hmag, rfl⟩, hx nd (by omega)]
    congr 1
    refine Finset.sum_congr rfl fun j hj => ?_
    rw [if_neg (by omega), if_pos rfl]; ring

/-- C79: the stress that `compute_force` integrates is pressure against the normal plus viscous stress; it is the sum of the surface
function `Pressure_stress` and the boundary function `Viscous_stress`. -/
theorem stress_exact {nd : Nat} (hnd : 1 ≤ nd ∧ nd ≤ 3) (nfq : Nat) (space : Vars) (hhr : space "heat_rat" = some (7 / 5)) (f : Face) (q : Nat)
    (hmag : dotN nd (f.nrml nfq q) (f.nrml nfq q) ≠ 0) (hrho : f.state (nd * nfq + q) ≠ 0) :
    ∃ r n P, forceIntegrand nd nfq true space f q = some r ∧ r.size = forceNames.length ∧ Inward nd (outward nfq f q) n ∧ pressureStress (7 / 5) nd nfq f q = some P ∧
      r.val 4 = Pres nd (stateAt nfq f q) ∧
      (∀ i < nd, P i = -Pres nd (stateAt nfq f q) * n i ∧ r.val (5 + i) = P i + viscousStress nd nfq f q i) ∧ ∀ i, nd ≤ i → i < 3 → r.val (5 + i) = 0 := by
  have hmp := mag_pos hmag
  obtain ⟨s, n, h1, h2, h3, h4, _⟩ := normal_inward hnd nfq true f q space hmag
  obtain ⟨s', g1, g2, _⟩ := hilSurface_eq hnd nfq true f q space hmp.ne'
  obtain rfl : s = s' := Option.some.inj (h1.symm.trans g1)
  have hn : ∀ i < nd, n i = f.nrml nfq q i * f.nrmlSign / f.mag nd nfq q := fun i hi => by
    have := (h4 i hi).symm.trans (g2 i (by omega)).1
    rw [if_pos hi] at this
    exact Option.some.inj this
  obtain ⟨r, r1, r2, r3, r4⟩ := forceIntegrand_eq hnd nfq true space hhr f q hmag hrho
  have hunit : √(sumN nd fun i => n i * n i) = 1 := by
    have : (sumN nd fun i => n i * n i) = dotN nd n n := by rw [sumN_eq]; rfl
    rw [this, h3.unit, Real.sqrt_one]
  have hst : ¬ ((fun v => f.state (v * nfq + q)) nd = 0 ∨ √(sumN nd fun i => n i * n i) = 0) := by rw [hunit]; simp [hrho]
  refine ⟨r, n, fun i => -Pres nd (stateAt nfq f q) * n i, r1, r2, h3, ?_, r3, fun i hi => ⟨rfl, ?_⟩, fun i hi hi3 => ?_⟩
  · rw [pressureStress, h2, Option.bind_some]
    simp only [hunit, one_ne_zero, or_false, if_neg hrho]
    congr 1
    funext i
    have hp : (7 / 5 - 1 : ℝ) * (f.state ((nd + 1) * nfq + q) - 1 / 2 * (sumN nd fun i => f.state (i * nfq + q) * f.state (i * nfq + q)) / f.state (nd * nfq + q)) = Pres nd (stateAt nfq f q) := by
      have : (sumN nd fun i => f.state (i * nfq + q) * f.state (i * nfq + q)) = dotN nd (stateAt nfq f q) (stateAt nfq f q) := by rw [sumN_eq]; rfl
      rw [this, Pres]
      simp only [stateAt]
      field_simp
      ring
    rw [hp]; ring
  · show _ = -Pres nd (stateAt nfq f q) * n i + _
    rw [r4 i (by omega), if_pos hi, hn i hi, viscousStress]
    simp only [and_true]
  · rw [r4 i hi3, if_neg (by omega)]

/-! ## Integrated over a surface -/

/-- The data of `Solver::integral_surface` for the boundary connections `bcon j`, `j ∈ ids`, of a mesh; `sn` is `bound_cond_serial_n`. -/
def boundCon (m : Mesh) (bcon : Nat → ConRec) (sn : ConRec → Nat) (j : Nat) : Stats.BoundCon := ⟨sn (bcon j), m.bufSize ((bcon j).side false), (bcon j).normal⟩

/-- The force reported by `compute_force`: `integrate_surface` of its integrand. -/
def reportForce (b : Basis.Nodes ℝ) (u : Nat → ℝ) (m : Mesh) (ids : List Nat) (bcon : Nat → ConRec) (sn : ConRec → Nat) (surface_sn : Nat) (viscous : Bool) (space : Vars) (ws wf : World) : Option (Vec ℝ) :=
  integrate b u m.nd forceNames.length ids (boundCon m bcon sn) (fun j q => forceIntegrand m.nd (b.n ^ (m.nd - 1)) viscous space (faceOf (bcon j) ws wf) q) surface_sn

/-- The heating rate reported by `compute_heating`. -/
def reportHeating (b : Basis.Nodes ℝ) (u : Nat → ℝ) (m : Mesh) (ids : List Nat) (bcon : Nat → ConRec) (sn : ConRec → Nat) (surface_sn : Nat) (viscous : Bool) (space : Vars) (ws wf : World) : Option (Vec ℝ) :=
  integrate b u m.nd 1 ids (boundCon m bcon sn) (fun j q => heatIntegrand m.nd (b.n ^ (m.nd - 1)) viscous space (faceOf (bcon j) ws wf) q) surface_sn

/-- The boundary conditions of state are met exactly on the surface: the ghost state is the state inside and nothing flows through. -/
def StateMet (bs : BasisData) (m : Mesh) (rule : Rule) (S : ConRec → Bool) (w : World) : Prop :=
  ∀ c ∈ m.cons, (c.side true).isGhost = true → S c = true → ∀ k < bs.n ^ (m.nd - 1),
    (∀ a < m.nd + 2, rule c (nrmlAt bs.n m.nd c k) (insideAt bs.n m.nd false c w k) a = insideAt bs.n m.nd false c w k a) ∧
    dotN m.nd (insideAt bs.n m.nd false c w k) (nrmlAt bs.n m.nd c k) = 0 ∧ insideAt bs.n m.nd false c w k m.nd ≠ 0

/-- The boundary conditions leave the diffusive flux of variable `v` as it is inside. -/
def FluxMet (bs : BasisData) (m : Mesh) (rule : Rule) (S : ConRec → Bool) (w : World) (v : Nat) : Prop :=
  ∀ c ∈ m.cons, (c.side true).isGhost = true → S c = true → ∀ k < bs.n ^ (m.nd - 1),
    rule c (nrmlAt bs.n m.nd c k) (insideAt bs.n m.nd true c w k) v = insideAt bs.n m.nd true c w k v

/-- The faces of a surface are boundary faces and not degenerate. -/
def SurfaceOk (bs : BasisData) (m : Mesh) (S : ConRec → Bool) : Prop :=
  ∀ c ∈ m.cons, (c.side true).isGhost = true → S c = true → IsBoundary m.nd bs.n c ∧ ∀ k < bs.n ^ (m.nd - 1), 1 / 1000 < √(dotN m.nd (nrmlAt bs.n m.nd c k) (nrmlAt bs.n m.nd c k))

variable {bs : BasisData} {m : Mesh} {b : Basis.Nodes ℝ}

theorem surface_sum {ids : List Nat} {bcon : Nat → ConRec} (hids : ids.map bcon = m.cons.filter fun c => (c.side true).isGhost) (sn : ConRec → Nat) (surface_sn : Nat) (g : Nat → ℝ) (g' : ConRec → ℝ)
    (h : ∀ j ∈ ids, sn (bcon j) = surface_sn → g j = g' (bcon j)) :
    ((ids.filter fun j => (boundCon m bcon sn j).bc = surface_sn).map g).sum = (((m.cons.filter fun c => (c.side true).isGhost).filter fun c => decide (sn c = surface_sn)).map g').sum := by
  rw [← hids, List.filter_map, List.map_map]
  congr 1
  refine List.map_congr_left fun j hj => ?_
  obtain ⟨hj, hs⟩ := List.mem_filter.1 hj
  exact h j hj (of_decide_eq_true hs)

theorem sqrt_normal (n nd : Nat) (c : ConRec) (k : Nat) : √(∑ i ∈ Finset.range nd, c.normal (i * n ^ (nd - 1) + k) ^ 2) = √(dotN nd (nrmlAt n nd c k) (nrmlAt n nd c k)) := by
  congr 1; exact Finset.sum_congr rfl fun i _ => by rw [nrmlAt]; ring

/-- C79: in a viscous flow, the force that `compute_force` reports is the momentum that the scheme lets flow out of the domain through the
surface, by convection and by diffusion, when the boundary conditions are met at the surface. Any mesh, any basis, any number of faces. -/
theorem force_is_momentum_flux (hb : 0 < b.n) (hof : bs.n = b.n ∧ bs.weight = b.weight) (hm : m.Ok bs) (u : Nat → ℝ) {ids : List Nat} {bcon : Nat → ConRec}
    (hids : ids.map bcon = m.cons.filter fun c => (c.side true).isGhost) (sn : ConRec → Nat) (surface_sn : Nat) (space : Vars) (hhr : space "heat_rat" = some (7 / 5)) (state_rule flux_rule : Rule)
    (hS : SurfaceOk bs m fun c => decide (sn c = surface_sn)) (ws wf : World) (hs : StateMet bs m state_rule (fun c => decide (sn c = surface_sn)) ws)
    (hf : ∀ i < m.nd, FluxMet bs m flux_rule (fun c => decide (sn c = surface_sn)) wf i) (mu kappa : Transport) :
    ∃ t, reportForce b u m ids bcon sn surface_sn true space ws wf = some t ∧
      (∀ i < m.nd, t.val (5 + i) =
        throughFlux (ns m.nd false mu kappa) bs m (runBc m.nd bs.n (m.nd + 2) false state_rule m.cons ws).buf (fun c => decide (sn c = surface_sn)) i +
        throughFluxDiff (ns m.nd true mu kappa) bs m (runBc m.nd bs.n (m.nd + 2) true flux_rule m.cons wf).buf (fun c => decide (sn c = surface_sn)) i) ∧
      ∀ i, m.nd ≤ i → i < 3 → t.val (5 + i) = 0 := by
  have hmem : ∀ j ∈ ids, bcon j ∈ m.cons ∧ ((bcon j).side true).isGhost = true := fun j hj => by
    have := List.mem_map_of_mem (f := bcon) hj
    rw [hids] at this
    exact ⟨(List.mem_filter.1 this).1, (List.mem_filter.1 this).2⟩
  have hn := hof.1
  let g : Nat → Nat → Nat → ℝ := fun j q v => ((forceIntegrand m.nd (b.n ^ (m.nd - 1)) true space (faceOf (bcon j) ws wf) q).getD ⟨8, fun _ => 0⟩).val v
  have hval : ∀ j ∈ ids, sn (bcon j) = surface_sn → ∀ q < b.n ^ (m.nd - 1), ∃ x, forceIntegrand m.nd (b.n ^ (m.nd - 1)) true space (faceOf (bcon j) ws wf) q = some x ∧
      (∀ i < m.nd, x.val (5 + i) * √(dotN m.nd (nrmlAt bs.n m.nd (bcon j) q) (nrmlAt bs.n m.nd (bcon j) q)) =
        Pres m.nd (insideAt bs.n m.nd false (bcon j) ws q) * ((if (bcon j).dir.s0 then (1 : ℝ) else -1) * nrmlAt bs.n m.nd (bcon j) q i) +
        (if (bcon j).dir.s0 then (1 : ℝ) else -1) * insideAt bs.n m.nd true (bcon j) wf q i) ∧ ∀ i, m.nd ≤ i → i < 3 → x.val (5 + i) = 0 := by
    intro j hj hsn q hq
    obtain ⟨hc, hg⟩ := hmem j hj
    obtain ⟨hB, hmag⟩ := hS (bcon j) hc hg (by simpa using hsn)
    have hq' : q < bs.n ^ (m.nd - 1) := by rw [hn]; exact hq
    have hmq := hmag q hq'
    have hrho := (hs (bcon j) hc hg (by simpa using hsn) q hq').2.2
    have e1 : (faceOf (bcon j) ws wf).nrml (b.n ^ (m.nd - 1)) q = nrmlAt bs.n m.nd (bcon j) q := by
      funext i; simp only [Face.nrml, faceOf, nrmlAt, hn]
    have e2 : stateAt (b.n ^ (m.nd - 1)) (faceOf (bcon j) ws wf) q = insideAt bs.n m.nd false (bcon j) ws q := by
      funext i; simp only [stateAt, faceOf, insideAt, hn]
    have e3 : (faceOf (bcon j) ws wf).mag m.nd (b.n ^ (m.nd - 1)) q = √(dotN m.nd (nrmlAt bs.n m.nd (bcon j) q) (nrmlAt bs.n m.nd (bcon j) q)) := by
      rw [Face.mag, e1, Pde.norm, sumN_eq]; rfl
    have hdne : dotN m.nd ((faceOf (bcon j) ws wf).nrml (b.n ^ (m.nd - 1)) q) ((faceOf (bcon j) ws wf).nrml (b.n ^ (m.nd - 1)) q) ≠ 0 := by
      rw [e1]
      intro h0
      rw [h0, Real.sqrt_zero] at hmq
      norm_num at hmq
    obtain ⟨x, x1, x2, x3, x4⟩ := forceIntegrand_eq hm.dim (b.n ^ (m.nd - 1)) true space hhr (faceOf (bcon j) ws wf) q hdne (by
      have : (faceOf (bcon j) ws wf).state (m.nd * b.n ^ (m.nd - 1) + q) = insideAt bs.n m.nd false (bcon j) ws q m.nd := by simp only [faceOf, insideAt, hn]
      rw [this]; exact hrho)
    refine ⟨x, x1, fun i hi => ?_, fun i hi hi3 => by rw [x4 i hi3, if_neg (by omega)]⟩
    have hpos : 0 < √(dotN m.nd (nrmlAt bs.n m.nd (bcon j) q) (nrmlAt bs.n m.nd (bcon j) q)) := lt_trans (by norm_num) hmq
    rw [x4 i (by have := hm.dim; omega), if_pos hi, e1, e2, e3, if_pos ⟨hmq, rfl⟩, nrmlSign_cases]
    have e4 : (faceOf (bcon j) ws wf).flux (i * b.n ^ (m.nd - 1) + q) = insideAt bs.n m.nd true (bcon j) wf q i := by simp only [faceOf, insideAt, hn]
    have e5 : (faceOf (bcon j) ws wf).sign = (bcon j).dir.s0 := rfl
    rw [e4, e5]
    field_simp
  obtain ⟨t, t1, t2, t3⟩ := integrate_eq hb u hm.dim.1 8 ids (boundCon m bcon sn) (fun j q => forceIntegrand m.nd (b.n ^ (m.nd - 1)) true space (faceOf (bcon j) ws wf) q) surface_sn
    (fun j q x hx => forceIntegrand_size _ _ _ _ _ _ _ hx) g (fun j hj hsn q hq => by
      obtain ⟨x, x1, _⟩ := hval j hj hsn q hq
      exact ⟨x, x1, fun v _ => by simp only [g, x1, Option.getD_some]⟩)
  refine ⟨t, t1, fun i hi => ?_, fun i hi hi3 => ?_⟩
  · have hi3 : i < 3 := by have := hm.dim; omega
    rw [t3 (5 + i) (by omega), throughFlux, throughFluxDiff, ← List.sum_map_add]
    refine surface_sum hids sn surface_sn _ _ fun j hj hsn => ?_
    obtain ⟨hc, hg⟩ := hmem j hj
    have hSc : decide (sn (bcon j) = surface_sn) = true := by simpa using hsn
    obtain ⟨hB, hmag⟩ := hS (bcon j) hc hg hSc
    rw [← mul_add, ← Finset.sum_add_distrib, hn]
    simp only [boundCon]
    congr 1
    refine Finset.sum_congr rfl fun k hk => ?_
    have hk := Finset.mem_range.1 hk
    have hk' : k < bs.n ^ (m.nd - 1) := by rw [hn]; exact hk
    obtain ⟨x, x1, x2, _⟩ := hval j hj hsn k hk
    obtain ⟨s1, s2, s3⟩ := hs (bcon j) hc hg hSc k hk'
    have k1 := conFlux_met hm hc hg hB false mu kappa ws hk' s1 s2 hi
    have k2 := conFluxDiff_met hm hc hg hB true mu kappa wf (v := i) (by omega) hk' (hf i hi (bcon j) hc hg hSc k hk')
    rw [hn] at k1 k2 x2
    rw [hof.2, k1, k2, ← mul_add]
    congr 1
    simp only [g, x1, Option.getD_some]
    rw [sqrt_normal, x2 i hi]
  · rw [t3 (5 + i) (by omega)]
    refine List.sum_eq_zero fun x hx => ?_
    obtain ⟨j, hj, rfl⟩ := List.mem_map.1 hx
    obtain ⟨hj, hsn⟩ := List.mem_filter.1 hj
    have hsn : sn (bcon j) = surface_sn := of_decide_eq_true hsn
    refine mul_eq_zero_of_right _ (Finset.sum_eq_zero fun k hk => mul_eq_zero_of_right _ ?_)
    obtain ⟨x, x1, _, x2⟩ := hval j hj hsn k (Finset.mem_range.1 hk)
    simp only [g, x1, Option.getD_some, x2 i hi hi3, zero_mul]

end
end Hexed.Force
