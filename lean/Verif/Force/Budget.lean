import Verif.Force.Props
set_option autoImplicit false
set_option linter.unusedVariables false

/-!
# Reported force and heating in the balance of a time step; walls (C79)
-/

namespace Hexed.Force
open Hexed.Pde Hexed.Spatial Hexed.Solver Hexed.Tensor
noncomputable section

variable {bs : BasisData} {m : Mesh} {b : Basis.Nodes ℝ}

/-- C79: the heating rate that `compute_heating` reports in a viscous flow is the energy that diffuses out of the domain through the surface,
when the thermal boundary condition is met. -/
theorem heating_is_energy_flux (hb : 0 < b.n) (hof : bs.n = b.n ∧ bs.weight = b.weight) (hm : m.Ok bs) (u : Nat → ℝ) {ids : List Nat} {bcon : Nat → ConRec}
    (hids : ids.map bcon = m.cons.filter fun c => (c.side true).isGhost) (sn : ConRec → Nat) (surface_sn : Nat) (space : Vars) (flux_rule : Rule)
    (hS : SurfaceOk bs m fun c => decide (sn c = surface_sn)) (ws wf : World) (hf : FluxMet bs m flux_rule (fun c => decide (sn c = surface_sn)) wf (m.nd + 1)) (mu kappa : Transport) :
    ∃ t, reportHeating b u m ids bcon sn surface_sn true space ws wf = some t ∧
      t.val 0 = throughFluxDiff (ns m.nd true mu kappa) bs m (runBc m.nd bs.n (m.nd + 2) true flux_rule m.cons wf).buf (fun c => decide (sn c = surface_sn)) (m.nd + 1) := by
  have hmem : ∀ j ∈ ids, bcon j ∈ m.cons ∧ ((bcon j).side true).isGhost = true := fun j hj => by
    have := List.mem_map_of_mem (f := bcon) hj
    rw [hids] at this
    exact ⟨(List.mem_filter.1 this).1, (List.mem_filter.1 this).2⟩
  have hn := hof.1
  let g : Nat → Nat → Nat → ℝ := fun j q v => ((heatIntegrand m.nd (b.n ^ (m.nd - 1)) true space (faceOf (bcon j) ws wf) q).getD ⟨1, fun _ => 0⟩).val v
  have hval : ∀ j ∈ ids, sn (bcon j) = surface_sn → ∀ q < b.n ^ (m.nd - 1), ∃ x, heatIntegrand m.nd (b.n ^ (m.nd - 1)) true space (faceOf (bcon j) ws wf) q = some x ∧
      x.val 0 * √(dotN m.nd (nrmlAt bs.n m.nd (bcon j) q) (nrmlAt bs.n m.nd (bcon j) q)) = (if (bcon j).dir.s0 then (1 : ℝ) else -1) * insideAt bs.n m.nd true (bcon j) wf q (m.nd + 1) := by
    intro j hj hsn q hq
    obtain ⟨hc, hg⟩ := hmem j hj
    obtain ⟨hB, hmag⟩ := hS (bcon j) hc hg (by simpa using hsn)
    have hq' : q < bs.n ^ (m.nd - 1) := by rw [hn]; exact hq
    have hmq := hmag q hq'
    have e1 : (faceOf (bcon j) ws wf).nrml (b.n ^ (m.nd - 1)) q = nrmlAt bs.n m.nd (bcon j) q := by
      funext i; simp only [Face.nrml, faceOf, nrmlAt, hn]
    have e3 : (faceOf (bcon j) ws wf).mag m.nd (b.n ^ (m.nd - 1)) q = √(dotN m.nd (nrmlAt bs.n m.nd (bcon j) q) (nrmlAt bs.n m.nd (bcon j) q)) := by
      rw [Face.mag, e1, Pde.norm, sumN_eq]; rfl
    have hdne : dotN m.nd ((faceOf (bcon j) ws wf).nrml (b.n ^ (m.nd - 1)) q) ((faceOf (bcon j) ws wf).nrml (b.n ^ (m.nd - 1)) q) ≠ 0 := by
      rw [e1]
      intro h0
      rw [h0, Real.sqrt_zero] at hmq
      norm_num at hmq
    obtain ⟨x, x1, x2, x3⟩ := heatIntegrand_eq hm.dim (b.n ^ (m.nd - 1)) true space (faceOf (bcon j) ws wf) q hdne
    refine ⟨x, x1, ?_⟩
    have hpos : 0 < √(dotN m.nd (nrmlAt bs.n m.nd (bcon j) q) (nrmlAt bs.n m.nd (bcon j) q)) := lt_trans (by norm_num) hmq
    have e4 : (faceOf (bcon j) ws wf).flux ((m.nd + 1) * b.n ^ (m.nd - 1) + q) = insideAt bs.n m.nd true (bcon j) wf q (m.nd + 1) := by simp only [faceOf, insideAt, hn]
    have e5 : (faceOf (bcon j) ws wf).sign = (bcon j).dir.s0 := rfl
    rw [x3, e3, if_pos ⟨hmq, rfl⟩, nrmlSign_cases, e4, e5]
    field_simp
  obtain ⟨t, t1, t2, t3⟩ := integrate_eq hb u hm.dim.1 1 ids (boundCon m bcon sn) (fun j q => heatIntegrand m.nd (b.n ^ (m.nd - 1)) true space (faceOf (bcon j) ws wf) q) surface_sn
    (fun j q x hx => heatIntegrand_size _ _ _ _ _ _ _ hx) g (fun j hj hsn q hq => by
      obtain ⟨x, x1, _⟩ := hval j hj hsn q hq
      exact ⟨x, x1, fun v _ => by simp only [g, x1, Option.getD_some]⟩)
  refine ⟨t, t1, ?_⟩
  rw [t3 0 (by omega), throughFluxDiff]
  refine surface_sum hids sn surface_sn _ _ fun j hj hsn => ?_
  obtain ⟨hc, hg⟩ := hmem j hj
  have hSc : decide (sn (bcon j) = surface_sn) = true := by simpa using hsn
  obtain ⟨hB, hmag⟩ := hS (bcon j) hc hg hSc
  rw [hn]
  simp only [boundCon]
  congr 1
  refine Finset.sum_congr rfl fun k hk => ?_
  have hk := Finset.mem_range.1 hk
  have hk' : k < bs.n ^ (m.nd - 1) := by rw [hn]; exact hk
  obtain ⟨x, x1, x2⟩ := hval j hj hsn k hk
  have k2 := conFluxDiff_met hm hc hg hB true mu kappa wf (v := m.nd + 1) (by omega) hk' (hf (bcon j) hc hg hSc k hk')
  rw [hn] at k2 x2
  rw [hof.2, k2]
  congr 1
  simp only [g, x1, Option.getD_some]
  rw [sqrt_normal, x2]

theorem list_split (l : List ConRec) (S : ConRec → Bool) (g : ConRec → ℝ) : (l.map g).sum = ((l.filter S).map g).sum + ((l.filter fun c => !S c).map g).sum := by
  induction l with
  | nil => simp
  | cons c t ih =>
    by_cases h : S c = true
    · simp [h, ih]; ring
    · simp [h, ih]; ring

theorem boundary_split (p : Pde) (bs : BasisData) (m : Mesh) (buf : Buf → Bool → Mem) (S : ConRec → Bool) (v : Nat) :
    m.boundaryFlux p bs buf v = throughFlux p bs m buf S v + throughFlux p bs m buf (fun c => !S c) v ∧
    m.boundaryFluxDiff p bs buf v = throughFluxDiff p bs m buf S v + throughFluxDiff p bs m buf (fun c => !S c) v :=
  ⟨list_split _ S _, list_split _ S _⟩

/-- The first stage of a viscous time step, Solver.cpp:856-861. -/
def firstStage (mu kappa : Transport) (bs : BasisData) (m : Mesh) (sr dt : ℝ) (filter : Bool) (state_bc flux_bc : World → World) (w : World) : Option World :=
  computeDiffusion (ns m.nd true mu kappa) bs m flux_bc sr dt false false filter (state_bc w)

/-- C79: in every viscous time step, the momentum of the gas changes by minus the time step times the force that `compute_force` reports for
the surface (weighted between the two stages), and by what flows through the other boundaries. -/
theorem momentum_budget {deg : Nat} (hgb : GoodBasis b deg) (hof : bs.IsOf b) (hm : m.Ok bs) (ht : ∀ e ∈ m.elems, ∀ q < bs.n ^ m.nd, (m.elem e).tss q ≠ 0)
    (u : Nat → ℝ) {ids : List Nat} {bcon : Nat → ConRec} (hids : ids.map bcon = m.cons.filter fun c => (c.side true).isGhost) (sn : ConRec → Nat) (surface_sn : Nat)
    (space : Vars) (hhr : space "heat_rat" = some (7 / 5)) (state_rule flux_rule : Rule) (hS : SurfaceOk bs m fun c => decide (sn c = surface_sn)) (mu kappa : Transport) (sr dt : ℝ) (filter : Bool)
    {w w1 w' : World}
    (h1 : firstStage mu kappa bs m sr dt filter (runBc m.nd bs.n (m.nd + 2) false state_rule m.cons) (runBc m.nd bs.n (m.nd + 2) true flux_rule m.cons) w = some w1)
    (hw : flowStep true mu kappa bs m sr dt filter (runBc m.nd bs.n (m.nd + 2) false state_rule m.cons) (runBc m.nd bs.n (m.nd + 2) true flux_rule m.cons) w = some w')
    (hs : StateMet bs m state_rule (fun c => decide (sn c = surface_sn)) w) (hs1 : StateMet bs m state_rule (fun c => decide (sn c = surface_sn)) w1)
    (hf : ∀ i < m.nd, FluxMet bs m flux_rule (fun c => decide (sn c = surface_sn))
      (ldgWorld (ns m.nd true mu kappa) bs m id ⟨dt, false, false, filter⟩ (runBc m.nd bs.n (m.nd + 2) false state_rule m.cons w)) i) :
    let state_bc := runBc m.nd bs.n (m.nd + 2) false state_rule m.cons
    let cached := ldgWorld (ns m.nd true mu kappa) bs m id ⟨dt, false, false, filter⟩ (state_bc w)
    let others : Nat → ℝ := fun i => (1 - sr) * throughFlux (ns m.nd false mu kappa) bs m (state_bc w).buf (fun c => !decide (sn c = surface_sn)) i +
      sr * throughFlux (ns m.nd false mu kappa) bs m (state_bc w1).buf (fun c => !decide (sn c = surface_sn)) i +
      throughFluxDiff (ns m.nd true mu kappa) bs m (runBc m.nd bs.n (m.nd + 2) true flux_rule m.cons cached).buf (fun c => !decide (sn c = surface_sn)) i
    ∃ t0 t1, reportForce b u m ids bcon sn surface_sn true space w cached = some t0 ∧ reportForce b u m ids bcon sn surface_sn true space w1 cached = some t1 ∧
      ∀ i < m.nd, m.change bs w.state w'.state i = -dt * ((1 - sr) * t0.val (5 + i) + sr * t1.val (5 + i)) - dt * others i := by
  intro state_bc cached others
  obtain ⟨t0, a1, a2, _⟩ := force_is_momentum_flux hgb.pos ⟨hof.n, hof.weight⟩ hm u hids sn surface_sn space hhr state_rule flux_rule hS w cached hs hf mu kappa
  obtain ⟨t1, b1, b2, _⟩ := force_is_momentum_flux hgb.pos ⟨hof.n, hof.weight⟩ hm u hids sn surface_sn space hhr state_rule flux_rule hS w1 cached hs1 hf mu kappa
  refine ⟨t0, t1, a1, b1, fun i hi => ?_⟩
  have h2 : computeConvection (ns m.nd false mu kappa) bs m sr dt true false filter (state_bc w1) = some w' := by
    rw [flowStep] at hw
    simp only [if_true] at hw
    rw [firstStage] at h1
    rw [h1, Option.bind_some] at hw
    exact hw
  have key := flow_stages_balance hgb hof hm ht true mu kappa sr dt filter (runBc_ghostOnly _ _ _ false state_rule m.cons) (runBc_ghostOnly _ _ _ true flux_rule m.cons) h1 h2 i (by omega)
  rw [if_pos rfl] at key
  have hl : ldgWorld (ns m.nd true mu kappa) bs m (runBc m.nd bs.n (m.nd + 2) true flux_rule m.cons) ⟨dt, false, false, filter⟩ (state_bc w) =
    runBc m.nd bs.n (m.nd + 2) true flux_rule m.cons cached := rfl
  rw [key, hl, (boundary_split _ bs m _ (fun c => decide (sn c = surface_sn)) i).1, (boundary_split _ bs m (state_bc w1).buf (fun c => decide (sn c = surface_sn)) i).1,
    (boundary_split _ bs m _ (fun c => decide (sn c = surface_sn)) i).2, a2 i hi, b2 i hi]
  simp only [others, state_bc]
  ring

/-! ## When the boundary conditions are met -/

/-- C79: a nonpenetration wall has the state inside as ghost state if and only if no momentum points through it. -/
theorem nonpenetration_met (nd : Nat) (n u : Nat → ℝ) (hn : dotN nd n n ≠ 0) : (∀ a < nd + 2, nonpenState nd n u a = u a) ↔ dotN nd u n = 0 := by
  constructor
  · intro h
    have h1 := (reflect_exact nd n u hn).1
    have h2 : dotN nd (nonpenState nd n u) n = dotN nd u n := dot_congr (fun i hi => h i (by omega)) fun _ _ => rfl
    rw [nonpenState, h1] at h2
    linarith
  · intro h a ha
    by_cases hi : a < nd
    · rw [nonpenState, reflect_mom nd n u a hi, h]; ring
    · rw [nonpenState, reflect_other nd n u a hi]

/-- C79: a no-slip wall that keeps the energy has the state inside as ghost state if and only if the gas rests at the wall. -/
theorem no_slip_met (nd : Nat) (u : Nat → ℝ) : (∀ a < nd + 2, noSlipState nd (keepEnergy nd) u a = u a) ↔ ∀ i < nd, u i = 0 := by
  constructor
  · intro h i hi
    have := h i (by omega)
    rw [noSlipState, if_pos hi] at this
    linarith
  · intro h a ha
    rw [noSlipState]
    split
    · rename_i hi; rw [h a hi]; ring
    · split
      · rfl
      · have : a = nd + 1 := by omega
        rw [this, keepEnergy]
        rcases eq_or_ne (u (nd + 1)) 0 with h0 | h0
        · rw [h0]; norm_num
        · field_simp

/-- C79: a no-slip wall always leaves the momentum flux as it is inside, and the energy flux if and only if the heat flux reported at that
point is the one prescribed (for any coercion but zero). -/
theorem no_slip_flux_met {nd : Nat} (hnd : 1 ≤ nd ∧ nd ≤ 3) (nfq : Nat) (space : Vars) (f : Face) (q : Nat) (hmag : 1 / 1000 < f.mag nd nfq q) (coercion heat : ℝ) (hco : coercion ≠ 0) :
    let flux := fun v => f.flux (v * nfq + q)
    let ghost := noSlipFlux nd coercion (prescribedHeatFlux heat) (fun _ => 0) (f.nrml nfq q) (if f.sign then 1 else -1) flux
    (∀ i < nd, ghost i = flux i) ∧ ∃ s, hilSurface nd nfq true f q space = some s ∧ (ghost (nd + 1) = flux (nd + 1) ↔ s "heat_flux" = some heat) := by
  intro flux ghost
  have hmp : 0 < f.mag nd nfq q := lt_trans (by norm_num) hmag
  obtain ⟨s, h1, h2, h3, h4, h5, h6, h7⟩ := hilSurface_eq hnd nfq true f q space hmp.ne'
  refine ⟨fun i hi => ?_, s, h1, ?_⟩
  · simp only [ghost, noSlipFlux, if_pos hi]
  · have n1 : ¬ nd + 1 < nd := by omega
    have n2 : ¬ nd + 1 = nd := by omega
    rw [h6, if_pos ⟨hmag, rfl⟩, nrmlSign_cases]
    have hm : Pde.norm nd (f.nrml nfq q) = f.mag nd nfq q := rfl
    simp only [ghost, noSlipFlux, if_neg n1, if_neg n2, prescribedHeatFlux, hm, flux]
    set sg : ℝ := if f.sign then (1 : ℝ) else -1 with hsg
    have hs2 : sg * sg = 1 := by rw [hsg]; split <;> norm_num
    have hs0 : sg ≠ 0 := fun h => by rw [h] at hs2; norm_num at hs2
    generalize f.flux ((nd + 1) * nfq + q) = x
    rw [Option.some.injEq]
    constructor
    · intro h
      have h' : coercion * (f.mag nd nfq q * sg * heat - x) = 0 := by linarith
      have h'' := (mul_eq_zero.1 h').resolve_left hco
      rw [div_eq_iff hmp.ne']
      have : x = f.mag nd nfq q * sg * heat := by linarith
      rw [this]
      linear_combination f.mag nd nfq q * heat * hs2
    · intro h
      rw [div_eq_iff hmp.ne'] at h
      have : x = f.mag nd nfq q * sg * heat := by
        have h2 : x * (sg * sg) = heat * f.mag nd nfq q * sg := by linear_combination sg * h
        rw [hs2] at h2
        linear_combination h2
      rw [this]; ring

/-- C79: a nonpenetration wall leaves the momentum flux as it is inside exactly if that is along the normal (no friction). -/
theorem nonpenetration_flux_met (nd : Nat) (n f : Nat → ℝ) (hn : dotN nd n n ≠ 0) : (∀ i < nd, nonpenFlux nd n f i = f i) ↔ ∀ i < nd, f i = dotN nd f n / dotN nd n n * n i := by
  have key : ∀ i < nd, nonpenFlux nd n f i = -f i + 2 * dotN nd f n / dotN nd n n * n i := fun i hi => by
    rw [nonpenFlux, reflect_mom nd n _ i hi, dot_neg_left]; ring
  constructor
  · intro h i hi
    have h1 := key i hi
    rw [h i hi] at h1
    linear_combination h1 / 2
  · intro h i hi
    rw [key i hi]
    linear_combination (-2) * h i hi

end
end Hexed.Force
