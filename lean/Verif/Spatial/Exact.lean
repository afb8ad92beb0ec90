import Verif.Spatial.ExactDiff
set_option autoImplicit false
set_option linter.unusedVariables false

/-!
# Exactness of the discretization (C53)

On meshes of cubes, with hanging faces and any boundary procedure that supplies exact ghost data, a stage applied to samples of fields whose
variables and fluxes are polynomials of degree at most `row_size - 1` in each coordinate computes the time derivative of the differential
equation exactly, the face data left for the next stage are exact again, and exactly steady states never change.
-/

namespace Hexed.Spatial

variable {bs : BasisData} {b : Basis.Nodes ℝ} {deg : Nat} {m : Mesh} {o : Nat → Nat → ℝ} {p : Pde} {u : Nat → Field}

/-- The first stage of a convective step with local time step `dt * tss` hands exactly `dt * tss` times the right-hand side of the differential
equation to the state update. -/
theorem convection_exact (hof : bs.IsOf b) (hb : b.Exact deg) (hn : 0 < b.n) (hm : m.Ok bs) (hc : m.Cubes b o)
    (hconv : p.hasConv = true) (hdiff : p.hasDiff = false) (hu : p.nUpdate ≤ p.nExtrap) (hl : p.FaceLocal) (hcons : p.FaceConsistent m.nd u)
    {d : Nat} (h1d : 0 < d) (hdn : d ≤ b.n) (hd : d + b.n ≤ deg + 2) (hG : ∀ i < m.nd, ∀ v < p.nUpdate, PolyIn m.nd d (p.fluxField u i v))
    (sr dt : ℝ) (w w' : World) (hs : m.Samples b o w.state u) (hf : m.FaceSamples b o p.nExtrap (fun B => w.buf B false) (p.extrapField u))
    (hrun : computeConvection p bs m sr dt false false false w = some w') :
    ∀ e ∈ m.elems, ∀ q < b.n ^ m.nd, ∃ upd : Nat → ℝ, (∀ v < p.nUpdate, upd v = dt * (m.elem e).tss q * p.rhs m.nd u v (elemPos b m.nd (o e) (m.elem e).size q)) ∧
      ∀ i, w'.state e (i, q) = p.writeUpdate upd true (fun w => u w (elemPos b m.nd (o e) (m.elem e).size q)) i := by
  intro e he q hq
  simp only [computeConvection, Bool.and_false, Bool.false_and, Bool.or_self, Bool.false_eq_true, if_false, Option.some.injEq] at hrun
  obtain ⟨n1, n2, n3, n4⟩ := cons_fold (fun c st => neighbor p m.nd bs.n c.deformed c.dir c.normal st) m.cons w hm.sides_nodup
  have hflux := flux_samples hof hb hn hm hc hconv hu hl hcons h1d hd hG w hf
  set w2 := runRestrict p bs m true false (runNeighbor p bs m w) with hw2
  obtain ⟨l1, _, _⟩ := elems_fold m.nd (fun e => localKernel p bs m.nd ⟨dt, false, false, false⟩ (m.elem e)) m.elems w2 hm.elems_nodup
  have hst : w'.state e = (localKernel p bs m.nd ⟨dt, false, false, false⟩ (m.elem e) (w2.state e) (w2.cache e) (fun f => w2.buf (.elem e f) false) fun f => w2.buf (.elem e f) true).state := by
    rw [← hrun]
    exact (l1 e he).1
  have hw2s : w2.state = w.state := n3
  rw [hst, hw2s]
  exact local_conv hof hb.distinct hn hdn hconv hdiff u hG (o e) (hc.geom e he) (hm.size e he).ne' dt _ _ (fun q hq v => hs e he q hq v) _ _
    (holds_of_bufPos fun f hf v hv k hk => hflux e he f hf v hv k hk) hq

/-- For a diffusive step the state update likewise gets `dt * tss` times the right-hand side, and the correction made after the fluxes of neighbouring elements have
been compared is zero. -/
theorem diffusion_exact (hof : bs.IsOf b) (hb : b.Exact deg) (hn : 0 < b.n) (hm : m.Ok bs) (hc : m.Cubes b o) (hdiff : p.hasDiff = true)
    (hu : p.nUpdate ≤ p.nExtrap) (hx : p.nExtrap ≤ 2 * p.nUpdate) (hl : p.FaceLocal) (hdl : p.DiffLocal m.nd) (hcons : p.hasConv = true → p.FaceConsistent m.nd u)
    {d : Nat} (h1d : 0 < d) (hdn : d ≤ b.n) (hd : d + b.n ≤ deg + 2) (hG : p.hasConv = true → ∀ i < m.nd, ∀ v < p.nUpdate, PolyIn m.nd d (p.fluxField u i v))
    (hE : ∀ v < p.nExtrap, PolyIn m.nd d (p.extrapField u v)) (hD : ∀ i < m.nd, ∀ v < p.nUpdate, PolyIn m.nd b.n (p.diffField u i v))
    (fluxBc : World → World) (hfb : GhostOnly fluxBc)
    (hfs : ∀ w, m.InnerAxisSamples b o p.nUpdate (fun B => w.buf B true) (p.diffField u) → m.AxisSamples b o p.nUpdate (fun B => (fluxBc w).buf B true) (p.diffField u))
    (sr dt : ℝ) (w w' : World) (hs : m.Samples b o w.state u) (hf : m.FaceSamples b o p.nExtrap (fun B => w.buf B false) (p.extrapField u))
    (hrun : computeDiffusion p bs m fluxBc sr dt false false false w = some w') :
    ∀ e ∈ m.elems, ∀ q < b.n ^ m.nd, ∃ upd zero : Nat → ℝ, (∀ v < p.nUpdate, upd v = dt * (m.elem e).tss q * p.rhs m.nd u v (elemPos b m.nd (o e) (m.elem e).size q)) ∧ (∀ v < p.nUpdate, zero v = 0) ∧
      ∀ i, w'.state e (i, q) = p.writeUpdate zero true (p.writeUpdate upd false fun w => u w (elemPos b m.nd (o e) (m.elem e).size q)) i := by
  intro e he q hq
  have hmono : ∀ v < p.nExtrap, PolyIn m.nd b.n (p.extrapField u v) := by
    intro v hv i hi x
    obtain ⟨P, h1, h2⟩ := hE v hv i hi x
    exact ⟨P, lt_of_lt_of_le h1 (by exact_mod_cast hdn), h2⟩
  obtain ⟨faces, visc, hF, hV, hca, hst⟩ := (diff_stage hof hb hn hm hc hdiff hu hx hl hdl hcons h1d hdn hd hG hE hD fluxBc hfb hfs sr dt false w w' hs hf hrun).1 e he
  obtain ⟨z, hz, hst⟩ := hst q hq
  obtain ⟨hr, -⟩ := diff_rates hof hb.distinct hn hdn hdiff hdl hx u hmono hG hD (o e) (hc.geom e he) (hm.size e he).ne' (w.state e) (fun q hq v => hs e he q hq v) faces visc hF hV
  have hsrc : (fun v => w.state e (v, q)) = fun v => u v (elemPos b m.nd (o e) (m.elem e).size q) := funext fun v => hs e he q hq v
  refine ⟨fun v => ((localRate p bs m.nd ⟨dt, false, false, false⟩ (m.elem e) (w.state e) faces visc).1 (v, q) + (localRate p bs m.nd ⟨dt, false, false, false⟩ (m.elem e) (w.state e) faces visc).1 (p.blockSize + v, q)) *
    updateMult dt (m.elem e) q, z, fun v hv => ?_, hz, fun i => ?_⟩
  · obtain ⟨r1, r2⟩ := hr v hv q hq
    beta_reduce
    simp only [localRate, Bool.false_eq_true, if_false]
    rw [r1, r2, updateMult, hc.geom e he, Pde.rhs, if_pos hdiff]
    have := (hm.size e he).ne'
    field_simp
    ring
  · rw [hst i]
    simp only [localKernel, hdiff, Bool.false_eq_true, if_false, Bool.true_or, if_true, Bool.not_true, Bool.false_and, hsrc]

/-- Whatever fields the elements hold samples of after a stage, if the extrapolated variables are polynomials of degree at most `row_size - 1` in each
coordinate, then the face data left for the next stage are exact samples of them, on conformal and on hanging faces. -/
theorem faces_exact (hof : bs.IsOf b) (hb : b.Distinct) (hn : 0 < b.n) (hm : m.Ok bs) (hc : m.Cubes b o) (hdiff : p.hasDiff = false)
    (u' : Nat → Field) (hE : ∀ v < p.nExtrap, PolyIn m.nd b.n (p.extrapField u' v)) (sr dt : ℝ) (stage residual filter : Bool) (w w' : World)
    (hrun : computeConvection p bs m sr dt stage residual filter w = some w') (hs : m.Samples b o w'.state u') :
    m.InnerSamples b o p.nExtrap (fun B => w'.buf B false) (p.extrapField u') := by
  rw [computeConvection] at hrun
  split at hrun
  · exact absurd hrun (by simp)
  simp only [Option.some.injEq] at hrun
  set w2 := runRestrict p bs m true false (runNeighbor p bs m w) with hw2
  set op : Opts := ⟨if stage then dt * sr else dt, stage, residual, filter⟩ with hop
  set w3 := runLocal p bs m op w2 with hw3
  obtain ⟨l1, _, _⟩ := elems_fold m.nd (fun e => localKernel p bs m.nd op (m.elem e)) m.elems w2 hm.elems_nodup
  have hst : w'.state = w3.state := by rw [← hrun]; rfl
  have hface : ∀ e ∈ m.elems, HoldsFaces b m.nd p.nExtrap (o e) (m.elem e).size (fun f => w3.buf (.elem e f) false) fun _ => p.extrapField u' := by
    intro e he d hd s hs' v hv k hk
    obtain ⟨h1, -, h2⟩ := l1 e he
    have hfc : w3.buf (.elem e (2 * d + s)) false = writeFace p bs m.nd (w3.state e) (fun f => w2.buf (.elem e f) false) (2 * d + s) := by
      have h3 := (h2 (2 * d + s) (by omega)).1
      have h4 : w3.state e = _ := h1
      rw [h4]
      refine Eq.trans h3 ?_
      simp only [localKernel, hdiff, Bool.false_eq_true, if_false]
    show w3.buf (.elem e (2 * d + s)) false _ = _
    rw [hfc]
    exact writeFace_samples hof hb hn p u' hE (o e) (m.elem e).size (w3.state e) (fun q hq v => by rw [← hst]; exact hs e he q hq v) _ d hd s hs' v hv k hk
  intro c hcm s hg v hv k hk
  have h5 := prolong_samples hof hb hn hm hc p le_rfl (fun _ => p.extrapField u') (fun _ _ => hE) false false w3 hface c hcm s hg v hv k hk
  show w'.buf (c.side s) false _ = _
  rw [← hrun, h5]
  cases s with
  | false => rfl
  | true => rw [hc.meet c hcm hg k hk]

/-- One stage leaves an exactly steady state unchanged. -/
theorem steady_stage (hof : bs.IsOf b) (hb : b.Exact deg) (hn : 0 < b.n) (hm : m.Ok bs) (hc : m.Cubes b o)
    (hconv : p.hasConv = true) (hdiff : p.hasDiff = false) (hsrc : p.hasSource = false) (hu : p.nUpdate ≤ p.nExtrap) (hl : p.FaceLocal) (hcons : p.FaceConsistent m.nd u)
    (hzero : ∀ f flag s, (∀ v < p.nUpdate, f v = 0) → p.writeUpdate f flag s = s)
    {d : Nat} (h1d : 0 < d) (hdn : d ≤ b.n) (hd : d + b.n ≤ deg + 2) (hG : ∀ i < m.nd, ∀ v < p.nUpdate, PolyIn m.nd d (p.fluxField u i v)) (hE : ∀ v < p.nExtrap, PolyIn m.nd b.n (p.extrapField u v))
    (hsteady : ∀ v < p.nUpdate, ∀ x, p.convRate m.nd u v x = 0)
    (sr dt : ℝ) (stage filter : Bool) (w w' : World) (hs : m.Samples b o w.state u) (hf : m.FaceSamples b o p.nExtrap (fun B => w.buf B false) (p.extrapField u))
    (hcache : stage = true → ∀ e ∈ m.elems, ∀ v < p.nUpdate, ∀ q < b.n ^ m.nd, w.cache e (v, q) = 0)
    (hrun : computeConvection p bs m sr dt stage false filter w = some w') :
    m.Samples b o w'.state u ∧ m.InnerSamples b o p.nExtrap (fun B => w'.buf B false) (p.extrapField u) ∧
      (stage = false → ∀ e ∈ m.elems, ∀ v < p.nUpdate, ∀ q < b.n ^ m.nd, w'.cache e (v, q) = 0) := by
  have hrun' := hrun
  simp only [computeConvection, hdiff, Bool.and_false, Bool.false_and, Bool.or_self, Bool.false_eq_true, if_false, Option.some.injEq] at hrun
  obtain ⟨n1, n2, n3, n4⟩ := cons_fold (fun c st => neighbor p m.nd bs.n c.deformed c.dir c.normal st) m.cons w hm.sides_nodup
  have hflux := flux_samples hof hb hn hm hc hconv hu hl hcons h1d hd hG w hf
  set w2 := runRestrict p bs m true false (runNeighbor p bs m w) with hw2
  set op : Opts := ⟨if stage then dt * sr else dt, stage, false, filter⟩ with hop
  obtain ⟨l1, _, _⟩ := elems_fold m.nd (fun e => localKernel p bs m.nd op (m.elem e)) m.elems w2 hm.elems_nodup
  have hw2s : w2.state = w.state := n3
  have hw2c : w2.cache = w.cache := n4
  have hrate : ∀ e ∈ m.elems, ∀ v < p.nUpdate, ∀ q < b.n ^ m.nd, (localRate p bs m.nd op (m.elem e) (w2.state e) (fun f => w2.buf (.elem e f) false) fun f => w2.buf (.elem e f) true).1 (v, q) = 0 := by
    intro e he v hv q hq
    exact steady_rate hof hb.distinct hn hdn hconv hdiff hsrc u hG hsteady (o e) (hc.geom e he) op _ (fun q hq v => by rw [hw2s]; exact hs e he q hq v) _ _
      (holds_of_bufPos fun f hf v hv k hk => hflux e he f hf v hv k hk) hv hq
  have hst : ∀ e ∈ m.elems, ∀ q < b.n ^ m.nd, ∀ v, w'.state e (v, q) = w.state e (v, q) := by
    intro e he q hq v
    have h1 : w'.state e = (localKernel p bs m.nd op (m.elem e) (w2.state e) (w2.cache e) (fun f => w2.buf (.elem e f) false) fun f => w2.buf (.elem e f) true).state := by
      rw [← hrun]
      exact (l1 e he).1
    rw [h1]
    simp only [localKernel]
    rw [hzero _ _ _ ?_, hw2s]
    intro v hv
    have h0 := hrate e he v hv q hq
    cases hstg : stage with
    | false => simp [hop, hstg, hdiff, hsrc] at h0 ⊢; left; exact h0
    | true =>
      have hz := hcache hstg e he v hv q hq
      simp [hop, hstg, hw2c, hz] at h0 ⊢
      left; exact h0
  have hs' : m.Samples b o w'.state u := fun e he q hq v => by rw [hst e he q hq v]; exact hs e he q hq v
  refine ⟨hs', faces_exact hof hb.distinct hn hm hc hdiff u hE sr dt stage false filter w w' hrun' hs', ?_⟩
  intro hstg e he v hv q hq
  have h1 : w'.cache e = (localKernel p bs m.nd op (m.elem e) (w2.state e) (w2.cache e) (fun f => w2.buf (.elem e f) false) fun f => w2.buf (.elem e f) true).cache := by
    rw [← hrun]
    exact (l1 e he).2.1
  rw [h1]
  have h0 := hrate e he v hv q hq
  simp only [localKernel, hop, hstg, hconv, if_pos hv] at h0 ⊢
  simpa using h0

/-- One diffusive stage leaves a state unchanged that is steady both for the convective and for the diffusive part. -/
theorem steady_diffusion (hof : bs.IsOf b) (hb : b.Exact deg) (hn : 0 < b.n) (hm : m.Ok bs) (hc : m.Cubes b o) (hdiff : p.hasDiff = true) (hsrc : p.hasSource = false)
    (hu : p.nUpdate ≤ p.nExtrap) (hx : p.nExtrap ≤ 2 * p.nUpdate) (hl : p.FaceLocal) (hdl : p.DiffLocal m.nd) (hcons : p.hasConv = true → p.FaceConsistent m.nd u)
    (hzero : ∀ f flag s, (∀ v < p.nUpdate, f v = 0) → p.writeUpdate f flag s = s)
    {d : Nat} (h1d : 0 < d) (hdn : d ≤ b.n) (hd : d + b.n ≤ deg + 2) (hG : p.hasConv = true → ∀ i < m.nd, ∀ v < p.nUpdate, PolyIn m.nd d (p.fluxField u i v))
    (hE : ∀ v < p.nExtrap, PolyIn m.nd d (p.extrapField u v)) (hD : ∀ i < m.nd, ∀ v < p.nUpdate, PolyIn m.nd b.n (p.diffField u i v))
    (hsteady : p.hasConv = true → ∀ v < p.nUpdate, ∀ x, p.convRate m.nd u v x = 0) (hdsteady : ∀ v < p.nUpdate, ∀ x, p.diffRate m.nd u v x = 0)
    (fluxBc : World → World) (hfb : GhostOnly fluxBc)
    (hfs : ∀ w, m.InnerAxisSamples b o p.nUpdate (fun B => w.buf B true) (p.diffField u) → m.AxisSamples b o p.nUpdate (fun B => (fluxBc w).buf B true) (p.diffField u))
    (sr dt : ℝ) (filter : Bool) (w w' : World) (hs : m.Samples b o w.state u) (hf : m.FaceSamples b o p.nExtrap (fun B => w.buf B false) (p.extrapField u))
    (hrun : computeDiffusion p bs m fluxBc sr dt false false filter w = some w') :
    m.Samples b o w'.state u ∧ m.InnerSamples b o p.nExtrap (fun B => w'.buf B false) (p.extrapField u) ∧
      (p.hasConv = true → ∀ e ∈ m.elems, ∀ v < p.nUpdate, ∀ q < b.n ^ m.nd, w'.cache e (v, q) = 0) := by
  have hn' : 0 < bs.n := by rw [hof.n]; exact hn
  have hB : p.blockSize = p.nUpdate := by rw [Pde.blockSize]; omega
  have hmono : ∀ v < p.nExtrap, PolyIn m.nd b.n (p.extrapField u v) := by
    intro v hv i hi x
    obtain ⟨P, h1, h2⟩ := hE v hv i hi x
    exact ⟨P, lt_of_lt_of_le h1 (by exact_mod_cast hdn), h2⟩
  obtain ⟨hst, hfa⟩ := diff_stage hof hb hn hm hc hdiff hu hx hl hdl hcons h1d hdn hd hG hE hD fluxBc hfb hfs sr dt filter w w' hs hf hrun
  have hrate : ∀ e ∈ m.elems, ∀ faces visc : Nat → Mem, (p.hasConv = true → HoldsFaces b m.nd p.nUpdate (o e) (m.elem e).size faces (p.fluxField u)) →
      HoldsFaces b m.nd p.nExtrap (o e) (m.elem e).size visc (fun _ => p.extrapField u) → ∀ v < 2 * p.nUpdate, ∀ q < b.n ^ m.nd,
      (localRate p bs m.nd ⟨dt, false, false, filter⟩ (m.elem e) (w.state e) faces visc).1 (v, q) = 0 := by
    intro e he faces visc hF hV v hv q hq
    obtain ⟨hr, -⟩ := diff_rates hof hb.distinct hn hdn hdiff hdl hx u hmono hG hD (o e) (hc.geom e he) (hm.size e he).ne' (w.state e) (fun q hq v => hs e he q hq v) faces visc hF hV
    have raw : ∀ v < 2 * p.nUpdate, ∀ q < bs.n ^ m.nd, (overRows m.nd bs.n (residualRow p bs (convFlux p m.nd (m.elem e) (w.state e)) (diffFlux p bs m.nd (m.elem e) (w.state e) visc) faces)
        (initRate p (m.elem e) false (w.state e), visc)).1 (v, q) = 0 := by
      intro v hv q hq
      rw [hof.n] at hq
      by_cases h : v < p.nUpdate
      · rw [(hr v h q hq).1]
        by_cases hcv : p.hasConv = true
        · rw [if_pos hcv, hsteady hcv v h, mul_zero]
        · rw [if_neg hcv, mul_zero]
      · have h2 := (hr (v - p.nUpdate) (by omega) q hq).2
        rw [hB, show p.nUpdate + (v - p.nUpdate) = v by omega] at h2
        rw [h2, hdsteady _ (by omega), hsrc]; simp
    simp only [localRate]
    split
    · exact filter_zero bs hn' m.nd _ _ (2 * p.nUpdate) raw v hv q (by rw [hof.n]; exact hq)
    · exact raw v hv q (by rw [hof.n]; exact hq)
  have hs' : m.Samples b o w'.state u := by
    intro e he q hq v
    obtain ⟨faces, visc, hF, hV, -, h1⟩ := hst e he
    obtain ⟨z, hz, h1⟩ := h1 q hq
    rw [h1 v, hzero z true _ hz]
    simp only [localKernel]
    rw [hzero _ _ _ ?_]
    · exact hs e he q hq v
    · intro v hv
      simp [hdiff, hB, hrate e he faces visc hF hV v (by omega) q hq, hrate e he faces visc hF hV (p.nUpdate + v) (by omega) q hq]
  refine ⟨hs', hfa u hmono hs', fun hcv e he v hv q hq => ?_⟩
  obtain ⟨faces, visc, hF, hV, h1, -⟩ := hst e he
  rw [h1]
  simp [localKernel, hv, hcv, hrate e he faces visc hF hV v (by omega) q hq]

/-- Exactly steady states are preserved by any number of two-stage steps with any time steps (global or local), step ratios and filter settings, if the boundary
procedure keeps the state and supplies exact ghost data. -/
theorem steady_preserved (hof : bs.IsOf b) (hb : b.Exact deg) (hn : 0 < b.n) (hm : m.Ok bs) (hc : m.Cubes b o)
    (hconv : p.hasConv = true) (hdiff : p.hasDiff = false) (hsrc : p.hasSource = false) (hu : p.nUpdate ≤ p.nExtrap) (hl : p.FaceLocal) (hcons : p.FaceConsistent m.nd u)
    (hzero : ∀ f flag s, (∀ v < p.nUpdate, f v = 0) → p.writeUpdate f flag s = s)
    {d : Nat} (h1d : 0 < d) (hdn : d ≤ b.n) (hd : d + b.n ≤ deg + 2) (hG : ∀ i < m.nd, ∀ v < p.nUpdate, PolyIn m.nd d (p.fluxField u i v)) (hE : ∀ v < p.nExtrap, PolyIn m.nd b.n (p.extrapField u v))
    (hsteady : ∀ v < p.nUpdate, ∀ x, p.convRate m.nd u v x = 0)
    (bc : World → World) (hbc : ∀ w, (bc w).state = w.state ∧ (bc w).cache = w.cache ∧
      (m.InnerSamples b o p.nExtrap (fun B => w.buf B false) (p.extrapField u) → m.FaceSamples b o p.nExtrap (fun B => (bc w).buf B false) (p.extrapField u)))
    (steps : List (ℝ × ℝ × Bool)) (w w' : World) (hs : m.Samples b o w.state u) (hf : m.InnerSamples b o p.nExtrap (fun B => w.buf B false) (p.extrapField u))
    (hrun : steps.foldlM (fun w s => (computeConvection p bs m s.1 s.2.1 false false s.2.2 (bc w)).bind fun w1 => computeConvection p bs m s.1 s.2.1 true false s.2.2 (bc w1)) w = some w') :
    m.Samples b o w'.state u ∧ m.InnerSamples b o p.nExtrap (fun B => w'.buf B false) (p.extrapField u) := by
  induction steps generalizing w with
  | nil =>
    simp only [List.foldlM_nil] at hrun
    cases hrun
    exact ⟨hs, hf⟩
  | cons s l ih =>
    rw [List.foldlM_cons] at hrun
    obtain ⟨w2, hw2, hrest⟩ := Option.bind_eq_some_iff.1 hrun
    obtain ⟨w1, hw1, hw2⟩ := Option.bind_eq_some_iff.1 hw2
    obtain ⟨b1, b2, b3⟩ := hbc w
    obtain ⟨s1, f1, c1⟩ := steady_stage hof hb hn hm hc hconv hdiff hsrc hu hl hcons hzero h1d hdn hd hG hE hsteady s.1 s.2.1 false s.2.2 (bc w) w1 (by rw [b1]; exact hs) (b3 hf) (by simp) hw1
    obtain ⟨e1, e2, e3⟩ := hbc w1
    obtain ⟨s2, f2, _⟩ := steady_stage hof hb hn hm hc hconv hdiff hsrc hu hl hcons hzero h1d hdn hd hG hE hsteady s.1 s.2.1 true s.2.2 (bc w1) w2 (by rw [e1]; exact s1) (e3 f1)
      (fun _ => by rw [e2]; exact c1 rfl) hw2
    exact ih w2 s2 f2 hrest

end Hexed.Spatial
