import Verif.Spatial.Order
import Verif.Pde.Model
set_option autoImplicit false
set_option linter.unusedVariables false

/-!
# The discretization is conservative and does not depend on processing order (C24, C47, C48, C49)
-/

namespace Hexed.Spatial
open Hexed.Connection (Dir matchFaces restore strAt Legal IsFrame Corresponds point faceIdx)

/-! ## One face (C24) -/

/-- The flux that leaves one side through a face point enters the other side at the same point: the outward fluxes are opposite. Deformed
connections: `x` and `y` are the numbers of the same point on both sides. -/
theorem shared_face_flux_opposite (p : Pde) (hc : p.hasConv = true) (hu : p.nUpdate ≤ p.nExtrap) {nd n : Nat} (hnd : 1 ≤ nd ∧ nd ≤ 3) {c : ConRec} (hd : c.deformed = true) (hl : Legal nd c.dir)
    {R : Matrix (Fin 3) (Fin 3) ℤ} (hR : IsFrame c.dir R) {x y : Fin 3 → Nat} (hx : ∀ k, x k < n) (hy : ∀ k, y k < n) (hxy : Corresponds nd c.dir R (point nd n x) (point nd n y))
    (st : Sides) {v : Nat} (hv : v < p.nUpdate) :
    outSign c.dir.s0 * neighbor p nd n c.deformed c.dir c.normal st false false (v * n ^ (nd - 1) + faceIdx nd n c.dir.i0 x) =
      -(outSign c.dir.s1 * neighbor p nd n c.deformed c.dir c.normal st true false (v * n ^ (nd - 1) + faceIdx nd n c.dir.i1 y)) := by
  have hn : 0 < n := Nat.zero_lt_of_lt (hx 0)
  have hk : ∀ (z : Fin 3 → Nat) (i : Fin 3), i.val < nd → (∀ k, z k < n) → faceIdx nd n i z < n ^ (nd - 1) := by
    intro z i hi hz
    have h0 := hz 0
    have h1 := hz 1
    have h2 := hz 2
    have h12 : ∀ a b, a < n → b < n → a * n + b < n ^ 2 := by
      intro a b ha hb
      calc a * n + b < a * n + n := by omega
        _ = (a + 1) * n := by rw [Nat.add_mul, Nat.one_mul]
        _ ≤ n * n := Nat.mul_le_mul_right _ ha
        _ = n ^ 2 := (pow_two n).symm
    obtain rfl | rfl | rfl : nd = 1 ∨ nd = 2 ∨ nd = 3 := by omega
    · fin_cases i <;> simp at hi <;> simp [faceIdx, List.finRange]
    · fin_cases i <;> simp at hi
      · simpa [Connection.faceIdx_20] using h1
      · simpa [Connection.faceIdx_21] using h0
    · fin_cases i
      · simpa [Connection.faceIdx_30] using h12 _ _ h1 h2
      · simpa [Connection.faceIdx_31] using h12 _ _ h0 h2
      · simpa [Connection.faceIdx_32] using h12 _ _ h0 h1
  have hkx := hk x c.dir.i0 hl.1 hx
  have hky := hk y c.dir.i1 hl.2.1 hy
  obtain ⟨o0, o1⟩ := out_side c.deformed c.dir (by simp [hd])
  rw [neighbor_side0 p hc nd n c st v _ hv hkx, neighbor_side1 p hc hu nd n hnd hn c st v _ hv hky, if_pos hd,
    ← (Connection.match_faces_exact (nvar := p.nExtrap) hnd hl hR (restore nd n p.nExtrap c.dir (side1Flux p nd n c st))).1 v x y (by omega) hx hy hxy, (Connection.restore_match hnd c.dir _).2, side1Flux,
    (Connection.divmod_of hkx).1, (Connection.divmod_of hkx).2, ← mul_assoc, ← mul_assoc]
  have o0' : outSign c.dir.s0 * sideSign c.deformed c.dir false = 1 := o0
  have o1' : outSign c.dir.s1 * sideSign c.deformed c.dir true = -1 := o1
  rw [o0', o1']; ring

/-- The same for Cartesian connections, where both sides number the points alike; side 0 is left through its upper face. -/
theorem shared_face_flux_opposite_cartesian (p : Pde) (hc : p.hasConv = true) (hu : p.nUpdate ≤ p.nExtrap) {nd n : Nat} (hnd : 1 ≤ nd ∧ nd ≤ 3) (hn : 0 < n) {c : ConRec} (hd : c.deformed = false)
    (hs : c.dir.s0 = true ∧ c.dir.s1 = false) (st : Sides) {v k : Nat} (hv : v < p.nUpdate) (hk : k < n ^ (nd - 1)) :
    outSign c.dir.s0 * neighbor p nd n c.deformed c.dir c.normal st false false (v * n ^ (nd - 1) + k) =
      -(outSign c.dir.s1 * neighbor p nd n c.deformed c.dir c.normal st true false (v * n ^ (nd - 1) + k)) := by
  rw [neighbor_side0 p hc nd n c st v _ hv hk, neighbor_side1 p hc hu nd n hnd hn c st v _ hv hk, hd, if_neg (by simp), side1Flux, (Connection.divmod_of hk).1, (Connection.divmod_of hk).2, hs.1, hs.2, hd]
  simp [outSign, sideSign]

/-- The numerical flux is consistent: between two equal states it is the physical flux along the normal. -/
theorem flux_consistent (p : Pde) (nd : Nat) (normal u : Nat → ℝ) (v : Nat) : numFlux p nd normal u u v = p.faceFlux u normal v := by
  rw [numFlux]; ring

/-- The diffusive flux leaving one side enters the other side: in both passes together, the outward fluxes are opposite. -/
theorem shared_face_diffusion_opposite {bs : BasisData} {b : Basis.Nodes ℝ} {deg : Nat} (hb : GoodBasis b deg) (hof : bs.IsOf b) (p : Pde) (hu : p.nUpdate ≤ p.nExtrap) {nd : Nat} (hnd : 1 ≤ nd ∧ nd ≤ 3)
    (c : ConRec) (hcart : c.deformed = false → c.dir.i1 = c.dir.i0 ∧ c.dir.s0 = true ∧ c.dir.s1 = false) (st : Sides) {v : Nat} (hv : v < p.nUpdate) :
    outSign c.dir.s0 * (quadF bs nd (st false true) v + quadF bs nd (neighborReconcile p nd bs.n c.deformed c.dir st false true) v) =
      -(outSign c.dir.s1 * (quadF bs nd (st true true) v + quadF bs nd (neighborReconcile p nd bs.n c.deformed c.dir st true true) v)) := by
  obtain ⟨h0, h1⟩ := reconcile_quad (conservative_of hb hof) p hu nd hnd c hcart st v hv
  have h0' : outSign c.dir.s0 * _ = _ := h0
  have h1' : outSign c.dir.s1 * _ = _ := h1
  rw [add_comm, h0', add_comm (quadF bs nd (st true true) v), h1', neg_neg]

/-! ## The whole mesh (C47, C48) -/

/-- The general balance of one inviscid stage: the integral of the change (per unit of local time step) is the integral of the source
minus the flux through the boundary faces. -/
theorem convection_stage_balance {bs : BasisData} {b : Basis.Nodes ℝ} {deg : Nat} (hb : GoodBasis b deg) (hof : bs.IsOf b) {m : Mesh} (hm : m.Ok bs)
    (ht : ∀ e ∈ m.elems, ∀ q < bs.n ^ m.nd, (m.elem e).tss q ≠ 0)
    (p : Pde) (hc : p.hasConv = true) (hd : p.hasDiff = false) (hM : p.blockSize = p.nUpdate) (hu : p.nUpdate ≤ p.nExtrap) {idx : Nat → Nat} (ha : p.Additive idx)
    (sr dt : ℝ) (filter : Bool) {w w' : World} (hw : computeConvection p bs m sr dt false false filter w = some w') {v : Nat} (hv : v < p.nUpdate) :
    m.change bs w.state w'.state (idx v) = dt * m.totalSource p bs w.state v - dt * m.boundaryFlux p bs w.buf v :=
  (conv_stage0 (conservative_of hb hof) hm ht p hc hd hM hu idx ha sr dt filter w w' hw v hv).1

/-- A whole inviscid time step: first stage, boundary conditions, second stage. What changes in total is the flux through the boundary, a
weighted average of the two stages' fluxes. -/
theorem convection_step_balance {bs : BasisData} {b : Basis.Nodes ℝ} {deg : Nat} (hb : GoodBasis b deg) (hof : bs.IsOf b) {m : Mesh} (hm : m.Ok bs)
    (ht : ∀ e ∈ m.elems, ∀ q < bs.n ^ m.nd, (m.elem e).tss q ≠ 0)
    (p : Pde) (hc : p.hasConv = true) (hd : p.hasDiff = false) (hM : p.blockSize = p.nUpdate) (hu : p.nUpdate ≤ p.nExtrap) {idx : Nat → Nat} (ha : p.Additive idx)
    (sr dt : ℝ) (filter : Bool) {bc : World → World} (hbc : GhostOnly bc) {w w1 w2 : World} (hw1 : computeConvection p bs m sr dt false false filter w = some w1)
    (hw2 : computeConvection p bs m sr dt true false filter (bc w1) = some w2) {v : Nat} (hv : v < p.nUpdate) :
    m.change bs w.state w2.state (idx v) = dt * m.totalSource p bs w.state v -
      dt * ((1 - sr) * m.boundaryFlux p bs w.buf v + sr * m.boundaryFlux p bs (bc w1).buf v) := by
  obtain ⟨h1, h2⟩ := conv_stage0 (conservative_of hb hof) hm ht p hc hd hM hu idx ha sr dt filter w w1 hw1 v hv
  have h3 := conv_stage1 (conservative_of hb hof) hm ht p hc hd hM hu idx ha sr dt filter (bc w1) w2 hw2 v hv
  rw [(hbc w1).2.1, (hbc w1).1, h2] at h3
  rw [change_trans m bs w.state w1.state, h1, h3]; ring

/-- One viscous stage: the convective and the (average) diffusive flux through the boundary faces. -/
theorem diffusion_stage_balance {bs : BasisData} {b : Basis.Nodes ℝ} {deg : Nat} (hb : GoodBasis b deg) (hof : bs.IsOf b) {m : Mesh} (hm : m.Ok bs)
    (ht : ∀ e ∈ m.elems, ∀ q < bs.n ^ m.nd, (m.elem e).tss q ≠ 0)
    (p : Pde) (hd : p.hasDiff = true) (hM : p.blockSize = p.nUpdate) (hu : p.nUpdate ≤ p.nExtrap) {idx : Nat → Nat} (ha : p.Additive idx)
    {bc : World → World} (hbc : GhostOnly bc) (sr dt : ℝ) (filter : Bool) {w w' : World} (hw : computeDiffusion p bs m bc sr dt false false filter w = some w') {v : Nat} (hv : v < p.nUpdate) :
    m.change bs w.state w'.state (idx v) = dt * m.totalSource p bs w.state v - dt * (if p.hasConv then m.boundaryFlux p bs w.buf v else 0) -
      dt * m.boundaryFluxDiff p bs (ldgWorld p bs m bc ⟨dt, false, false, filter⟩ w).buf v :=
  diff_stage0 (conservative_of hb hof) hm ht p hd hM hu idx ha bc hbc sr dt filter w w' hw v hv

theorem closed_boundary {m : Mesh} (h : m.Closed) : (m.cons.filter fun c => (c.side true).isGhost) = [] := by
  rw [List.filter_eq_nil_iff]
  intro c hc
  rw [h c hc]; simp

/-- The change of the total is `change` if the time step is the same everywhere. -/
theorem total_change (m : Mesh) (bs : BasisData) (ht : ∀ e ∈ m.elems, ∀ q < bs.n ^ m.nd, (m.elem e).tss q = 1) (st st' : Nat → Arr) (var : Nat) :
    m.total bs st' var = m.total bs st var + m.change bs st st' var := by
  rw [Mesh.total, Mesh.total, Mesh.change, ← sum_add_map]
  congr 1
  refine List.map_congr_left fun e he => ?_
  rw [elemChange, ← mul_add, ← Finset.sum_add_distrib]
  congr 1
  refine Finset.sum_congr rfl fun q hq => ?_
  rw [ht e he q (Finset.mem_range.1 hq)]; ring

/-- Mass, momentum and energy of an inviscid gas in a closed domain never change: any number of time steps, with any time step sizes, on
any mesh of Cartesian and deformed elements with hanging nodes, from any state. -/
theorem inviscid_conservation {bs : BasisData} {b : Basis.Nodes ℝ} {deg : Nat} (hb : GoodBasis b deg) (hof : bs.IsOf b) {m : Mesh} (hm : m.Ok bs) (hcl : m.Closed)
    (ht : ∀ e ∈ m.elems, ∀ q < bs.n ^ m.nd, (m.elem e).tss q = 1) (mu kappa : Pde.Transport)
    {bc : World → World} (hbc : GhostOnly bc) (steps : List (ℝ × ℝ × Bool)) (run : World → ℝ × ℝ × Bool → Option World)
    (hrun : ∀ w s, run w s = (computeConvection (Pde.ns m.nd false mu kappa) bs m s.1 s.2.1 false false s.2.2 (bc w)).bind fun w1 =>
      computeConvection (Pde.ns m.nd false mu kappa) bs m s.1 s.2.1 true false s.2.2 (bc w1)) :
    ∀ {w w' : World}, steps.foldlM run w = some w' → ∀ v < m.nd + 2, m.total bs w'.state v = m.total bs w.state v := by
  have ha : (Pde.ns m.nd false mu kappa).Additive id := by
    intro upd crit st v hv
    have hv' : v < m.nd + 2 := hv
    simp [Pde.ns, hv']
  have hM : (Pde.ns m.nd false mu kappa).blockSize = (Pde.ns m.nd false mu kappa).nUpdate := by simp only [Pde.blockSize, Pde.ns]; omega
  induction steps with
  | nil => intro w w' h v _; simp only [List.foldlM_nil] at h; cases h; rfl
  | cons s l ih =>
    intro w w' h v hv
    rw [List.foldlM_cons] at h
    obtain ⟨wm, h1, h2⟩ := Option.bind_eq_some_iff.1 h
    rw [ih h2 v hv]
    rw [hrun, Option.bind_eq_some_iff] at h1
    obtain ⟨w1, h3, h4⟩ := h1
    have e := convection_step_balance hb hof hm (fun e he q hq => by rw [ht e he q hq]; norm_num) (Pde.ns m.nd false mu kappa) rfl rfl hM (le_refl _) ha s.1 s.2.1 s.2.2 hbc h3 h4 (v := v) hv
    rw [total_change m bs ht w.state wm.state v]
    have e' : m.change bs w.state wm.state v = 0 := by
      rw [(hbc w).1] at e
      refine e.trans ?_
      simp [Mesh.totalSource, Pde.ns, Mesh.boundaryFlux, closed_boundary hcl]
    rw [e', add_zero]

/-- The same for the Navier–Stokes equations with any transport coefficients and artificial viscosity. -/
theorem viscous_conservation {bs : BasisData} {b : Basis.Nodes ℝ} {deg : Nat} (hb : GoodBasis b deg) (hof : bs.IsOf b) {m : Mesh} (hm : m.Ok bs) (hcl : m.Closed)
    (ht : ∀ e ∈ m.elems, ∀ q < bs.n ^ m.nd, (m.elem e).tss q = 1) (mu kappa : Pde.Transport)
    {bc fluxBc : World → World} (hbc : GhostOnly bc) (hfbc : GhostOnly fluxBc) (steps : List (ℝ × ℝ × Bool)) (run : World → ℝ × ℝ × Bool → Option World)
    (hrun : ∀ w s, run w s = computeDiffusion (Pde.ns m.nd true mu kappa) bs m fluxBc s.1 s.2.1 false false s.2.2 (bc w)) :
    ∀ {w w' : World}, steps.foldlM run w = some w' → ∀ v < m.nd + 2, m.total bs w'.state v = m.total bs w.state v := by
  have ha : (Pde.ns m.nd true mu kappa).Additive id := by
    intro upd crit st v hv
    have hv' : v < m.nd + 2 := hv
    simp [Pde.ns, hv']
  have hM : (Pde.ns m.nd true mu kappa).blockSize = (Pde.ns m.nd true mu kappa).nUpdate := by simp only [Pde.blockSize, Pde.ns]; omega
  induction steps with
  | nil => intro w w' h v _; simp only [List.foldlM_nil] at h; cases h; rfl
  | cons s l ih =>
    intro w w' h v hv
    rw [List.foldlM_cons] at h
    obtain ⟨wm, h1, h2⟩ := Option.bind_eq_some_iff.1 h
    rw [ih h2 v hv]
    rw [hrun] at h1
    have e := diffusion_stage_balance hb hof hm (fun e he q hq => by rw [ht e he q hq]; norm_num) (Pde.ns m.nd true mu kappa) rfl hM (le_refl _) ha hfbc s.1 s.2.1 s.2.2 h1 (v := v) hv
    rw [total_change m bs ht w.state wm.state v]
    have e' : m.change bs w.state wm.state v = 0 := by
      rw [(hbc w).1] at e
      refine e.trans ?_
      simp [Mesh.totalSource, Pde.ns, Mesh.boundaryFlux, Mesh.boundaryFluxDiff, closed_boundary hcl]
    rw [e', add_zero]

/-- With local time stepping the totals are not kept on the way, but a converged solution is conservative: if an inviscid stage does not
change the state, the flux through the boundary is zero. -/
theorem converged_flux_balance {bs : BasisData} {b : Basis.Nodes ℝ} {deg : Nat} (hb : GoodBasis b deg) (hof : bs.IsOf b) {m : Mesh} (hm : m.Ok bs)
    (ht : ∀ e ∈ m.elems, ∀ q < bs.n ^ m.nd, (m.elem e).tss q ≠ 0) (mu kappa : Pde.Transport) (sr dt : ℝ) (hdt : dt ≠ 0) (filter : Bool) {w w' : World}
    (hw : computeConvection (Pde.ns m.nd false mu kappa) bs m sr dt false false filter w = some w') (hconv : w'.state = w.state) :
    ∀ v < m.nd + 2, m.boundaryFlux (Pde.ns m.nd false mu kappa) bs w.buf v = 0 := by
  intro v hv
  have ha : (Pde.ns m.nd false mu kappa).Additive id := by
    intro upd crit st v hv
    have hv' : v < m.nd + 2 := hv
    simp [Pde.ns, hv']
  have hM : (Pde.ns m.nd false mu kappa).blockSize = (Pde.ns m.nd false mu kappa).nUpdate := by simp only [Pde.blockSize, Pde.ns]; omega
  have e := convection_stage_balance hb hof hm ht (Pde.ns m.nd false mu kappa) rfl rfl hM (le_refl _) ha sr dt filter hw (v := v) hv
  have z : m.change bs w.state w'.state (id v) = 0 := by rw [hconv]; simp [Mesh.change, elemChange]
  have s : m.totalSource (Pde.ns m.nd false mu kappa) bs w.state v = 0 := by simp [Mesh.totalSource, Pde.ns]
  rw [z, s] at e
  have : dt * m.boundaryFlux (Pde.ns m.nd false mu kappa) bs w.buf v = 0 := by linarith
  exact (mul_eq_zero.1 this).resolve_left hdt

/-! ## Processing order (C49) -/

/-- Inviscid stages give the same result in whatever order elements, connections and refined faces are processed. -/
theorem convection_order_independent {bs : BasisData} (hn : 0 < bs.n) {m m' : Mesh} (hm : m.Ok bs) (h : m.Reordered m') (p : Pde) (sr dt : ℝ) (stage residual filter : Bool) (w : World) :
    computeConvection p bs m' sr dt stage residual filter w = computeConvection p bs m sr dt stage residual filter w := by
  simp only [computeConvection, neighbor_order hm h, restrict_order hm hn h, local_order hm h, prolong_order hm h]

/-- Viscous stages likewise. -/
theorem diffusion_order_independent {bs : BasisData} (hn : 0 < bs.n) {m m' : Mesh} (hm : m.Ok bs) (h : m.Reordered m') (p : Pde) (bc : World → World) (sr dt : ℝ) (stage residual filter : Bool) (w : World) :
    computeDiffusion p bs m' bc sr dt stage residual filter w = computeDiffusion p bs m bc sr dt stage residual filter w := by
  simp only [computeDiffusion, neighbor_order hm h, restrict_order hm hn h, local_order hm h, prolong_order hm h, reconcileCons_order hm h, reconcileElems_order hm h]

/-! ## The hypotheses can be met -/

/-- The matrices of any basis. -/
noncomputable def ofNodes (b : Basis.Nodes ℝ) : BasisData :=
  ⟨b.n, b.weight, Basis.derivative b, fun s j => Basis.interpolate b j (s : ℝ), Basis.filter b, fun h i j => Basis.prolong b i j h, fun h i j => Basis.restrict b i j h⟩

theorem ofNodes_isOf (b : Basis.Nodes ℝ) : (ofNodes b).IsOf b := by
  refine ⟨rfl, rfl, ⟨fun i hi j hj => (Basis.tables_exact b hi hj).1, fun s hs j hj => (Basis.tables_exact b hj hj).2.1 s hs⟩,
    fun i hi j hj => (Basis.filter_tables b hi hj).1, fun h hh i hi j hj => (Basis.tables_exact b hi hj).2.2.1 h hh, fun h hh i hi j hj => (Basis.tables_exact b hi hj).2.2.2 h hh⟩

/-- The Gauss–Legendre basis of row size 2. -/
noncomputable def gauss2 : Basis.Nodes ℝ := ⟨2, fun i => if i = 0 then (1 - 1 / √3) / 2 else (1 + 1 / √3) / 2, fun _ => 1 / 2⟩

theorem gauss2_good : GoodBasis gauss2 3 :=
  ⟨Basis.gauss2_exact, by simp [gauss2], by simp [gauss2], fun i _ => by simp [gauss2], fun i _ => by simp [gauss2]⟩

/-- A two-dimensional periodic mesh of one element of size 1 and, to its right, two elements of size 1/2: both x faces of the large
element are divided. -/
noncomputable def exMesh : Mesh where
  nd := 2
  elems := [0, 1, 2]
  elem e := ⟨if e = 0 then 1 else 1 / 2, fun _ => 1, none⟩
  cons :=
    let con (d : Fin 3) (a b : Buf) : ConRec := ⟨false, ⟨d, d, true, false⟩, fun s => if s then b else a, fun _ => 0⟩
    [con 0 (.mortar 0 0) (.elem 1 0), con 0 (.mortar 0 1) (.elem 2 0), con 0 (.elem 1 1) (.mortar 1 0), con 0 (.elem 2 1) (.mortar 1 1),
     con 1 (.elem 0 3) (.elem 0 2), con 1 (.elem 1 3) (.elem 2 2), con 1 (.elem 2 3) (.elem 1 2)]
  refs := [⟨.elem 0 1, fun i => .mortar 0 i, (false, false)⟩, ⟨.elem 0 0, fun i => .mortar 1 i, (false, false)⟩]

theorem exMesh_ok (bs : BasisData) : exMesh.Ok bs ∧ exMesh.Closed := by
  refine ⟨⟨by decide, ?_, ?_, by decide, by decide, ?_, ?_, ?_, ?_, ?_⟩, ?_⟩
  · intro e _; simp only [exMesh]; split <;> norm_num
  · intro e _ q _; simp [exMesh, ElemRec.det]
  · intro k r hr
    match k, hr with
    | 0, hr => simp only [exMesh, List.getElem?_cons_zero, Option.some.injEq] at hr; subst hr; exact ⟨⟨_, _, rfl⟩, fun _ _ => rfl⟩
    | 1, hr => simp only [exMesh, List.getElem?_cons_succ, List.getElem?_cons_zero, Option.some.injEq] at hr; subst hr; exact ⟨⟨_, _, rfl⟩, fun _ _ => rfl⟩
    | k + 2, hr => simp [exMesh] at hr
  · intro c hc
    simp only [exMesh, List.mem_cons, List.not_mem_nil, or_false] at hc
    rcases hc with rfl | rfl | rfl | rfl | rfl | rfl | rfl <;> exact ⟨by decide, fun _ => ⟨rfl, rfl, rfl⟩⟩
  · intro c hc
    simp only [exMesh, List.mem_cons, List.not_mem_nil, or_false] at hc
    rcases hc with rfl | rfl | rfl | rfl | rfl | rfl | rfl <;> rfl
  · intro c hc s _
    simp only [exMesh, List.mem_cons, List.not_mem_nil, or_false] at hc
    rcases hc with rfl | rfl | rfl | rfl | rfl | rfl | rfl <;> cases s <;> exact ⟨_, rfl⟩
  · intro c hc _
    simp only [exMesh, List.mem_cons, List.not_mem_nil, or_false] at hc
    rcases hc with rfl | rfl | rfl | rfl | rfl | rfl | rfl <;> simp [Mesh.bufSize, Mesh.faceOf, exMesh]
  · intro c hc
    simp only [exMesh, List.mem_cons, List.not_mem_nil, or_false] at hc
    rcases hc with rfl | rfl | rfl | rfl | rfl | rfl | rfl <;> rfl

/-- A one-dimensional mesh of one element with a boundary condition on each side. -/
noncomputable def exBound : Mesh where
  nd := 1
  elems := [0]
  elem _ := ⟨1, fun _ => 1, none⟩
  cons := [⟨true, ⟨0, 0, false, true⟩, fun s => if s then .ghost 0 else .elem 0 0, fun _ => 1⟩,
           ⟨true, ⟨0, 0, true, false⟩, fun s => if s then .ghost 1 else .elem 0 1, fun _ => 1⟩]
  refs := []

theorem exBound_ok (bs : BasisData) : exBound.Ok bs := by
  refine ⟨by decide, ?_, ?_, by decide, by decide, ?_, ?_, ?_, ?_, ?_⟩
  · intro e _; simp [exBound]
  · intro e _ q _; simp [exBound, ElemRec.det]
  · intro k r hr; simp [exBound] at hr
  · intro c hc
    simp only [exBound, List.mem_cons, List.not_mem_nil, or_false] at hc
    rcases hc with rfl | rfl <;> exact ⟨by decide, by simp⟩
  · intro c hc
    simp only [exBound, List.mem_cons, List.not_mem_nil, or_false] at hc
    rcases hc with rfl | rfl <;> rfl
  · intro c hc s hs
    simp only [exBound, List.mem_cons, List.not_mem_nil, or_false] at hc
    rcases hc with rfl | rfl <;> cases s <;> first | exact ⟨_, rfl⟩ | exact absurd hs (by simp [Buf.isGhost])
  · intro c hc hs
    simp only [exBound, List.mem_cons, List.not_mem_nil, or_false] at hc
    rcases hc with rfl | rfl <;> exact absurd hs (by simp [Buf.isGhost])

/-- The step is always defined for these. -/
theorem step_defined (p : Pde) (bs : BasisData) (m : Mesh) (hd : p.hasDiff = false) (sr dt : ℝ) (stage filter : Bool) (w : World) :
    ∃ w', computeConvection p bs m sr dt stage false filter w = some w' := by
  cases stage <;> simp [computeConvection, hd]

example (w : World) (mu kappa : Pde.Transport) (sr dt : ℝ) (w1 w2 : World)
    (h1 : computeConvection (Pde.ns 2 false mu kappa) (ofNodes gauss2) exMesh sr dt false false true w = some w1)
    (h2 : computeConvection (Pde.ns 2 false mu kappa) (ofNodes gauss2) exMesh sr dt true false true w1 = some w2) (v : Nat) (hv : v < 4) :
    exMesh.total (ofNodes gauss2) w2.state v = exMesh.total (ofNodes gauss2) w.state v :=
  inviscid_conservation gauss2_good (ofNodes_isOf _) (exMesh_ok _).1 (exMesh_ok (ofNodes gauss2)).2 (fun _ _ _ _ => rfl) mu kappa (bc := id) (fun _ => ⟨rfl, rfl, fun _ _ => rfl⟩) [(sr, dt, true)] _
    (fun _ _ => rfl) (by
      have : [(sr, dt, true)].foldlM (fun w s => (computeConvection (Pde.ns exMesh.nd false mu kappa) (ofNodes gauss2) exMesh s.1 s.2.1 false false s.2.2 (id w)).bind fun w1 =>
        computeConvection (Pde.ns exMesh.nd false mu kappa) (ofNodes gauss2) exMesh s.1 s.2.1 true false s.2.2 (id w1)) w = some w2 := by
        have h1' : computeConvection (Pde.ns exMesh.nd false mu kappa) (ofNodes gauss2) exMesh sr dt false false true w = some w1 := h1
        have h2' : computeConvection (Pde.ns exMesh.nd false mu kappa) (ofNodes gauss2) exMesh sr dt true false true w1 = some w2 := h2
        simp [h1', h2']
      exact this) v hv

example (w w' : World) (mu kappa : Pde.Transport) (sr dt : ℝ) (h : computeConvection (Pde.ns 1 false mu kappa) (ofNodes gauss2) exBound sr dt false false true w = some w') (hdt : dt ≠ 0)
    (hs : w'.state = w.state) : exBound.boundaryFlux (Pde.ns 1 false mu kappa) (ofNodes gauss2) w.buf 0 = 0 :=
  converged_flux_balance gauss2_good (ofNodes_isOf _) (exBound_ok _) (fun _ _ _ _ => by simp [exBound]) mu kappa sr dt hdt true h hs 0 (by simp [exBound])

example (p : Pde) (sr dt : ℝ) (w : World) : computeConvection p (ofNodes gauss2) { exMesh with elems := [2, 0, 1], cons := exMesh.cons.reverse, refs := exMesh.refs.reverse } sr dt false false true w =
    computeConvection p (ofNodes gauss2) exMesh sr dt false false true w :=
  convection_order_independent (bs := ofNodes gauss2) (m := exMesh) (m' := { exMesh with elems := [2, 0, 1], cons := exMesh.cons.reverse, refs := exMesh.refs.reverse }) (by simp [ofNodes, gauss2]) (exMesh_ok _).1
    ⟨rfl, rfl, by show [0, 1, 2].Perm [2, 0, 1]; decide, (List.reverse_perm _).symm, (List.reverse_perm _).symm⟩ p sr dt false false true w

end Hexed.Spatial
