import Verif.Solver.Wall
set_option autoImplicit false
set_option linter.unusedVariables false

/-!
# The flow solver keeps mass and energy in a domain bounded by walls (C51)
-/

namespace Hexed.Solver
open Hexed.Spatial Hexed.Pde
open Hexed.Connection (matchFaces Dir)
noncomputable section

/-- A boundary connection, as `Typed_bound_connection` makes it (connection.hpp:370, 378-382): the inside is side 0, the ghost side 1 lies
on the opposite face of the same axis, and the surface normal vanishes nowhere. -/
structure IsBoundary (nd n : Nat) (c : ConRec) : Prop where
  deformed : c.deformed = true
  dir : c.dir.i1 = c.dir.i0 ∧ c.dir.s1 = !c.dir.s0
  normal : ∀ k < n ^ (nd - 1), dotN nd (fun i => c.normal (i * n ^ (nd - 1) + k)) (fun i => c.normal (i * n ^ (nd - 1) + k)) ≠ 0

/-- All ghost faces belong to connections of that form. -/
def WallBounded (m : Mesh) (bs : BasisData) : Prop := ∀ c ∈ m.cons, (c.side true).isGhost = true → IsBoundary m.nd bs.n c

/-- The heat that leaves through the walls per time: the prescribed heat flux times the area. -/
def heatLoss (bs : BasisData) (m : Mesh) (wall : ConRec → Wall) : ℝ :=
  ((m.cons.filter fun c => (c.side true).isGhost).map fun c => m.bufSize (c.side false) ^ (m.nd - 1) *
    ∑ k ∈ Finset.range (bs.n ^ (m.nd - 1)), qw bs.weight bs.n (m.nd - 1) k *
      (√(dotN m.nd (fun i => c.normal (i * bs.n ^ (m.nd - 1) + k)) (fun i => c.normal (i * bs.n ^ (m.nd - 1) + k))) * (match wall c with | .nonpenetration => 0 | .noSlip _ q => q))).sum

/-! ## Running boundary conditions -/

theorem runBc_ghostOnly (nd n nvar : Nat) (ldg : Bool) (rule : Rule) (cons : List ConRec) : GhostOnly (runBc nd n nvar ldg rule cons) := by
  intro w
  induction cons generalizing w with
  | nil => exact ⟨rfl, rfl, fun _ _ => rfl⟩
  | cons c l ih =>
    rw [runBc, List.foldl_cons]
    obtain ⟨a, b, d⟩ := ih (if (c.side true).isGhost then
      { w with buf := fun b l => if b = c.side true ∧ l = ldg then faceBc (n ^ (nd - 1)) nvar (rule c) c.normal (w.buf (c.side false) ldg) (w.buf (c.side true) ldg) else w.buf b l } else w)
    by_cases hg : (c.side true).isGhost = true
    · simp only [if_pos hg] at a b d ⊢
      refine ⟨a, b, fun x hx => (d x hx).trans ?_⟩
      funext l'
      rw [if_neg]
      rintro ⟨rfl, _⟩
      rw [hg] at hx; cases hx
    · simp only [if_neg hg] at a b d ⊢
      exact ⟨a, b, d⟩

theorem runBc_same (nd n nvar : Nat) (ldg : Bool) (rule : Rule) (cons : List ConRec) (w : World) (b : Buf) (l' : Bool) (h : (∀ c ∈ cons, b ≠ c.side true) ∨ l' ≠ ldg) :
    (runBc nd n nvar ldg rule cons w).buf b l' = w.buf b l' := by
  induction cons generalizing w with
  | nil => rfl
  | cons c l ih =>
    rw [runBc, List.foldl_cons]
    have hl : (∀ c ∈ l, b ≠ c.side true) ∨ l' ≠ ldg := h.imp (fun h c hc => h c (List.mem_cons_of_mem _ hc)) id
    refine (ih _ hl).trans ?_
    split
    · show (if b = c.side true ∧ l' = ldg then _ else _) = _
      rw [if_neg]
      rintro ⟨e1, e2⟩
      rcases h with h | h
      · exact h c List.mem_cons_self e1
      · exact h e2
    · rfl

theorem runBc_at {nd n nvar : Nat} {ldg : Bool} {rule : Rule} {cons : List ConRec} {w : World} (hn : (sidesOf cons).Nodup) {c : ConRec} (hc : c ∈ cons) (hg : (c.side true).isGhost = true) :
    (runBc nd n nvar ldg rule cons w).buf (c.side true) ldg = faceBc (n ^ (nd - 1)) nvar (rule c) c.normal (w.buf (c.side false) ldg) (w.buf (c.side true) ldg) := by
  induction cons generalizing w with
  | nil => cases hc
  | cons d l ih =>
    rw [sidesOf, List.flatMap_cons] at hn
    have hn' : (d.side false :: d.side true :: sidesOf l).Nodup := hn
    have hnl : (sidesOf l).Nodup := (List.nodup_cons.1 (List.nodup_cons.1 hn').2).2
    rw [runBc, List.foldl_cons]
    rcases List.mem_cons.1 hc with rfl | hcl
    · have e := runBc_same nd n nvar ldg rule l { w with buf := fun b l => if b = c.side true ∧ l = ldg then faceBc (n ^ (nd - 1)) nvar (rule c) c.normal (w.buf (c.side false) ldg) (w.buf (c.side true) ldg) else w.buf b l } (c.side true) ldg
        (Or.inl fun d hd h => (List.nodup_cons.1 (List.nodup_cons.1 hn').2).1 (h ▸ List.mem_flatMap.2 ⟨d, hd, by simp⟩))
      simp only [if_pos hg]
      refine e.trans ?_
      simp
    · refine (ih hnl hcl).trans ?_
      have m1 : c.side false ∈ sidesOf l := List.mem_flatMap.2 ⟨c, hcl, by simp⟩
      have m2 : c.side true ∈ sidesOf l := List.mem_flatMap.2 ⟨c, hcl, by simp⟩
      have n1 : c.side false ≠ d.side true := fun h => (List.nodup_cons.1 (List.nodup_cons.1 hn').2).1 (h ▸ m1)
      have n2 : c.side true ≠ d.side true := fun h => (List.nodup_cons.1 (List.nodup_cons.1 hn').2).1 (h ▸ m2)
      split
      · simp [n1, n2]
      · rfl

/-! ## Boundary fluxes at walls -/

theorem match_boundary {K : Type} (nd n nvar : Nat) {d : Dir} (h : d.i1 = d.i0) (mem : Nat → K) : matchFaces nd n nvar d mem = mem := by
  have t : d.transpose = false := by
    rw [Dir.transpose, h]; revert h; rcases d with ⟨i0, i1, s0, s1⟩; intro h; simp only at h ⊢; fin_cases i0 <;> rfl
  have f : d.flipTangential = false := by simp [Dir.flipTangential, h]
  simp [matchFaces, Connection.flipData, Connection.transposeData, t, f]

theorem boundary_sign {c : ConRec} (hd : c.deformed = true) (h : c.dir.i1 = c.dir.i0 ∧ c.dir.s1 = !c.dir.s0) (s : Bool) :
    sideSign c.deformed c.dir s = if c.dir.s0 then 1 else -1 := by
  rw [hd, sideSign]
  cases hs : c.dir.s0 <;> cases s <;> simp [Dir.flipNormal, Dir.faceSign, h.2, hs]

section
variable {bs : BasisData} {m : Mesh} (wall : ConRec → Wall)

/-- The state boundary conditions of a mesh with walls. -/
def wallState (bs : BasisData) (m : Mesh) (wall : ConRec → Wall) : World → World := runBc m.nd bs.n (m.nd + 2) false (fun c => (wall c).state m.nd) m.cons
/-- The flux boundary conditions of a mesh with walls. -/
def wallFlux (bs : BasisData) (m : Mesh) (wall : ConRec → Wall) : World → World := runBc m.nd bs.n (m.nd + 2) true (fun c => (wall c).flux m.nd c.dir.s0) m.cons

theorem wall_convection (hm : m.Ok bs) (hw : WallBounded m bs) (visc : Bool) (mu kappa : Transport) (w : World) :
    m.boundaryFlux (ns m.nd visc mu kappa) bs (wallState bs m wall w).buf m.nd = 0 ∧ m.boundaryFlux (ns m.nd visc mu kappa) bs (wallState bs m wall w).buf (m.nd + 1) = 0 := by
  have key : ∀ v, v = m.nd ∨ v = m.nd + 1 → m.boundaryFlux (ns m.nd visc mu kappa) bs (wallState bs m wall w).buf v = 0 := by
    intro v hv
    rw [Mesh.boundaryFlux]
    refine List.sum_eq_zero fun x hx => ?_
    obtain ⟨c, hc, rfl⟩ := List.mem_map.1 hx
    obtain ⟨hc, hg⟩ := List.mem_filter.1 hc
    have hB := hw c hc hg
    refine mul_eq_zero_of_right _ (Finset.sum_eq_zero fun k hk => mul_eq_zero_of_right _ ?_)
    have hk := Finset.mem_range.1 hk
    have hat := runBc_at (nd := m.nd) (n := bs.n) (nvar := m.nd + 2) (ldg := false) (rule := fun c => (wall c).state m.nd) (w := w) hm.sides_nodup hc hg
    have hin : (wallState bs m wall w).buf (c.side false) false = w.buf (c.side false) false := by
      exact congrFun ((runBc_ghostOnly m.nd bs.n (m.nd + 2) false (fun c => (wall c).state m.nd) m.cons w).2.2 _ (hm.ghost c hc)) false
    rw [conFlux, match_boundary _ _ _ hB.dir.1]
    simp only [ite_self]
    set u : Nat → ℝ := fun v => w.buf (c.side false) false (v * bs.n ^ (m.nd - 1) + k) with hu
    set nr : Nat → ℝ := fun i => c.normal (i * bs.n ^ (m.nd - 1) + k) with hnr
    have hn : conNormal c.deformed c.dir (bs.n ^ (m.nd - 1)) c.normal k = fun i => (if c.dir.s0 then (1 : ℝ) else -1) * nr i := by
      funext i; rw [conNormal, boundary_sign hB.deformed hB.dir false, if_pos hB.deformed]
    have hgh : ∀ a < m.nd + 2, (wallState bs m wall w).buf (c.side true) false (a * bs.n ^ (m.nd - 1) + k) = (wall c).state m.nd nr u a := by
      intro a ha
      rw [wallState, hat, faceBc, (Connection.divmod_of hk).1, (Connection.divmod_of hk).2, if_pos]
      calc a * bs.n ^ (m.nd - 1) + k < a * bs.n ^ (m.nd - 1) + bs.n ^ (m.nd - 1) := by omega
        _ = (a + 1) * bs.n ^ (m.nd - 1) := by rw [Nat.add_mul, Nat.one_mul]
        _ ≤ (m.nd + 2) * bs.n ^ (m.nd - 1) := Nat.mul_le_mul_right _ ha
    rw [hn]
    have hcongr : numFlux (ns m.nd visc mu kappa) m.nd (fun i => (if c.dir.s0 then (1 : ℝ) else -1) * nr i) (fun u => (wallState bs m wall w).buf (c.side false) false (u * bs.n ^ (m.nd - 1) + k))
        (fun u => (wallState bs m wall w).buf (c.side true) false (u * bs.n ^ (m.nd - 1) + k)) v =
        numFlux (ns m.nd visc mu kappa) m.nd (fun i => (if c.dir.s0 then (1 : ℝ) else -1) * nr i) u ((wall c).state m.nd nr u) v := by
      rw [hin]
      have hf : fetchExtrapState m.nd (fun u => (wallState bs m wall w).buf (c.side true) false (u * bs.n ^ (m.nd - 1) + k)) = fetchExtrapState m.nd ((wall c).state m.nd nr u) := by
        funext i; simp only [fetchExtrapState]
        split
        · rename_i hi; exact hgh i hi
        · rfl
      simp only [numFlux, ns, hf]
      rfl
    rw [hcongr]
    cases hwl : wall c with
    | nonpenetration =>
      have h := nonpenetration_flux m.nd visc mu kappa nr u (hB.normal k hk) (if c.dir.s0 then 1 else -1)
      rcases hv with rfl | rfl
      · exact h.1
      · exact h.2.1
    | noSlip co q =>
      have h := no_slip_flux m.nd visc mu kappa (keepEnergy m.nd) (fun i => (if c.dir.s0 then (1 : ℝ) else -1) * nr i) u
      rcases hv with rfl | rfl
      · exact h.2.1
      · exact h.2.2 rfl
  exact ⟨key _ (Or.inl rfl), key _ (Or.inr rfl)⟩

theorem wall_diffusion (hm : m.Ok bs) (hw : WallBounded m bs) (hco : ∀ c co q, wall c = .noSlip co q → co = 2) (visc : Bool) (mu kappa : Transport) (w : World) :
    m.boundaryFluxDiff (ns m.nd visc mu kappa) bs (wallFlux bs m wall w).buf m.nd = 0 ∧
    m.boundaryFluxDiff (ns m.nd visc mu kappa) bs (wallFlux bs m wall w).buf (m.nd + 1) = heatLoss bs m wall := by
  have key : ∀ v, v < m.nd + 2 → ∀ c ∈ m.cons.filter (fun c => (c.side true).isGhost), ∀ k < bs.n ^ (m.nd - 1),
      let nr : Nat → ℝ := fun i => c.normal (i * bs.n ^ (m.nd - 1) + k)
      let f : Nat → ℝ := fun v => w.buf (c.side false) true (v * bs.n ^ (m.nd - 1) + k)
      conFluxDiff (ns m.nd visc mu kappa) m.nd bs.n c (fun s => (wallFlux bs m wall w).buf (c.side s)) v k =
        (if c.dir.s0 then (1 : ℝ) else -1) * ((f v + (wall c).flux m.nd c.dir.s0 nr f v) / 2) := by
    intro v hv c hc k hk nr f
    obtain ⟨hc, hg⟩ := List.mem_filter.1 hc
    have hB := hw c hc hg
    have hat := runBc_at (nd := m.nd) (n := bs.n) (nvar := m.nd + 2) (ldg := true) (rule := fun c => (wall c).flux m.nd c.dir.s0) (w := w) hm.sides_nodup hc hg
    have hin : (wallFlux bs m wall w).buf (c.side false) = w.buf (c.side false) :=
      (runBc_ghostOnly m.nd bs.n (m.nd + 2) true (fun c => (wall c).flux m.nd c.dir.s0) m.cons w).2.2 _ (hm.ghost c hc)
    rw [conFluxDiff, match_boundary _ _ _ hB.dir.1]
    simp only [ite_self, boundary_sign hB.deformed hB.dir, hin]
    have hgh : (wallFlux bs m wall w).buf (c.side true) true (v * bs.n ^ (m.nd - 1) + k) = (wall c).flux m.nd c.dir.s0 nr f v := by
      rw [wallFlux, hat, faceBc, (Connection.divmod_of hk).1, (Connection.divmod_of hk).2, if_pos]
      calc v * bs.n ^ (m.nd - 1) + k < v * bs.n ^ (m.nd - 1) + bs.n ^ (m.nd - 1) := by omega
        _ = (v + 1) * bs.n ^ (m.nd - 1) := by rw [Nat.add_mul, Nat.one_mul]
        _ ≤ (m.nd + 2) * bs.n ^ (m.nd - 1) := Nat.mul_le_mul_right _ hv
    rw [hgh]
    show _ = (if c.dir.s0 = true then (1 : ℝ) else -1) * ((w.buf (c.side false) true (v * bs.n ^ (m.nd - 1) + k) + _) / 2)
    ring
  constructor
  · rw [Mesh.boundaryFluxDiff]
    refine List.sum_eq_zero fun x hx => ?_
    obtain ⟨c, hc, rfl⟩ := List.mem_map.1 hx
    refine mul_eq_zero_of_right _ (Finset.sum_eq_zero fun k hk => mul_eq_zero_of_right _ ?_)
    have hk := Finset.mem_range.1 hk
    have hB := hw c (List.mem_filter.1 hc).1 (List.mem_filter.1 hc).2
    rw [key m.nd (by omega) c hc k hk]
    cases hwl : wall c with
    | nonpenetration =>
      have h := (nonpenetration_diffusion m.nd _ (fun v => w.buf (c.side false) true (v * bs.n ^ (m.nd - 1) + k)) (hB.normal k hk)).1
      simp only [Wall.flux]
      rw [h]; ring
    | noSlip co q =>
      obtain rfl := hco c co q hwl
      have h := (no_slip_diffusion m.nd (prescribedHeatFlux q) (fun _ => 0) (fun i => c.normal (i * bs.n ^ (m.nd - 1) + k)) (fun v => w.buf (c.side false) true (v * bs.n ^ (m.nd - 1) + k))
        (if c.dir.s0 then 1 else -1) (by split <;> norm_num)).1
      simp only [Wall.flux]
      rw [h]; ring
  · rw [Mesh.boundaryFluxDiff, heatLoss]
    congr 1
    refine List.map_congr_left fun c hc => ?_
    congr 1
    refine Finset.sum_congr rfl fun k hk => ?_
    have hk := Finset.mem_range.1 hk
    have hB := hw c (List.mem_filter.1 hc).1 (List.mem_filter.1 hc).2
    rw [key (m.nd + 1) (by omega) c hc k hk]
    congr 1
    cases hwl : wall c with
    | nonpenetration =>
      have h := (nonpenetration_diffusion m.nd _ (fun v => w.buf (c.side false) true (v * bs.n ^ (m.nd - 1) + k)) (hB.normal k hk)).2.1
      simp only [Wall.flux]
      rw [h]; ring
    | noSlip co q =>
      obtain rfl := hco c co q hwl
      have h := (no_slip_diffusion m.nd (prescribedHeatFlux q) (fun _ => 0) (fun i => c.normal (i * bs.n ^ (m.nd - 1) + k)) (fun v => w.buf (c.side false) true (v * bs.n ^ (m.nd - 1) + k))
        (if c.dir.s0 then 1 else -1) (by split <;> norm_num)).2
      simp only [Wall.flux]
      rw [h]; rfl

/-! ## Whole time steps -/

theorem ns_additive (nd : Nat) (visc : Bool) (mu kappa : Transport) : (ns nd visc mu kappa).Additive id := by
  intro upd crit st v hv
  have hv' : v < nd + 2 := hv
  simp [ns, hv']

theorem ns_block (nd : Nat) (visc : Bool) (mu kappa : Transport) : (ns nd visc mu kappa).blockSize = (ns nd visc mu kappa).nUpdate := by
  simp only [Pde.blockSize, ns]; omega

/-- C48: the balance of a whole flow step with any boundary conditions; `w1` is the state after the first stage. -/
theorem flow_stages_balance {b : Basis.Nodes ℝ} {deg : Nat} (hb : GoodBasis b deg) (hof : bs.IsOf b) (hm : m.Ok bs) (ht : ∀ e ∈ m.elems, ∀ q < bs.n ^ m.nd, (m.elem e).tss q ≠ 0)
    (useLdg : Bool) (mu kappa : Transport) (sr dt : ℝ) (filter : Bool) {state_bc flux_bc : World → World} (hs : GhostOnly state_bc) (hf : GhostOnly flux_bc) {w w1 w' : World}
    (h1 : (if useLdg then computeDiffusion (ns m.nd true mu kappa) bs m flux_bc sr dt false false filter (state_bc w)
      else computeConvection (ns m.nd false mu kappa) bs m sr dt false false filter (state_bc w)) = some w1)
    (h2 : computeConvection (ns m.nd false mu kappa) bs m sr dt true false filter (state_bc w1) = some w') (v : Nat) (hv : v < m.nd + 2) :
    m.change bs w.state w'.state v =
      -dt * ((1 - sr) * m.boundaryFlux (ns m.nd false mu kappa) bs (state_bc w).buf v + sr * m.boundaryFlux (ns m.nd false mu kappa) bs (state_bc w1).buf v) -
      (if useLdg then dt * m.boundaryFluxDiff (ns m.nd true mu kappa) bs (ldgWorld (ns m.nd true mu kappa) bs m flux_bc ⟨dt, false, false, filter⟩ (state_bc w)).buf v else 0) := by
  have hc := conservative_of hb hof
  have nosrc : ∀ vi st, m.totalSource (ns m.nd vi mu kappa) bs st v = 0 := fun vi st => by simp [Mesh.totalSource, ns]
  have e2 := conv_stage1 hc hm ht (ns m.nd false mu kappa) rfl rfl (ns_block _ _ _ _) (le_refl _) id (ns_additive _ _ _ _) sr dt filter _ w' h2 v hv
  rw [(hs w1).1, (hs w1).2.1] at e2
  cases useLdg with
  | false =>
    simp only [Bool.false_eq_true, if_false] at h1 ⊢
    obtain ⟨a, c⟩ := conv_stage0 hc hm ht (ns m.nd false mu kappa) rfl rfl (ns_block _ _ _ _) (le_refl _) id (ns_additive _ _ _ _) sr dt filter _ w1 h1 v hv
    rw [(hs w).1, nosrc] at a
    rw [c] at e2
    rw [change_trans m bs w.state w1.state]
    have a' : m.change bs w.state w1.state v = _ := a
    have e2' : m.change bs w1.state w'.state v = _ := e2
    rw [a', e2']; ring
  | true =>
    simp only [if_true] at h1 ⊢
    have a := diff_stage0 hc hm ht (ns m.nd true mu kappa) rfl (ns_block _ _ _ _) (le_refl _) id (ns_additive _ _ _ _) flux_bc hf sr dt filter _ w1 h1 v hv
    have c := diff_cache hc hm (ns m.nd true mu kappa) rfl (ns_block _ _ _ _) (le_refl _) flux_bc hf sr dt filter _ w1 h1 v hv
    have same : ∀ x, m.boundaryFlux (ns m.nd true mu kappa) bs x v = m.boundaryFlux (ns m.nd false mu kappa) bs x v := fun x => rfl
    rw [(hs w).1, nosrc, same] at a
    rw [c, same] at e2
    rw [change_trans m bs w.state w1.state]
    have a' : m.change bs w.state w1.state v = _ := a
    have e2' : m.change bs w1.state w'.state v = _ := e2
    have hcv : (ns m.nd true mu kappa).hasConv = true := rfl
    rw [hcv, if_pos rfl] at a'
    rw [a', e2']; ring

/-- C48: the balance of a whole flow step with any boundary conditions. -/
theorem flow_step_balance {b : Basis.Nodes ℝ} {deg : Nat} (hb : GoodBasis b deg) (hof : bs.IsOf b) (hm : m.Ok bs) (ht : ∀ e ∈ m.elems, ∀ q < bs.n ^ m.nd, (m.elem e).tss q ≠ 0)
    (useLdg : Bool) (mu kappa : Transport) (sr dt : ℝ) (filter : Bool) {state_bc flux_bc : World → World} (hs : GhostOnly state_bc) (hf : GhostOnly flux_bc) {w w' : World}
    (hw : flowStep useLdg mu kappa bs m sr dt filter state_bc flux_bc w = some w') :
    ∃ w1, ∀ v < m.nd + 2, m.change bs w.state w'.state v =
      -dt * ((1 - sr) * m.boundaryFlux (ns m.nd false mu kappa) bs (state_bc w).buf v + sr * m.boundaryFlux (ns m.nd false mu kappa) bs (state_bc w1).buf v) -
      (if useLdg then dt * m.boundaryFluxDiff (ns m.nd true mu kappa) bs (ldgWorld (ns m.nd true mu kappa) bs m flux_bc ⟨dt, false, false, filter⟩ (state_bc w)).buf v else 0) := by
  rw [flowStep, Option.bind_eq_some_iff] at hw
  obtain ⟨w1, h1, h2⟩ := hw
  exact ⟨w1, flow_stages_balance hb hof hm ht useLdg mu kappa sr dt filter hs hf h1 h2⟩

/-- C51: in a domain bounded by walls, with the same time step everywhere, the total mass never changes, and the total energy changes only by
the heat fluxes prescribed at no-slip walls (exactly; not at all for an inviscid gas or for insulated walls): any number of time steps of
any sizes, any valid mesh, any state. -/
theorem walls_conserve {b : Basis.Nodes ℝ} {deg : Nat} (hb : GoodBasis b deg) (hof : bs.IsOf b) (hm : m.Ok bs) (hwb : WallBounded m bs) (ht : ∀ e ∈ m.elems, ∀ q < bs.n ^ m.nd, (m.elem e).tss q = 1)
    (hco : ∀ c co q, wall c = .noSlip co q → co = 2) (useLdg : Bool) (mu kappa : Transport) (sr : ℝ) (filter : Bool) (dts : List ℝ) :
    ∀ {w w' : World}, flow useLdg mu kappa bs m sr filter (wallState bs m wall) (wallFlux bs m wall) dts w = some w' →
      m.total bs w'.state m.nd = m.total bs w.state m.nd ∧
      m.total bs w'.state (m.nd + 1) = m.total bs w.state (m.nd + 1) - (if useLdg then dts.sum * heatLoss bs m wall else 0) := by
  have hs : GhostOnly (wallState bs m wall) := runBc_ghostOnly _ _ _ _ _ _
  have hf : GhostOnly (wallFlux bs m wall) := runBc_ghostOnly _ _ _ _ _ _
  induction dts with
  | nil =>
    intro w w' h
    simp only [flow, List.foldlM_nil] at h
    cases h; simp
  | cons dt l ih =>
    intro w w' h
    rw [flow, List.foldlM_cons] at h
    obtain ⟨wm, h1, h2⟩ := Option.bind_eq_some_iff.1 h
    obtain ⟨i1, i2⟩ := ih h2
    obtain ⟨w1, hbal⟩ := flow_step_balance hb hof hm (fun e he q hq => by rw [ht e he q hq]; norm_num) useLdg mu kappa sr dt filter hs hf h1
    obtain ⟨c1, c2⟩ := wall_convection wall hm hwb false mu kappa w
    obtain ⟨c3, c4⟩ := wall_convection wall hm hwb false mu kappa w1
    rw [i1, i2, total_change m bs ht w.state wm.state m.nd, total_change m bs ht w.state wm.state (m.nd + 1), hbal m.nd (by omega), hbal (m.nd + 1) (by omega), c1, c2, c3, c4]
    cases useLdg with
    | false => simp
    | true =>
      simp only [if_true]
      have hl : ∀ o x, ldgWorld (ns m.nd true mu kappa) bs m (wallFlux bs m wall) o x = wallFlux bs m wall (runProlong (ns m.nd true mu kappa) bs m true true (runLocal (ns m.nd true mu kappa) bs m o
        (runRestrict (ns m.nd true mu kappa) bs m false true (runRestrict (ns m.nd true mu kappa) bs m true false (runNeighbor (ns m.nd true mu kappa) bs m x))))) := fun _ _ => rfl
      rw [hl, (wall_diffusion wall hm hwb hco true mu kappa _).1, (wall_diffusion wall hm hwb hco true mu kappa _).2, List.sum_cons]
      constructor <;> ring

end

/-! ## Non-vacuity: a tube with an insulated no-slip wall at one end and a nonpenetration wall at the other -/

example (w w' : World) (mu kappa : Transport) (sr : ℝ) (dts : List ℝ) (wall : ConRec → Wall) (hwall : ∀ c, wall c = if c.dir.s0 then .noSlip 2 0 else .nonpenetration)
    (h : flow true mu kappa (ofNodes gauss2) exBound sr true (wallState (ofNodes gauss2) exBound wall) (wallFlux (ofNodes gauss2) exBound wall) dts w = some w') :
    exBound.total (ofNodes gauss2) w'.state 1 = exBound.total (ofNodes gauss2) w.state 1 :=
  (walls_conserve wall gauss2_good (ofNodes_isOf _) (exBound_ok _) (by
      intro c hc _
      simp only [exBound, List.mem_cons, List.not_mem_nil, or_false] at hc
      rcases hc with rfl | rfl <;> refine ⟨rfl, ⟨rfl, rfl⟩, fun k _ => ?_⟩ <;> simp [dotN, exBound])
    (fun _ _ _ _ => rfl) (by
      intro c co q hq
      rw [hwall] at hq
      split at hq <;> cases hq
      rfl) true mu kappa sr true dts h).1

/-- The steps are always defined. -/
theorem flowStep_defined (useLdg : Bool) (mu kappa : Transport) (bs : BasisData) (m : Mesh) (sr dt : ℝ) (filter : Bool) (sbc fbc : World → World) (w : World) :
    ∃ w', flowStep useLdg mu kappa bs m sr dt filter sbc fbc w = some w' := by
  cases useLdg <;> simp [flowStep, computeConvection, computeDiffusion, ns]

end
end Hexed.Solver
