import Verif.Force.Lemmas
set_option autoImplicit false
set_option linter.unusedVariables false

/-!
# Fluxes through a boundary connection
-/

namespace Hexed.Force
open Hexed.Pde Hexed.Spatial Hexed.Solver
noncomputable section

variable {bs : BasisData} {m : Mesh}

/-- The surface normal at a point of a connection. -/
def nrmlAt (n nd : Nat) (c : ConRec) (k i : Nat) : ℝ := c.normal (i * n ^ (nd - 1) + k)
/-- A variable inside at a point of a connection. -/
def insideAt (n nd : Nat) (ldg : Bool) (c : ConRec) (w : World) (k v : Nat) : ℝ := w.buf (c.side false) ldg (v * n ^ (nd - 1) + k)

theorem ghost_at (hm : m.Ok bs) {ldg : Bool} {rule : Rule} {c : ConRec} (hc : c ∈ m.cons) (hg : (c.side true).isGhost = true) (w : World) {a k : Nat} (ha : a < m.nd + 2) (hk : k < bs.n ^ (m.nd - 1)) :
    (runBc m.nd bs.n (m.nd + 2) ldg rule m.cons w).buf (c.side true) ldg (a * bs.n ^ (m.nd - 1) + k) = rule c (nrmlAt bs.n m.nd c k) (insideAt bs.n m.nd ldg c w k) a := by
  rw [runBc_at (w := w) hm.sides_nodup hc hg, faceBc, (Connection.divmod_of hk).1, (Connection.divmod_of hk).2, if_pos]
  · rfl
  · calc a * bs.n ^ (m.nd - 1) + k < a * bs.n ^ (m.nd - 1) + bs.n ^ (m.nd - 1) := by omega
      _ = (a + 1) * bs.n ^ (m.nd - 1) := by rw [Nat.add_mul, Nat.one_mul]
      _ ≤ (m.nd + 2) * bs.n ^ (m.nd - 1) := Nat.mul_le_mul_right _ ha

theorem inside_same (hm : m.Ok bs) (ldg : Bool) (rule : Rule) {c : ConRec} (hc : c ∈ m.cons) (w : World) :
    (runBc m.nd bs.n (m.nd + 2) ldg rule m.cons w).buf (c.side false) = w.buf (c.side false) :=
  (runBc_ghostOnly m.nd bs.n (m.nd + 2) ldg rule m.cons w).2.2 _ (hm.ghost c hc)

/-- The convective momentum flux through a boundary where the ghost state is the state inside and nothing flows through. -/
theorem conFlux_met (hm : m.Ok bs) {rule : Rule} {c : ConRec} (hc : c ∈ m.cons) (hg : (c.side true).isGhost = true) (hB : IsBoundary m.nd bs.n c) (visc : Bool) (mu kappa : Transport) (w : World)
    {k : Nat} (hk : k < bs.n ^ (m.nd - 1)) (hmet : ∀ a < m.nd + 2, rule c (nrmlAt bs.n m.nd c k) (insideAt bs.n m.nd false c w k) a = insideAt bs.n m.nd false c w k a)
    (hdot : dotN m.nd (insideAt bs.n m.nd false c w k) (nrmlAt bs.n m.nd c k) = 0) {i : Nat} (hi : i < m.nd) :
    conFlux (ns m.nd visc mu kappa) m.nd bs.n c (fun s => (runBc m.nd bs.n (m.nd + 2) false rule m.cons w).buf (c.side s)) i k =
      Pres m.nd (insideAt bs.n m.nd false c w k) * ((if c.dir.s0 then (1 : ℝ) else -1) * nrmlAt bs.n m.nd c k i) := by
  rw [conFlux, match_boundary _ _ _ hB.dir.1]
  simp only [ite_self]
  have hn : conNormal c.deformed c.dir (bs.n ^ (m.nd - 1)) c.normal k = fun i => (if c.dir.s0 then (1 : ℝ) else -1) * nrmlAt bs.n m.nd c k i := by
    funext i; rw [conNormal, boundary_sign hB.deformed hB.dir false, if_pos hB.deformed]; rfl
  rw [hn, inside_same hm false rule hc w]
  have hu : (fun v => w.buf (c.side false) false (v * bs.n ^ (m.nd - 1) + k)) = insideAt bs.n m.nd false c w k := rfl
  rw [hu]
  set u := insideAt bs.n m.nd false c w k with hudef
  set nr := nrmlAt bs.n m.nd c k with hnr
  obtain ⟨a, ha⟩ := numFlux_ns m.nd visc mu kappa (fun i => (if c.dir.s0 then (1 : ℝ) else -1) * nr i) u
    (fun v => (runBc m.nd bs.n (m.nd + 2) false rule m.cons w).buf (c.side true) false (v * bs.n ^ (m.nd - 1) + k))
  rw [ha i (by omega)]
  have hgh : ∀ v < m.nd + 2, (runBc m.nd bs.n (m.nd + 2) false rule m.cons w).buf (c.side true) false (v * bs.n ^ (m.nd - 1) + k) = u v := fun v hv => by
    rw [ghost_at hm hc hg w hv hk]; exact hmet v hv
  have hfg : fluxConv m.nd (fun v => (runBc m.nd bs.n (m.nd + 2) false rule m.cons w).buf (c.side true) false (v * bs.n ^ (m.nd - 1) + k)) (fun i => (if c.dir.s0 then (1 : ℝ) else -1) * nr i) i =
      fluxConv m.nd u (fun i => (if c.dir.s0 then (1 : ℝ) else -1) * nr i) i := by
    rw [← fluxConv_fetch m.nd _ _ i (by omega), ← fluxConv_fetch m.nd u _ i (by omega)]
    congr 1
    funext v
    simp only [fetchExtrapState]
    split
    · rename_i hv; exact hgh v hv
    · rfl
  rw [hfg, hgh i (by omega), fluxConv]
  have hz : (sumN m.nd fun j => u j * ((if c.dir.s0 then (1 : ℝ) else -1) * nr j)) = 0 := by
    have e : (sumN m.nd fun j => u j * ((if c.dir.s0 then (1 : ℝ) else -1) * nr j)) = dotN m.nd (fun j => (if c.dir.s0 then (1 : ℝ) else -1) * nr j) u := by
      rw [dot_comm, sumN_eq]; rfl
    rw [e, dot_smul_left, dot_comm, hdot, mul_zero]
  simp only [if_pos hi, hz, pressure_eq]
  ring

/-- The diffusive flux of a variable through a boundary where the ghost flux of it is the flux inside. -/
theorem conFluxDiff_met (hm : m.Ok bs) {rule : Rule} {c : ConRec} (hc : c ∈ m.cons) (hg : (c.side true).isGhost = true) (hB : IsBoundary m.nd bs.n c) (visc : Bool) (mu kappa : Transport) (w : World)
    {k v : Nat} (hv : v < m.nd + 2) (hk : k < bs.n ^ (m.nd - 1)) (hmet : rule c (nrmlAt bs.n m.nd c k) (insideAt bs.n m.nd true c w k) v = insideAt bs.n m.nd true c w k v) :
    conFluxDiff (ns m.nd visc mu kappa) m.nd bs.n c (fun s => (runBc m.nd bs.n (m.nd + 2) true rule m.cons w).buf (c.side s)) v k =
      (if c.dir.s0 then (1 : ℝ) else -1) * insideAt bs.n m.nd true c w k v := by
  rw [conFluxDiff, match_boundary _ _ _ hB.dir.1]
  simp only [ite_self, boundary_sign hB.deformed hB.dir, inside_same hm true rule hc w, ghost_at hm hc hg w hv hk, hmet]
  rw [insideAt]; ring

end
end Hexed.Force
