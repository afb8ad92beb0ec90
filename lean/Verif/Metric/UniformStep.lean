import Verif.Metric.UniformFlow
set_option autoImplicit false
set_option linter.unusedVariables false

/-!
# Viscous stages and any number of steps
-/

namespace Hexed.Metric
open Hexed.Spatial Hexed.Pde Hexed.Solver
open Hexed.RowIndex (RowIndex)
open Hexed.Connection (Dir matchFaces restore strAt Legal matchFaces_eq tπ fπ)
noncomputable section

variable {bs : BasisData} {b : Basis.Nodes ℝ} {deg : Nat} {m : Mesh} {N : Buf → Mem}

/-- Averages on both sides of all connections. -/
theorem avg_held (hn : 0 < bs.n) (hm : m.Ok bs) (mu kappa : Transport) (fs : Nat → ℝ) (w : World) (hf : Held bs m false fs w) : Held bs m true fs (runNeighbor (ns m.nd true mu kappa) bs m w) := by
  intro c hcm s v hv k hk
  rw [runNeighbor, (cons_fold _ m.cons w hm.sides_nodup).1 c hcm s]
  have hlt : v * bs.n ^ (m.nd - 1) + k < (ns m.nd true mu kappa).nExtrap * bs.n ^ (m.nd - 1) := block_lt (show v < m.nd + 2 from hv) hk
  have hdiff : (ns m.nd true mu kappa).hasDiff = true := rfl
  have havg : ∀ k < bs.n ^ (m.nd - 1), (1 : ℝ) / 2 * (w.buf (c.side false) false (v * bs.n ^ (m.nd - 1) + k) +
      (if c.deformed then matchFaces m.nd bs.n (ns m.nd true mu kappa).nExtrap c.dir (w.buf (c.side true) false) else w.buf (c.side true) false) (v * bs.n ^ (m.nd - 1) + k)) = fs v := by
    intro k hk
    rw [hf c hcm false v hv k hk]
    split
    · rw [matchFaces_eq m.nd bs.n _ hm.dim hn c.dir _ v k (show v < (ns m.nd true mu kappa).nExtrap from hv) hk,
        hf c hcm true v hv _ (Connection.tπ_lt _ _ hm.dim _ _ (Connection.fπ_lt _ _ hm.dim _ _ hk))]
      ring
    · rw [hf c hcm true v hv k hk]; ring
  cases s with
  | false =>
    simp only [neighbor, hdiff, hlt, decide_true, Bool.and_self, if_true, Bool.false_eq_true, if_false]
    exact havg k hk
  | true =>
    simp only [neighbor, hdiff, Bool.and_self, if_true, Bool.true_and]
    by_cases hd : c.deformed = true
    · rw [if_pos hd, restore_eq m.nd bs.n _ hm.dim hn c.dir _ v k (show v < (ns m.nd true mu kappa).nExtrap from hv) hk]
      have hp := Connection.fπ_lt _ _ hm.dim c.dir _ (Connection.tπ_lt _ _ hm.dim c.dir _ hk)
      have hlt' : v * bs.n ^ (m.nd - 1) + fπ m.nd bs.n c.dir (tπ m.nd bs.n c.dir k) < (ns m.nd true mu kappa).nExtrap * bs.n ^ (m.nd - 1) := block_lt (show v < m.nd + 2 from hv) hp
      have := havg _ hp
      simp only [hlt, hlt', decide_true, if_true, hd] at this ⊢
      exact this
    · rw [if_neg hd]
      have := havg k hk
      simp only [hlt, decide_true, if_true, hd] at this ⊢
      exact this

/-- Nothing is left to reconcile between zero fluxes. -/
theorem reconcile_none (hn : 0 < bs.n) (hm : m.Ok bs) (mu kappa : Transport) (w : World) (hf : Held bs m true (fun _ => 0) w) : Held bs m true (fun _ => 0) (runReconcileCons (ns m.nd true mu kappa) bs m w) := by
  intro c hcm s v hv k hk
  rw [runReconcileCons, (cons_fold _ m.cons w hm.sides_nodup).1 c hcm s]
  have hz : ∀ k < bs.n ^ (m.nd - 1), (if c.deformed then matchFaces m.nd bs.n (ns m.nd true mu kappa).nExtrap c.dir (w.buf (c.side true) true) else w.buf (c.side true) true) (v * bs.n ^ (m.nd - 1) + k) = 0 := by
    intro k hk
    split
    · rw [matchFaces_eq m.nd bs.n _ hm.dim hn c.dir _ v k (show v < (ns m.nd true mu kappa).nExtrap from hv) hk,
        hf c hcm true v hv _ (Connection.tπ_lt _ _ hm.dim _ _ (Connection.fπ_lt _ _ hm.dim _ _ hk))]
    · exact hf c hcm true v hv k hk
  have hlt : ∀ k < bs.n ^ (m.nd - 1), v * bs.n ^ (m.nd - 1) + k < (ns m.nd true mu kappa).nUpdate * bs.n ^ (m.nd - 1) := fun k hk => block_lt (show v < m.nd + 2 from hv) hk
  cases s with
  | false =>
    simp only [neighborReconcile, hlt k hk, decide_true, Bool.and_self, if_true, Bool.false_eq_true, if_false]
    rw [hz k hk, hf c hcm false v hv k hk]; ring
  | true =>
    simp only [neighborReconcile, Bool.and_self, if_true, Bool.true_and]
    by_cases hd : c.deformed = true
    · rw [if_pos hd, restore_eq m.nd bs.n _ hm.dim hn c.dir _ v k (show v < (ns m.nd true mu kappa).nExtrap from hv) hk]
      have hp := Connection.fπ_lt _ _ hm.dim c.dir _ (Connection.tπ_lt _ _ hm.dim c.dir _ hk)
      have h1 := hz _ hp
      have h2 := hf c hcm false v hv _ hp
      have h3 := hlt _ hp
      have h4 := hlt _ hk
      simp only [h3, h4, decide_true, if_true, hd] at h1 h2 ⊢
      rw [h1, h2]; ring
    · rw [if_neg hd]
      have h1 := hz k hk
      have h2 := hf c hcm false v hv k hk
      have h3 := hlt k hk
      simp only [h3, decide_true, if_true, hd] at h1 h2 ⊢
      rw [h1, h2]; ring

/-- A viscous stage. -/
theorem uniform_diff_stage (hof : bs.IsOf b) (hb : b.Exact deg) (hn : 0 < bs.n) (hdeg : b.n ≤ deg + 1) (hm : m.Ok bs) (hN : Sealed bs m N) (mu kappa : Transport) (fs : Nat → ℝ)
    (fluxBc : World → World) (hfb : GhostOnly fluxBc) (hfz : ∀ w, HeldIn bs m true (fun _ => 0) w → Held bs m true (fun _ => 0) (fluxBc w)) (sr dt : ℝ) (filter : Bool) (w w' : World)
    (hs : ∀ e ∈ m.elems, ∀ q < bs.n ^ m.nd, ∀ v < m.nd + 2, w.state e (v, q) = fs v) (hf : Held bs m false fs w)
    (hrun : computeDiffusion (ns m.nd true mu kappa) bs m fluxBc sr dt false false filter w = some w') :
    (∀ e ∈ m.elems, ∀ q < bs.n ^ m.nd, ∀ v, w'.state e (v, q) = w.state e (v, q)) ∧ HeldIn bs m false fs w' ∧
      (∀ e ∈ m.elems, ∀ v < m.nd + 2, ∀ q < bs.n ^ m.nd, w'.cache e (v, q) = 0) := by
  have hn' : 0 < b.n := by rw [← hof.n]; exact hn
  have hflux0 := elem_flux hn hm hN true mu kappa fs w hf
  have havg0 := avg_held hn hm mu kappa fs w hf
  have hcz := fun e he => conv_zero hn hN true mu kappa fs (e := e) he
  have hgz := fun e he => grad_zero hof hb.distinct hn hN true mu kappa fs (e := e) he
  have hwc := write_const hof hb.distinct hn m.nd true mu kappa fs
  have hdl := ns_diffLocal m.nd true mu kappa
  set p := ns m.nd true mu kappa with hp
  have hdiff : p.hasDiff = true := rfl
  have hsrc : p.hasSource = false := rfl
  have hconv : p.hasConv = true := rfl
  have hnu : p.nUpdate = m.nd + 2 := rfl
  have hnx : p.nExtrap = m.nd + 2 := rfl
  have hB : p.blockSize = m.nd + 2 := by rw [Pde.blockSize, hnu, hnx]; omega
  simp only [computeDiffusion, Bool.and_false, Bool.or_self, Bool.false_eq_true, if_false, Bool.not_false, if_true, Option.some.injEq] at hrun
  obtain ⟨n1, n2, n3, n4⟩ := cons_fold (fun c st => neighbor p m.nd bs.n c.deformed c.dir c.normal st) m.cons w hm.sides_nodup
  have hflux : ∀ e ∈ m.elems, ∀ f < 2 * m.nd, ∀ v < m.nd + 2, ∀ k < bs.n ^ (m.nd - 1),
      (runRestrict p bs m false true (runRestrict p bs m true false (runNeighbor p bs m w))).buf (.elem e f) false (v * bs.n ^ (m.nd - 1) + k) =
        ∑ j ∈ Finset.range m.nd, unitFlux m.nd fs v j * N (.elem e f) (j * bs.n ^ (m.nd - 1) + k) := by
    intro e he f hf' v hv k hk
    have hr := (restrict_fold p bs hn m.nd false true m.refs (runRestrict p bs m true false (runNeighbor p bs m w)).buf hm.refs_nodup).2 (.elem e f) false (Or.inr (by simp))
    show m.refs.foldl (restrictRef p bs m.nd false true) (runRestrict p bs m true false (runNeighbor p bs m w)).buf (.elem e f) false _ = _
    rw [hr]
    exact hflux0 e he f hf' v hv k hk
  have havg : ∀ e ∈ m.elems, ∀ f < 2 * m.nd, ∀ v < m.nd + 2, ∀ k < bs.n ^ (m.nd - 1),
      (runRestrict p bs m false true (runRestrict p bs m true false (runNeighbor p bs m w))).buf (.elem e f) true (v * bs.n ^ (m.nd - 1) + k) = fs v := by
    refine restrict_held p rfl hn hm false true fs (fun r v mem hv h k hk => const_restrict hof hb hn' hdeg hm.dim r (fs v) mem v h hk) _ ?_
    intro c hcm s hg v hv k hk
    have hr := (restrict_fold p bs hn m.nd true false m.refs (runNeighbor p bs m w).buf hm.refs_nodup).2 (c.side s) true (Or.inr (by simp))
    show m.refs.foldl (restrictRef p bs m.nd true false) (runNeighbor p bs m w).buf (c.side s) true _ = _
    rw [hr]
    exact havg0 c hcm s v hv k hk
  set w2 := runRestrict p bs m false true (runRestrict p bs m true false (runNeighbor p bs m w)) with hw2
  set op : Opts := ⟨dt, false, false, filter⟩ with hop
  set w3 := runLocal p bs m op w2 with hw3
  set w4 := fluxBc (runProlong p bs m true true w3) with hw4
  set w6 := runRestrict p bs m true true (runReconcileCons p bs m w4) with hw6
  set w7 := runReconcileElems p bs m op w6 with hw7
  obtain ⟨l1, _, _⟩ := elems_fold m.nd (fun e => localKernel p bs m.nd op (m.elem e)) m.elems w2 hm.elems_nodup
  obtain ⟨k1, _, _⟩ := elems_fold m.nd (fun e => reconcileKernel p bs m.nd op (m.elem e)) m.elems w6 hm.elems_nodup
  have hw2s : w2.state = w.state := n3
  have hw2c : w2.cache = w.cache := n4
  have hw4s : w4.state = w3.state := (hfb _).1
  have hw4c : w4.cache = w3.cache := (hfb _).2.1
  have hw6s : w6.state = w3.state := ((cons_fold (fun c st => neighborReconcile p m.nd bs.n c.deformed c.dir st) m.cons w4 hm.sides_nodup).2.2.1).trans hw4s
  have hw6c : w6.cache = w3.cache := ((cons_fold (fun c st => neighborReconcile p m.nd bs.n c.deformed c.dir st) m.cons w4 hm.sides_nodup).2.2.2).trans hw4c
  have hst2 : ∀ e ∈ m.elems, ∀ q < bs.n ^ m.nd, ∀ v < m.nd + 2, w2.state e (v, q) = fs v := by rw [hw2s]; exact hs
  have hdf : ∀ e ∈ m.elems, ∀ d < m.nd, ∀ v < m.nd + 2, ∀ q < bs.n ^ m.nd, diffFlux p bs m.nd (m.elem e) (w2.state e) (fun f => w2.buf (.elem e f) true) d (v, q) = 0 := by
    intro e he d hd v hv q hq
    have hg : ∀ v < p.nExtrap, ∀ j < m.nd, gradient p bs m.nd (m.elem e) (w2.state e) (fun f => w2.buf (.elem e f) true) j (v, q) = 0 :=
      fun v hv j hj => hgz e he (w2.state e) (hst2 e he) (fun f => w2.buf (.elem e f) true) (havg e he) hj hv hq
    simp only [diffFlux]
    rw [hdl _ _ _ (fun _ _ => 0) ?_ v hv d hd]
    · show fluxDiff m.nd mu kappa _ _ _ v d = 0
      exact fluxDiff_zero _ _ _ _ _ _ (fun _ _ => rfl) v d
    · intro v hv j hj
      cases (m.elem e).geom with
      | none => exact hg v hv j hj
      | some g =>
        beta_reduce
        simp only
        rw [hg v hv j hj, zero_div]
  have hrate : ∀ e ∈ m.elems, ∀ v < 2 * (m.nd + 2), ∀ q < bs.n ^ m.nd, (localRate p bs m.nd op (m.elem e) (w2.state e) (fun f => w2.buf (.elem e f) false) fun f => w2.buf (.elem e f) true).1 (v, q) = 0 := by
    intro e he
    have raw : ∀ v < 2 * (m.nd + 2), ∀ q < bs.n ^ m.nd, (overRows m.nd bs.n (residualRow p bs (convFlux p m.nd (m.elem e) (w2.state e)) (diffFlux p bs m.nd (m.elem e) (w2.state e) fun f => w2.buf (.elem e f) true) fun f => w2.buf (.elem e f) false)
        (initRate p (m.elem e) op.stage (w2.state e), fun f => w2.buf (.elem e f) true)).1 (v, q) = 0 := by
      intro v hv q hq
      rw [residual_at p bs hn m.nd _ _ _ _ hq v]
      have hi : initRate p (m.elem e) op.stage (w2.state e) (v, q) = 0 := by
        simp only [initRate, hsrc, Bool.false_eq_true, false_and, if_false]
        rw [if_neg (by rw [hnu, hnx]; omega)]
      rw [show (initRate p (m.elem e) op.stage (w2.state e), fun f => w2.buf (.elem e f) true).1 (v, q) = 0 from hi, zero_add]
      by_cases h : v < m.nd + 2
      · refine (Finset.sum_congr rfl fun d _ => ?_).trans (hcz e he (w2.state e) (hst2 e he) (fun f => w2.buf (.elem e f) false) (hflux e he) h hq)
        rw [if_pos ⟨hconv, by rw [hnu]; exact h⟩, if_neg (by rw [hB]; omega), add_zero]
      · refine Finset.sum_eq_zero fun d hd => ?_
        have hd := Finset.mem_range.1 hd
        rw [if_neg (by rw [hnu]; omega), if_pos ⟨hdiff, by rw [hB]; omega, by rw [hB, hnu]; omega⟩, zero_add, neg_eq_zero, Basis.derivInterior, Basis.range_sum]
        refine Finset.sum_eq_zero fun i hi => ?_
        rw [readRow_after hn hd, hdf e he d hd _ (by rw [hB]; omega) _ (pt_lt hn hd (rowOf_lt hn hd hq) (Finset.mem_range.1 hi)), mul_zero]
    intro v hv q hq
    simp only [localRate]
    split
    · exact filter_zero bs hn m.nd _ _ (2 * p.nUpdate) raw v hv q hq
    · exact raw v hv q hq
  have hst3 : ∀ e ∈ m.elems, ∀ q < bs.n ^ m.nd, ∀ v, w3.state e (v, q) = w.state e (v, q) := by
    intro e he q hq v
    rw [show w3.state e = _ from (l1 e he).1]
    simp only [localKernel]
    rw [ns_zero _ _ _ _ _ _ _ ?_, hw2s]
    intro v hv
    have a1 := hrate e he v (by omega) q hq
    have a2 := hrate e he (m.nd + 2 + v) (by omega) q hq
    rw [hop] at a1 a2
    simp [hop, hdiff, hB, a1, a2]
  have hca3 : ∀ e ∈ m.elems, ∀ v < m.nd + 2, ∀ q < bs.n ^ m.nd, w3.cache e (v, q) = 0 := by
    intro e he v hv q hq
    rw [show w3.cache e = _ from (l1 e he).2.1]
    have a1 := hrate e he v (by omega) q hq
    rw [hop] at a1
    simp [localKernel, hop, hnu, hv, hconv, a1]
  have hv3 : ∀ e ∈ m.elems, ∀ f < 2 * m.nd, ∀ v < m.nd + 2, ∀ k < bs.n ^ (m.nd - 1), w3.buf (.elem e f) true (v * bs.n ^ (m.nd - 1) + k) = 0 := by
    intro e he f hf' v hv k hk
    rw [show w3.buf (.elem e f) true = _ from ((l1 e he).2.2 f hf').2]
    simp only [localKernel, localRate]
    rw [residual_visc, if_pos hdiff, hnu]
    have h1 := (bounds_apply m.nd bs.n hn (m.nd + 2) (fun i_dim r => matRow bs.n bs.bound (readRow (diffFlux p bs m.nd (m.elem e) (w2.state e) (fun f => w2.buf (.elem e f) true) i_dim) 0 r)) (fun f => w2.buf (.elem e f) true)).1 v hv (f / 2) (by omega) k hk (f % 2) (by omega)
    rw [show 2 * (f / 2) + f % 2 = f by omega] at h1
    refine h1.trans ?_
    rw [matRow, Basis.range_sum]
    refine Finset.sum_eq_zero fun i hi => ?_
    rw [readRow_after hn (by omega : f / 2 < m.nd), hdf e he _ (by omega) v hv _ (pt_lt hn (by omega) hk (Finset.mem_range.1 hi)), mul_zero]
  have h4 : Held bs m true (fun _ => 0) w4 := hfz _ (prolong_held p rfl hn hm true true (fun _ => 0) (fun str i base v mem hv h k hk => dims_zero hn _ _ _ _ _ _ h k hk) w3 hv3)
  have h6 : ∀ e ∈ m.elems, ∀ f < 2 * m.nd, ∀ v < m.nd + 2, ∀ k < bs.n ^ (m.nd - 1), w6.buf (.elem e f) true (v * bs.n ^ (m.nd - 1) + k) = 0 := by
    refine restrict_held p rfl hn hm true true (fun _ => 0) (fun r v mem hv h k hk => ?_) _ (fun c hcm s _ => reconcile_none hn hm mu kappa w4 h4 c hcm s)
    exact Finset.sum_eq_zero fun i hi => dims_zero hn _ _ _ _ _ _ (h i (Finset.mem_range.1 hi)) k hk
  have hst : ∀ e ∈ m.elems, ∀ q < bs.n ^ m.nd, ∀ v, w7.state e (v, q) = w.state e (v, q) := by
    intro e he q hq v
    have hz := reconcile_rate hof hn' (nd := m.nd) p (fun f => w6.buf (.elem e f) true) (fun f hf v hv k hk => by rw [← hof.n] at hk ⊢; exact h6 e he f hf v hv k hk) filter
    rw [show w7.state e = _ from (k1 e he).1]
    simp only [reconcileKernel, hop, Bool.false_eq_true, if_false]
    rw [ns_zero _ _ _ _ _ _ _ ?_, hw6s]
    · exact hst3 e he q hq v
    · intro v hv
      have := hz v hv q hq
      rw [this, zero_mul]
  refine ⟨fun e he q hq v => by rw [← hrun]; exact hst e he q hq v, ?_, ?_⟩
  · rw [← hrun]
    refine prolong_held p rfl hn hm false false fs (fun str i base v mem hv h k hk => const_prolong hof hb.distinct hn' hm.dim str i base (fs v) mem h hk) _ ?_
    intro e he f hf' v hv k hk
    rw [show w7.buf (.elem e f) false = _ from ((k1 e he).2.2 f hf').1]
    refine hwc _ ?_ _ f hf' v hv k hk
    intro q hq v hv
    have h2 := hst e he q hq v
    rw [hs e he q hq v hv] at h2
    rw [← h2]
    exact congrFun (k1 e he).1.symm (v, q)
  · intro e he v hv q hq
    rw [← hrun]
    show w7.cache e (v, q) = 0
    rw [show w7.cache e = _ from (k1 e he).2.1]
    simp only [reconcileKernel, hop, Bool.false_eq_true, if_false]
    rw [hw6c]
    exact hca3 e he v hv q hq

/-- Any number of steps, with any boundary procedure that keeps the free stream and zero fluxes. -/
theorem uniform_steps (hof : bs.IsOf b) (hb : b.Exact deg) (hn : 0 < bs.n) (hdeg : b.n ≤ deg + 1) (hm : m.Ok bs) (hN : Sealed bs m N) (fs : Nat → ℝ) (rule frule : Rule)
    (hr : ∀ c ∈ m.cons, (c.side true).isGhost = true → ∀ k < bs.n ^ (m.nd - 1), ∀ inside : Nat → ℝ, (∀ v < m.nd + 2, inside v = fs v) →
      ∀ v < m.nd + 2, rule c (fun i => c.normal (i * bs.n ^ (m.nd - 1) + k)) inside v = fs v)
    (hfr : ∀ c ∈ m.cons, (c.side true).isGhost = true → ∀ k < bs.n ^ (m.nd - 1), ∀ inside : Nat → ℝ, (∀ v < m.nd + 2, inside v = 0) →
      ∀ v < m.nd + 2, frule c (fun i => c.normal (i * bs.n ^ (m.nd - 1) + k)) inside v = 0)
    (useLdg : Bool) (mu kappa : Transport) (sr : ℝ) (filter : Bool) (dts : List ℝ) (w w' : World)
    (hs : ∀ e ∈ m.elems, ∀ q < bs.n ^ m.nd, ∀ v < m.nd + 2, w.state e (v, q) = fs v) (hf : HeldIn bs m false fs w)
    (hrun : flow useLdg mu kappa bs m sr filter (runBc m.nd bs.n (m.nd + 2) false rule m.cons) (runBc m.nd bs.n (m.nd + 2) true frule m.cons) dts w = some w') :
    ∀ e ∈ m.elems, ∀ q < bs.n ^ m.nd, ∀ v, w'.state e (v, q) = w.state e (v, q) := by
  have held : ∀ (x : Nat → ℝ) (off : Bool) (rl : Rule), (∀ c ∈ m.cons, (c.side true).isGhost = true → ∀ k < bs.n ^ (m.nd - 1), ∀ inside : Nat → ℝ, (∀ v < m.nd + 2, inside v = x v) →
      ∀ v < m.nd + 2, rl c (fun i => c.normal (i * bs.n ^ (m.nd - 1) + k)) inside v = x v) → ∀ w, HeldIn bs m off x w → Held bs m off x (runBc m.nd bs.n (m.nd + 2) off rl m.cons w) := by
    intro x off rl hrl w h c hcm s v hv k hk
    by_cases hg : (c.side s).isGhost = true
    · cases s with
      | false => rw [hm.ghost c hcm] at hg; cases hg
      | true =>
        rw [runBc_at hm.sides_nodup hcm hg, faceBc, if_pos (block_lt (show v < m.nd + 2 from hv) hk)]
        obtain ⟨e1, e2⟩ := Connection.divmod_of (a := v) hk
        rw [e1, e2]
        exact hrl c hcm hg k hk _ (fun v hv => h c hcm false (hm.ghost c hcm) v hv k hk) v hv
    · have hg : (c.side s).isGhost = false := by simpa using hg
      rw [(runBc_ghostOnly m.nd bs.n (m.nd + 2) off rl m.cons w).2.2 _ hg]
      exact h c hcm s hg v hv k hk
  have hbc := held fs false rule hr
  have hfbc := held (fun _ => 0) true frule hfr
  rw [flow] at hrun
  induction dts generalizing w with
  | nil =>
    simp only [List.foldlM_nil] at hrun
    cases hrun
    exact fun _ _ _ _ _ => rfl
  | cons dt l ih =>
    rw [List.foldlM_cons] at hrun
    obtain ⟨w2, hw2, hrest⟩ := Option.bind_eq_some_iff.1 hrun
    rw [flowStep] at hw2
    obtain ⟨w1, hw1, hw2⟩ := Option.bind_eq_some_iff.1 hw2
    set sb := runBc m.nd bs.n (m.nd + 2) false rule m.cons with hsb
    have hgo := runBc_ghostOnly m.nd bs.n (m.nd + 2) false rule m.cons
    have h1 : (∀ e ∈ m.elems, ∀ q < bs.n ^ m.nd, ∀ v, w1.state e (v, q) = w.state e (v, q)) ∧ HeldIn bs m false fs w1 ∧
        ∀ e ∈ m.elems, ∀ v < m.nd + 2, ∀ q < bs.n ^ m.nd, w1.cache e (v, q) = 0 := by
      cases useLdg with
      | true =>
        rw [if_pos rfl] at hw1
        have := uniform_diff_stage hof hb hn hdeg hm hN mu kappa fs _ (runBc_ghostOnly _ _ _ _ _ _) hfbc sr dt filter (sb w) w1 (by rw [(hgo w).1]; exact hs) (hbc w hf) hw1
        rw [(hgo w).1] at this
        exact this
      | false =>
        rw [if_neg (by simp)] at hw1
        obtain ⟨a1, a2, a3⟩ := uniform_conv hof hb.distinct hn hm hN mu kappa fs sr dt false filter (sb w) w1 (by rw [(hgo w).1]; exact hs) (hbc w hf) (by simp) hw1
        rw [(hgo w).1] at a1
        exact ⟨a1, a2, a3 rfl⟩
    obtain ⟨a1, a2, a3⟩ := h1
    have hs1 : ∀ e ∈ m.elems, ∀ q < bs.n ^ m.nd, ∀ v < m.nd + 2, w1.state e (v, q) = fs v := fun e he q hq v hv => (a1 e he q hq v).trans (hs e he q hq v hv)
    obtain ⟨c1, c2, _⟩ := uniform_conv hof hb.distinct hn hm hN mu kappa fs sr dt true filter (sb w1) w2 (by rw [(hgo w1).1]; exact hs1) (hbc w1 a2) (fun _ => by rw [(hgo w1).2.1]; exact a3) hw2
    rw [(hgo w1).1] at c1
    intro e he q hq v
    rw [ih w2 (fun e he q hq v hv => (c1 e he q hq v).trans (hs1 e he q hq v hv)) c2 hrest e he q hq v, c1 e he q hq v, a1 e he q hq v]

/-- The same with far-field conditions. -/
theorem uniform_far (hof : bs.IsOf b) (hb : b.Exact deg) (hn : 0 < bs.n) (hdeg : b.n ≤ deg + 1) (hm : m.Ok bs) (hN : Sealed bs m N) {fs : Nat → ℝ} (hfs : Admissible m.nd fs)
    (far : ConRec → Far) (cache : ConRec → Nat → ℝ) (hnz : ∀ c ∈ m.cons, (c.side true).isGhost = true → ∀ k < bs.n ^ (m.nd - 1), ∃ j < m.nd, c.normal (j * bs.n ^ (m.nd - 1) + k) ≠ 0)
    (useLdg : Bool) (mu kappa : Transport) (sr : ℝ) (filter : Bool) (dts : List ℝ) (w w' : World)
    (hs : ∀ e ∈ m.elems, ∀ q < bs.n ^ m.nd, ∀ v < m.nd + 2, w.state e (v, q) = fs v) (hf : HeldIn bs m false fs w)
    (hrun : flow useLdg mu kappa bs m sr filter (runBc m.nd bs.n (m.nd + 2) false (fun c => (far c).state m.nd fs c.dir.s0) m.cons)
      (runBc m.nd bs.n (m.nd + 2) true (fun c => (far c).flux m.nd (cache c) c.dir.s0) m.cons) dts w = some w') :
    ∀ e ∈ m.elems, ∀ q < bs.n ^ m.nd, ∀ v, w'.state e (v, q) = w.state e (v, q) := by
  refine uniform_steps hof hb hn hdeg hm hN fs (fun c => (far c).state m.nd fs c.dir.s0) (fun c => (far c).flux m.nd (cache c) c.dir.s0) ?_ ?_ useLdg mu kappa sr filter dts w w' hs hf hrun
  · intro c hcm hgh k hk inside hin v hv
    beta_reduce
    cases far c with
    | freestream => rfl
    | outflow => exact hin v hv
    | riemann =>
      show riemannState m.nd fs _ _ inside v = fs v
      rw [riemann_congr hin hv]
      refine riemann_freestream m.nd fs _ _ hfs ?_ v hv
      obtain ⟨j, hj, h0⟩ := hnz c hcm hgh k hk
      exact lt_of_lt_of_le (mul_self_pos.2 h0) (Finset.single_le_sum (f := fun i => c.normal (i * bs.n ^ (m.nd - 1) + k) * c.normal (i * bs.n ^ (m.nd - 1) + k)) (fun i _ => mul_self_nonneg _) (Finset.mem_range.2 hj))
  · intro c hcm hgh k hk inside hin v hv
    beta_reduce
    cases far c with
    | freestream => exact hin v hv
    | outflow => show -inside v = 0; rw [hin v hv, neg_zero]
    | riemann => exact riemannFlux_zero hin hv

end
end Hexed.Metric
