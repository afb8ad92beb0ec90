import Verif.Repair.Lemmas
set_option autoImplicit false
set_option linter.unusedVariables false

/-!
# The diffusion of the repair in a uniform flow
-/

namespace Hexed.Repair
open Hexed.Spatial Hexed.Pde Hexed.Solver Hexed.StateFile Hexed.Metric Hexed.ArtVisc
noncomputable section

variable {bs : BasisData} {b : Basis.Nodes ℝ} {deg : Nat} {m : Mesh} {N : Buf → Mem}

/-- A diffusion step keeps uniform data. -/
theorem fix_stage (hof : bs.IsOf b) (hb : b.Exact deg) (hn : 0 < bs.n) (hdeg : b.n ≤ deg + 1) (hm : m.Ok bs) (hN : Sealed bs m N) (s : ℝ) (x : Nat → ℝ)
    (fluxBc : World → World) (hfb : GhostOnly fluxBc) (hfz : ∀ w, HoldsIn bs m (m.nd + 2) true (fun _ => 0) w → Holds bs m (m.nd + 2) true (fun _ => 0) (fluxBc w)) (sr : ℝ) (w w' : World)
    (hs : ∀ e ∈ m.elems, ∀ q < bs.n ^ m.nd, ∀ v < m.nd + 2, w.state e (v, q) = x v) (hf : Holds bs m (m.nd + 2) false x w)
    (hrun : computeDiffusion (fixThermAdmis m.nd) bs m fluxBc sr s false false false w = some w') :
    (∀ e ∈ m.elems, ∀ q < bs.n ^ m.nd, ∀ v, w'.state e (v, q) = w.state e (v, q)) ∧ HoldsIn bs m (m.nd + 2) false x w' := by
  have hn' : 0 < b.n := by rw [← hof.n]; exact hn
  set p := fixThermAdmis m.nd with hp
  have hdiff : p.hasDiff = true := rfl
  have hsrc : p.hasSource = false := rfl
  have hconv : p.hasConv = false := rfl
  have hnu : p.nUpdate = m.nd + 2 := rfl
  have hnx : p.nExtrap = m.nd + 2 := rfl
  have hB : p.blockSize = m.nd + 2 := fix_block _
  have havg0 := avg_held hn hm hdiff x w hf
  have hwu : ∀ u c s i, i < m.nd + 2 → p.writeUpdate u c s i = s i + u i := fun u c s i hi => if_pos hi
  have hwn : ∀ u c s i, ¬(i < m.nd + 2) → p.writeUpdate u c s i = s i := fun u c s i hi => if_neg hi
  simp only [computeDiffusion, Bool.and_false, Bool.or_self, Bool.false_eq_true, if_false, Bool.not_false, if_true, Option.some.injEq] at hrun
  obtain ⟨n1, n2, n3, n4⟩ := cons_fold (fun c st => neighbor p m.nd bs.n c.deformed c.dir c.normal st) m.cons w hm.sides_nodup
  have havg : ∀ e ∈ m.elems, ∀ f < 2 * m.nd, ∀ v < m.nd + 2, ∀ k < bs.n ^ (m.nd - 1),
      (runRestrict p bs m false true (runRestrict p bs m true false (runNeighbor p bs m w))).buf (.elem e f) true (v * bs.n ^ (m.nd - 1) + k) = x v := by
    refine restrict_held p (m.nd + 2) le_rfl hn hm false true x (fun r v mem hv h k hk => const_restrict hof hb hn' hdeg hm.dim r (x v) mem v h hk) _ ?_
    intro c hcm s hg v hv k hk
    have hr := (restrict_fold p bs hn m.nd true false m.refs (runNeighbor p bs m w).buf hm.refs_nodup).2 (c.side s) true (Or.inr (by simp))
    show m.refs.foldl (restrictRef p bs m.nd true false) (runNeighbor p bs m w).buf (c.side s) true _ = _
    rw [hr]
    exact havg0 c hcm s v hv k hk
  set w2 := runRestrict p bs m false true (runRestrict p bs m true false (runNeighbor p bs m w)) with hw2
  set op : Opts := ⟨s, false, false, false⟩ with hop
  set w3 := runLocal p bs m op w2 with hw3
  set w4 := fluxBc (runProlong p bs m true true w3) with hw4
  set w6 := runRestrict p bs m true true (runReconcileCons p bs m w4) with hw6
  set w7 := runReconcileElems p bs m op w6 with hw7
  obtain ⟨l1, _, _⟩ := elems_fold m.nd (fun e => localKernel p bs m.nd op (m.elem e)) m.elems w2 hm.elems_nodup
  obtain ⟨k1, _, _⟩ := elems_fold m.nd (fun e => reconcileKernel p bs m.nd op (m.elem e)) m.elems w6 hm.elems_nodup
  have hw2s : w2.state = w.state := n3
  have hw4s : w4.state = w3.state := (hfb _).1
  have hw6s : w6.state = w3.state := ((cons_fold (fun c st => neighborReconcile p m.nd bs.n c.deformed c.dir st) m.cons w4 hm.sides_nodup).2.2.1).trans hw4s
  have hst2 : ∀ e ∈ m.elems, ∀ q < bs.n ^ m.nd, ∀ v < p.nExtrap, p.fetchExtrap (fun u => w2.state e (u, q)) v = x v := by
    intro e he q hq v hv
    rw [hw2s]
    exact hs e he q hq v hv
  have hdf : ∀ e ∈ m.elems, ∀ d, ∀ v < m.nd + 2, ∀ q < bs.n ^ m.nd, diffFlux p bs m.nd (m.elem e) (w2.state e) (fun f => w2.buf (.elem e f) true) d (v, q) = 0 := by
    intro e he d v hv q hq
    have hg : ∀ j < m.nd, gradient p bs m.nd (m.elem e) (w2.state e) (fun f => w2.buf (.elem e f) true) j (v, q) = 0 :=
      fun j hj => grad_zero (p := p) hof hb.distinct hn hN x he (w2.state e) (hst2 e he) (fun f => w2.buf (.elem e f) true) (havg e he) hj hv hq
    simp only [diffFlux]
    show sumN m.nd _ = 0
    rw [sumN_eq]
    refine Finset.sum_eq_zero fun j hj => ?_
    have hj := Finset.mem_range.1 hj
    cases (m.elem e).geom with
    | none => simp only [hg j hj, neg_zero, zero_mul]
    | some g => simp only [hg j hj, zero_div, neg_zero, zero_mul]
  have hrate : ∀ e ∈ m.elems, ∀ u < 2 * (m.nd + 2), ∀ q < bs.n ^ m.nd, (localRate p bs m.nd op (m.elem e) (w2.state e) (fun f => w2.buf (.elem e f) false) fun f => w2.buf (.elem e f) true).1 (u, q) = 0 := by
    intro e he u hu q hq
    simp only [localRate, hop, Bool.false_eq_true, if_false]
    rw [residual_at p bs hn m.nd _ _ _ _ hq u]
    have h0 : initRate p (m.elem e) false (w2.state e) (u, q) = 0 := by
      simp only [initRate]
      rw [if_neg (by rw [hsrc]; simp), if_neg (by rw [hnu, hnx]; omega)]
    refine (congrArg (· + _) h0).trans ?_
    rw [zero_add]
    refine Finset.sum_eq_zero fun d hd => ?_
    have hd := Finset.mem_range.1 hd
    rw [if_neg (by rw [hconv]; simp), zero_add]
    split
    · next h =>
      rw [neg_eq_zero, Basis.derivInterior, Basis.range_sum]
      refine Finset.sum_eq_zero fun i hi => ?_
      rw [readRow_after hn hd, hdf e he d _ (by rw [hB]; omega) _ (pt_lt hn hd (rowOf_lt hn hd hq) (Finset.mem_range.1 hi)), mul_zero]
    · rfl
  have hst3 : ∀ e ∈ m.elems, ∀ q < bs.n ^ m.nd, ∀ v, w3.state e (v, q) = w.state e (v, q) := by
    intro e he q hq v
    rw [show w3.state e = _ from (l1 e he).1]
    simp only [localKernel]
    by_cases hv : v < m.nd + 2
    · have r1 := hrate e he v (by omega) q hq
      have r2 := hrate e he (m.nd + 2 + v) (by omega) q hq
      rw [hwu _ _ _ v hv]
      simp only [hop, hdiff, hsrc, Bool.false_eq_true, if_false, Bool.or_false, if_true, Bool.not_true, Bool.false_and, hB] at r1 r2 ⊢
      rw [r1, r2, hw2s]
      ring
    · rw [hwn _ _ _ _ hv, hw2s]
  have hv3 : ∀ e ∈ m.elems, ∀ f < 2 * m.nd, ∀ v < m.nd + 2, ∀ k < bs.n ^ (m.nd - 1), w3.buf (.elem e f) true (v * bs.n ^ (m.nd - 1) + k) = 0 := by
    intro e he f hf' v hv k hk
    rw [show w3.buf (.elem e f) true = _ from ((l1 e he).2.2 f hf').2]
    simp only [localKernel, localRate]
    rw [residual_visc, if_pos hdiff, hnu]
    have h1 := (bounds_apply m.nd bs.n hn (m.nd + 2) (fun i_dim r => matRow bs.n bs.bound (readRow (diffFlux p bs m.nd (m.elem e) (w2.state e) (fun f => w2.buf (.elem e f) true) i_dim) 0 r)) (fun f => w2.buf (.elem e f) true)).1 v hv (f / 2) (by omega) k hk (f % 2) (by omega)
    rw [show 2 * (f / 2) + f % 2 = f by omega] at h1
    refine h1.trans ?_
    rw [matRow, Basis.range_sum]
    refine Finset.sum_eq_zero fun i hi => ?_
    rw [readRow_after hn (by omega : f / 2 < m.nd), hdf e he _ v hv _ (pt_lt hn (by omega) hk (Finset.mem_range.1 hi)), mul_zero]
  have h4 : Holds bs m (m.nd + 2) true (fun _ => 0) w4 := hfz _ (prolong_held p (m.nd + 2) le_rfl hn hm true true (fun _ => 0) (fun str i base v mem hv h k hk => dims_zero hn _ _ _ _ _ _ h k hk) w3 hv3)
  have h6 : ∀ e ∈ m.elems, ∀ f < 2 * m.nd, ∀ v < m.nd + 2, ∀ k < bs.n ^ (m.nd - 1), w6.buf (.elem e f) true (v * bs.n ^ (m.nd - 1) + k) = 0 := by
    refine restrict_held p (m.nd + 2) le_rfl hn hm true true (fun _ => 0) (fun r v mem hv h k hk => ?_) _ (fun c hcm s _ => reconcile_none (p := p) hn hm le_rfl w4 h4 c hcm s)
    exact Finset.sum_eq_zero fun i hi => dims_zero hn _ _ _ _ _ _ (h i (Finset.mem_range.1 hi)) k hk
  have hst : ∀ e ∈ m.elems, ∀ q < bs.n ^ m.nd, ∀ v, w7.state e (v, q) = w.state e (v, q) := by
    intro e he q hq v
    have hz := reconcile_rate hof hn' (nd := m.nd) p (fun f => w6.buf (.elem e f) true) (fun f hf v hv k hk => by rw [← hof.n] at hk ⊢; exact h6 e he f hf v hv k hk) false
    simp only [Bool.false_eq_true, if_false] at hz
    rw [show w7.state e = _ from (k1 e he).1]
    simp only [reconcileKernel, hop, Bool.false_eq_true, if_false]
    by_cases hv : v < m.nd + 2
    · rw [hwu _ _ _ v hv, hz v hv q hq, zero_mul, add_zero, hw6s, hst3 e he q hq]
    · rw [hwn _ _ _ _ hv, hw6s, hst3 e he q hq]
  refine ⟨fun e he q hq v => by rw [← hrun]; exact hst e he q hq v, ?_⟩
  rw [← hrun]
  refine prolong_held p (m.nd + 2) le_rfl hn hm false false x (fun str i base v mem hv h k hk => const_prolong hof hb.distinct hn' hm.dim str i base (x v) mem h hk) _ ?_
  intro e he f hf' v hv k hk
  rw [show w7.buf (.elem e f) false = _ from ((k1 e he).2.2 f hf').1]
  refine write_const (p := p) hof hb.distinct hn m.nd x _ ?_ _ f hf' v hv k hk
  intro q hq v hv
  have h3 := hst e he q hq v
  rw [hs e he q hq v hv] at h3
  rw [← h3]
  exact congrFun (k1 e he).1.symm (v, q)

end
end Hexed.Repair
