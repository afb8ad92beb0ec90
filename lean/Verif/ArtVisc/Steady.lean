import Verif.ArtVisc.Uniform
import Verif.ArtVisc.Lemmas
set_option autoImplicit false
set_option linter.unusedVariables false

/-!
# Advection and smoothing in a uniform flow
-/

namespace Hexed.ArtVisc
open Hexed.Spatial Hexed.Pde Hexed.Solver Hexed.StateFile Hexed.Metric
open Hexed.RowIndex (RowIndex)
noncomputable section

variable {bs : BasisData} {b : Basis.Nodes ℝ} {deg : Nat} {m : Mesh} {N : Buf → Mem}

theorem readTss_sealed (hN : Sealed bs m N) (w : World) : Sealed bs (readTss m w) N := { hN with }

theorem mult_source {e : ElemRec} {q : Nat} (hs : 0 < e.size) (hd : e.det q ≠ 0) (dt x : ℝ) :
    (match e.geom with | none => e.size | some g => e.size * g.det q) * x * updateMult dt e q = dt * e.tss q * x := by
  rw [ElemRec.det] at hd
  rw [updateMult]
  cases hg : e.geom with
  | none => simp only; field_simp
  | some g => rw [hg] at hd; simp only at hd ⊢; field_simp

/-- After boundary conditions that keep `x`. -/
theorem bc_holds (hm : m.Ok bs) (nv : Nat) (off : Bool) (rule : Rule) (x : Nat → ℝ) {nb : Nat} (hnb : nv ≤ nb) (hr : ∀ c ∈ m.cons, (c.side true).isGhost = true → ∀ k < bs.n ^ (m.nd - 1), ∀ inside : Nat → ℝ, (∀ v < nv, inside v = x v) →
      ∀ v < nv, rule c (fun i => c.normal (i * bs.n ^ (m.nd - 1) + k)) inside v = x v) (w : World) (h : HoldsIn bs m nv off x w) : Holds bs m nv off x (runBc m.nd bs.n nb off rule m.cons w) := by
  intro c hcm s v hv k hk
  by_cases hg : (c.side s).isGhost = true
  · cases s with
    | false => rw [hm.ghost c hcm] at hg; cases hg
    | true =>
      rw [runBc_at hm.sides_nodup hcm hg, faceBc, if_pos (block_lt (hv.trans_le hnb) hk)]
      obtain ⟨e1, e2⟩ := Connection.divmod_of (a := v) hk
      rw [e1, e2]
      exact hr c hcm hg k hk _ (fun v hv => h c hcm false (hm.ghost c hcm) v hv k hk) v hv
  · have hg : (c.side s).isGhost = false := by simpa using hg
    rw [(runBc_ghostOnly m.nd bs.n nb off rule m.cons w).2.2 _ hg]
    exact h c hcm s hg v hv k hk

/-! ## Advection -/

/-- The data on faces: velocity and advected scalars equal to one. -/
def advX (nd : Nat) (vel : Nat → ℝ) (v : Nat) : ℝ := if v < nd then vel v else 1

/-- The uniform solution of the advection equations. -/
theorem advection_convOf (nd rs : Nat) (nodes : Nat → ℝ) (L : ℝ) (vel : Nat → ℝ) :
    ConvOf (advection nd rs nodes L) nd (fun s => (∀ v < nd, s v = vel v) ∧ ∀ i < rs, s (nd + 9 + i) = 1) (advX nd vel) (fun v j => nodes v * vel j) where
  conv := rfl
  vars := Nat.le_add_left _ _
  inside := by
    intro s hs normal v hv d
    show nodes v * sumN nd (fun j => s j * normal j d) * s (nd + 9 + v) = _
    rw [hs.2 v hv, mul_one, sumN_eq, Finset.mul_sum]
    exact Finset.sum_congr rfl fun j hj => by rw [hs.1 j (Finset.mem_range.1 hj)]; ring
  face := by
    intro u hu n v hv
    show nodes v * sumN nd (fun j => u j * n j) * u (nd + v) = _
    have h1 : u (nd + v) = 1 := by rw [hu (nd + v) (Nat.add_lt_add_left hv nd), advX, if_neg (by omega)]
    rw [h1, mul_one, sumN_eq, Finset.mul_sum]
    exact Finset.sum_congr rfl fun j hj => by
      have hj := Finset.mem_range.1 hj
      rw [hu j (Nat.lt_add_right _ hj), advX, if_pos hj]; ring
  upd := by
    intro u u' hu hu' v hv
    show u (nd + v) = u' (nd + v)
    rw [hu _ (Nat.add_lt_add_left hv nd), hu' _ (Nat.add_lt_add_left hv nd)]

/-- Each stage of the advection leaves the scalars equal to one. -/
theorem advect_stage (hof : bs.IsOf b) (hb : b.Distinct) (hn : 0 < bs.n) (hm : m.Ok bs) (hN : Sealed bs m N) (nodes : Nat → ℝ) {L : ℝ} (hL : L ≠ 0) (vel : Nat → ℝ) (sr : ℝ) (stage : Bool) (w w' : World)
    (hs : ∀ e ∈ m.elems, ∀ q < bs.n ^ m.nd, (∀ v < m.nd, w.state e (v, q) = vel v) ∧ ∀ i < bs.n, w.state e (m.nd + 9 + i, q) = 1)
    (ht : ∀ e ∈ m.elems, ∀ q < bs.n ^ m.nd, (m.elem e).tss q = w.state e (m.nd + 2, q) ∧ 1 + w.state e (m.nd + 2, q) * 2 / L ≠ 0)
    (hf : Holds bs m (m.nd + bs.n) false (advX m.nd vel) w) (hcache : stage = true → ∀ e ∈ m.elems, ∀ v < bs.n, ∀ q < bs.n ^ m.nd, w.cache e (v, q) = 0)
    (hrun : computeConvection (advection m.nd bs.n nodes L) bs m sr 1 stage false false w = some w') :
    (∀ e ∈ m.elems, ∀ q < bs.n ^ m.nd, ∀ v, w'.state e (v, q) = w.state e (v, q)) ∧ HoldsIn bs m (m.nd + bs.n) false (advX m.nd vel) w' ∧
      (stage = false → ∀ e ∈ m.elems, ∀ v < bs.n, ∀ q < bs.n ^ m.nd, w'.cache e (v, q) = 0) := by
  have hn' : 0 < b.n := by rw [← hof.n]; exact hn
  have hC := advection_convOf m.nd bs.n nodes L vel
  set p := advection m.nd bs.n nodes L with hp
  have hflux := elem_flux hn hm hN hC w hf
  have hdiff : p.hasDiff = false := rfl
  have hsrc : p.hasSource = true := rfl
  have hconv : p.hasConv = true := rfl
  have hnu : p.nUpdate = bs.n := rfl
  have hB : bs.n ≤ p.blockSize := le_max_left _ _
  simp only [computeConvection, hdiff, Bool.and_false, Bool.false_and, Bool.or_self, Bool.false_eq_true, if_false, Option.some.injEq] at hrun
  obtain ⟨n1, n2, n3, n4⟩ := cons_fold (fun c st => neighbor p m.nd bs.n c.deformed c.dir c.normal st) m.cons w hm.sides_nodup
  set w2 := runRestrict p bs m true false (runNeighbor p bs m w) with hw2
  set op : Opts := ⟨if stage then 1 * sr else 1, stage, false, false⟩ with hop
  obtain ⟨l1, _, _⟩ := elems_fold m.nd (fun e => localKernel p bs m.nd op (m.elem e)) m.elems w2 hm.elems_nodup
  have hw2s : w2.state = w.state := n3
  have hw2c : w2.cache = w.cache := n4
  have hrate : ∀ e ∈ m.elems, ∀ u, (u < bs.n ∨ p.blockSize ≤ u) → ∀ q < bs.n ^ m.nd, (localRate p bs m.nd op (m.elem e) (w2.state e) (fun f => w2.buf (.elem e f) false) fun f => w2.buf (.elem e f) true).1 (u, q) =
      initRate p (m.elem e) stage (w2.state e) (u, q) := by
    intro e he u hu q hq
    simp only [localRate, hop, Bool.false_eq_true, if_false]
    rw [residual_at p bs hn m.nd _ _ _ _ hq u]
    simp only [hdiff, Bool.false_eq_true, false_and, if_false, hconv, true_and, hnu, add_zero]
    rw [add_eq_left]
    by_cases hv : u < bs.n
    · simp only [if_pos hv]
      exact conv_zero hn hN hC he (w2.state e) (fun q hq => by rw [hw2s]; exact hs e he q hq) (fun f => w2.buf (.elem e f) false) (hflux e he) hv hq
    · simp only [if_neg hv, Finset.sum_const_zero]
  have hlow : ∀ e ∈ m.elems, ∀ v < bs.n, ∀ q, initRate p (m.elem e) stage (w2.state e) (v, q) = 0 := by
    intro e he v hv q
    simp only [initRate, hdiff, Bool.false_eq_true, false_and, if_false]
    rw [if_neg (by omega)]
  have hwu : ∀ u c s i, i < bs.n → p.writeUpdate u c s (m.nd + 9 + i) = if c then (s (m.nd + 9 + i) + u i) / (1 + s (m.nd + 2) * 2 / L) else s (m.nd + 9 + i) + u i / (1 + s (m.nd + 2) * 2 / L) := by
    intro u c s i hi
    show (if _ ∧ _ then _ else _) = _
    rw [if_pos ⟨by omega, by omega⟩, Nat.add_sub_cancel_left]
  have hst : ∀ e ∈ m.elems, ∀ q < bs.n ^ m.nd, ∀ v, w'.state e (v, q) = w.state e (v, q) := by
    intro e he q hq v
    have h1 : w'.state e = (localKernel p bs m.nd op (m.elem e) (w2.state e) (w2.cache e) (fun f => w2.buf (.elem e f) false) fun f => w2.buf (.elem e f) true).state := by
      rw [← hrun]
      exact (l1 e he).1
    rw [h1]
    simp only [localKernel]
    obtain ⟨ht1, ht2⟩ := ht e he q hq
    by_cases hv : m.nd + 9 ≤ v ∧ v < m.nd + 9 + bs.n
    · obtain ⟨i, rfl⟩ : ∃ i, v = m.nd + 9 + i := ⟨v - (m.nd + 9), by omega⟩
      have hi : i < bs.n := by omega
      have ha := (hs e he q hq).2 i hi
      have r1 := (hrate e he i (Or.inl hi) q hq).trans (hlow e he i hi q)
      have r2 := hrate e he (p.blockSize + i) (Or.inr (by omega)) q hq
      rw [hwu _ _ _ i hi]
      rw [hw2s] at r1 r2 ⊢
      cases stage with
      | false =>
        have r3 : initRate p (m.elem e) false (w.state e) (p.blockSize + i, q) = (match (m.elem e).geom with | none => (m.elem e).size | some g => (m.elem e).size * g.det q) * (2 / L) := by
          simp only [initRate]
          rw [if_pos ⟨hsrc, trivial, by omega, by rw [hnu]; omega⟩]
          rfl
        have hm' := mult_source (hm.size e he) (hm.det e he q hq) 1 (2 / L)
        simp only [hop, hdiff, hsrc, Bool.false_eq_true, if_false, Bool.or_true, if_true, Bool.not_false, Bool.and_self] at r1 r2 ⊢
        rw [r1, r2, r3, zero_add, hm', ha, ht1, one_mul, ← mul_div_assoc, div_self ht2]
      | true =>
        have hz := hcache rfl e he i hi q hq
        simp only [hop, hdiff, hw2c, if_true, Bool.false_eq_true, if_false, Bool.not_true, Bool.and_false] at r1 ⊢
        rw [r1, hz, sub_zero, zero_mul, zero_div, add_zero]
    · simp only [hp, advection, if_neg hv, hw2s]
  refine ⟨hst, ?_, ?_⟩
  · rw [← hrun]
    refine prolong_held p (m.nd + bs.n) le_rfl hn hm false false (advX m.nd vel) (fun str i base v mem hv h k hk => const_prolong hof hb hn' hm.dim str i base _ mem h hk) _ ?_
    intro e he f hf' v hv k hk
    have h1 := ((l1 e he).2.2 f hf').1
    rw [show (runLocal p bs m op w2).buf (.elem e f) false = _ from h1]
    simp only [localKernel, hdiff, Bool.false_eq_true, if_false]
    refine write_const hof hb hn m.nd (advX m.nd vel) _ ?_ _ f hf' v hv k hk
    intro q hq v hv
    have h2 : ∀ u, p.writeUpdate (fun v => _) (!p.hasDiff && !op.stage) (fun v => w2.state e (v, q)) u = w.state e (u, q) := fun u => by
      have h2 := hst e he q hq u
      rw [← hrun] at h2
      rw [← h2]
      exact congrFun (l1 e he).1.symm (u, q)
    show (if v < m.nd then _ else _) = _
    rw [advX]
    split
    · next hv' => exact (h2 v).trans ((hs e he q hq).1 v hv')
    · next hv' => exact (h2 _).trans ((hs e he q hq).2 (v - m.nd) (by have : v < m.nd + bs.n := hv; omega))
  · intro hstg e he v hv q hq
    have h1 : w'.cache e = (localKernel p bs m.nd op (m.elem e) (w2.state e) (w2.cache e) (fun f => w2.buf (.elem e f) false) fun f => w2.buf (.elem e f) true).cache := by
      rw [← hrun]
      exact (l1 e he).2.1
    rw [h1]
    have h0 := (hrate e he v (Or.inl hv) q hq).trans (hlow e he v hv q)
    simp only [localKernel, hop, hstg, hconv, hnu, if_pos hv] at h0 ⊢
    simpa using h0

/-! ## Smoothing -/

/-- A smoothing step keeps uniform forcing whose source equals it. -/
theorem smooth_stage (hof : bs.IsOf b) (hb : b.Exact deg) (hn : 0 < bs.n) (hdeg : b.n ≤ deg + 1) (hm : m.Ok bs) (hN : Sealed bs m N) {T : ℝ} (hT : T ≠ 0) (cheby : ℝ) (x : Nat → ℝ)
    (fluxBc : World → World) (hfb : GhostOnly fluxBc) (hfz : ∀ w, HoldsIn bs m 3 true (fun _ => 0) w → Holds bs m 3 true (fun _ => 0) (fluxBc w)) (sr : ℝ) (w w' : World)
    (hs : ∀ e ∈ m.elems, ∀ q < bs.n ^ m.nd, ∀ v < 3, w.state e (m.nd + 6 + v, q) = x v) (hsrcv : ∀ e ∈ m.elems, ∀ q < bs.n ^ m.nd, ∀ v < 3, (smoothArtVisc m.nd T cheby).source (fun u => w.state e (u, q)) v = x v / T)
    (ht : ∀ e ∈ m.elems, ∀ q < bs.n ^ m.nd, (m.elem e).tss q = w.state e (m.nd + 2, q) ∧ 1 + w.state e (m.nd + 2, q) * cheby / T ≠ 0) (hf : Holds bs m 3 false x w)
    (hrun : computeDiffusion (smoothArtVisc m.nd T cheby) bs m fluxBc sr cheby false false false w = some w') :
    (∀ e ∈ m.elems, ∀ q < bs.n ^ m.nd, ∀ v, w'.state e (v, q) = w.state e (v, q)) ∧ HoldsIn bs m 3 false x w' := by
  have hn' : 0 < b.n := by rw [← hof.n]; exact hn
  set p := smoothArtVisc m.nd T cheby with hp
  have hdiff : p.hasDiff = true := rfl
  have hsrc : p.hasSource = true := rfl
  have hconv : p.hasConv = false := rfl
  have hnu : p.nUpdate = 3 := rfl
  have hnx : p.nExtrap = 3 := rfl
  have hB : p.blockSize = 3 := by rw [Pde.blockSize, hnu, hnx]; omega
  have havg0 := avg_held hn hm hdiff x w hf
  have hwu : ∀ u c s i, i < 3 → p.writeUpdate u c s (m.nd + 6 + i) = if c then (s (m.nd + 6 + i) + u i) / (1 + s (m.nd + 2) * cheby / T) else s (m.nd + 6 + i) + u i := by
    intro u c s i hi
    show (if _ ∧ _ then _ else _) = _
    rw [if_pos ⟨by omega, by omega⟩, Nat.add_sub_cancel_left]
  have hwn : ∀ u c s i, ¬(m.nd + 6 ≤ i ∧ i < m.nd + 9) → p.writeUpdate u c s i = s i := fun u c s i hi => if_neg hi
  simp only [computeDiffusion, Bool.and_false, Bool.or_self, Bool.false_eq_true, if_false, Bool.not_false, if_true, Option.some.injEq] at hrun
  obtain ⟨n1, n2, n3, n4⟩ := cons_fold (fun c st => neighbor p m.nd bs.n c.deformed c.dir c.normal st) m.cons w hm.sides_nodup
  have havg : ∀ e ∈ m.elems, ∀ f < 2 * m.nd, ∀ v < 3, ∀ k < bs.n ^ (m.nd - 1),
      (runRestrict p bs m false true (runRestrict p bs m true false (runNeighbor p bs m w))).buf (.elem e f) true (v * bs.n ^ (m.nd - 1) + k) = x v := by
    refine restrict_held p 3 le_rfl hn hm false true x (fun r v mem hv h k hk => const_restrict hof hb hn' hdeg hm.dim r (x v) mem v h hk) _ ?_
    intro c hcm s hg v hv k hk
    have hr := (restrict_fold p bs hn m.nd true false m.refs (runNeighbor p bs m w).buf hm.refs_nodup).2 (c.side s) true (Or.inr (by simp))
    show m.refs.foldl (restrictRef p bs m.nd true false) (runNeighbor p bs m w).buf (c.side s) true _ = _
    rw [hr]
    exact havg0 c hcm s v hv k hk
  set w2 := runRestrict p bs m false true (runRestrict p bs m true false (runNeighbor p bs m w)) with hw2
  set op : Opts := ⟨cheby, false, false, false⟩ with hop
  set w3 := runLocal p bs m op w2 with hw3
  set w4 := fluxBc (runProlong p bs m true true w3) with hw4
  set w6 := runRestrict p bs m true true (runReconcileCons p bs m w4) with hw6
  set w7 := runReconcileElems p bs m op w6 with hw7
  obtain ⟨l1, _, _⟩ := elems_fold m.nd (fun e => localKernel p bs m.nd op (m.elem e)) m.elems w2 hm.elems_nodup
  obtain ⟨k1, _, _⟩ := elems_fold m.nd (fun e => reconcileKernel p bs m.nd op (m.elem e)) m.elems w6 hm.elems_nodup
  have hw2s : w2.state = w.state := n3
  have hw4s : w4.state = w3.state := (hfb _).1
  have hw6s : w6.state = w3.state := ((cons_fold (fun c st => neighborReconcile p m.nd bs.n c.deformed c.dir st) m.cons w4 hm.sides_nodup).2.2.1).trans hw4s
  have hst2 : ∀ e ∈ m.elems, ∀ q < bs.n ^ m.nd, ∀ v < p.nExtrap, p.fetchExtrap (fun u => w2.state e (u, q)) v = x v := by
    intro e he q hq v hv
    rw [hw2s]
    exact hs e he q hq v hv
  have hdf : ∀ e ∈ m.elems, ∀ d, ∀ v < 3, ∀ q < bs.n ^ m.nd, diffFlux p bs m.nd (m.elem e) (w2.state e) (fun f => w2.buf (.elem e f) true) d (v, q) = 0 := by
    intro e he d v hv q hq
    have hg : ∀ j < m.nd, gradient p bs m.nd (m.elem e) (w2.state e) (fun f => w2.buf (.elem e f) true) j (v, q) = 0 :=
      fun j hj => grad_zero (p := p) hof hb.distinct hn hN x he (w2.state e) (hst2 e he) (fun f => w2.buf (.elem e f) true) (havg e he) hj hv hq
    simp only [diffFlux]
    show sumN m.nd _ = 0
    rw [sumN_eq]
    refine Finset.sum_eq_zero fun j hj => ?_
    have hj := Finset.mem_range.1 hj
    cases (m.elem e).geom with
    | none => simp only [hg j hj, neg_zero, zero_mul]
    | some g => simp only [hg j hj, zero_div, neg_zero, zero_mul]
  have hrate : ∀ e ∈ m.elems, ∀ v < 3, ∀ q < bs.n ^ m.nd,
      (localRate p bs m.nd op (m.elem e) (w2.state e) (fun f => w2.buf (.elem e f) false) fun f => w2.buf (.elem e f) true).1 (v, q) = 0 ∧
      (localRate p bs m.nd op (m.elem e) (w2.state e) (fun f => w2.buf (.elem e f) false) fun f => w2.buf (.elem e f) true).1 (3 + v, q) =
        (match (m.elem e).geom with | none => (m.elem e).size | some g => (m.elem e).size * g.det q) * (x v / T) := by
    intro e he v hv q hq
    have key : ∀ u < 6, (localRate p bs m.nd op (m.elem e) (w2.state e) (fun f => w2.buf (.elem e f) false) fun f => w2.buf (.elem e f) true).1 (u, q) = initRate p (m.elem e) false (w2.state e) (u, q) := by
      intro u hu
      simp only [localRate, hop, Bool.false_eq_true, if_false]
      rw [residual_at p bs hn m.nd _ _ _ _ hq u]
      rw [add_eq_left]
      refine Finset.sum_eq_zero fun d hd => ?_
      have hd := Finset.mem_range.1 hd
      rw [if_neg (by rw [hconv]; simp), zero_add]
      split
      · next h =>
        rw [neg_eq_zero, Basis.derivInterior, Basis.range_sum]
        refine Finset.sum_eq_zero fun i hi => ?_
        rw [readRow_after hn hd, hdf e he d _ (by rw [hB]; omega) _ (pt_lt hn hd (rowOf_lt hn hd hq) (Finset.mem_range.1 hi)), mul_zero]
      · rfl
    refine ⟨?_, ?_⟩
    · rw [key v (by omega)]
      simp only [initRate, hB, hnu, hnx]
      rw [if_neg (by omega), if_neg (by omega)]
    · rw [key (3 + v) (by omega)]
      simp only [initRate, hB, hnu, hnx]
      rw [if_pos ⟨hsrc, trivial, by omega, by omega⟩, Nat.add_sub_cancel_left, hw2s, hsrcv e he q hq v hv]
      cases (m.elem e).geom <;> rfl
  have hst3 : ∀ e ∈ m.elems, ∀ q < bs.n ^ m.nd, (∀ v < 3, w3.state e (m.nd + 6 + v, q) = x v * (1 + w.state e (m.nd + 2, q) * cheby / T)) ∧
      ∀ v, ¬(m.nd + 6 ≤ v ∧ v < m.nd + 9) → w3.state e (v, q) = w.state e (v, q) := by
    intro e he q hq
    rw [show w3.state e = _ from (l1 e he).1]
    simp only [localKernel]
    refine ⟨fun v hv => ?_, fun v hv => by rw [hwn _ _ _ _ hv, hw2s]⟩
    obtain ⟨r1, r2⟩ := hrate e he v hv q hq
    have hms := mult_source (hm.size e he) (hm.det e he q hq) cheby (x v / T)
    rw [hwu _ _ _ v hv]
    simp only [hop, hdiff, hsrc, Bool.false_eq_true, if_false, Bool.or_true, if_true, Bool.not_true, Bool.false_and, hB] at r1 r2 ⊢
    rw [r1, r2, zero_add, hms, hw2s, hs e he q hq v hv, (ht e he q hq).1]
    ring
  have hv3 : ∀ e ∈ m.elems, ∀ f < 2 * m.nd, ∀ v < 3, ∀ k < bs.n ^ (m.nd - 1), w3.buf (.elem e f) true (v * bs.n ^ (m.nd - 1) + k) = 0 := by
    intro e he f hf' v hv k hk
    rw [show w3.buf (.elem e f) true = _ from ((l1 e he).2.2 f hf').2]
    simp only [localKernel, localRate]
    rw [residual_visc, if_pos hdiff, hnu]
    have h1 := (bounds_apply m.nd bs.n hn 3 (fun i_dim r => matRow bs.n bs.bound (readRow (diffFlux p bs m.nd (m.elem e) (w2.state e) (fun f => w2.buf (.elem e f) true) i_dim) 0 r)) (fun f => w2.buf (.elem e f) true)).1 v hv (f / 2) (by omega) k hk (f % 2) (by omega)
    rw [show 2 * (f / 2) + f % 2 = f by omega] at h1
    refine h1.trans ?_
    rw [matRow, Basis.range_sum]
    refine Finset.sum_eq_zero fun i hi => ?_
    rw [readRow_after hn (by omega : f / 2 < m.nd), hdf e he _ v hv _ (pt_lt hn (by omega) hk (Finset.mem_range.1 hi)), mul_zero]
  have h4 : Holds bs m 3 true (fun _ => 0) w4 := hfz _ (prolong_held p 3 le_rfl hn hm true true (fun _ => 0) (fun str i base v mem hv h k hk => dims_zero hn _ _ _ _ _ _ h k hk) w3 hv3)
  have h6 : ∀ e ∈ m.elems, ∀ f < 2 * m.nd, ∀ v < 3, ∀ k < bs.n ^ (m.nd - 1), w6.buf (.elem e f) true (v * bs.n ^ (m.nd - 1) + k) = 0 := by
    refine restrict_held p 3 le_rfl hn hm true true (fun _ => 0) (fun r v mem hv h k hk => ?_) _ (fun c hcm s _ => reconcile_none (p := p) hn hm le_rfl w4 h4 c hcm s)
    exact Finset.sum_eq_zero fun i hi => dims_zero hn _ _ _ _ _ _ (h i (Finset.mem_range.1 hi)) k hk
  have hst : ∀ e ∈ m.elems, ∀ q < bs.n ^ m.nd, ∀ v, w7.state e (v, q) = w.state e (v, q) := by
    intro e he q hq v
    have hz := reconcile_rate hof hn' (nd := m.nd) p (fun f => w6.buf (.elem e f) true) (fun f hf v hv k hk => by rw [← hof.n] at hk ⊢; exact h6 e he f hf v hv k hk) false
    simp only [Bool.false_eq_true, if_false] at hz
    rw [show w7.state e = _ from (k1 e he).1]
    simp only [reconcileKernel, hop, Bool.false_eq_true, if_false]
    obtain ⟨a1, a2⟩ := hst3 e he q hq
    by_cases hv : m.nd + 6 ≤ v ∧ v < m.nd + 9
    · obtain ⟨i, rfl⟩ : ∃ i, v = m.nd + 6 + i := ⟨v - (m.nd + 6), by omega⟩
      have hi : i < 3 := by omega
      rw [hwu _ _ _ i hi, if_pos rfl, hz i hi q hq, zero_mul, add_zero, hw6s, a1 i hi, a2 _ (by omega), mul_div_assoc, div_self (ht e he q hq).2, mul_one, hs e he q hq i hi]
    · rw [hwn _ _ _ _ hv, hw6s, a2 v hv]
  refine ⟨fun e he q hq v => by rw [← hrun]; exact hst e he q hq v, ?_⟩
  rw [← hrun]
  refine prolong_held p 3 le_rfl hn hm false false x (fun str i base v mem hv h k hk => const_prolong hof hb.distinct hn' hm.dim str i base (x v) mem h hk) _ ?_
  intro e he f hf' v hv k hk
  rw [show w7.buf (.elem e f) false = _ from ((k1 e he).2.2 f hf').1]
  refine write_const (p := p) hof hb.distinct hn m.nd x _ ?_ _ f hf' v hv k hk
  intro q hq v hv
  have h2 : ∀ u, w7.state e (u, q) = w.state e (u, q) := hst e he q hq
  have h3 := h2 (m.nd + 6 + v)
  rw [hs e he q hq v hv] at h3
  rw [← h3]
  exact congrFun (k1 e he).1.symm (m.nd + 6 + v, q)

end
end Hexed.ArtVisc
