import Verif.Spatial.ExactSteady
set_option autoImplicit false
set_option linter.unusedVariables false

/-!
# Diffusive stages on polynomial data
-/

namespace Hexed.Spatial
open Hexed.RowIndex (RowIndex)
open Hexed.Connection (Dir matchFaces restore strAt Legal matchFaces_eq tπ fπ)

variable {bs : BasisData} {b : Basis.Nodes ℝ} {deg : Nat} {m : Mesh} {o : Nat → Nat → ℝ}

theorem polyIn_zero (nd m : Nat) : PolyIn nd m fun _ => 0 := fun i _ x => ⟨0, by rw [Polynomial.degree_zero]; exact WithBot.bot_lt_coe _, by simp⟩

/-- Putting side 1's data into side 0's order does nothing if both sides are normal to the same axis. -/
theorem axis_match {m : Mesh} (hn : 0 < b.n) (hm : m.Ok bs) (hc : m.Cubes b o) {c : ConRec} (h : c ∈ m.cons) (nv : Nat) (mem : Mem) {v k : Nat} (hv : v < nv) (hk : k < b.n ^ (m.nd - 1)) :
    (if c.deformed then matchFaces m.nd b.n nv c.dir mem else mem) (v * b.n ^ (m.nd - 1) + k) = mem (v * b.n ^ (m.nd - 1) + k) ∧
    (if c.deformed then restore m.nd b.n nv c.dir mem else mem) (v * b.n ^ (m.nd - 1) + k) = mem (v * b.n ^ (m.nd - 1) + k) := by
  constructor <;> split
  · rw [matchFaces_eq m.nd b.n nv hm.dim hn c.dir _ v k hv hk, (axis_perm (hc.axis c h).1 m.nd b.n k).2, (axis_perm (hc.axis c h).1 m.nd b.n k).1]
  · rfl
  · rw [restore_eq m.nd b.n nv hm.dim hn c.dir _ v k hv hk, (axis_perm (hc.axis c h).1 m.nd b.n k).1, (axis_perm (hc.axis c h).1 m.nd b.n k).2]
  · rfl

/-- The averages on the LDG faces of the elements. -/
theorem avg_samples (hof : bs.IsOf b) (hb : b.Exact deg) (hn : 0 < b.n) (hm : m.Ok bs) (hc : m.Cubes b o) {p : Pde}
    (hdiff : p.hasDiff = true) {u : Nat → Field} {d : Nat} (h1d : 0 < d) (hd : d + b.n ≤ deg + 2)
    (hE : ∀ v < p.nExtrap, PolyIn m.nd d (p.extrapField u v)) (w : World) (hw : m.FaceSamples b o p.nExtrap (fun B => w.buf B false) (p.extrapField u)) :
    ∀ e ∈ m.elems, ∀ f < 2 * m.nd, ∀ v < p.nExtrap, ∀ k < b.n ^ (m.nd - 1),
      (runRestrict p bs m false true (runRestrict p bs m true false (runNeighbor p bs m w))).buf (.elem e f) true (v * b.n ^ (m.nd - 1) + k) = p.extrapField u v (m.bufPos b o (.elem e f) k) := by
  refine restrict_samples hof hb hn hm hc p le_rfl h1d hd (fun _ => p.extrapField u) (fun _ _ => hE) false true _ ?_
  intro c hcm s hg v hv k hk
  have hr := (restrict_fold p bs (by rw [hof.n]; exact hn) m.nd true false m.refs (runNeighbor p bs m w).buf hm.refs_nodup).2 (c.side s) true (Or.inr (by simp))
  show m.refs.foldl (restrictRef p bs m.nd true false) (runNeighbor p bs m w).buf (c.side s) true _ = _
  rw [hr, runNeighbor, (cons_fold _ m.cons w hm.sides_nodup).1 c hcm s, hof.n]
  have hlt := block_lt hv hk
  have hw0 := hw c hcm false v hv k hk
  have hw1 := hw c hcm true v hv k hk
  have havg : (1 : ℝ) / 2 * (w.buf (c.side false) false (v * b.n ^ (m.nd - 1) + k) + (if c.deformed then matchFaces m.nd b.n p.nExtrap c.dir (w.buf (c.side true) false) else w.buf (c.side true) false) (v * b.n ^ (m.nd - 1) + k)) =
      p.extrapField u v (m.bufPos b o (c.side false) k) := by
    rw [(axis_match hn hm hc hcm p.nExtrap _ hv hk).1]
    beta_reduce at hw0 hw1
    rw [hw0, hw1]; ring
  cases s with
  | false =>
    simp only [neighbor, hdiff, hlt, decide_true, Bool.and_self, if_true, Bool.false_eq_true, if_false]
    exact havg
  | true =>
    simp only [neighbor, hdiff, hlt, decide_true, Bool.and_self, if_true]
    rw [(axis_match hn hm hc hcm p.nExtrap _ hv hk).2, if_pos hlt, havg, hc.meet c hcm hg k hk]

/-- Nothing is left to reconcile if both sides have the same diffusive flux. -/
theorem reconcile_zero (hof : bs.IsOf b) (hb : b.Exact deg) (hn : 0 < b.n) (hm : m.Ok bs) (hc : m.Cubes b o) {p : Pde} (hu : p.nUpdate ≤ p.nExtrap) (hdeg : 1 + b.n ≤ deg + 2)
    (w : World) (G : Nat → Nat → Field) (hw : ∀ c ∈ m.cons, ∀ s, ∀ v < p.nUpdate, ∀ k < b.n ^ (m.nd - 1), w.buf (c.side s) true (v * b.n ^ (m.nd - 1) + k) = G c.dir.i0.val v (m.bufPos b o (c.side false) k)) :
    ∀ e ∈ m.elems, ∀ f < 2 * m.nd, ∀ v < p.nUpdate, ∀ k < b.n ^ (m.nd - 1),
      (runRestrict p bs m true true (runReconcileCons p bs m w)).buf (.elem e f) true (v * b.n ^ (m.nd - 1) + k) = 0 := by
  refine restrict_samples hof hb hn hm hc p hu Nat.one_pos hdeg (fun _ _ _ => 0) (fun _ _ _ _ => polyIn_zero _ _) true true _ ?_
  intro c hcm s hg v hv k hk
  rw [runReconcileCons, (cons_fold _ m.cons w hm.sides_nodup).1 c hcm s, hof.n]
  have hlt := block_lt hv hk
  have hw0 := hw c hcm false v hv k hk
  have hw1 := hw c hcm true v hv k hk
  have hsg := axis_sign (hc.axis c hcm).2
  have hsq := sideSign_sq c.deformed c.dir false
  have hm1 := (axis_match hn hm hc hcm p.nExtrap (w.buf (c.side true) true) (v := v) (by omega) hk).1
  cases s with
  | false =>
    simp only [neighborReconcile, hlt, decide_true, Bool.and_self, if_true, Bool.false_eq_true, if_false]
    rw [hm1, hw0, hw1, hsg]
    linear_combination (G c.dir.i0.val v (m.bufPos b o (c.side false) k)) * hsq
  | true =>
    simp only [neighborReconcile, hlt, decide_true, Bool.and_self, if_true]
    rw [(axis_match hn hm hc hcm p.nExtrap _ (v := v) (by omega) hk).2, if_pos hlt, hm1, hw0, hw1, hsg]
    linear_combination (G c.dir.i0.val v (m.bufPos b o (c.side false) k)) * hsq

/-- The update of the last kernel is zero if its LDG faces hold zeros. -/
theorem reconcile_rate (hof : bs.IsOf b) (hn : 0 < b.n) {nd : Nat} (p : Pde) (visc : Nat → Mem) (hv : ∀ f < 2 * nd, ∀ v < p.nUpdate, ∀ k < b.n ^ (nd - 1), visc f (v * b.n ^ (nd - 1) + k) = 0) (filter : Bool) :
    ∀ v < p.nUpdate, ∀ q < bs.n ^ nd, (if filter then applyFilter bs nd p.nUpdate (overRows nd bs.n (fun rate i_dim r =>
      writeRow p.nUpdate (fun i v => -Basis.boundaryTerm bs.weight bs.bound (fun s => readBound visc r s v) i) rate 0 r 1) fun _ => 0)
      else overRows nd bs.n (fun rate i_dim r => writeRow p.nUpdate (fun i v => -Basis.boundaryTerm bs.weight bs.bound (fun s => readBound visc r s v) i) rate 0 r 1) fun _ => 0) (v, q) = 0 := by
  have hn' : 0 < bs.n := by rw [hof.n]; exact hn
  have raw : ∀ v < p.nUpdate, ∀ q < bs.n ^ nd, (overRows nd bs.n (fun rate i_dim r => writeRow p.nUpdate (fun i v => -Basis.boundaryTerm bs.weight bs.bound (fun s => readBound visc r s v) i) rate 0 r 1) fun _ => 0) (v, q) = 0 := by
    rw [overRows_eq nd bs.n hn']
    have : ∀ (l : List (Nat × Nat)) (a : Arr), (∀ x ∈ l, x.1 < nd ∧ x.2 < bs.n ^ (nd - 1)) → (∀ v < p.nUpdate, ∀ q < bs.n ^ nd, a (v, q) = 0) → ∀ v < p.nUpdate, ∀ q < bs.n ^ nd,
        l.foldl (fun a x => writeRow p.nUpdate (fun i v => -Basis.boundaryTerm bs.weight bs.bound (fun s => readBound visc (RowIndex.after nd bs.n x.1 x.2) s v) i) a 0 (RowIndex.after nd bs.n x.1 x.2) 1) a (v, q) = 0 := by
      intro l
      induction l with
      | nil => intro a _ h; exact h
      | cons x l ih =>
        intro a hl h
        rw [List.foldl_cons]
        have hx := hl x (by simp)
        refine ih _ (fun y hy => hl y (by simp [hy])) ?_
        intro v hv' q hq
        rw [writeRow_at hn' hx.1, h v hv' q hq]
        split
        · have hrb : ∀ s < 2, readBound visc (RowIndex.after nd bs.n x.1 x.2) s v = 0 := by
            intro s hs
            rw [readBound_after hn' hx.1, hof.n]
            exact hv _ (by omega) v hv' _ (by rw [← hof.n]; exact hx.2)
          simp only [Nat.sub_zero, mul_zero, zero_add, Basis.boundaryTerm]
          rw [Basis.range_sum, Finset.sum_eq_zero, neg_zero]
          intro s hs
          rw [hrb s (Finset.mem_range.1 hs), mul_zero]
        · rfl
    exact this _ _ (fun x hx => mem_dk.1 hx) (fun _ _ _ _ => rfl)
  intro v hv' q hq
  split
  · exact filter_zero bs hn' nd _ _ p.nUpdate raw v hv' q hq
  · exact raw v hv' q hq

/-- What prolongation leaves after the element faces have been extrapolated from polynomial data. -/
theorem faces_of (hof : bs.IsOf b) (hb : b.Distinct) (hn : 0 < b.n) (hm : m.Ok bs) (hc : m.Cubes b o) {p : Pde}
    (u : Nat → Field) (hE : ∀ v < p.nExtrap, PolyIn m.nd b.n (p.extrapField u v)) (w : World) (hs : m.Samples b o w.state u)
    (hw : ∀ e ∈ m.elems, ∀ f < 2 * m.nd, ∃ faces, w.buf (.elem e f) false = writeFace p bs m.nd (w.state e) faces f) :
    m.InnerSamples b o p.nExtrap (fun B => (runProlong p bs m false false w).buf B false) (p.extrapField u) := by
  have hface : ∀ e ∈ m.elems, HoldsFaces b m.nd p.nExtrap (o e) (m.elem e).size (fun f => w.buf (.elem e f) false) fun _ => p.extrapField u := by
    intro e he d hd s hs' v hv k hk
    obtain ⟨faces, hfc⟩ := hw e he (2 * d + s) (by omega)
    beta_reduce
    rw [hfc]
    exact writeFace_samples hof hb hn p u hE (o e) (m.elem e).size (w.state e) (fun q hq v => hs e he q hq v) _ d hd s hs' v hv k hk
  intro c hcm s hg v hv k hk
  have h5 := prolong_samples hof hb hn hm hc p le_rfl (fun _ => p.extrapField u) (fun _ _ => hE) false false w hface c hcm s hg v hv k hk
  beta_reduce
  rw [h5]
  cases s with
  | false => rfl
  | true => rw [hc.meet c hcm hg k hk]

/-- A diffusive stage on polynomial data: what the element kernel `Local` reads, and what is left of its result at the end. -/
theorem diff_stage (hof : bs.IsOf b) (hb : b.Exact deg) (hn : 0 < b.n) (hm : m.Ok bs) (hc : m.Cubes b o) {p : Pde} (hdiff : p.hasDiff = true)
    (hu : p.nUpdate ≤ p.nExtrap) (hx : p.nExtrap ≤ 2 * p.nUpdate) (hl : p.FaceLocal) (hdl : p.DiffLocal m.nd) {u : Nat → Field} (hcons : p.hasConv = true → p.FaceConsistent m.nd u)
    {d : Nat} (h1d : 0 < d) (hdn : d ≤ b.n) (hd : d + b.n ≤ deg + 2) (hG : p.hasConv = true → ∀ i < m.nd, ∀ v < p.nUpdate, PolyIn m.nd d (p.fluxField u i v))
    (hE : ∀ v < p.nExtrap, PolyIn m.nd d (p.extrapField u v)) (hD : ∀ i < m.nd, ∀ v < p.nUpdate, PolyIn m.nd b.n (p.diffField u i v))
    (fluxBc : World → World) (hfb : GhostOnly fluxBc)
    (hfs : ∀ w, m.InnerAxisSamples b o p.nUpdate (fun B => w.buf B true) (p.diffField u) → m.AxisSamples b o p.nUpdate (fun B => (fluxBc w).buf B true) (p.diffField u))
    (sr dt : ℝ) (filter : Bool) (w w' : World) (hs : m.Samples b o w.state u) (hf : m.FaceSamples b o p.nExtrap (fun B => w.buf B false) (p.extrapField u))
    (hrun : computeDiffusion p bs m fluxBc sr dt false false filter w = some w') :
    (∀ e ∈ m.elems, ∃ faces visc : Nat → Mem, (p.hasConv = true → HoldsFaces b m.nd p.nUpdate (o e) (m.elem e).size faces (p.fluxField u)) ∧
      HoldsFaces b m.nd p.nExtrap (o e) (m.elem e).size visc (fun _ => p.extrapField u) ∧
      w'.cache e = (localKernel p bs m.nd ⟨dt, false, false, filter⟩ (m.elem e) (w.state e) (w.cache e) faces visc).cache ∧
      ∀ q < b.n ^ m.nd, ∃ z : Nat → ℝ, (∀ v < p.nUpdate, z v = 0) ∧
        ∀ i, w'.state e (i, q) = p.writeUpdate z true (fun i => (localKernel p bs m.nd ⟨dt, false, false, filter⟩ (m.elem e) (w.state e) (w.cache e) faces visc).state (i, q)) i) ∧
    ∀ u' : Nat → Field, (∀ v < p.nExtrap, PolyIn m.nd b.n (p.extrapField u' v)) → m.Samples b o w'.state u' → m.InnerSamples b o p.nExtrap (fun B => w'.buf B false) (p.extrapField u') := by
  have hn' : 0 < bs.n := by rw [hof.n]; exact hn
  have hmono : ∀ {f : Field}, PolyIn m.nd d f → PolyIn m.nd b.n f := by
    intro f h i hi x
    obtain ⟨P, h1, h2⟩ := h i hi x
    exact ⟨P, lt_of_lt_of_le h1 (by exact_mod_cast hdn), h2⟩
  simp only [computeDiffusion, Bool.and_false, Bool.or_self, Bool.false_eq_true, if_false, Bool.not_false, if_true, Option.some.injEq] at hrun
  obtain ⟨n1, n2, n3, n4⟩ := cons_fold (fun c st => neighbor p m.nd bs.n c.deformed c.dir c.normal st) m.cons w hm.sides_nodup
  have hflux : p.hasConv = true → ∀ e ∈ m.elems, ∀ f < 2 * m.nd, ∀ v < p.nUpdate, ∀ k < b.n ^ (m.nd - 1),
      (runRestrict p bs m false true (runRestrict p bs m true false (runNeighbor p bs m w))).buf (.elem e f) false (v * b.n ^ (m.nd - 1) + k) = p.fluxField u (f / 2) v (m.bufPos b o (.elem e f) k) := by
    intro hconv e he f hf' v hv k hk
    have hr := (restrict_fold p bs hn' m.nd false true m.refs (runRestrict p bs m true false (runNeighbor p bs m w)).buf hm.refs_nodup).2 (.elem e f) false (Or.inr (by simp))
    show m.refs.foldl (restrictRef p bs m.nd false true) (runRestrict p bs m true false (runNeighbor p bs m w)).buf (.elem e f) false _ = _
    rw [hr]
    exact flux_samples hof hb hn hm hc hconv hu hl (hcons hconv) h1d hd (hG hconv) w hf e he f hf' v hv k hk
  have havg := avg_samples hof hb hn hm hc hdiff h1d hd hE w hf
  set w2 := runRestrict p bs m false true (runRestrict p bs m true false (runNeighbor p bs m w)) with hw2
  set op : Opts := ⟨dt, false, false, filter⟩ with hop
  set w3 := runLocal p bs m op w2 with hw3
  set w4 := fluxBc (runProlong p bs m true true w3) with hw4
  set w6 := runRestrict p bs m true true (runReconcileCons p bs m w4) with hw6
  set w7 := runReconcileElems p bs m op w6 with hw7
  obtain ⟨l1, _, _⟩ := elems_fold m.nd (fun e => localKernel p bs m.nd op (m.elem e)) m.elems w2 hm.elems_nodup
  obtain ⟨k1, _, _⟩ := elems_fold m.nd (fun e => reconcileKernel p bs m.nd op (m.elem e)) m.elems w6 hm.elems_nodup
  have hw2s : w2.state = w.state := n3
  have hw2c : w2.cache = w.cache := n4
  have hw4s : w4.state = w3.state := (hfb _).1
  have hw4c : w4.cache = w3.cache := (hfb _).2.1
  have hw6s : w6.state = w3.state := ((cons_fold (fun c st => neighborReconcile p m.nd bs.n c.deformed c.dir st) m.cons w4 hm.sides_nodup).2.2.1).trans hw4s
  have hw6c : w6.cache = w3.cache := ((cons_fold (fun c st => neighborReconcile p m.nd bs.n c.deformed c.dir st) m.cons w4 hm.sides_nodup).2.2.2).trans hw4c
  have hF : ∀ e ∈ m.elems, p.hasConv = true → HoldsFaces b m.nd p.nUpdate (o e) (m.elem e).size (fun f => w2.buf (.elem e f) false) (p.fluxField u) := fun e he hconv => holds_of_bufPos (hflux hconv e he)
  have hV : ∀ e ∈ m.elems, HoldsFaces b m.nd p.nExtrap (o e) (m.elem e).size (fun f => w2.buf (.elem e f) true) (fun _ => p.extrapField u) :=
    fun e he => holds_of_bufPos (F := fun _ => p.extrapField u) (havg e he)
  have hst : ∀ e ∈ m.elems, ∀ q < b.n ^ m.nd, ∀ v, w2.state e (v, q) = u v (elemPos b m.nd (o e) (m.elem e).size q) := fun e he q hq v => by rw [hw2s]; exact hs e he q hq v
  have h3 : ∀ e ∈ m.elems, HoldsFaces b m.nd p.nUpdate (o e) (m.elem e).size (fun f => w3.buf (.elem e f) true) (p.diffField u) := by
    intro e he
    have := (diff_rates hof hb.distinct hn hdn hdiff hdl hx u (fun v hv => hmono (hE v hv)) hG hD (o e) (hc.geom e he) (hm.size e he).ne' (w2.state e) (hst e he) _ _ (hF e he) (hV e he)).2
    intro d' hd' s hs' v hv k hk
    have h := ((l1 e he).2.2 (2 * d' + s) (by omega)).2
    beta_reduce
    rw [show w3.buf (.elem e (2 * d' + s)) true = _ from h]
    exact this d' hd' s hs' v hv k hk
  have h4 := hfs (runProlong p bs m true true w3) (by
    intro c hcm s hg v hv k hk
    have h5 := prolong_samples hof hb.distinct hn hm hc p hu (p.diffField u) hD true true w3 h3 c hcm s hg v hv k hk
    beta_reduce
    rw [h5]
    cases s with
    | false => rfl
    | true => rw [hc.meet c hcm hg k hk])
  have h6 := reconcile_zero hof hb hn hm hc hu (by omega) w4 (p.diffField u) (fun c hcm s v hv k hk => h4 c hcm s v hv k hk)
  refine ⟨fun e he => ⟨_, _, hF e he, hV e he, ?_, ?_⟩, ?_⟩
  · rw [← hrun]
    show w7.cache e = _
    rw [show w7.cache e = _ from (k1 e he).2.1]
    simp only [reconcileKernel, hop, Bool.false_eq_true, if_false]
    rw [hw6c, ← hw2s, ← hw2c]
    exact (l1 e he).2.1
  · intro q hq
    have hq' : q < bs.n ^ m.nd := by rw [hof.n]; exact hq
    have hz := reconcile_rate hof hn (nd := m.nd) p (fun f => w6.buf (.elem e f) true) (fun f hf v hv k hk => h6 e he f hf v hv k hk) filter
    refine ⟨fun v => (if filter then applyFilter bs m.nd p.nUpdate (overRows m.nd bs.n (fun rate i_dim r =>
      writeRow p.nUpdate (fun i v => -Basis.boundaryTerm bs.weight bs.bound (fun s => readBound (fun f => w6.buf (.elem e f) true) r s v) i) rate 0 r 1) fun _ => 0)
      else overRows m.nd bs.n (fun rate i_dim r => writeRow p.nUpdate (fun i v => -Basis.boundaryTerm bs.weight bs.bound (fun s => readBound (fun f => w6.buf (.elem e f) true) r s v) i) rate 0 r 1) fun _ => 0) (v, q) *
      updateMult dt (m.elem e) q, ?_, fun i => ?_⟩
    · intro v hv
      have := hz v hv q hq'
      beta_reduce
      rw [this, zero_mul]
    · rw [← hrun]
      show w7.state e (i, q) = _
      rw [show w7.state e = _ from (k1 e he).1]
      simp only [reconcileKernel, hop, Bool.false_eq_true, if_false]
      rw [hw6s, ← hw2s, ← hw2c, show w3.state e = _ from (l1 e he).1]
  · intro u' hE' hs'
    rw [← hrun]
    refine faces_of hof hb.distinct hn hm hc u' hE' w7 (by rw [← hrun] at hs'; exact hs') ?_
    intro e he f hf'
    refine ⟨fun f => w6.buf (.elem e f) false, ?_⟩
    rw [show w7.buf (.elem e f) false = _ from ((k1 e he).2.2 f hf').1, show w7.state e = _ from (k1 e he).1]
    rfl

end Hexed.Spatial
