import Verif.StateFile.Continue
import Verif.Solver.Freestream
import Verif.Spatial.ExactPoint
set_option autoImplicit false
set_option linter.unusedVariables false

/-!
# A one-dimensional example: what a time step makes of face data that does not belong to the state
-/

namespace Hexed.StateFile
open Hexed.Spatial Hexed.Pde Hexed.Solver
open Hexed.Connection (Dir matchFaces restore strAt Legal)
open Hexed.RowIndex (RowIndex rows)

/-- One interval with an outflow condition at both ends. -/
def exOne : Mesh where
  nd := 1
  elems := [0]
  elem _ := ⟨1, fun _ => 1, none⟩
  cons :=
    let bound (s : Bool) (f g : Nat) : ConRec := ⟨true, ⟨0, 0, s, !s⟩, fun s => if s then .ghost g else .elem 0 f, fun _ => 1⟩
    [bound false 0 0, bound true 1 1]
  refs := []

theorem exOne_ok (bs : BasisData) : exOne.Ok bs := by
  refine ⟨by decide, ?_, ?_, by decide, by decide, ?_, ?_, ?_, ?_, ?_⟩
  · intro e _; simp [exOne]
  · intro e _ q _; simp [exOne, ElemRec.det]
  · intro k r hr; simp [exOne] at hr
  · intro c hc
    simp only [exOne, List.mem_cons, List.not_mem_nil, or_false] at hc
    rcases hc with rfl | rfl <;> exact ⟨by decide, by simp⟩
  · intro c hc
    simp only [exOne, List.mem_cons, List.not_mem_nil, or_false] at hc
    rcases hc with rfl | rfl <;> rfl
  · intro c hc s hs
    simp only [exOne, List.mem_cons, List.not_mem_nil, or_false] at hc
    rcases hc with rfl | rfl <;> cases s <;> first | exact ⟨_, rfl⟩ | exact absurd hs (by simp [Buf.isGhost])
  · intro c hc hs
    simp only [exOne, List.mem_cons, List.not_mem_nil, or_false] at hc
    rcases hc with rfl | rfl <;> cases hs

/-- What is needed of a basis with two nodes. -/
structure Two (bs : BasisData) : Prop where
  n : bs.n = 2
  weight : ∀ i < 2, bs.weight i = 1 / 2
  diff : ∀ i < 2, bs.diff i 0 + bs.diff i 1 = 0
  bound : ∀ s < 2, bs.bound s 0 + bs.bound s 1 = 1
  symm : ∀ i < 2, bs.bound 0 i + bs.bound 1 i = 1

theorem gauss2_two : Two (ofNodes gauss2) := by
  have h3 : √(3 : ℝ) ≠ 0 := by positivity
  have hi : (√(3 : ℝ))⁻¹ ≠ 0 := inv_ne_zero h3
  refine ⟨rfl, fun i _ => rfl, ?_, ?_, ?_⟩
  · intro i h
    interval_cases i <;> simp [ofNodes, gauss2, Basis.derivative, List.range_succ] <;> ring
  · intro s h
    interval_cases s <;> simp [ofNodes, gauss2, Basis.interpolate, List.range_succ, List.eraseIdx] <;> field_simp <;> ring
  · intro i h
    interval_cases i <;> simp [ofNodes, gauss2, Basis.interpolate, List.range_succ, List.eraseIdx] <;> field_simp <;> ring

/-- The inviscid flux in one dimension. -/
noncomputable def flux1 (u : Nat → ℝ) : Nat → ℝ := fluxConv 1 u fun _ => 1

theorem flux1_congr {u u' : Nat → ℝ} (h : ∀ v < 3, u v = u' v) {v : Nat} (hv : v < 3) : flux1 u v = flux1 u' v := by
  rw [flux1, flux_scale (nd := 1) h (n := fun _ => 1) (n' := fun _ => 1) (a := 1) (by simp) hv, one_mul]; rfl

/-- The copying boundary condition. -/
def copyRule : Rule := fun _ _ inside => copyState inside

theorem onePow (n : Nat) : n ^ (1 - 1) = 1 := by simp

/-- The shared flux at an end of the interval is the flux of what is on the element's face. -/
theorem end_flux {bs : BasisData} (h2 : Two bs) (mu kappa : Transport) (w : World) {f : Nat} (hf : f < 2) {v : Nat} (hv : v < 3) :
    (runNeighbor (ns 1 false mu kappa) bs exOne (runBc 1 bs.n 3 false copyRule exOne.cons w)).buf (.elem 0 f) false v = flux1 (fun v => w.buf (.elem 0 f) false v) v := by
  set wb := runBc 1 bs.n 3 false copyRule exOne.cons w with hwb
  obtain ⟨c1, -, -, -⟩ := cons_fold (fun c st => neighbor (ns 1 false mu kappa) exOne.nd bs.n c.deformed c.dir c.normal st) exOne.cons wb (exOne_ok bs).sides_nodup
  obtain ⟨c, hc, hs0, hs1, hdf, hnm, hdir⟩ : ∃ c ∈ exOne.cons, c.side false = .elem 0 f ∧ c.side true = .ghost f ∧ c.deformed = true ∧ c.normal = (fun _ => 1) ∧ c.dir = ⟨0, 0, f == 1, !(f == 1)⟩ := by
    interval_cases f
    · exact ⟨_, List.mem_cons_self, rfl, rfl, rfl, rfl, rfl⟩
    · exact ⟨_, List.mem_cons_of_mem _ List.mem_cons_self, rfl, rfl, rfl, rfl, rfl⟩
  have e1 := c1 c hc false
  have g0 : wb.buf (.elem 0 f) false = w.buf (.elem 0 f) false := by
    rw [(runBc_ghostOnly 1 bs.n 3 false copyRule exOne.cons w).2.2 _ rfl]
  have g1 : ∀ v < 3, wb.buf (.ghost f) false v = w.buf (.elem 0 f) false v := by
    intro v hv
    have := runBc_at (nd := 1) (n := bs.n) (nvar := 3) (ldg := false) (rule := copyRule) (w := w) (exOne_ok bs).sides_nodup hc (by rw [hs1]; rfl)
    rw [← hwb, hs1] at this
    rw [this, hs0]
    simp only [faceBc, onePow, mul_one, Nat.mod_one, Nat.div_one, copyRule, copyState, if_pos hv, Nat.add_zero]
  rw [hs0] at e1
  have e2 := neighbor_side0 (ns 1 false mu kappa) rfl 1 bs.n c (fun s => wb.buf (c.side s)) v 0 hv (by simp)
  rw [onePow, mul_one, Nat.add_zero] at e2
  rw [runNeighbor, e1, show exOne.nd = 1 from rfl, e2]
  have hm : matchFaces 1 bs.n (ns 1 false mu kappa).nExtrap c.dir (wb.buf (c.side true) false) = wb.buf (c.side true) false := match_boundary 1 bs.n _ (by rw [hdir]) _
  have hfe : fetchExtrapState 1 (fun v => wb.buf (.ghost f) false v) = fetchExtrapState 1 fun v => w.buf (.elem 0 f) false v := by
    funext v
    simp only [fetchExtrapState]
    split
    · rename_i h; exact g1 v h
    · rfl
  have hco : conFlux (ns 1 false mu kappa) 1 bs.n c (fun s => wb.buf (c.side s)) v 0 = fluxConv 1 (fetchExtrapState 1 fun v => w.buf (.elem 0 f) false v) (conNormal true c.dir 1 (fun _ => 1) 0) v := by
    rw [hs1] at hm
    simp only [conFlux, hdf, if_true, hs0, hs1, hm, g0, hnm, onePow, mul_one, Nat.add_zero]
    have : numFlux (ns 1 false mu kappa) 1 (conNormal true c.dir 1 (fun _ => 1) 0) (fun u => w.buf (.elem 0 f) false u) (fun u => wb.buf (.ghost f) false u) v =
        numFlux (ns 1 false mu kappa) 1 (conNormal true c.dir 1 (fun _ => 1) 0) (fun u => w.buf (.elem 0 f) false u) (fun u => w.buf (.elem 0 f) false u) v := by
      simp only [numFlux, ns, hfe]
    rw [this, flux_consistent]
    rfl
  rw [hco, hdf]
  rw [flux_scale (nd := 1) (s' := fun v => w.buf (.elem 0 f) false v) (n' := fun _ => 1) (a := sideSign true c.dir false) ?_ ?_ hv, ← mul_assoc]
  · have : sideSign true c.dir false * sideSign true c.dir false = 1 := by simp only [sideSign]; split <;> norm_num
    rw [this, one_mul]
    rfl
  · intro v hv
    simp only [fetchExtrapState, if_pos hv]
  · intro i _
    simp [conNormal]

/-- The rate of change in the interval if the state is uniform and the fluxes at the ends deviate by opposite amounts from that of the state. -/
theorem even_rate {bs : BasisData} (h2 : Two bs) (mu kappa : Transport) (o : Opts) (ho : o.useFilter = false) (state : Arr) (faces visc : Nat → Mem) (u δ : Nat → ℝ)
    (hs : ∀ v < 3, ∀ q < 2, state (v, q) = u v) (h0 : ∀ v < 3, faces 0 v = flux1 u v + δ v) (h1 : ∀ v < 3, faces 1 v = flux1 u v - δ v) {v q : Nat} (hv : v < 3) (hq : q < 2) :
    (localRate (ns 1 false mu kappa) bs 1 o ⟨1, fun _ => 1, none⟩ state faces visc).1 (v, q) = 2 * δ v := by
  simp only [localRate, ho, Bool.false_eq_true, if_false]
  rw [residual_at _ bs (by rw [h2.n]; decide) 1 _ _ faces _ (by rw [h2.n]; simpa using hq) v]
  simp only [initRate]
  rw [if_neg (by simp [ns]), if_neg (by simp [ns]), Finset.sum_range_one, if_pos ⟨rfl, hv⟩, if_neg (by simp [ns]), zero_add, add_zero, h2.n]
  have hr : Hexed.Spatial.rowOf 1 2 0 q = 0 := by simp [Hexed.Spatial.rowOf]; omega
  have hnq : nodeOf 1 2 0 q = q := by simp [nodeOf]; omega
  rw [hr, hnq]
  obtain ⟨a1, a2, a3, a4⟩ := after_fields 1 2 0 (by decide) (by decide) 0
  have hq' : ∀ j < 2, (RowIndex.after 1 2 0 0).i_qpoint j = j := by
    intro j hj
    rw [qpoint_pt 1 2 0 (by decide) (by decide)]
    simp [pt]
  have hfl : ∀ j < 2, readRow (convFlux (ns 1 false mu kappa) 1 ⟨1, fun _ => 1, none⟩ state 0) 0 (RowIndex.after 1 2 0 0) j v = flux1 u v := by
    intro j hj
    rw [readRow, hq' j hj, Nat.zero_add]
    show fluxConv 1 (fetchState 1 fun v => state (v, j)) (fun k => if k = 0 then 1 else 0) v = _
    rw [flux_scale (nd := 1) (s' := u) (n' := fun _ => 1) (a := 1) ?_ ?_ hv, one_mul]
    · rfl
    · intro v hv
      simp only [fetchState, if_pos hv]
      exact hs v hv j hj
    · intro i hi
      have : i = 0 := by omega
      simp [this]
  have hb : ∀ s, readBound faces (RowIndex.after 1 2 0 0) s v = faces s v := by
    intro s
    simp only [readBound, a1, a2, a3, a4]
    simp
  simp only [deriv2, Basis.deriv, h2.n, hb, List.range_succ, List.range_zero, List.nil_append, List.cons_append, List.map_cons, List.map_nil, List.sum_cons, List.sum_nil, Basis.lift,
    hfl 0 (by decide), hfl 1 (by decide), h0 v hv, h1 v hv, h2.weight q hq]
  have d := h2.diff q hq
  have b0 := h2.bound 0 (by decide)
  have b1 := h2.bound 1 (by decide)
  have sy := h2.symm q hq
  have e0 : bs.bound 0 1 = 1 - bs.bound 0 0 := by linarith
  have e1 : bs.bound 1 1 = 1 - bs.bound 1 0 := by linarith
  have e2 : bs.diff q 1 = -bs.diff q 0 := by linarith
  have e3 : bs.bound 1 q = 1 - bs.bound 0 q := by linarith
  rw [e0, e1, e2, e3]
  simp
  ring

/-- What is extrapolated to the ends from a uniform state. -/
theorem even_face {bs : BasisData} (h2 : Two bs) (mu kappa : Transport) (state : Arr) (faces : Nat → Mem) (u : Nat → ℝ) (hs : ∀ v < 3, ∀ q < 2, state (v, q) = u v) {f v : Nat} (hf : f < 2) (hv : v < 3) :
    writeFace (ns 1 false mu kappa) bs 1 state faces f v = u v := by
  rw [writeFace]
  have e3 := (bounds_apply 1 bs.n (by rw [h2.n]; decide) (ns 1 false mu kappa).nExtrap (fun _ r => matRow bs.n bs.bound (readRow (fun k => (ns 1 false mu kappa).fetchExtrap (fun v => state (v, k.2)) k.1) 0 r)) faces).1
    v hv 0 (by decide) 0 (by simp) f hf
  rw [onePow, mul_one, Nat.add_zero, Nat.mul_zero, Nat.zero_add] at e3
  rw [e3, h2.n]
  have hq' : ∀ j < 2, (RowIndex.after 1 2 0 0).i_qpoint j = j := by
    intro j hj
    rw [qpoint_pt 1 2 0 (by decide) (by decide)]
    simp [pt]
  have hrr : ∀ j < 2, readRow (fun k => (ns 1 false mu kappa).fetchExtrap (fun v => state (v, k.2)) k.1) 0 (RowIndex.after 1 2 0 0) j v = u v := by
    intro j hj
    rw [readRow, hq' j hj, Nat.zero_add, ← hs v hv j hj]
    rfl
  simp only [matRow, List.range_succ, List.range_zero, List.nil_append, List.cons_append, List.map_cons, List.map_nil, List.sum_cons, List.sum_nil, hrr 0 (by decide), hrr 1 (by decide)]
  have := h2.bound f hf
  rw [add_zero, ← add_mul, this, one_mul]

/-- One stage. -/
theorem one_stage {bs : BasisData} (h2 : Two bs) (mu kappa : Transport) (sr dt : ℝ) (stage : Bool) (w : World) (u δ κ : Nat → ℝ) (hs : ∀ v < 3, ∀ q < 2, w.state 0 (v, q) = u v)
    (h0 : ∀ v < 3, flux1 (fun v => w.buf (.elem 0 0) false v) v = flux1 u v + δ v) (h1 : ∀ v < 3, flux1 (fun v => w.buf (.elem 0 1) false v) v = flux1 u v - δ v)
    (hk : stage = true → ∀ v < 3, ∀ q < 2, w.cache 0 (v, q) = κ v) :
    ∃ w', computeConvection (ns 1 false mu kappa) bs exOne sr dt stage false false (runBc 1 bs.n 3 false copyRule exOne.cons w) = some w' ∧
      (∀ v < 3, ∀ q < 2, w'.state 0 (v, q) = u v + (if stage then dt * sr * (2 * δ v - κ v) else dt * (2 * δ v))) ∧
      (∀ f < 2, ∀ v < 3, w'.buf (.elem 0 f) false v = u v + (if stage then dt * sr * (2 * δ v - κ v) else dt * (2 * δ v))) ∧
      (stage = false → ∀ v < 3, ∀ q < 2, w'.cache 0 (v, q) = 2 * δ v) := by
  set p := ns 1 false mu kappa with hp
  set wb := runBc 1 bs.n 3 false copyRule exOne.cons w with hwb
  set o : Opts := ⟨if stage then dt * sr else dt, stage, false, false⟩ with ho
  have hbc := runBc_ghostOnly 1 bs.n 3 false copyRule exOne.cons w
  refine ⟨runLocal p bs exOne o (runNeighbor p bs exOne wb), by simp [computeConvection, hp, ns, runRestrict, runProlong, exOne, ho], ?_⟩
  obtain ⟨l1, -, -⟩ := elems_fold 1 (fun e => localKernel p bs 1 o (exOne.elem e)) exOne.elems (runNeighbor p bs exOne wb) (exOne_ok bs).elems_nodup
  obtain ⟨-, -, n3, n4⟩ := cons_fold (fun c st => neighbor p exOne.nd bs.n c.deformed c.dir c.normal st) exOne.cons wb (exOne_ok bs).sides_nodup
  have hst : (runNeighbor p bs exOne wb).state = w.state := by rw [runNeighbor, n3, hbc.1]
  have hca : (runNeighbor p bs exOne wb).cache = w.cache := by rw [runNeighbor, n4, hbc.2.1]
  obtain ⟨k1, k2, k3⟩ := l1 0 (by decide)
  rw [hst, hca] at k1 k2 k3
  have hrate : ∀ visc, ∀ v < 3, ∀ q < 2, (localRate p bs 1 o (exOne.elem 0) (w.state 0) (fun f => (runNeighbor p bs exOne wb).buf (.elem 0 f) false) visc).1 (v, q) = 2 * δ v := by
    intro visc v hv q hq
    exact even_rate h2 mu kappa o rfl (w.state 0) _ visc u δ hs (fun v hv => by rw [end_flux h2 mu kappa w (by decide) hv, h0 v hv]) (fun v hv => by rw [end_flux h2 mu kappa w (by decide) hv, h1 v hv]) hv hq
  have hS : ∀ v < 3, ∀ q < 2, (runLocal p bs exOne o (runNeighbor p bs exOne wb)).state 0 (v, q) = u v + (if stage then dt * sr * (2 * δ v - κ v) else dt * (2 * δ v)) := by
    intro v hv q hq
    rw [runLocal, show exOne.nd = 1 from rfl, k1]
    have hr := hrate (fun f => (runNeighbor p bs exOne wb).buf (.elem 0 f) true) v hv q hq
    simp only [localKernel]
    generalize localRate p bs 1 o (exOne.elem 0) (w.state 0) (fun f => (runNeighbor p bs exOne wb).buf (.elem 0 f) false) (fun f => (runNeighbor p bs exOne wb).buf (.elem 0 f) true) = R at hr ⊢
    simp only [hr, hp, ns, ho, updateMult, exOne, if_pos hv, hs v hv q hq, Bool.false_or, Bool.false_eq_true, if_false]
    cases stage with
    | true => simp only [if_true, hk rfl v hv q hq]; ring
    | false => simp only [Bool.false_eq_true, if_false]; ring
  refine ⟨hS, ?_, ?_⟩
  · intro f hf v hv
    have e1 := (k3 f (by omega)).1
    rw [runLocal, show exOne.nd = 1 from rfl, e1]
    have e2 : (localKernel p bs 1 o (exOne.elem 0) (w.state 0) (w.cache 0) (fun f => (runNeighbor p bs exOne wb).buf (.elem 0 f) false) fun f => (runNeighbor p bs exOne wb).buf (.elem 0 f) true).faces f v =
        writeFace p bs 1 ((runLocal p bs exOne o (runNeighbor p bs exOne wb)).state 0) (fun f => (runNeighbor p bs exOne wb).buf (.elem 0 f) false) f v := by
      rw [runLocal, show exOne.nd = 1 from rfl, k1]
      rfl
    rw [e2]
    exact even_face h2 mu kappa _ _ _ hS hf hv
  · intro hst' v hv q hq
    rw [runLocal, show exOne.nd = 1 from rfl, k2]
    have hr := hrate (fun f => (runNeighbor p bs exOne wb).buf (.elem 0 f) true) v hv q hq
    simp only [localKernel]
    generalize localRate p bs 1 o (exOne.elem 0) (w.state 0) (fun f => (runNeighbor p bs exOne wb).buf (.elem 0 f) false) (fun f => (runNeighbor p bs exOne wb).buf (.elem 0 f) true) = R at hr ⊢
    simp [hp, ns, ho, hst', hv, hr]

/-- One time step. -/
theorem one_step {bs : BasisData} (h2 : Two bs) (mu kappa : Transport) (sr dt : ℝ) (fbc : World → World) (w : World) (u δ : Nat → ℝ) (hs : ∀ v < 3, ∀ q < 2, w.state 0 (v, q) = u v)
    (h0 : ∀ v < 3, flux1 (fun v => w.buf (.elem 0 0) false v) v = flux1 u v + δ v) (h1 : ∀ v < 3, flux1 (fun v => w.buf (.elem 0 1) false v) v = flux1 u v - δ v) :
    ∃ w', flowStep false mu kappa bs exOne sr dt false (runBc 1 bs.n 3 false copyRule exOne.cons) fbc w = some w' ∧ ∀ v < 3, ∀ q < 2, w'.state 0 (v, q) = u v + 2 * (1 - sr) * dt * δ v := by
  obtain ⟨w1, a1, a2, a3, a4⟩ := one_stage h2 mu kappa sr dt false w u δ (fun _ => 0) hs h0 h1 (by simp)
  simp only [Bool.false_eq_true, if_false] at a2 a3
  obtain ⟨w2, b1, b2, b3, b4⟩ := one_stage h2 mu kappa sr dt true w1 (fun v => u v + dt * (2 * δ v)) (fun _ => 0) (fun v => 2 * δ v) a2
    (fun v hv => by rw [add_zero]; exact flux1_congr (fun v hv => a3 0 (by decide) v hv) hv) (fun v hv => by rw [sub_zero]; exact flux1_congr (fun v hv => a3 1 (by decide) v hv) hv) (fun _ => a4 rfl)
  refine ⟨w2, ?_, ?_⟩
  · simp only [flowStep, Bool.false_eq_true, if_false]
    rw [show exOne.nd = 1 from rfl, a1]
    exact b1
  · intro v hv q hq
    rw [b2 v hv q hq]
    simp only [if_true]
    ring

end Hexed.StateFile
