import Verif.ArtVisc.Model
import Verif.StateFile.Restart
import Verif.Solver.Props
set_option autoImplicit false
set_option linter.unusedVariables false

/-!
# What each part of the update leaves alone
-/

namespace Hexed.ArtVisc
open Hexed.Spatial Hexed.Pde Hexed.Solver Hexed.StateFile
noncomputable section

variable {bs : BasisData} {m : Mesh}

theorem readTss_ok (hm : m.Ok bs) (w : World) : (readTss m w).Ok bs :=
  { hm with }

/-- A convective stage changes only the variables that `write_update` writes. -/
theorem conv_frame {p : Pde} {V : Nat → Prop} (hp : ∀ u c s i, ¬V i → p.writeUpdate u c s i = s i) (hm : m.Ok bs) {sr dt : ℝ} {stage res filter : Bool} {w w' : World}
    (h : computeConvection p bs m sr dt stage res filter w = some w') (e : Nat) {v : Nat} (hv : ¬V v) (q : Nat) : w'.state e (v, q) = w.state e (v, q) := by
  rw [computeConvection] at h
  split at h
  · cases h
  · obtain rfl := Option.some.inj h
    obtain ⟨n1, n2, n3, n4⟩ := cons_fold (fun c st => neighbor p m.nd bs.n c.deformed c.dir c.normal st) m.cons w hm.sides_nodup
    set op : Opts := ⟨if stage then dt * sr else dt, stage, res, filter⟩
    set w2 := runRestrict p bs m true false (runNeighbor p bs m w) with hw2
    obtain ⟨l1, l2, _⟩ := elems_fold m.nd (fun e => localKernel p bs m.nd op (m.elem e)) m.elems w2 hm.elems_nodup
    have hw2s : w2.state = w.state := n3
    show (runLocal p bs m op w2).state e (v, q) = _
    by_cases he : e ∈ m.elems
    · rw [runLocal, (l1 e he).1]
      simp only [localKernel]
      rw [hp _ _ _ _ hv, hw2s]
    · rw [runLocal, (l2 e he).1, hw2s]

/-- A diffusive stage changes only the variables that `write_update` writes. -/
theorem diff_frame {p : Pde} {V : Nat → Prop} (hp : ∀ u c s i, ¬V i → p.writeUpdate u c s i = s i) (hm : m.Ok bs) {fb : World → World} (hfb : GhostOnly fb) {sr dt : ℝ} {stage filter : Bool} {w w' : World}
    (h : computeDiffusion p bs m fb sr dt stage false filter w = some w') (e : Nat) {v : Nat} (hv : ¬V v) (q : Nat) : w'.state e (v, q) = w.state e (v, q) := by
  rw [computeDiffusion] at h
  split at h
  · cases h
  · obtain rfl := Option.some.inj h
    obtain ⟨n1, n2, n3, n4⟩ := cons_fold (fun c st => neighbor p m.nd bs.n c.deformed c.dir c.normal st) m.cons w hm.sides_nodup
    set op : Opts := ⟨if stage then dt * sr else dt, stage, false, filter⟩
    set w2 := runRestrict p bs m false true (runRestrict p bs m true false (runNeighbor p bs m w)) with hw2
    obtain ⟨l1, l2, _⟩ := elems_fold m.nd (fun e => localKernel p bs m.nd op (m.elem e)) m.elems w2 hm.elems_nodup
    have hw2s : w2.state = w.state := n3
    have h3 : (runLocal p bs m op w2).state e (v, q) = w.state e (v, q) := by
      by_cases he : e ∈ m.elems
      · rw [runLocal, (l1 e he).1]
        simp only [localKernel]
        rw [hp _ _ _ _ hv, hw2s]
      · rw [runLocal, (l2 e he).1, hw2s]
    cases stage with
    | true => exact h3
    | false =>
      simp only [Bool.not_false, if_true]
      set w3 := runLocal p bs m op w2
      set w4 := fb (runProlong p bs m true true w3) with hw4
      set w6 := runRestrict p bs m true true (runReconcileCons p bs m w4) with hw6
      have hw6s : w6.state = w3.state := ((cons_fold (fun c st => neighborReconcile p m.nd bs.n c.deformed c.dir st) m.cons w4 hm.sides_nodup).2.2.1).trans (hfb _).1
      obtain ⟨k1, k2, _⟩ := elems_fold m.nd (fun e => reconcileKernel p bs m.nd { op with update := dt } (m.elem e)) m.elems w6 hm.elems_nodup
      show (runReconcileElems p bs m { op with update := dt } w6).state e (v, q) = _
      rw [← h3]
      by_cases he : e ∈ m.elems
      · rw [runReconcileElems, (k1 e he).1]
        simp only [reconcileKernel]
        split
        · rw [hw6s]
        · beta_reduce; rw [hp _ _ _ _ hv, hw6s]
      · rw [runReconcileElems, (k2 e he).1, hw6s]

theorem writeFaces_at (p : Pde) (hm : m.Ok bs) (w : World) :
    (writeFaces p bs m w).state = w.state ∧ (writeFaces p bs m w).cache = w.cache ∧
    ∀ e ∈ m.elems, ∀ f < 2 * m.nd, (writeFaces p bs m w).buf (.elem e f) false = writeFace p bs m.nd (w.state e) (fun f => w.buf (.elem e f) false) f := by
  obtain ⟨h1, h2, h3⟩ := elems_fold m.nd (fun e state cache faces visc => ⟨state, cache, writeFace p bs m.nd state faces, visc⟩) m.elems w hm.elems_nodup
  rw [writeFaces]
  refine ⟨?_, ?_, fun e he f hf => ((h1 e he).2.2 f hf).1⟩
  · funext e
    by_cases he : e ∈ m.elems
    · exact (h1 e he).1
    · exact (h2 e he).1
  · funext e
    by_cases he : e ∈ m.elems
    · exact (h1 e he).2.1
    · exact (h2 e he).2

theorem refresh_state (hm : m.Ok bs) (mu kappa : Transport) (w : World) : (refresh mu kappa bs m w).state = w.state := (writeFaces_spec hm mu kappa w).1

theorem mapPoints_at (f : Nat → Nat → (Nat → ℝ) → Nat → ℝ) (w : World) {e q : Nat} (he : e ∈ m.elems) (hq : q < bs.n ^ m.nd) (v : Nat) :
    (mapPoints bs m f w).state e (v, q) = f e q (fun v => w.state e (v, q)) v := if_pos ⟨he, hq⟩

theorem adv_frame {nd rs : Nat} {nodes : Nat → ℝ} {L : ℝ} (u : Nat → ℝ) (c : Bool) (s : Nat → ℝ) (i : Nat) (h : ¬(nd + 9 ≤ i)) : (advection nd rs nodes L).writeUpdate u c s i = s i :=
  if_neg fun hh => h hh.1
theorem smooth_frame {nd : Nat} {T c' : ℝ} (u : Nat → ℝ) (c : Bool) (s : Nat → ℝ) (i : Nat) (h : ¬(nd + 6 ≤ i ∧ i < nd + 9)) : (smoothArtVisc nd T c').writeUpdate u c s i = s i := if_neg h

theorem stage_frame (hm : m.Ok bs) {nodes : Nat → ℝ} {P : Params} {sr : ℝ} {bc : ConRec → AdvBc} {stage : Bool} {w w' : World} (h : advectStage bs m nodes P sr bc stage w = some w') (e : Nat) {v : Nat} (hv : v < m.nd + 9) (q : Nat) :
    w'.state e (v, q) = w.state e (v, q) := by
  have hr := (runBc_ghostOnly m.nd bs.n (m.nd + bs.n) false (fun c => (bc c).rule m.nd) m.cons w).1
  have := conv_frame (V := fun i => m.nd + 9 ≤ i) (p := advection m.nd bs.n nodes P.length) adv_frame (readTss_ok hm _) h e (by omega : ¬(m.nd + 9 ≤ v)) q
  rw [this, hr]

theorem iter_frame (hm : m.Ok bs) {nodes : Nat → ℝ} {P : Params} {sr : ℝ} {bc : ConRec → AdvBc} {w w' : World} (h : advectIter bs m nodes P sr bc w = some w') (e : Nat) {v : Nat} (hv : v < m.nd + 9) (q : Nat) :
    w'.state e (v, q) = w.state e (v, q) := by
  rw [advectIter] at h
  obtain ⟨w1, h1, h2⟩ := Option.bind_eq_some_iff.1 h
  rw [stage_frame hm h2 e hv q, stage_frame hm h1 e hv q]
  exact congrFun (congrFun (writeFaces_at (advection m.nd bs.n nodes P.length) hm w).1 e) (v, q)

theorem foldlM_frame {α : Type} {f : World → α → Option World} {R : World → World → Prop} (hrefl : ∀ w, R w w) (htrans : ∀ a b c, R a b → R b c → R a c) (hf : ∀ w a w', f w a = some w' → R w w') :
    ∀ (l : List α) (w w' : World), l.foldlM f w = some w' → R w w'
  | [], w, w', h => by simp only [List.foldlM_nil] at h; cases h; exact hrefl _
  | a :: l, w, w', h => by
    rw [List.foldlM_cons] at h
    obtain ⟨w1, h1, h2⟩ := Option.bind_eq_some_iff.1 h
    exact htrans _ _ _ (hf _ _ _ h1) (foldlM_frame hrefl htrans hf l w1 w' h2)

theorem smoothStep_frame (hm : m.Ok bs) {T sr : ℝ} {n i : Nat} {w w' : World} (h : smoothStep bs m T sr n i w = some w') (e : Nat) {v : Nat} (hv : ¬(m.nd + 6 ≤ v ∧ v < m.nd + 9)) (q : Nat) :
    w'.state e (v, q) = w.state e (v, q) := by
  have hr := (runBc_ghostOnly m.nd bs.n (m.nd + 2) false (fun _ _ => copyState) m.cons w).1
  have := diff_frame (V := fun i => m.nd + 6 ≤ i ∧ i < m.nd + 9) (p := smoothArtVisc m.nd T _) smooth_frame (readTss_ok hm _) (runBc_ghostOnly m.nd bs.n (m.nd + 2) true (fun _ _ => negateFlux) m.cons) h e hv q
  rw [this, hr]

/-- The smoothing changes the local time step and the last three forcing variables. -/
theorem diffuse_frame (hm : m.Ok bs) {mu kappa : Transport} {tss : World → Nat → Nat → ℝ} {T sr : ℝ} {di nc : Nat} {w w' : World} (h : diffuse mu kappa bs m tss T sr di nc w = some w') (e : Nat) {v : Nat}
    (hv : ¬(m.nd + 6 ≤ v ∧ v < m.nd + 9)) (hv2 : v ≠ m.nd + 2) (q : Nat) : w'.state e (v, q) = w.state e (v, q) := by
  rw [diffuse] at h
  have h1 := foldlM_frame (R := fun w w' => w'.state e (v, q) = w.state e (v, q)) (fun _ => rfl) (fun _ _ _ a b => b.trans a) (fun w a w' h => smoothStep_frame hm h e hv q) _ _ _ h
  rw [h1]
  have h2 := congrFun (congrFun (writeFaces_at (smoothArtVisc m.nd 1 1) hm (setTss bs m tss w)).1 e) (v, q)
  refine h2.trans ?_
  simp only [setTss, mapPoints, if_neg hv2, ite_self]

/-- Everything up to the smoothing, for the variables that are put back: momentum is scaled, density, energy and both artificial viscosities are as before. -/
theorem forcing_frame (hm : m.Ok bs) {mu kappa : Transport} {b : Basis.Nodes ℝ} {nodes : Nat → ℝ} {P : Params} {sr : ℝ} {bc : ConRec → AdvBc} {tssA tssD : World → Nat → Nat → ℝ} {w w' : World}
    (h : forcing mu kappa b bs m nodes P sr bc tssA tssD w = some w') {e q : Nat} (he : e ∈ m.elems) (hq : q < bs.n ^ m.nd) :
    0 < 2 * w.state e (m.nd, q) * w.state e (m.nd + 1, q) ∧
    (∀ v < m.nd, w'.state e (v, q) = w.state e (v, q) / √(2 * w.state e (m.nd, q) * w.state e (m.nd + 1, q))) ∧
    ∀ v, m.nd ≤ v → v < m.nd + 5 → v ≠ m.nd + 2 → w'.state e (v, q) = w.state e (v, q) := by
  rw [forcing] at h
  obtain ⟨w1, h1, ha⟩ := Option.bind_eq_some_iff.1 h
  dsimp only at ha
  obtain ⟨w2, h2, hb⟩ := Option.bind_eq_some_iff.1 ha
  obtain ⟨orth, _, hc⟩ := Option.bind_eq_some_iff.1 hb
  rw [scaleDown] at h1
  split at h1
  · next hpos =>
    obtain rfl := Option.some.inj h1
    have h3 : ∀ v < m.nd + 5, v ≠ m.nd + 2 → w'.state e (v, q) = (mapPoints bs m (fun _ _ s v => if v < m.nd then s v / scaleOf m.nd s else s v) w).state e (v, q) := by
      intro v hv hv2
      rw [diffuse_frame hm hc e (by omega) hv2 q, project, mapPoints_at _ _ he hq, if_neg (by omega)]
      beta_reduce
      rw [foldlM_frame (R := fun w w' => w'.state e (v, q) = w.state e (v, q)) (fun _ => rfl) (fun _ _ _ a b => b.trans a) (fun w a w' h => iter_frame hm h e (by omega) q) _ _ _ h2,
        setTss, mapPoints_at _ _ he hq, if_neg hv2]
      beta_reduce
      rw [refresh_state hm]
    refine ⟨hpos e he q hq, fun v hv => ?_, fun v hv hv' hv2 => ?_⟩
    · rw [h3 v (by omega) (by omega), mapPoints_at _ _ he hq, if_pos hv, scaleOf]
    · rw [h3 v hv' hv2, mapPoints_at _ _ he hq, if_neg (by omega)]
  · cases h1

end
end Hexed.ArtVisc
