import Verif.ArtVisc.Spec
import Verif.ArtVisc.Steady
import Verif.TimeStep.Cheby
import Verif.Basis.Filter
import Verif.Adapt.Deform
set_option autoImplicit false
set_option linter.unusedVariables false

/-!
# Lemmas about the whole update of the artificial viscosity
-/

namespace Hexed.ArtVisc
open Hexed.Spatial Hexed.Pde Hexed.Solver Hexed.StateFile Hexed.Metric
open Polynomial (aeval)
noncomputable section

variable {bs : BasisData} {b : Basis.Nodes ℝ} {deg : Nat} {m : Mesh} {N : Buf → Mem}
variable {mu kappa : Transport} {nodes : Nat → ℝ} {P : Params} {sr : ℝ} {bc : ConRec → AdvBc} {tssA tssD : World → Nat → Nat → ℝ} {w w' : World} {r : ℝ}

theorem finish_some {wf : World} {p : World × ℝ} (h : finish bs m P wf = some p) : ∀ e ∈ m.elems, ∀ q < bs.n ^ m.nd,
    P.usMax + P.mult * wf.state e (m.nd + 8, q) ≠ 0 ∧
    p.1.state e (m.nd + 3, q) = P.usMax * (P.mult * wf.state e (m.nd + 8, q)) / (P.usMax + P.mult * wf.state e (m.nd + 8, q)) ∧
    (∀ v < m.nd, p.1.state e (v, q) = wf.state e (v, q) * √(2 * wf.state e (m.nd, q) * wf.state e (m.nd + 1, q))) ∧
    ∀ v, m.nd ≤ v → v ≠ m.nd + 3 → p.1.state e (v, q) = wf.state e (v, q) := by
  rw [finish] at h
  split at h
  · next hall =>
    obtain rfl := Option.some.inj h
    intro e he q hq
    have h1 := hall e he q hq
    beta_reduce at h1
    have hne : P.usMax + P.mult * wf.state e (m.nd + 8, q) ≠ 0 := by
      intro h0
      have : Visc.newAv P.usMax P.mult (wf.state e (m.nd + 5 + nReal, q)) = none := if_pos h0
      rw [this] at h1; cases h1
    have hav : Visc.newAv P.usMax P.mult (wf.state e (m.nd + 5 + nReal, q)) = some (P.usMax * (P.mult * wf.state e (m.nd + 8, q)) / (P.usMax + P.mult * wf.state e (m.nd + 8, q))) := if_neg hne
    refine ⟨hne, ?_, fun v hv => ?_, fun v hv hv3 => ?_⟩
    · rw [mapPoints_at _ _ he hq, if_pos rfl]
      beta_reduce
      rw [hav, Option.getD_some]
    · rw [mapPoints_at _ _ he hq, if_neg (by omega), if_pos hv, scaleOf]
    · rw [mapPoints_at _ _ he hq, if_neg hv3, if_neg (by omega)]
  · cases h

theorem update_split (hm : m.Ok bs) (h : update mu kappa b bs m nodes P sr bc tssA tssD w = some (w', r)) :
    ∃ wf w1, forcing mu kappa b bs m nodes P sr bc tssA tssD w = some wf ∧ finish bs m P wf = some (w1, r) ∧ w' = refresh mu kappa bs m w1 := by
  rw [update] at h
  obtain ⟨wf, h1, h2⟩ := Option.bind_eq_some_iff.1 h
  obtain ⟨⟨w1, r1⟩, h3, h4⟩ := Option.bind_eq_some_iff.1 h2
  cases h4
  exact ⟨wf, w1, h1, h3, rfl⟩

theorem foldlM_total {α β : Type} {f : β → α → Option β} (hf : ∀ w a, ∃ w', f w a = some w') : ∀ (l : List α) (w : β), ∃ w', l.foldlM f w = some w'
  | [], w => ⟨w, rfl⟩
  | a :: l, w => by
    obtain ⟨w1, h1⟩ := hf w a
    obtain ⟨w2, h2⟩ := foldlM_total hf l w1
    exact ⟨w2, by rw [List.foldlM_cons, h1]; exact h2⟩

theorem advectStage_total (stage : Bool) (w : World) : ∃ w', advectStage bs m nodes P sr bc stage w = some w' := by
  simp only [advectStage, computeConvection, advection, Bool.false_and, Bool.and_false, Bool.or_self, Bool.false_eq_true, if_false]
  exact ⟨_, rfl⟩

theorem advectIter_total (w : World) : ∃ w', advectIter bs m nodes P sr bc w = some w' := by
  obtain ⟨w1, h1⟩ := advectStage_total (bs := bs) (m := m) (nodes := nodes) (P := P) (sr := sr) (bc := bc) false
    (runProlong (advection m.nd bs.n nodes P.length) bs m false false (writeFaces (advection m.nd bs.n nodes P.length) bs m w))
  obtain ⟨w2, h2⟩ := advectStage_total (bs := bs) (m := m) (nodes := nodes) (P := P) (sr := sr) (bc := bc) true w1
  exact ⟨w2, by rw [advectIter]; simp only [h1, Option.bind_some, h2]⟩

theorem smoothStep_total (T : ℝ) (n : Nat) (w : World) (i : Nat) : ∃ w', smoothStep bs m T sr n i w = some w' := by
  simp only [smoothStep, computeDiffusion, Bool.and_false, Bool.or_self, Bool.false_eq_true, if_false]
  exact ⟨_, rfl⟩


theorem orth_list (hr : 2 ≤ P.avRs ∧ P.avRs ≤ b.n) : (List.range b.n).mapM (fun i => Basis.orthogonal b (P.avRs - 1) i) = some ((List.range b.n).map fun i => Basis.ortho b (P.avRs - 1) i) :=
  Adapt.mapM_some fun i hi => (Basis.filter_tables b (List.mem_range.1 hi) (by omega)).2

theorem forcing_total (hr : 2 ≤ P.avRs ∧ P.avRs ≤ b.n) (hpos : ∀ e ∈ m.elems, ∀ q < bs.n ^ m.nd, 0 < 2 * w.state e (m.nd, q) * w.state e (m.nd + 1, q)) : ∃ wf, forcing mu kappa b bs m nodes P sr bc tssA tssD w = some wf := by
  obtain ⟨w1, h1⟩ := foldlM_total (fun w (_ : Nat) => advectIter_total (bs := bs) (m := m) (nodes := nodes) (P := P) (sr := sr) (bc := bc) w) (List.range P.advectIters)
    (setTss bs m tssA (refresh mu kappa bs m (mapPoints bs m (fun _ _ s v => if v < m.nd then s v / scaleOf m.nd s else s v) w)))
  rw [forcing, scaleDown, if_pos hpos, Option.bind_some]
  dsimp only
  rw [h1, Option.bind_some, orth_list hr, Option.bind_some]
  exact foldlM_total (fun w i => smoothStep_total (bs := bs) (m := m) (sr := sr) P.diffTime P.nCheby w i) _ _

/-! ## The projection -/

theorem proj_eq (nd : Nat) (orth s : Nat → ℝ) : proj bs nd orth s = ∑ i ∈ Finset.range bs.n, s (nd + 9 + i) * bs.weight i * orth i := by
  rw [proj, Basis.foldl_add, zero_add, Basis.range_sum]

theorem proj_smooth (hof : bs.IsOf b) (hb : b.Exact deg) (hdeg : 2 * b.n ≤ deg + 3) (hr : 2 ≤ P.avRs ∧ P.avRs ≤ b.n) (nd : Nat) (s : Nat → ℝ) (p : Polynomial ℝ) (hp : p.natDegree < P.avRs - 1) (hs : ∀ i < bs.n, s (nd + 9 + i) = p.eval (b.node i)) :
    proj bs nd (fun i => Basis.ortho b (P.avRs - 1) i) s = 0 := by
  have h := Basis.sl_ortho hb (P.avRs - 1) p hp (by omega)
  rw [Basis.quad] at h
  rw [proj_eq, hof.n]
  have h2 : ∀ i ∈ Finset.range b.n, s (nd + 9 + i) * bs.weight i * Basis.ortho b (P.avRs - 1) i = (b.weight i * ((Basis.sl (P.avRs - 1) * p).eval (b.node i))) * ((-1) ^ (P.avRs - 1) / √(Basis.normSq b (P.avRs - 1))) := by
    intro i hi
    have hi := Finset.mem_range.1 hi
    rw [hs i (by rw [hof.n]; exact hi), hof.weight, Basis.ortho_eq, Basis.legendreVal, Basis.sl_eval, Polynomial.eval_mul]
    ring
  rw [Finset.sum_congr rfl h2, ← Finset.sum_mul]
  rw [show ∑ i ∈ Finset.range b.n, b.weight i * ((Basis.sl (P.avRs - 1) * p).eval (b.node i)) = 0 from h, zero_mul]

/-! ## Uniform flow -/

/-- Same data at all quadrature points. -/
def Same (bs : BasisData) (m : Mesh) (w w' : World) : Prop := ∀ e ∈ m.elems, ∀ q < bs.n ^ m.nd, ∀ v, w'.state e (v, q) = w.state e (v, q)

theorem foldlM_same {α : Type} {f : World → α → Option World} {I : World → Prop} (hI : ∀ w w', Same bs m w w' → I w → I w') (hf : ∀ w a w', I w → f w a = some w' → Same bs m w w') :
    ∀ (l : List α) (w w' : World), I w → l.foldlM f w = some w' → Same bs m w w'
  | [], w, w', hw, h => by cases h; exact fun e he q hq v => rfl
  | a :: l, w, w', hw, h => by
    rw [List.foldlM_cons] at h
    obtain ⟨w1, h1, h2⟩ := Option.bind_eq_some_iff.1 h
    have s1 := hf w a w1 hw h1
    have s2 := foldlM_same hI hf l w1 w' (hI w w1 s1 hw) h2
    exact fun e he q hq v => (s2 e he q hq v).trans (s1 e he q hq v)

/-- What one advection iteration needs. -/
structure AdvReady (bs : BasisData) (m : Mesh) (vel : Nat → ℝ) (w : World) : Prop where
  vel : ∀ e ∈ m.elems, ∀ q < bs.n ^ m.nd, ∀ v < m.nd, w.state e (v, q) = vel v
  adv : ∀ e ∈ m.elems, ∀ q < bs.n ^ m.nd, ∀ i < bs.n, w.state e (m.nd + 9 + i, q) = 1
  tss : ∀ e ∈ m.elems, ∀ q < bs.n ^ m.nd, 0 ≤ w.state e (m.nd + 2, q)

theorem AdvReady.same {vel : Nat → ℝ} (h : Same bs m w w') (hw : AdvReady bs m vel w) : AdvReady bs m vel w' where
  vel e he q hq v hv := (h e he q hq _).trans (hw.vel e he q hq v hv)
  adv e he q hq i hi := (h e he q hq _).trans (hw.adv e he q hq i hi)
  tss e he q hq := by rw [h e he q hq]; exact hw.tss e he q hq

theorem one_add_ne {x y z : ℝ} (hx : 0 ≤ x) (hy : 0 ≤ y) (hz : 0 ≤ z) : 1 + x * y / z ≠ 0 := by
  have : 0 ≤ x * y / z := by positivity
  linarith

theorem walls_keep {vel : Nat → ℝ} (hw : WallsFit bs m vel bc) : ∀ c ∈ m.cons, (c.side true).isGhost = true → ∀ k < bs.n ^ (m.nd - 1), ∀ inside : Nat → ℝ, (∀ v < m.nd + bs.n, inside v = advX m.nd vel v) →
      ∀ v < m.nd + bs.n, (bc c).rule m.nd (fun i => c.normal (i * bs.n ^ (m.nd - 1) + k)) inside v = advX m.nd vel v := by
  intro c hc hg k hk inside hin v hv
  have h := hw c hc hg
  have hiv : ∀ i < m.nd, inside i = vel i := fun i hi => by rw [hin i (by omega), advX, if_pos hi]
  cases hbc : bc c with
  | default =>
    show defaultAdvection m.nd inside v = _
    rw [defaultAdvection]
    split
    · exact hin v hv
    · next h' => rw [hin v hv, advX, if_neg h']; norm_num
  | nonpenetration =>
    rw [hbc] at h
    show nonpenAdvection m.nd _ inside v = _
    rw [nonpenAdvection]
    have h0 : sumN m.nd (fun i => inside i * c.normal (i * bs.n ^ (m.nd - 1) + k)) = 0 := by
      rw [sumN_eq, ← h k hk]
      exact Finset.sum_congr rfl fun i hi => by rw [hiv i (Finset.mem_range.1 hi)]
    rw [h0]
    simp only [mul_zero, zero_mul, zero_div, sub_zero, ite_self]
    exact hin v hv
  | noSlip =>
    rw [hbc] at h
    show noSlipAdvection m.nd inside v = _
    rw [noSlipAdvection]
    split
    · next h' => rw [hiv v h', advX, if_pos h', h v h', neg_zero]
    · exact hin v hv

theorem iter_uniform (hof : bs.IsOf b) (hb : b.Distinct) (hn : 0 < bs.n) (hm : m.Ok bs) (hN : Sealed bs m N) (hL : 0 < P.length) {vel : Nat → ℝ} (hwl : WallsFit bs m vel bc) (hw : AdvReady bs m vel w)
    (h : advectIter bs m nodes P sr bc w = some w') : Same bs m w w' := by
  have hn' : 0 < b.n := by rw [← hof.n]; exact hn
  rw [advectIter] at h
  obtain ⟨w1, h1, h2⟩ := Option.bind_eq_some_iff.1 h
  set p := advection m.nd bs.n nodes P.length with hp
  obtain ⟨a1, a2, a3⟩ := writeFaces_at p hm w
  set w0 := runProlong p bs m false false (writeFaces p bs m w) with hw0
  have hs0 : w0.state = w.state := a1
  have hin : HoldsIn bs m (m.nd + bs.n) false (advX m.nd vel) w0 := by
    refine prolong_held p (m.nd + bs.n) le_rfl hn hm false false (advX m.nd vel) (fun str i base v mem hv h k hk => const_prolong hof hb hn' hm.dim str i base _ mem h hk) _ ?_
    intro e he f hf v hv k hk
    rw [a3 e he f hf]
    refine write_const (p := p) hof hb hn m.nd (advX m.nd vel) _ ?_ _ f hf v hv k hk
    intro q hq v hv
    show (if v < m.nd then _ else _) = _
    rw [advX]
    split
    · next h' => exact hw.vel e he q hq v h'
    · next h' => exact hw.adv e he q hq (v - m.nd) (by have : v < m.nd + bs.n := hv; omega)
  have stage : ∀ (st : Bool) (w w' : World), AdvReady bs m vel w → HoldsIn bs m (m.nd + bs.n) false (advX m.nd vel) w → (st = true → ∀ e ∈ m.elems, ∀ v < bs.n, ∀ q < bs.n ^ m.nd, w.cache e (v, q) = 0) →
      advectStage bs m nodes P sr bc st w = some w' → Same bs m w w' ∧ HoldsIn bs m (m.nd + bs.n) false (advX m.nd vel) w' ∧ (st = false → ∀ e ∈ m.elems, ∀ v < bs.n, ∀ q < bs.n ^ m.nd, w'.cache e (v, q) = 0) := by
    intro st w w' hw hin hc h
    rw [advectStage] at h
    have g := runBc_ghostOnly m.nd bs.n (m.nd + bs.n) false (fun c => (bc c).rule m.nd) m.cons w
    have hh := bc_holds hm (m.nd + bs.n) false (fun c => (bc c).rule m.nd) (advX m.nd vel) le_rfl (walls_keep hwl) w hin
    set v := runBc m.nd bs.n (m.nd + bs.n) false (fun c => (bc c).rule m.nd) m.cons w with hv
    have key := advect_stage hof hb hn (readTss_ok hm v) (readTss_sealed hN v) nodes hL.ne' vel sr st v w' (fun e he q hq => ⟨fun u hu => by rw [g.1]; exact hw.vel e he q hq u hu, fun i hi => by rw [g.1]; exact hw.adv e he q hq i hi⟩)
      (fun e he q hq => ⟨rfl, one_add_ne (by rw [g.1]; exact hw.tss e he q hq) zero_le_two hL.le⟩) hh (fun hst e he v' hv' q hq => by rw [g.2.1]; exact hc hst e he v' hv' q hq) h
    exact ⟨fun e he q hq u => (key.1 e he q hq u).trans (by rw [g.1]), key.2⟩
  have hw0' : AdvReady bs m vel w0 := AdvReady.same (fun e he q hq v => by rw [hs0]) hw
  obtain ⟨b1, b2, b3⟩ := stage false w0 w1 hw0' hin (by simp) h1
  obtain ⟨c1, -, -⟩ := stage true w1 w' (AdvReady.same b1 hw0') b2 (fun _ => b3 rfl) h2
  exact fun e he q hq v => by rw [c1 e he q hq, b1 e he q hq, hs0]

/-- What the smoothing needs: forcing that is in equilibrium. -/
structure DiffReady (bs : BasisData) (m : Mesh) (a : ℝ) (w : World) : Prop where
  first : ∀ e ∈ m.elems, ∀ q < bs.n ^ m.nd, w.state e (m.nd + 5, q) = a
  second : ∀ e ∈ m.elems, ∀ q < bs.n ^ m.nd, w.state e (m.nd + 6, q) = |a|
  others : ∀ e ∈ m.elems, ∀ q < bs.n ^ m.nd, ∀ i < 2, w.state e (m.nd + 7 + i, q) = √|a|

theorem DiffReady.same {a : ℝ} (h : Same bs m w w') (hw : DiffReady bs m a w) : DiffReady bs m a w' where
  first e he q hq := (h e he q hq _).trans (hw.first e he q hq)
  second e he q hq := (h e he q hq _).trans (hw.second e he q hq)
  others e he q hq i hi := (h e he q hq _).trans (hw.others e he q hq i hi)

/-- Values of the smoothed variables in equilibrium. -/
def eqX (a : ℝ) (v : Nat) : ℝ := if v = 0 then |a| else √|a|

theorem DiffReady.vals {a : ℝ} (hw : DiffReady bs m a w) : ∀ e ∈ m.elems, ∀ q < bs.n ^ m.nd, ∀ v < 3, w.state e (m.nd + 6 + v, q) = eqX a v := by
  intro e he q hq v hv
  rcases v with _ | v
  · exact hw.second e he q hq
  · rw [show m.nd + 6 + (v + 1) = m.nd + 7 + v by omega, hw.others e he q hq v (by omega)]; rfl

theorem DiffReady.source {a T c : ℝ} (hw : DiffReady bs m a w) : ∀ e ∈ m.elems, ∀ q < bs.n ^ m.nd, ∀ v < 3, (smoothArtVisc m.nd T c).source (fun u => w.state e (u, q)) v = eqX a v / T := by
  intro e he q hq v hv
  show (if v = 1 then √|w.state e (m.nd + 5 + v, q)| else |w.state e (m.nd + 5 + v, q)|) / T = _
  have h2 := hw.vals e he q hq
  rcases v with _ | _ | _ | v
  · rw [if_neg (by omega), Nat.add_zero, hw.first e he q hq]; rfl
  · rw [if_pos rfl, show m.nd + 5 + (0 + 1) = m.nd + 6 by omega, hw.second e he q hq, abs_abs]; rfl
  · rw [if_neg (by omega), show m.nd + 5 + (0 + 1 + 1) = m.nd + 7 + 0 by omega, hw.others e he q hq 0 (by omega), abs_of_nonneg (Real.sqrt_nonneg _)]; rfl
  · omega

/-- Uniform forcing in equilibrium is not changed by the smoothing, only `time_step_scale` is. -/
theorem diffuse_uniform (hof : bs.IsOf b) (hb : b.Exact deg) (hn : 0 < bs.n) (hdeg : b.n ≤ deg + 1) (hm : m.Ok bs) (hN : Sealed bs m N) {T : ℝ} (hT : 0 < T) {a : ℝ} {di nc : Nat} (htss : ∀ w e q, 0 ≤ tssD w e q) (hw : DiffReady bs m a w)
    (h : diffuse mu kappa bs m tssD T sr di nc w = some w') : Same bs m (setTss bs m tssD w) w' := by
  have hn' : 0 < b.n := by rw [← hof.n]; exact hn
  rw [diffuse] at h
  set w1 := setTss bs m tssD w with hw1
  have hst : ∀ e ∈ m.elems, ∀ q < bs.n ^ m.nd, ∀ v, w1.state e (v, q) = if v = m.nd + 2 then tssD w e q else w.state e (v, q) := fun e he q hq v => mapPoints_at _ w he hq v
  obtain ⟨a1, a2, a3⟩ := writeFaces_at (smoothArtVisc m.nd 1 1) hm w1
  set w2 := runProlong (ns m.nd false mu kappa) bs m false false (writeFaces (smoothArtVisc m.nd 1 1) bs m w1) with hw2
  have hs2 : w2.state = w1.state := a1
  have hr1 : DiffReady bs m a w1 := ⟨fun e he q hq => by rw [hst e he q hq, if_neg (by omega)]; exact hw.first e he q hq, fun e he q hq => by rw [hst e he q hq, if_neg (by omega)]; exact hw.second e he q hq,
    fun e he q hq i hi => by rw [hst e he q hq, if_neg (by omega)]; exact hw.others e he q hq i hi⟩
  have ht1 : ∀ e ∈ m.elems, ∀ q < bs.n ^ m.nd, 0 ≤ w1.state e (m.nd + 2, q) := fun e he q hq => by rw [hst e he q hq, if_pos rfl]; exact htss w e q
  have hin : HoldsIn bs m 3 false (eqX a) w2 := by
    refine prolong_held (ns m.nd false mu kappa) 3 (by have := hm.dim; show 3 ≤ m.nd + 2; omega) hn hm false false (eqX a) (fun str i base v mem hv h k hk => const_prolong hof hb.distinct hn' hm.dim str i base _ mem h hk) _ ?_
    intro e he f hf v hv k hk
    rw [a3 e he f hf]
    exact write_const (p := smoothArtVisc m.nd 1 1) hof hb.distinct hn m.nd (eqX a) (w1.state e) (fun q hq v hv => hr1.vals e he q hq v hv) _ f hf v hv k hk
  have step : ∀ (i : Nat), i < nc → ∀ (w w' : World), DiffReady bs m a w → (∀ e ∈ m.elems, ∀ q < bs.n ^ m.nd, 0 ≤ w.state e (m.nd + 2, q)) → HoldsIn bs m 3 false (eqX a) w → smoothStep bs m T sr nc i w = some w' →
      Same bs m w w' ∧ HoldsIn bs m 3 false (eqX a) w' := by
    intro i hi w w' hw ht hin h
    rw [smoothStep] at h
    have g := runBc_ghostOnly m.nd bs.n (m.nd + 2) false (fun _ _ => copyState) m.cons w
    have hd := hm.dim
    have hh := bc_holds hm 3 false (fun _ _ => copyState) (eqX a) (by omega : 3 ≤ m.nd + 2) (fun c _ _ k _ inside hi v hv => hi v hv) w hin
    set v := runBc m.nd bs.n (m.nd + 2) false (fun _ _ => copyState) m.cons w with hv
    have hv' : DiffReady bs m a v := DiffReady.same (fun e he q hq u => by rw [g.1]) hw
    have hc := TimeStep.cheby_pos hi
    have key := smooth_stage hof hb hn hdeg (readTss_ok hm v) (readTss_sealed hN v) hT.ne' (TimeStep.chebyshevStep nc i) (eqX a) (smoothFluxBc bs m) (runBc_ghostOnly _ _ _ _ _ _)
      (fun w hw => bc_holds hm 3 true (fun _ _ => negateFlux) (fun _ => 0) (by omega : 3 ≤ m.nd + 2) (fun c _ _ k _ inside hi v hv => by show -inside v = 0; rw [hi v hv, neg_zero]) w hw) sr v w'
      (fun e he q hq u hu => hv'.vals e he q hq u hu) (fun e he q hq u hu => hv'.source e he q hq u hu)
      (fun e he q hq => ⟨rfl, one_add_ne (by rw [g.1]; exact ht e he q hq) hc.le hT.le⟩) hh h
    exact ⟨fun e he q hq u => (key.1 e he q hq u).trans (by rw [g.1]), key.2⟩
  have fold : ∀ (l : List Nat), (∀ i ∈ l, i < nc) → ∀ w w' : World, DiffReady bs m a w → (∀ e ∈ m.elems, ∀ q < bs.n ^ m.nd, 0 ≤ w.state e (m.nd + 2, q)) → HoldsIn bs m 3 false (eqX a) w →
      l.foldlM (fun w i => smoothStep bs m T sr nc i w) w = some w' → Same bs m w w' := by
    intro l
    induction l with
    | nil => intro _ w w' _ _ _ h; cases h; exact fun e he q hq v => rfl
    | cons i l ih =>
      intro hl w w' hw ht hin h
      rw [List.foldlM_cons] at h
      obtain ⟨w3, h3, h4⟩ := Option.bind_eq_some_iff.1 h
      obtain ⟨s1, s2⟩ := step i (hl i (by simp)) w w3 hw ht hin h3
      have s3 := ih (fun i hi => hl i (by simp [hi])) w3 w' (DiffReady.same s1 hw) (fun e he q hq => by rw [s1 e he q hq]; exact ht e he q hq) s2 h4
      exact fun e he q hq v => (s3 e he q hq v).trans (s1 e he q hq v)
  have := fold _ (fun i hi => by
    obtain ⟨_, _, h⟩ := List.mem_flatMap.1 hi
    exact List.mem_range.1 h) w2 w' (DiffReady.same (fun e he q hq v => by rw [hs2]) hr1) (fun e he q hq => by rw [hs2]; exact ht1 e he q hq) hin h
  exact fun e he q hq v => by rw [this e he q hq, hs2]

end
end Hexed.ArtVisc
