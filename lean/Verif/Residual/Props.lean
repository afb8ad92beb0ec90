import Verif.Residual.Steady
import Verif.Stats.Props
set_option autoImplicit false
set_option linter.unusedVariables false

/-!
# Looking at a flow (C96)
-/

namespace Hexed.Residual
open Hexed.Spatial Hexed.Pde Hexed.Solver

variable {s : Setup} (hm : s.mesh.Ok s.bs) (hn : 0 < s.bs.n)

include hm hn in
/-- C96: after `Solver::initialize` has written the faces, and after every time step, the faces are up to date. -/
theorem ready (w : World) : s.Ready (s.writeFaces w) ∧ ∀ tss dt w', s.step tss dt w = some w' → s.Ready w' :=
  ⟨ready_writeFaces hm hn w, fun _ _ _ h => step_ready hm hn h⟩

include hm hn in
/-- C96: computing the residual never fails, leaves the flow variables of all elements alone, and every later time step gives exactly what
it would have given otherwise. -/
theorem residual_keeps (tss : Nat → Nat → ℝ) {w : World} (hr : s.Ready w) :
    ∃ w', s.computeResidual tss w = some w' ∧ w'.state = w.state ∧ s.Ready w' ∧ ∀ tss' dt, s.step tss' dt w' = s.step tss' dt w := by
  obtain ⟨w', h1, h2, h3⟩ := residual_same hm hn tss w hr
  exact ⟨w', h1, h2.state, h3, fun tss' dt => step_same hm hn h2 tss' dt⟩

include hm hn in
/-- C96: visualizing the limits of the time step leaves the flow variables of all elements alone, and every later time step gives exactly what
it would have given otherwise. -/
theorem vis_keeps (conv diff : Nat → Nat → ℝ) {w : World} (hr : s.Ready w) :
    (visLts s.mesh.nd s.mesh.elems conv diff true w).1.state = w.state ∧ s.Ready (visLts s.mesh.nd s.mesh.elems conv diff true w).1 ∧
    ∀ tss dt, s.step tss dt (visLts s.mesh.nd s.mesh.elems conv diff true w).1 = s.step tss dt w :=
  ⟨(vis_same conv diff w).state, ready_vis hm hn hr conv diff, fun tss dt => step_same hm hn (vis_same conv diff w) tss dt⟩

/-- C96: what is visualized: the limit by convection in place of the density and the limit by diffusion in place of the energy. -/
theorem vis_shows (nd : Nat) (elems : List Nat) (conv diff : Nat → Nat → ℝ) (shows : Bool) (w : World) (e : Nat) (he : e ∈ elems) (q : Nat) :
    (visLts nd elems conv diff shows w).2 e (nd, q) = conv e q ∧ (visLts nd elems conv diff shows w).2 e (nd + 1, q) = diff e q := by
  constructor <;> simp [visLts, he]

/-- C96, what does not hold: if the visualization fails, the flow variables are left exchanged with the limits of the time step. -/
theorem vis_failure_refuted : ∃ w : World, (visLts 1 [0] (fun _ _ => 1) (fun _ _ => 1) false w).1.state ≠ w.state :=
  ⟨⟨fun _ _ => 0, fun _ _ => 0, fun _ _ _ => 0⟩, fun h => by
    have := congrFun (congrFun h 0) (1, 0)
    simp [visLts] at this⟩

include hm hn in
/-- C96: for every history of time steps, computations of residuals and visualizations that succeed, nothing fails and the flow variables at
the end are those of the history without anything but the time steps. -/
theorem observation (ops : List Op) (hops : ∀ o ∈ ops, o.succeeds = true) (x : Sim) (hx : s.Ready x.world) :
    ∃ y z, s.run ops x = some y ∧ s.run (ops.filter Op.isStep) x = some z ∧ y.world.state = z.world.state := by
  have key : ∀ (ops : List Op), (∀ o ∈ ops, o.succeeds = true) → ∀ x z : Sim, s.Ready x.world → Same s z.world x.world →
      ∃ y z', s.run ops x = some y ∧ s.run (ops.filter Op.isStep) z = some z' ∧ y.world.state = z'.world.state := by
    intro ops
    induction ops with
    | nil => intro _ x z _ h; exact ⟨x, z, rfl, rfl, h.state⟩
    | cons o l ih =>
      intro ho x z hx h
      have hl : ∀ o ∈ l, o.succeeds = true := fun o h => ho o (by simp [h])
      cases o with
      | step dt tss =>
        obtain ⟨w, hw⟩ : ∃ w, s.step (tss x.world.state) (dt x.world.state) x.world = some w := flowStep_defined _ _ _ _ _ _ _ _ _ _ _
        have hw' : s.step (tss z.world.state) (dt z.world.state) z.world = some w := by rw [← h.state, ← step_same hm hn h]; exact hw
        obtain ⟨y, z', h1, h2, h3⟩ := ih hl ⟨w, tss x.world.state⟩ ⟨w, tss z.world.state⟩ (step_ready hm hn hw) (Same.refl s w)
        refine ⟨y, z', ?_, ?_, h3⟩
        · simp only [Setup.run, List.foldlM_cons, Setup.exec, hw, Option.map_some]
          exact h1
        · rw [List.filter_cons_of_pos (by rfl)]
          simp only [Setup.run, List.foldlM_cons, Setup.exec, hw', Option.map_some]
          exact h2
      | residual =>
        obtain ⟨w, hw, hs, hr⟩ := residual_same hm hn x.tss x.world hx
        obtain ⟨y, z', h1, h2, h3⟩ := ih hl ⟨w, x.tss⟩ z hr (h.trans hs)
        refine ⟨y, z', ?_, ?_, h3⟩
        · simp only [Setup.run, List.foldlM_cons, Setup.exec, hw, Option.map_some]
          exact h1
        · rw [List.filter_cons_of_neg (by simp [Op.isStep])]
          exact h2
      | vis conv diff shows =>
        have hsh : shows = true := ho (.vis conv diff shows) (by simp)
        subst hsh
        obtain ⟨y, z', h1, h2, h3⟩ := ih hl ⟨_, diff x.world.state⟩ z (ready_vis hm hn hx (conv x.world.state) (diff x.world.state)) (h.trans (vis_same _ _ _))
        refine ⟨y, z', ?_, ?_, h3⟩
        · simp only [Setup.run, List.foldlM_cons, Setup.exec]
          exact h1
        · rw [List.filter_cons_of_neg (by simp [Op.isStep])]
          exact h2
  exact key ops hops x x hx (Same.refl s x.world)

include hm hn in
/-- C96: the physical residual is the rate of change: the change of the flow variables in the first stage of a time step of any size, per
unit of the time that passes at that point. It does not depend on the time step scale that is in force when it is computed. -/
theorem residual_is_rate (tss tss' : Nat → Nat → ℝ) {dt : ℝ} (hdt : dt ≠ 0) (w : World) :
    ∃ wr w1, s.computeResidual tss w = some wr ∧ s.stage tss' dt w = some w1 ∧
      ∀ e ∈ s.mesh.elems, ∀ v < s.mesh.nd + 2, ∀ q, tss e q ≠ 0 → tss' e q ≠ 0 → (physical s.mesh.nd tss wr e q).val v = rate tss' dt w w1 e v q := by
  obtain ⟨a, b, h1, h2, h3⟩ := residual_tss hm hn tss tss' w
  obtain ⟨wr, w1, h4, h5, h6, _⟩ := stage_rate hm hn tss' dt w
  rw [h2] at h4
  obtain rfl := Option.some.inj h4
  refine ⟨a, w1, h1, h5, fun e he v hv q ht ht' => ?_⟩
  simp only [physical, rate]
  rw [h6 e he v q, if_pos hv, add_sub_cancel_left, div_eq_div_iff ht (mul_ne_zero hdt ht')]
  have := h3 e he v hv q
  linear_combination dt * this

/-- C96: the residuals that are printed are the L2 norms over the domain of the physical residuals: of the momentum vector, the density and
the energy. -/
theorem residuals_norm {b : Basis.Nodes ℝ} (hb : 0 < b.n) (hof : s.bs.IsOf b) (hdim : 1 ≤ s.mesh.nd) (u : Nat → ℝ) (tss : Nat → Nat → ℝ) (w : World) :
    residuals b u s tss w = some (√(∑ d ∈ Finset.range s.mesh.nd, normSq s.bs s.mesh fun e q => w.cache e (d, q) / tss e q),
      √(normSq s.bs s.mesh fun e q => w.cache e (s.mesh.nd, q) / tss e q), √(normSq s.bs s.mesh fun e q => w.cache e (s.mesh.nd + 1, q) / tss e q)) := by
  obtain ⟨r, h1, h2, h3⟩ := Stats.integralField_eq (b := b) hb u s.mesh.nd (s.mesh.nd + 2) s.mesh.elems (fun e => ⟨(s.mesh.elem e).size, (s.mesh.elem e).det⟩)
    (fun e q => square (physical s.mesh.nd tss w e q)) (fun _ _ _ _ => rfl)
  have h4 : ∀ v < s.mesh.nd + 2, r.val v = normSq s.bs s.mesh fun e q => w.cache e (v, q) / tss e q := by
    intro v hv
    rw [h3 v hv, normSq, hof.n, hof.weight]
    congr 1
    refine List.map_congr_left fun e he => ?_
    dsimp only
    congr 1
    rw [Stats.elemSum, Stats.sum_idx hb]
    refine Finset.sum_congr rfl fun c _ => ?_
    rw [Stats.qw_idx _ hb]
    simp only [square, physical]
    rw [show (2 : ℤ) = ((2 : ℕ) : ℤ) from rfl, MathFn.pow_nat]
    ring
  have h5 : ∀ k x, k < s.mesh.nd → x = ∑ d ∈ Finset.range 1, r.val d → (List.range k).foldl (fun r' i => r' + r.val (i + 1)) x = ∑ d ∈ Finset.range (k + 1), r.val d := by
    intro k
    induction k with
    | zero => intro x _ hx; simpa using hx
    | succ k ih =>
      intro x hk hx
      rw [List.range_succ, List.foldl_append, ih x (by omega) hx, Finset.sum_range_succ _ (k + 1)]
      rfl
  unfold residuals
  rw [h1]
  simp only [Option.bind_some]
  rw [if_pos (by omega), h5 (s.mesh.nd - 1) _ (by omega) (by simp), show s.mesh.nd - 1 + 1 = s.mesh.nd by omega, h4 _ (by omega), h4 _ (by omega),
    Finset.sum_congr rfl fun d hd => h4 d (by have := Finset.mem_range.1 hd; omega)]

theorem qw_pos {w : Nat → ℝ} {n : Nat} (hw : ∀ i < n, 0 < w i) (hn : 0 < n) : ∀ nd q, 0 < qw w n nd q
  | 0, q => by simp [qw]
  | nd + 1, q => by rw [qw]; exact mul_pos (qw_pos hw hn nd _) (hw _ (Nat.mod_lt _ hn))

theorem normSq_nonneg {bs : BasisData} {m : Mesh} (hm : m.Ok bs) (hn : 0 < bs.n) (hw : ∀ i < bs.n, 0 < bs.weight i) (hd : ∀ e ∈ m.elems, ∀ q < bs.n ^ m.nd, 0 < (m.elem e).det q) (f : Nat → Nat → ℝ) : 0 ≤ normSq bs m f := by
  refine List.sum_nonneg ?_
  intro x hx
  obtain ⟨e, he, rfl⟩ := List.mem_map.1 hx
  refine mul_nonneg (pow_nonneg (hm.size e he).le _) (Finset.sum_nonneg fun q hq => ?_)
  exact mul_nonneg (mul_pos (qw_pos hw hn _ _) (hd e he q (Finset.mem_range.1 hq))).le (sq_nonneg _)

theorem normSq_zero {bs : BasisData} {m : Mesh} (hm : m.Ok bs) (hn : 0 < bs.n) (hw : ∀ i < bs.n, 0 < bs.weight i) (hd : ∀ e ∈ m.elems, ∀ q < bs.n ^ m.nd, 0 < (m.elem e).det q) (f : Nat → Nat → ℝ) :
    normSq bs m f = 0 ↔ ∀ e ∈ m.elems, ∀ q < bs.n ^ m.nd, f e q = 0 := by
  have hpos : ∀ e ∈ m.elems, ∀ q < bs.n ^ m.nd, 0 < qw bs.weight bs.n m.nd q * (m.elem e).det q := fun e he q hq => mul_pos (qw_pos hw hn _ _) (hd e he q hq)
  have hnn : ∀ e ∈ m.elems, 0 ≤ (m.elem e).size ^ m.nd * ∑ q ∈ Finset.range (bs.n ^ m.nd), qw bs.weight bs.n m.nd q * (m.elem e).det q * f e q ^ 2 := fun e he =>
    mul_nonneg (pow_nonneg (hm.size e he).le _) (Finset.sum_nonneg fun q hq => mul_nonneg (hpos e he q (Finset.mem_range.1 hq)).le (sq_nonneg _))
  constructor
  · intro h e he q hq
    have h0 : ∀ x ∈ m.elems.map fun e => (m.elem e).size ^ m.nd * ∑ q ∈ Finset.range (bs.n ^ m.nd), qw bs.weight bs.n m.nd q * (m.elem e).det q * f e q ^ 2, 0 ≤ x := by
      intro x hx
      obtain ⟨e, he, rfl⟩ := List.mem_map.1 hx
      exact hnn e he
    have h1 := List.single_le_sum h0 _ (List.mem_map.2 ⟨e, he, rfl⟩)
    have h2 : (m.elem e).size ^ m.nd * ∑ q ∈ Finset.range (bs.n ^ m.nd), qw bs.weight bs.n m.nd q * (m.elem e).det q * f e q ^ 2 = 0 := le_antisymm (h1.trans h.le) (hnn e he)
    have h3 := (mul_eq_zero.1 h2).resolve_left (pow_pos (hm.size e he) _).ne'
    have h4 := (Finset.sum_eq_zero_iff_of_nonneg fun q hq => mul_nonneg (hpos e he q (Finset.mem_range.1 hq)).le (sq_nonneg _)).1 h3 q (Finset.mem_range.2 hq)
    exact pow_eq_zero_iff (two_ne_zero) |>.1 ((mul_eq_zero.1 h4).resolve_left (hpos e he q hq).ne')
  · intro h
    unfold normSq
    refine List.sum_eq_zero ?_
    intro x hx
    obtain ⟨e, he, rfl⟩ := List.mem_map.1 hx
    rw [Finset.sum_eq_zero fun q hq => by rw [h e he q (Finset.mem_range.1 hq)]; ring, mul_zero]

include hm in
/-- C96: if the residuals that are printed are all zero, the flow is steady: no time step, of any size and with any time step scale, changes
any flow variable. -/
theorem converged {b : Basis.Nodes ℝ} {deg : Nat} (hb : GoodBasis b deg) (hof : s.bs.IsOf b) (hd : ∀ e ∈ s.mesh.elems, ∀ q < s.bs.n ^ s.mesh.nd, 0 < (s.mesh.elem e).det q) (u : Nat → ℝ) {tss : Nat → Nat → ℝ} (ht : ∀ e ∈ s.mesh.elems, ∀ q < s.bs.n ^ s.mesh.nd, tss e q ≠ 0)
    {w wr : World} (hr : s.Ready w) (hw : s.computeResidual tss w = some wr) (h0 : residuals b u s tss wr = some (0, 0, 0)) (tss' : Nat → Nat → ℝ) (dt : ℝ) :
    ∃ w', s.step tss' dt w = some w' ∧ w'.state = w.state := by
  have hn : 0 < s.bs.n := hof.n ▸ hb.pos
  have hdim : 1 ≤ s.mesh.nd := hm.dim.1
  have hwt : ∀ i < s.bs.n, 0 < s.bs.weight i := fun i hi => by rw [hof.weight]; exact hb.weight_pos i (hof.n ▸ hi)
  rw [residuals_norm hb.pos hof hdim] at h0
  have h1 := Prod.mk.inj (Option.some.inj h0)
  have h2 := Prod.mk.inj h1.2
  have nn := fun f => normSq_nonneg (bs := s.bs) hm hn hwt hd f
  have zero : ∀ v < s.mesh.nd + 2, normSq s.bs s.mesh (fun e q => wr.cache e (v, q) / tss e q) = 0 := by
    intro v hv
    rcases Nat.lt_trichotomy v s.mesh.nd with h | h | h
    · have := (Real.sqrt_eq_zero (Finset.sum_nonneg fun d _ => nn _)).1 h1.1
      exact (Finset.sum_eq_zero_iff_of_nonneg fun d _ => nn _).1 this v (Finset.mem_range.2 h)
    · rw [h]; exact (Real.sqrt_eq_zero (nn _)).1 h2.1
    · rw [show v = s.mesh.nd + 1 by omega]; exact (Real.sqrt_eq_zero (nn _)).1 h2.2
  have hz : ∀ e ∈ s.mesh.elems, ∀ v < s.mesh.nd + 2, ∀ q < s.bs.n ^ s.mesh.nd, wr.cache e (v, q) = 0 := by
    intro e he v hv q hq
    have := (normSq_zero hm hn hwt hd _).1 (zero v hv) e he q hq
    exact (div_eq_zero_iff.1 this).resolve_right (ht e he q hq)
  obtain ⟨w', hw'⟩ : ∃ w', s.step tss' dt w = some w' := flowStep_defined _ _ _ _ _ _ _ _ _ _ _
  refine ⟨w', hw', second_stage hm hn tss' dt w w' hr hw' ?_⟩
  intro w1 hw1
  obtain ⟨a, c, e1, e2, e3⟩ := residual_tss hm hn tss tss' w
  rw [hw] at e1
  obtain rfl := Option.some.inj e1
  obtain ⟨x, y, f1, f2, f3, f4⟩ := stage_rate hm hn tss' dt w
  rw [e2] at f1
  obtain rfl := Option.some.inj f1
  rw [hw1] at f2
  obtain rfl := Option.some.inj f2
  funext e
  by_cases he : e ∈ s.mesh.elems
  · funext k
    obtain ⟨v, q⟩ := k
    rw [f3 e he v q]
    split
    · rename_i hv
      have hc : c.cache e (v, q) = 0 := by
        by_cases hq : q < s.bs.n ^ s.mesh.nd
        · have := e3 e he v hv q
          rw [hz e he v hv q hq, zero_mul] at this
          exact (mul_eq_zero.1 this.symm).resolve_right (ht e he q hq)
        · exact residual_out hm hn tss' w c e2 e he v q hv (by omega)
      rw [hc, mul_zero, add_zero]
    · rfl
  · exact f4 e he

end Hexed.Residual
