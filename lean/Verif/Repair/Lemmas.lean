import Verif.Repair.Spec
import Verif.ArtVisc.Run
import Verif.Solver.Props
import Verif.StateFile.Props
import Verif.TimeStep.Props
import Verif.Admis.Props
set_option autoImplicit false
set_option linter.unusedVariables false

/-!
# Lemmas about one pass of the repair
-/

namespace Hexed.Repair
open Hexed.Spatial Hexed.Pde Hexed.Solver Hexed.StateFile Hexed.Metric Hexed.ArtVisc
noncomputable section

variable {bs : BasisData} {b : Basis.Nodes ℝ} {deg : Nat} {m : Mesh} {N : Buf → Mem} {T : Steps} {st sr : ℝ} {flowTss : World → Nat → Nat → ℝ} {w w' : World}

theorem repairStep_total (s : ℝ) (w : World) : ∃ w', repairStep bs m sr s w = some w' := by
  simp [repairStep, computeDiffusion, fixThermAdmis]

theorem smoothPass_total (w : World) : ∃ w', smoothPass bs m T st sr flowTss w = some w' := by
  obtain ⟨w1, h1⟩ := repairStep_total (bs := bs) (m := m) (sr := sr) step0 (setTss bs m (repairTss m.nd T st) w)
  obtain ⟨w2, h2⟩ := repairStep_total (bs := bs) (m := m) (sr := sr) step1 w1
  exact ⟨_, by rw [smoothPass, h1, Option.bind_some, h2, Option.bind_some]⟩

theorem fix_frame {nd : Nat} (u : Nat → ℝ) (c : Bool) (s : Nat → ℝ) (i : Nat) (h : ¬(i < nd + 2)) : (fixThermAdmis nd).writeUpdate u c s i = s i := if_neg h

theorem repairStep_frame (hm : m.Ok bs) {s : ℝ} (h : repairStep bs m sr s w = some w') (e : Nat) {v : Nat} (hv : ¬(v < m.nd + 2)) (q : Nat) : w'.state e (v, q) = w.state e (v, q) := by
  rw [repairStep] at h
  have g := runBc_ghostOnly m.nd bs.n (m.nd + 2) false (fun _ _ => copyState) m.cons w
  rw [diff_frame (V := fun i => i < m.nd + 2) fix_frame (readTss_ok hm _) (runBc_ghostOnly _ _ _ _ _ _) h e hv q, g.1]

theorem tss_eq (nd : Nat) (T : Steps) (st : ℝ) (w : World) (e q : Nat) : repairTss nd T st w e q = -2 / T.basis.min_eig * st * spacingAt T nd e q ^ 2 := by
  have : TimeStep.interp nd (T.spacing e) (TimeStep.coords T.basis nd q) = spacingAt T nd e q := TimeStep.interp_eq _ _ _
  simp only [repairTss, TimeStep.scaleAt, terms, this]
  simp only [Bool.false_eq_true, if_false, if_true, zero_add]
  rw [div_div, div_div, one_div_one_div]
  ring

/-- The diffusive flux through the boundary is zero. -/
theorem boundary_closed (hm : m.Ok bs) (hw : Bounded m) (w : World) {v : Nat} (hv : v < m.nd + 2) : m.boundaryFluxDiff (fixThermAdmis m.nd) bs (ftaFluxBc bs m w).buf v = 0 := by
  rw [Mesh.boundaryFluxDiff]
  refine List.sum_eq_zero fun x hx => ?_
  obtain ⟨c, hc, rfl⟩ := List.mem_map.1 hx
  obtain ⟨hc, hg⟩ := List.mem_filter.1 hc
  refine mul_eq_zero_of_right _ (Finset.sum_eq_zero fun k hk => mul_eq_zero_of_right _ ?_)
  have hk := Finset.mem_range.1 hk
  obtain ⟨hd, hdir⟩ := hw c hc hg
  have hat := runBc_at (nd := m.nd) (n := bs.n) (nvar := m.nd + 2) (ldg := true) (rule := fun _ _ => negateFlux) (w := w) hm.sides_nodup hc hg
  have hin : (ftaFluxBc bs m w).buf (c.side false) = w.buf (c.side false) := (runBc_ghostOnly m.nd bs.n (m.nd + 2) true (fun _ _ => negateFlux) m.cons w).2.2 _ (hm.ghost c hc)
  rw [conFluxDiff, match_boundary _ _ _ hdir.1]
  simp only [ite_self, boundary_sign hd hdir, hin]
  have hgh : (ftaFluxBc bs m w).buf (c.side true) true (v * bs.n ^ (m.nd - 1) + k) = -w.buf (c.side false) true (v * bs.n ^ (m.nd - 1) + k) := by
    rw [ftaFluxBc, hat, faceBc, (Connection.divmod_of hk).1, (Connection.divmod_of hk).2, if_pos (block_lt hv hk)]
    rfl
  rw [hgh]
  ring

theorem fix_additive (nd : Nat) : (fixThermAdmis nd).Additive id := by
  intro upd crit st v hv
  have hv' : v < nd + 2 := hv
  simp [fixThermAdmis, hv']

theorem fix_block (nd : Nat) : (fixThermAdmis nd).blockSize = (fixThermAdmis nd).nUpdate := by simp only [Pde.blockSize, fixThermAdmis]; omega

/-- One step keeps the totals, with the time step scale divided out. -/
theorem repairStep_balance (hb : GoodBasis b deg) (hof : bs.IsOf b) (hm : m.Ok bs) (hw : Bounded m) {s : ℝ} (h : repairStep bs m sr s w = some w')
    (ht : ∀ e ∈ m.elems, ∀ q < bs.n ^ m.nd, w.state e (m.nd + 2, q) ≠ 0) {v : Nat} (hv : v < m.nd + 2) :
    (m.elems.map fun e => (m.elem e).size ^ m.nd * ∑ q ∈ Finset.range (bs.n ^ m.nd), qw bs.weight bs.n m.nd q * (m.elem e).det q * ((w'.state e (v, q) - w.state e (v, q)) / w.state e (m.nd + 2, q))).sum = 0 := by
  rw [repairStep] at h
  have g := runBc_ghostOnly m.nd bs.n (m.nd + 2) false (fun _ _ => copyState) m.cons w
  have key := diffusion_stage_balance hb hof (readTss_ok hm (runBc m.nd bs.n (m.nd + 2) false (fun _ _ => copyState) m.cons w)) (fun e he q hq => by rw [readTss, g.1]; exact ht e he q hq)
    (fixThermAdmis m.nd) rfl (fix_block _) le_rfl (fix_additive _) (runBc_ghostOnly m.nd bs.n (m.nd + 2) true (fun _ _ => negateFlux) m.cons) sr s false h hv
  have h0 := boundary_closed hm hw
  rw [g.1] at key
  refine Eq.trans ?_ (key.trans ?_)
  · rw [Mesh.change]
    refine congrArg List.sum (List.map_congr_left fun e he => ?_)
    rw [elemChange]
    show _ = (m.elem e).size ^ m.nd * _
    congr 1
    refine Finset.sum_congr rfl fun q hq => ?_
    show _ = qw bs.weight bs.n m.nd q * (m.elem e).det q * ((w'.state e (v, q) - w.state e (v, q)) / (runBc m.nd bs.n (m.nd + 2) false (fun _ _ => copyState) m.cons w).state e (m.nd + 2, q))
    rw [g.1]
  · have h1 : ∀ x : World, Mesh.boundaryFluxDiff (fixThermAdmis m.nd) bs (readTss m x) (ldgWorld (fixThermAdmis m.nd) bs (readTss m x) (runBc m.nd bs.n (m.nd + 2) true (fun _ _ => negateFlux) m.cons) ⟨s, false, false, false⟩ x).buf v = 0 :=
      fun x => h0 _ hv
    rw [h1]
    simp [Mesh.totalSource, fixThermAdmis]

end
end Hexed.Repair
