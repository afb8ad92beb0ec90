import Verif.Repair.Lemmas
set_option autoImplicit false
set_option linter.unusedVariables false

/-!
# The faces after a pass of the repair
-/

namespace Hexed.Repair
open Hexed.Spatial Hexed.Pde Hexed.Solver Hexed.StateFile Hexed.Metric Hexed.ArtVisc
noncomputable section

variable {bs : BasisData} {m : Mesh} {T : Steps} {st sr : ℝ} {flowTss : World → Nat → Nat → ℝ} {w w' : World}

/-- `Write_face` reads the first `nd + 2` variables only. -/
theorem writeFace_state (hn : 0 < bs.n) (nd : Nat) (mu kappa : Transport) (s s' : Arr) (g : Nat → Mem) (h : ∀ v < nd + 2, ∀ q, s (v, q) = s' (v, q)) :
    writeFace (ns nd false mu kappa) bs nd s g = writeFace (ns nd false mu kappa) bs nd s' g := by
  have hN : 0 < bs.n ^ (nd - 1) := Nat.pow_pos hn
  funext i a
  by_cases hr : 2 * nd ≤ i ∨ (nd + 2) * bs.n ^ (nd - 1) ≤ a
  · rw [writeFace_out _ bs hn nd s g i a hr, writeFace_out _ bs hn nd s' g i a hr]
  · push Not at hr
    have hv : a / bs.n ^ (nd - 1) < nd + 2 := (Nat.div_lt_iff_lt_mul hN).2 hr.2
    have h1 := fun s : Arr => (bounds_apply nd bs.n hn (nd + 2) (fun _ r => matRow bs.n bs.bound (readRow (fun k => (ns nd false mu kappa).fetchExtrap (fun v => s (v, k.2)) k.1) 0 r)) g).1
      (a / bs.n ^ (nd - 1)) hv (i / 2) (by omega) (a % bs.n ^ (nd - 1)) (Nat.mod_lt _ hN) (i % 2) (by omega)
    rw [show 2 * (i / 2) + i % 2 = i by omega, show a / bs.n ^ (nd - 1) * bs.n ^ (nd - 1) + a % bs.n ^ (nd - 1) = a by rw [mul_comm]; exact Nat.div_add_mod _ _] at h1
    refine (h1 s).trans (Eq.trans ?_ (h1 s').symm)
    simp only [matRow]
    refine congrArg List.sum (List.map_congr_left fun j _ => ?_)
    congr 1
    show s (0 + a / bs.n ^ (nd - 1), _) = s' (0 + a / bs.n ^ (nd - 1), _)
    exact h _ (by omega) _

theorem setTss_state (hm : m.Ok bs) (f : World → Nat → Nat → ℝ) (w : World) (e : Nat) {v : Nat} (hv : v ≠ m.nd + 2) (q : Nat) : (setTss bs m f w).state e (v, q) = w.state e (v, q) := by
  simp only [setTss, mapPoints]
  split <;> simp [hv]

/-- A diffusion step followed by a new time step leaves fresh faces. -/
theorem step_fresh (hm : m.Ok bs) (hn : 0 < bs.n) (mu kappa : Transport) {s : ℝ} (h : repairStep bs m sr s w = some w') :
    FEq (refresh mu kappa bs m (setTss bs m flowTss w')) (setTss bs m flowTss w') := by
  set v := runBc m.nd bs.n (m.nd + 2) false (fun _ _ => copyState) m.cons w with hv
  set p := fixThermAdmis m.nd with hp
  set z := readTss m v with hz
  rw [repairStep] at h
  simp only [computeDiffusion, Bool.and_false, Bool.or_self, Bool.false_eq_true, if_false, Bool.not_false, if_true, Option.some.injEq] at h
  set o : Opts := ⟨s, false, false, false⟩ with ho
  set y := runRestrict p bs z true true (runReconcileCons p bs z (ftaFluxBc bs m (runProlong p bs z true true (runLocal p bs z o (runRestrict p bs z false true (runRestrict p bs z true false (runNeighbor p bs z v))))))) with hy
  have hzm : z.Ok bs := readTss_ok hm v
  obtain ⟨l1, l2, l3⟩ := elems_fold z.nd (fun e => reconcileKernel p bs z.nd o (z.elem e)) z.elems y hzm.elems_nodup
  set x := runReconcileElems p bs z o y with hx
  obtain ⟨b1, b2, b3⟩ := prolong_spec hzm p false x
  rw [h] at b1 b2 b3
  have hst : w'.state = x.state := by rw [← h]; rfl
  refine refresh_of_fresh hm hn mu kappa _ (fun e f => y.buf (.elem e f) false) (fun b => x.buf b false) ?_ ?_
  · intro e he f hf
    rw [writeFace_state hn m.nd mu kappa _ (w'.state e) _ (fun v hv q => setTss_state hm flowTss w' e (by omega) q)]
    show w'.buf (.elem e f) false = _
    rw [b2 _ (elem_not_fine hzm e f), hst]
    have e1 := ((l1 e he).2.2 f hf).1
    have e2 := (l1 e he).1
    rw [show x.state e = _ from e2, show x.buf (.elem e f) false = _ from e1]
    rfl
  · intro r hr i hi
    obtain ⟨e, he, f, hf, hc⟩ := coarse_mem hm hr
    show w'.buf _ false = prolongFine bs m.nd (m.nd + 2) false r.str i (w'.buf r.coarse false) _
    rw [b1 r hr i hi, hc, b2 _ (elem_not_fine hzm e f)]
    rfl

end
end Hexed.Repair
