import Verif.Residual.Keep
import Verif.Spatial.ExactPoint
set_option autoImplicit false
set_option linter.unusedVariables false

/-!
# The residual as a rate of change
-/

namespace Hexed.Residual
open Hexed.Spatial Hexed.Pde Hexed.Solver

section
variable {s : Setup} (hm : s.mesh.Ok s.bs) (hn : 0 < s.bs.n)

local notation "P0" => ns s.mesh.nd false s.mu s.kappa
local notation "PL" => ns s.mesh.nd true s.mu s.kappa
local notation "LL" => (s.mesh.nd + 2) * s.bs.n ^ (s.mesh.nd - 1)

theorem updateMult_mul (dt : ℝ) (e : ElemRec) (q : Nat) : updateMult dt e q = dt * updateMult 1 e q := by
  unfold updateMult
  split <;> ring

/-- Boundary conditions and kernels for connections do not look at the states. -/
theorem bc_buf (nd n nvar : Nat) (ldg : Bool) (rule : Rule) (cons : List ConRec) : ∀ w w' : World, w.buf = w'.buf → (runBc nd n nvar ldg rule cons w).buf = (runBc nd n nvar ldg rule cons w').buf := by
  induction cons with
  | nil => intro w w' h; exact h
  | cons c l ih =>
    intro w w' h
    refine ih _ _ ?_
    dsimp only
    split
    · simp only [h]
    · exact h

theorem con_buf (k : ConRec → Sides → Sides) (cons : List ConRec) : ∀ w w' : World, w.buf = w'.buf → (cons.foldl (onCon k) w).buf = (cons.foldl (onCon k) w').buf := by
  induction cons with
  | nil => intro w w' h; exact h
  | cons c l ih =>
    intro w w' h
    refine ih _ _ ?_
    simp only [onCon, h]

theorem mid_buf (tss : Nat → Nat → ℝ) {w w' : World} (h : w.buf = w'.buf) : (s.mid tss w).buf = (s.mid tss w').buf := by
  unfold Setup.mid
  have h1 : (runProlong PL s.bs (withTss s.mesh tss) true true w).buf = (runProlong PL s.bs (withTss s.mesh tss) true true w').buf := by simp only [runProlong, h]
  have h2 := bc_buf s.mesh.nd s.bs.n (s.mesh.nd + 2) true s.fluxRule s.mesh.cons _ _ h1
  have h3 : (runReconcileCons PL s.bs (withTss s.mesh tss) (s.fluxBc (runProlong PL s.bs (withTss s.mesh tss) true true w))).buf =
      (runReconcileCons PL s.bs (withTss s.mesh tss) (s.fluxBc (runProlong PL s.bs (withTss s.mesh tss) true true w'))).buf := con_buf _ _ _ _ h2
  simp only [runRestrict, h3]

/-- The elements after a kernel for elements that treats the faces alike. -/
theorem elems_buf {m : Mesh} (hm : m.Ok s.bs) (k k' : Nat → Arr → Arr → (Nat → Mem) → (Nat → Mem) → LocalOut) (w : World)
    (h : ∀ e ∈ m.elems, ∀ st ca fa vi, (k e st ca fa vi).faces = (k' e st ca fa vi).faces ∧ (k e st ca fa vi).visc = (k' e st ca fa vi).visc) :
    (m.elems.foldl (onElem m.nd k) w).buf = (m.elems.foldl (onElem m.nd k') w).buf := by
  obtain ⟨a1, a2, a3⟩ := elems_fold m.nd k m.elems w hm.elems_nodup
  obtain ⟨b1, b2, b3⟩ := elems_fold m.nd k' m.elems w hm.elems_nodup
  funext b
  by_cases hb : ∃ e ∈ m.elems, ∃ f < 2 * m.nd, b = .elem e f
  · obtain ⟨e, he, f, hf, rfl⟩ := hb
    funext l
    cases l
    · rw [((a1 e he).2.2 f hf).1, ((b1 e he).2.2 f hf).1, (h e he _ _ _ _).1]
    · rw [((a1 e he).2.2 f hf).2, ((b1 e he).2.2 f hf).2, (h e he _ _ _ _).2]
  · have n1 : ∀ e ∈ m.elems, ∀ f < 2 * m.nd, b ≠ .elem e f := fun e he f hf h' => hb ⟨e, he, f, hf, h'⟩
    rw [a3 b n1, b3 b n1]

include hm hn in
/-- The residual is the rate at which the first stage of a time step changes the states. -/
theorem stage_rate (tss : Nat → Nat → ℝ) (dt : ℝ) (w : World) :
    ∃ wr w1, s.computeResidual tss w = some wr ∧ s.stage tss dt w = some w1 ∧
      (∀ e ∈ s.mesh.elems, ∀ v q, w1.state e (v, q) = if v < s.mesh.nd + 2 then w.state e (v, q) + dt * wr.cache e (v, q) else w.state e (v, q)) ∧
      ∀ e, e ∉ s.mesh.elems → w1.state e = w.state e := by
  have hmt := withTss_ok hm tss
  unfold Setup.computeResidual Setup.stage
  by_cases hl : s.useLdg = true
  · rw [stage_eq_ldg tss 1 true w hl, stage_eq_ldg tss dt false w hl]
    refine ⟨_, _, rfl, rfl, ?_⟩
    set m := withTss s.mesh tss with hmm
    set r : Opts := ⟨1, false, true, s.filter⟩ with hr
    set o : Opts := ⟨dt, false, false, s.filter⟩ with ho
    obtain ⟨p1, p2, p3, _⟩ := pre_facts hm hn (s := s) true tss w
    set y := runRestrict PL s.bs m false true (s.pre PL tss w) with hy
    have hys : y.state = w.state := p1
    obtain ⟨a1, a2, a3⟩ := elems_fold m.nd (fun e => localKernel PL s.bs m.nd r (m.elem e)) m.elems y hmt.elems_nodup
    obtain ⟨b1, b2, b3⟩ := elems_fold m.nd (fun e => localKernel PL s.bs m.nd o (m.elem e)) m.elems y hmt.elems_nodup
    have hbuf : (runLocal PL s.bs m r y).buf = (runLocal PL s.bs m o y).buf := elems_buf (s := s) (m := m) hmt _ _ y (fun e he st ca fa vi => ⟨rfl, rfl⟩)
    obtain ⟨q1, q2, _⟩ := mid_facts hm hn (s := s) tss (runLocal PL s.bs m r y)
    obtain ⟨t1, t2, _⟩ := mid_facts hm hn (s := s) tss (runLocal PL s.bs m o y)
    have hmid := mid_buf (s := s) tss hbuf
    obtain ⟨c1, c2, c3⟩ := elems_fold m.nd (fun e => reconcileKernel PL s.bs m.nd r (m.elem e)) m.elems (s.mid tss (runLocal PL s.bs m r y)) hmt.elems_nodup
    obtain ⟨d1, d2, d3⟩ := elems_fold m.nd (fun e => reconcileKernel PL s.bs m.nd o (m.elem e)) m.elems (s.mid tss (runLocal PL s.bs m o y)) hmt.elems_nodup
    constructor
    · intro e he v q
      refine (congrFun (d1 e he).1 (v, q)).trans ?_
      have hcache : (runProlong PL s.bs m false false (runReconcileElems PL s.bs m r (s.mid tss (runLocal PL s.bs m r y)))).cache e (v, q) = _ := congrFun (c1 e he).2.1 (v, q)
      rw [hcache, t1, q2, hmid]
      have e1 : (runLocal PL s.bs m o y).state e = _ := (b1 e he).1
      have e2 : (runLocal PL s.bs m r y).cache e = _ := (a1 e he).2.1
      rw [e1, e2, hys]
      by_cases hv : v < s.mesh.nd + 2
      · simp only [reconcileKernel, localKernel, ns, hr, ho, hv, if_true, Bool.false_eq_true, if_false, Bool.or_false]
        rw [updateMult_mul dt]
        have : localRate PL s.bs m.nd r = localRate PL s.bs m.nd o := rfl
        simp only [ns, hr, ho] at this
        rw [this]
        ring
      · simp only [reconcileKernel, localKernel, ns, hr, ho, hv, if_false, Bool.false_eq_true]
    · intro e he
      refine ((d2 e he).1).trans ?_
      rw [t1]
      exact ((b2 e he).1).trans (by rw [hys])
  · have hl : s.useLdg = false := by simpa using hl
    rw [stage_eq tss 1 true w hl, stage_eq tss dt false w hl]
    refine ⟨_, _, rfl, rfl, ?_⟩
    set m := withTss s.mesh tss with hmm
    set r : Opts := ⟨1, false, true, s.filter⟩ with hr
    set o : Opts := ⟨dt, false, false, s.filter⟩ with ho
    obtain ⟨p1, p2, p3, _⟩ := pre_facts hm hn (s := s) false tss w
    set y := s.pre P0 tss w with hy
    obtain ⟨a1, a2, a3⟩ := elems_fold m.nd (fun e => localKernel P0 s.bs m.nd r (m.elem e)) m.elems y hmt.elems_nodup
    obtain ⟨b1, b2, b3⟩ := elems_fold m.nd (fun e => localKernel P0 s.bs m.nd o (m.elem e)) m.elems y hmt.elems_nodup
    constructor
    · intro e he v q
      refine (congrFun (b1 e he).1 (v, q)).trans ?_
      have hcache : (runProlong P0 s.bs m false false (runLocal P0 s.bs m r y)).cache e (v, q) = _ := congrFun (a1 e he).2.1 (v, q)
      rw [hcache, p1]
      by_cases hv : v < s.mesh.nd + 2
      · simp only [localKernel, ns, hr, ho, hv, if_true, Bool.false_eq_true, if_false, Bool.or_false]
        rw [updateMult_mul dt]
        have : localRate P0 s.bs m.nd r = localRate P0 s.bs m.nd o := rfl
        simp only [ns, hr, ho] at this
        rw [this]
        ring
      · simp only [localKernel, ns, hr, ho, hv, if_false]
    · intro e he
      exact ((b2 e he).1).trans (by rw [p1])

end
end Hexed.Residual
