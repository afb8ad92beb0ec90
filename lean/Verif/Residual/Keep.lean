import Verif.Residual.Same
set_option autoImplicit false
set_option linter.unusedVariables false

/-!
# Computing the residual, visualizing, and which faces are up to date
-/

namespace Hexed.Residual
open Hexed.Spatial Hexed.Pde Hexed.Solver

section
variable {s : Setup} (hm : s.mesh.Ok s.bs) (hn : 0 < s.bs.n)

local notation "P0" => ns s.mesh.nd false s.mu s.kappa
local notation "PL" => ns s.mesh.nd true s.mu s.kappa
local notation "LL" => (s.mesh.nd + 2) * s.bs.n ^ (s.mesh.nd - 1)

include hm hn in
theorem fr_writeFaces (w : World) : Fr s.mesh LL w (s.writeFaces w) := by
  refine Fr.trans (fr_elems (bs := s.bs) (m := s.mesh) (fun _ state cache faces visc => ⟨state, cache, writeFace P0 s.bs s.mesh.nd state faces, visc⟩) ?_ w hm) (fr_prolong hn P0 false false _ hm)
  intro e st ca fa vi f a ha
  exact ⟨writeFace_frame hn P0 _ _ _ _ _ ha, rfl⟩

include hm in
theorem writeFaces_rest (w : World) : (s.writeFaces w).state = w.state ∧ (s.writeFaces w).cache = w.cache ∧ (∀ b, (s.writeFaces w).buf b true = w.buf b true) ∧
    (∀ b, b.isGhost = true → (s.writeFaces w).buf b false = w.buf b false) := by
  obtain ⟨a1, a2, a3⟩ := elems_fold s.mesh.nd (fun _ state cache faces visc => ⟨state, cache, writeFace P0 s.bs s.mesh.nd state faces, visc⟩) s.mesh.elems w hm.elems_nodup
  refine ⟨funext fun e => ?_, funext fun e => ?_, fun b => ?_, fun b hb => ?_⟩
  · by_cases he : e ∈ s.mesh.elems
    · exact (a1 e he).1
    · exact (a2 e he).1
  · by_cases he : e ∈ s.mesh.elems
    · exact (a1 e he).2.1
    · exact (a2 e he).2
  · unfold Setup.writeFaces
    rw [prolong_other hm _ _ _ _ _ _ (by simp)]
    by_cases h : ∃ e ∈ s.mesh.elems, ∃ f < 2 * s.mesh.nd, b = .elem e f
    · obtain ⟨e, he, f, hf, rfl⟩ := h
      exact ((a1 e he).2.2 f hf).2
    · rw [a3 b fun e he f hf h' => h ⟨e, he, f, hf, h'⟩]
  · have n1 : ∀ e ∈ s.mesh.elems, ∀ f < 2 * s.mesh.nd, b ≠ .elem e f := fun e _ f _ h => by rw [h] at hb; cases hb
    have n2 : ∀ r ∈ s.mesh.refs, ∀ i < nFace s.mesh.nd r.str, b ≠ r.fine i := fun r hr i hi h => by
      obtain ⟨x, y, hxy⟩ := fine_mortar hm hr hi
      rw [h, hxy] at hb; cases hb
    exact ((prolong_fold P0 s.bs s.mesh.nd false false s.mesh.refs _ hm.refs_nodup).2 b false (Or.inl n2)).trans (congrFun (a3 b n1) false)

include hm hn in
/-- Faces written by kernels for elements from the states they leave are up to date. -/
theorem ready_of {k : Nat → Arr → Arr → (Nat → Mem) → (Nat → Mem) → LocalOut} {z w : World} (S : Nat → Arr)
    (hw : w = runProlong P0 s.bs s.mesh false false (s.mesh.elems.foldl (onElem s.mesh.nd k) z))
    (hk : ∀ e ∈ s.mesh.elems, (k e (z.state e) (z.cache e) (fun f => z.buf (.elem e f) false) fun f => z.buf (.elem e f) true).faces = writeFace P0 s.bs s.mesh.nd (S e) fun f => z.buf (.elem e f) false)
    (hS : ∀ e ∈ s.mesh.elems, w.state e = S e) (hF : Fr s.mesh LL z w) : s.Ready w := by
  obtain ⟨r1, r2, r3, r4⟩ := writeFaces_rest hm w
  refine World.ext' r1 r2 (funext fun b => funext fun l => ?_)
  cases l
  · by_cases hg : b.isGhost = true
    · exact r4 b hg
    · have := faces_determined hm hn P0 k (fun _ state cache faces visc => ⟨state, cache, writeFace P0 s.bs s.mesh.nd state faces, visc⟩) S hF hk (fun e he => by rw [hS e he]) b (by simpa using hg)
      rw [← hw] at this
      exact this.symm
  · exact r3 b

include hm hn in
/-- The faces `Solver::initialize` writes are up to date. -/
theorem ready_writeFaces (w : World) : s.Ready (s.writeFaces w) :=
  ready_of hm hn w.state rfl (fun e he => rfl) (fun e _ => congrFun (writeFaces_rest hm w).1 e) (fr_writeFaces hm hn w)

/-- The data before the element kernel. -/
noncomputable def Setup.pre (s : Setup) (p : Spatial.Pde) (tss : Nat → Nat → ℝ) (w : World) : World :=
  runRestrict p s.bs (withTss s.mesh tss) true false (runNeighbor p s.bs (withTss s.mesh tss) (s.stateBc w))

include hm hn in
theorem pre_facts (b : Bool) (tss : Nat → Nat → ℝ) (w : World) : (s.pre (ns s.mesh.nd b s.mu s.kappa) tss w).state = w.state ∧ (s.pre (ns s.mesh.nd b s.mu s.kappa) tss w).cache = w.cache ∧
    Fr s.mesh LL w (s.pre (ns s.mesh.nd b s.mu s.kappa) tss w) ∧ (b = false → ∀ x, (s.pre (ns s.mesh.nd b s.mu s.kappa) tss w).buf x true = w.buf x true) := by
  have hmt := withTss_ok hm tss
  have g := runBc_ghostOnly s.mesh.nd s.bs.n (s.mesh.nd + 2) false s.stateRule s.mesh.cons w
  have nw := neighbor_world hmt (ns s.mesh.nd b s.mu s.kappa) (s.stateBc w)
  refine ⟨nw.1.trans g.1, nw.2.trans g.2.1, ?_, ?_⟩
  · exact (fr_bc _ _ _ w hm).trans ((fr_neighbor (m := withTss s.mesh tss) (ns s.mesh.nd b s.mu s.kappa) (Nat.le_refl _) _ hmt).trans (fr_restrict (m := withTss s.mesh tss) hn (ns s.mesh.nd b s.mu s.kappa) true false _ hmt))
  · rintro rfl x
    unfold Setup.pre
    rw [restrict_other hmt hn _ _ _ _ _ _ (by simp)]
    obtain ⟨c1, c2, _, _⟩ := cons_fold (fun c st => neighbor (ns s.mesh.nd false s.mu s.kappa) (withTss s.mesh tss).nd s.bs.n c.deformed c.dir c.normal st) (withTss s.mesh tss).cons (s.stateBc w) hmt.sides_nodup
    by_cases hb : x ∈ sidesOf (withTss s.mesh tss).cons
    · obtain ⟨c, hc, sd, rfl⟩ := sidesOf_mem hb
      refine (congrFun (c1 c hc sd) true).trans ?_
      exact (neighbor_ldg _ rfl _ _ _ _ _ _ sd).trans (stateBc_true w _)
    · exact (congrFun (c2 x hb) true).trans (stateBc_true w _)

/-- The second half of a viscous stage before the elements. -/
noncomputable def Setup.mid (s : Setup) (tss : Nat → Nat → ℝ) (w : World) : World :=
  runRestrict (ns s.mesh.nd true s.mu s.kappa) s.bs (withTss s.mesh tss) true true (runReconcileCons (ns s.mesh.nd true s.mu s.kappa) s.bs (withTss s.mesh tss)
    (s.fluxBc (runProlong (ns s.mesh.nd true s.mu s.kappa) s.bs (withTss s.mesh tss) true true w)))

include hm hn in
theorem mid_facts (tss : Nat → Nat → ℝ) (w : World) : (s.mid tss w).state = w.state ∧ (s.mid tss w).cache = w.cache ∧ Fr s.mesh LL w (s.mid tss w) := by
  have hmt := withTss_ok hm tss
  have g := runBc_ghostOnly s.mesh.nd s.bs.n (s.mesh.nd + 2) true s.fluxRule s.mesh.cons (runProlong PL s.bs (withTss s.mesh tss) true true w)
  have nw := reconcileCons_world hmt PL (s.fluxBc (runProlong PL s.bs (withTss s.mesh tss) true true w))
  refine ⟨nw.1.trans g.1, nw.2.trans g.2.1, ?_⟩
  exact (fr_prolong (m := withTss s.mesh tss) hn PL true true w hmt).trans ((fr_bc _ _ _ _ hm).trans ((fr_reconcileCons (m := withTss s.mesh tss) PL (Nat.le_refl _) _ hmt).trans
    (fr_restrict (m := withTss s.mesh tss) hn PL true true _ hmt)))

theorem stage_eq (tss : Nat → Nat → ℝ) (dt : ℝ) (res : Bool) (w : World) (hl : s.useLdg = false) :
    (if s.useLdg then computeDiffusion PL s.bs (withTss s.mesh tss) s.fluxBc s.stepRatio dt false res s.filter (s.stateBc w)
      else computeConvection P0 s.bs (withTss s.mesh tss) s.stepRatio dt false res s.filter (s.stateBc w)) =
    some (runProlong P0 s.bs (withTss s.mesh tss) false false (runLocal P0 s.bs (withTss s.mesh tss) ⟨dt, false, res, s.filter⟩ (s.pre P0 tss w))) := by
  rw [hl]
  cases res <;> rfl

theorem stage_eq_ldg (tss : Nat → Nat → ℝ) (dt : ℝ) (res : Bool) (w : World) (hl : s.useLdg = true) :
    (if s.useLdg then computeDiffusion PL s.bs (withTss s.mesh tss) s.fluxBc s.stepRatio dt false res s.filter (s.stateBc w)
      else computeConvection P0 s.bs (withTss s.mesh tss) s.stepRatio dt false res s.filter (s.stateBc w)) =
    some (runProlong PL s.bs (withTss s.mesh tss) false false (runReconcileElems PL s.bs (withTss s.mesh tss) ⟨dt, false, res, s.filter⟩ (s.mid tss
      (runLocal PL s.bs (withTss s.mesh tss) ⟨dt, false, res, s.filter⟩ (runRestrict PL s.bs (withTss s.mesh tss) false true (s.pre PL tss w)))))) := by
  rw [hl]
  cases res <;> rfl

include hm hn in
/-- Computing the residual. -/
theorem residual_same (tss : Nat → Nat → ℝ) (w : World) (hr : s.Ready w) : ∃ w', s.computeResidual tss w = some w' ∧ Same s w w' ∧ s.Ready w' := by
  have hmt := withTss_ok hm tss
  unfold Setup.computeResidual
  by_cases hl : s.useLdg = true
  · rw [stage_eq_ldg tss 1 true w hl]
    refine ⟨_, rfl, ?_⟩
    set o : Opts := ⟨1, false, true, s.filter⟩ with ho
    set m := withTss s.mesh tss with hmm
    obtain ⟨p1, p2, p3, _⟩ := pre_facts hm hn (s := s) true tss w
    set y := runRestrict PL s.bs m false true (s.pre PL tss w) with hy
    have hyF : Fr s.mesh LL w y := p3.trans (fr_restrict (m := m) hn PL false true _ hmt)
    obtain ⟨a1, a2, a3⟩ := elems_fold m.nd (fun e => localKernel PL s.bs m.nd o (m.elem e)) m.elems y hmt.elems_nodup
    set y1 := runLocal PL s.bs m o y with hy1
    have y1F : Fr s.mesh LL y y1 := fr_local (m := m) hn PL (Nat.le_refl _) o y hmt
    have y1s : y1.state = w.state := by
      funext e
      by_cases he : e ∈ m.elems
      · refine (a1 e he).1.trans ?_
        rw [show y.state = w.state from p1]
        funext k
        simp [localKernel, ho, ns]
      · exact (a2 e he).1.trans (congrFun p1 e)
    have y1c : (∀ e, e ∉ s.mesh.elems → y1.cache e = w.cache e) ∧ ∀ e k, s.mesh.nd + 2 ≤ k.1 → y1.cache e k = w.cache e k := by
      have h0 : ∀ e, e ∉ s.mesh.elems → y1.cache e = w.cache e := fun e he => (a2 e he).2.trans (congrFun p2 e)
      refine ⟨h0, fun e k hk => ?_⟩
      by_cases he : e ∈ m.elems
      · refine (congrFun (a1 e he).2.1 k).trans ?_
        rw [show y.cache = w.cache from p2]
        simp [localKernel, ho, ns, hk]
      · exact congrFun (h0 e he) k
    obtain ⟨q1, q2, q3⟩ := mid_facts hm hn (s := s) tss y1
    set z := s.mid tss y1 with hz
    have zF : Fr s.mesh LL w z := hyF.trans (y1F.trans q3)
    obtain ⟨b1, b2, b3⟩ := elems_fold m.nd (fun e => reconcileKernel PL s.bs m.nd o (m.elem e)) m.elems z hmt.elems_nodup
    set u := runReconcileElems PL s.bs m o z with hu
    have us : u.state = w.state := by
      funext e
      by_cases he : e ∈ m.elems
      · refine (b1 e he).1.trans ?_
        rw [q1, y1s]
        simp [reconcileKernel, ho]
      · exact (b2 e he).1.trans (by rw [q1, y1s])
    have uF : Fr s.mesh LL z u := fr_reconcileElems (m := m) hn PL o z hmt
    have vF : Fr s.mesh LL u (runProlong PL s.bs m false false u) := fr_prolong (m := m) hn PL false false u hmt
    have hkk : ∀ e ∈ s.mesh.elems, (reconcileKernel PL s.bs m.nd o (m.elem e) (z.state e) (z.cache e) (fun f => z.buf (.elem e f) false) fun f => z.buf (.elem e f) true).faces =
        writeFace P0 s.bs s.mesh.nd (w.state e) fun f => z.buf (.elem e f) false := by
      intro e he
      rw [q1, y1s]
      rfl
    refine ⟨⟨us, ?_, ?_, ?_, zF.trans (uF.trans vF), fun h => by rw [hl] at h; cases h⟩, ?_⟩
    · intro e he
      exact (b2 e he).2.trans (by rw [q2, y1c.1 e he])
    · intro e k hk
      by_cases he : e ∈ m.elems
      · refine (congrFun (b1 e he).2.1 k).trans ?_
        rw [q2]
        refine Eq.trans ?_ (y1c.2 e k hk)
        simp [reconcileKernel, ho, ns, hk]
      · exact (congrFun (b2 e he).2 k).trans (by rw [q2, y1c.1 e he])
    · intro b hb
      have := faces_determined hm hn P0 (fun e => reconcileKernel PL s.bs m.nd o (m.elem e)) (fun _ state cache faces visc => ⟨state, cache, writeFace P0 s.bs s.mesh.nd state faces, visc⟩) w.state zF.symm hkk (fun e he => rfl) b hb
      refine this.trans ?_
      exact congrArg (fun x : World => x.buf b false) hr
    · exact ready_of hm hn w.state rfl hkk (fun e _ => congrFun us e) (uF.trans vF)
  · have hl : s.useLdg = false := by simpa using hl
    rw [stage_eq tss 1 true w hl]
    refine ⟨_, rfl, ?_⟩
    set o : Opts := ⟨1, false, true, s.filter⟩ with ho
    set m := withTss s.mesh tss with hmm
    obtain ⟨p1, p2, p3, p4⟩ := pre_facts hm hn (s := s) false tss w
    set z := s.pre P0 tss w with hz
    obtain ⟨a1, a2, a3⟩ := elems_fold m.nd (fun e => localKernel P0 s.bs m.nd o (m.elem e)) m.elems z hmt.elems_nodup
    set u := runLocal P0 s.bs m o z with hu
    have us : u.state = w.state := by
      funext e
      by_cases he : e ∈ m.elems
      · refine (a1 e he).1.trans ?_
        rw [p1]
        funext k
        simp [localKernel, ho, ns]
      · exact (a2 e he).1.trans (congrFun p1 e)
    have uF : Fr s.mesh LL z u := fr_local (m := m) hn P0 (Nat.le_refl _) o z hmt
    have vF : Fr s.mesh LL u (runProlong P0 s.bs m false false u) := fr_prolong (m := m) hn P0 false false u hmt
    have hkk : ∀ e ∈ s.mesh.elems, (localKernel P0 s.bs m.nd o (m.elem e) (z.state e) (z.cache e) (fun f => z.buf (.elem e f) false) fun f => z.buf (.elem e f) true).faces =
        writeFace P0 s.bs s.mesh.nd (w.state e) fun f => z.buf (.elem e f) false := by
      intro e he
      have : (localKernel P0 s.bs m.nd o (m.elem e) (z.state e) (z.cache e) (fun f => z.buf (.elem e f) false) fun f => z.buf (.elem e f) true).state = w.state e :=
        (a1 e he).1.symm.trans (congrFun us e)
      rw [← this]
      rfl
    refine ⟨⟨us, ?_, ?_, ?_, p3.trans (uF.trans vF), ?_⟩, ?_⟩
    · intro e he
      exact (a2 e he).2.trans (by rw [p2])
    · intro e k hk
      by_cases he : e ∈ m.elems
      · refine (congrFun (a1 e he).2.1 k).trans ?_
        rw [p2]
        simp [localKernel, ho, ns, hk]
      · exact (congrFun (a2 e he).2 k).trans (by rw [p2])
    · intro b hb
      have := faces_determined hm hn P0 (fun e => localKernel P0 s.bs m.nd o (m.elem e)) (fun _ state cache faces visc => ⟨state, cache, writeFace P0 s.bs s.mesh.nd state faces, visc⟩) w.state p3.symm hkk (fun e he => rfl) b hb
      refine this.trans ?_
      exact congrArg (fun x : World => x.buf b false) hr
    · intro _ b
      rw [prolong_other hmt _ _ _ _ _ _ (by simp)]
      refine Eq.trans ?_ (p4 rfl b)
      by_cases hb : ∃ e ∈ m.elems, ∃ f < 2 * m.nd, b = .elem e f
      · obtain ⟨e, he, f, hf, rfl⟩ := hb
        refine ((a1 e he).2.2 f hf).2.trans ?_
        simp only [localKernel, localRate]
        rw [residual_visc]
        simp [ns]
      · rw [hu, runLocal, a3 b fun e he f hf h' => hb ⟨e, he, f, hf, h'⟩]
    · exact ready_of hm hn w.state rfl hkk (fun e _ => congrFun us e) (uF.trans vF)

include hm hn in
/-- After a time step the faces are up to date. -/
theorem step_ready {tss : Nat → Nat → ℝ} {dt : ℝ} {w w' : World} (h : s.step tss dt w = some w') : s.Ready w' := by
  have hmt := withTss_ok hm tss
  obtain ⟨w1, _, h2⟩ := Option.bind_eq_some_iff.1 h
  have h3 : some (runProlong P0 s.bs (withTss s.mesh tss) false false (runLocal P0 s.bs (withTss s.mesh tss) ⟨dt * s.stepRatio, true, false, s.filter⟩ (s.pre P0 tss w1))) = some w' := h2
  have h4 := Option.some.inj h3
  set m := withTss s.mesh tss with hmm
  set z := s.pre P0 tss w1 with hz
  obtain ⟨a1, a2, a3⟩ := elems_fold m.nd (fun e => localKernel P0 s.bs m.nd ⟨dt * s.stepRatio, true, false, s.filter⟩ (m.elem e)) m.elems z hmt.elems_nodup
  refine ready_of hm hn (k := fun e => localKernel P0 s.bs m.nd ⟨dt * s.stepRatio, true, false, s.filter⟩ (m.elem e)) (z := z)
    (fun e => (runLocal P0 s.bs m ⟨dt * s.stepRatio, true, false, s.filter⟩ z).state e) h4.symm ?_ ?_ ?_
  · intro e he
    have : (runLocal P0 s.bs m ⟨dt * s.stepRatio, true, false, s.filter⟩ z).state e = _ := (a1 e he).1
    rw [this]
    rfl
  · intro e he
    rw [← h4]
    rfl
  · rw [← h4]
    exact (fr_local (m := m) hn P0 (Nat.le_refl _) _ z hmt).trans (fr_prolong (m := m) hn P0 false false _ hmt)

/-! ## Visualization -/

theorem vis_same (conv diff : Nat → Nat → ℝ) (w : World) : Same s w (visLts s.mesh.nd s.mesh.elems conv diff true w).1 := by
  refine ⟨?_, ?_, ?_, fun _ _ => rfl, Fr.refl _ _ _, fun _ _ => rfl⟩
  · funext e k
    simp only [visLts]
    by_cases h : e ∈ s.mesh.elems ∧ k.1 < s.mesh.nd + 2
    · simp [h]
    · simp [h]
  · intro e he
    funext k
    simp [visLts, he]
  · intro e k hk
    have h1 : ¬ k.1 < s.mesh.nd + 2 := by omega
    have h2 : k.1 ≠ s.mesh.nd := by omega
    have h3 : k.1 ≠ s.mesh.nd + 1 := by omega
    simp [visLts, h1, h2, h3]

include hm hn in
/-- Whether faces are up to date depends on the states and the faces only. -/
theorem ready_vis {w : World} (hr : s.Ready w) (conv diff : Nat → Nat → ℝ) : s.Ready (visLts s.mesh.nd s.mesh.elems conv diff true w).1 := by
  obtain ⟨r1, r2, r3, r4⟩ := writeFaces_rest hm (visLts s.mesh.nd s.mesh.elems conv diff true w).1
  have hs := vis_same (s := s) conv diff w
  refine World.ext' r1 r2 (funext fun b => funext fun l => ?_)
  cases l
  · by_cases hg : b.isGhost = true
    · exact r4 b hg
    · have := faces_determined hm hn P0 (fun _ state cache faces visc => ⟨state, cache, writeFace P0 s.bs s.mesh.nd state faces, visc⟩) (fun _ state cache faces visc => ⟨state, cache, writeFace P0 s.bs s.mesh.nd state faces, visc⟩) w.state hs.frame
        (fun e he => rfl) (fun e he => by rw [hs.state]) b (by simpa using hg)
      exact this.symm.trans ((congrArg (fun x : World => x.buf b false) hr).trans (hs.buf b (by simpa using hg)).symm)
  · exact r3 b

end
end Hexed.Residual
