import Verif.Residual.Lemmas
import Verif.Residual.Spec
set_option autoImplicit false
set_option linter.unusedVariables false

/-!
# Worlds between which a time step does not distinguish
-/

namespace Hexed.Residual
open Hexed.Spatial Hexed.Pde Hexed.Solver

theorem withTss_ok {m : Mesh} {bs : BasisData} (hm : m.Ok bs) (tss : Nat → Nat → ℝ) : (withTss m tss).Ok bs :=
  ⟨hm.dim, hm.size, hm.det, hm.nodup, hm.cover, hm.fine, hm.legal, hm.ghost, hm.face, hm.sizes⟩

/-- Two worlds that differ only in data that the next time step overwrites before reading. -/
structure Same (s : Setup) (w w' : World) : Prop where
  state : w'.state = w.state
  cache_out : ∀ e, e ∉ s.mesh.elems → w'.cache e = w.cache e
  cache_hi : ∀ e k, s.mesh.nd + 2 ≤ k.1 → w'.cache e k = w.cache e k
  buf : ∀ b, b.isGhost = false → w'.buf b false = w.buf b false
  frame : Fr s.mesh ((s.mesh.nd + 2) * s.bs.n ^ (s.mesh.nd - 1)) w w'
  ldg : s.useLdg = false → ∀ b, w'.buf b true = w.buf b true

theorem Same.refl (s : Setup) (w : World) : Same s w w := ⟨rfl, fun _ _ => rfl, fun _ _ _ => rfl, fun _ _ => rfl, Fr.refl _ _ _, fun _ _ => rfl⟩
theorem Same.trans {s : Setup} {w w' w'' : World} (h : Same s w w') (h' : Same s w' w'') : Same s w w'' :=
  ⟨h'.state.trans h.state, fun e he => (h'.cache_out e he).trans (h.cache_out e he), fun e k hk => (h'.cache_hi e k hk).trans (h.cache_hi e k hk),
   fun b hb => (h'.buf b hb).trans (h.buf b hb), h.frame.trans h'.frame, fun hl b => (h'.ldg hl b).trans (h.ldg hl b)⟩

/-! ## Dependence on the data before -/

theorem neighbor_false (p : Spatial.Pde) (nd n : Nat) (deformed : Bool) (d : Connection.Dir) (normal : Mem) (st st' : Sides) (h : ∀ s, st s false = st' s false) (s : Bool) :
    neighbor p nd n deformed d normal st s false = neighbor p nd n deformed d normal st' s false := by
  funext a
  simp only [neighbor, h, Bool.false_eq_true, if_false]

theorem neighbor_true (p : Spatial.Pde) (hd : p.hasDiff = true) (nd n : Nat) (deformed : Bool) (d : Connection.Dir) (normal : Mem) (st st' : Sides) (h : ∀ s, st s false = st' s false)
    (h' : ∀ s a, p.nExtrap * n ^ (nd - 1) ≤ a → st s true a = st' s true a) (s : Bool) :
    neighbor p nd n deformed d normal st s true = neighbor p nd n deformed d normal st' s true := by
  funext a
  by_cases ha : a < p.nExtrap * n ^ (nd - 1)
  · simp only [neighbor, h, hd, ha, decide_true, Bool.and_self, if_true]
  · simp only [neighbor, ha, decide_false, Bool.and_false, if_true]
    exact h' s a (by omega)

theorem neighbor_ldg (p : Spatial.Pde) (hd : p.hasDiff = false) (nd n : Nat) (deformed : Bool) (d : Connection.Dir) (normal : Mem) (st : Sides) (s : Bool) :
    neighbor p nd n deformed d normal st s true = st s true := by
  funext a
  simp [neighbor, hd]

/-- The coarse face after the restriction is determined by the fine faces. -/
theorem restrict_congr {bs : BasisData} {m : Mesh} (hm : m.Ok bs) (hn : 0 < bs.n) (p : Spatial.Pde) (scale off : Bool) (w w' : World)
    (h1 : ∀ r ∈ m.refs, ∀ i < nFace m.nd r.str, w'.buf (r.fine i) off = w.buf (r.fine i) off) (h2 : ∀ r ∈ m.refs, ∀ a, p.nExtrap * bs.n ^ (m.nd - 1) ≤ a → w'.buf r.coarse off a = w.buf r.coarse off a)
    (h3 : ∀ b, b ∉ m.refs.flatMap (refBufs m.nd) → w'.buf b off = w.buf b off) (b : Buf) :
    (runRestrict p bs m scale off w').buf b off = (runRestrict p bs m scale off w).buf b off := by
  obtain ⟨a1, a2⟩ := restrict_fold p bs hn m.nd scale off m.refs w.buf hm.refs_nodup
  obtain ⟨b1, b2⟩ := restrict_fold p bs hn m.nd scale off m.refs w'.buf hm.refs_nodup
  show m.refs.foldl (restrictRef p bs m.nd scale off) w'.buf b off = m.refs.foldl (restrictRef p bs m.nd scale off) w.buf b off
  by_cases hb : b ∈ m.refs.flatMap (refBufs m.nd)
  · obtain ⟨r, hr, hbr⟩ := List.mem_flatMap.1 hb
    obtain ⟨s1, s2, s3⟩ := a1 r hr
    obtain ⟨t1, t2, t3⟩ := b1 r hr
    rw [refBufs, List.mem_cons, List.mem_map] at hbr
    rcases hbr with rfl | ⟨i, hi, rfl⟩
    · funext a
      by_cases ha : a < p.nExtrap * bs.n ^ (m.nd - 1)
      · obtain ⟨v, hv, k, hk, rfl⟩ := split_addr (Nat.pow_pos hn) ha
        rw [s1 v hv k hk, t1 v hv k hk]
        exact Finset.sum_congr rfl fun i hi => by rw [h1 r hr i (Finset.mem_range.1 hi)]
      · rw [s2 a (by omega), t2 a (by omega), h2 r hr a (by omega)]
    · rw [s3 i (List.mem_range.1 hi), t3 i (List.mem_range.1 hi), h1 r hr i (List.mem_range.1 hi)]
  · rw [a2 b off (Or.inl hb), b2 b off (Or.inl hb), h3 b hb]

theorem restrict_other {bs : BasisData} {m : Mesh} (hm : m.Ok bs) (hn : 0 < bs.n) (p : Spatial.Pde) (scale off : Bool) (w : World) (b : Buf) (l : Bool) (hl : l ≠ off) :
    (runRestrict p bs m scale off w).buf b l = w.buf b l :=
  (restrict_fold p bs hn m.nd scale off m.refs w.buf hm.refs_nodup).2 b l (Or.inr hl)

theorem prolong_other {bs : BasisData} {m : Mesh} (hm : m.Ok bs) (p : Spatial.Pde) (scale off : Bool) (w : World) (b : Buf) (l : Bool) (hl : l ≠ off) :
    (runProlong p bs m scale off w).buf b l = w.buf b l :=
  (prolong_fold p bs m.nd scale off m.refs w.buf hm.refs_nodup).2 b l (Or.inr hl)

theorem neighbor_world {bs : BasisData} {m : Mesh} (hm : m.Ok bs) (p : Spatial.Pde) (w : World) : (runNeighbor p bs m w).state = w.state ∧ (runNeighbor p bs m w).cache = w.cache :=
  (cons_fold _ m.cons w hm.sides_nodup).2.2

theorem reconcileCons_world {bs : BasisData} {m : Mesh} (hm : m.Ok bs) (p : Spatial.Pde) (w : World) : (runReconcileCons p bs m w).state = w.state ∧ (runReconcileCons p bs m w).cache = w.cache :=
  (cons_fold _ m.cons w hm.sides_nodup).2.2

section
variable {s : Setup} (hm : s.mesh.Ok s.bs) (hn : 0 < s.bs.n)

include hm in
theorem stateBc_false {w w' : World} (h : Same s w w') (b : Buf) : (s.stateBc w').buf b false = (s.stateBc w).buf b false := by
  by_cases hg : b.isGhost = true
  · by_cases hb : ∃ c ∈ s.mesh.cons, b = c.side true
    · obtain ⟨c, hc, rfl⟩ := hb
      rw [Setup.stateBc, runBc_at hm.sides_nodup hc hg, runBc_at hm.sides_nodup hc hg, h.buf _ (hm.ghost c hc)]
      funext a
      simp only [faceBc]
      split
      · rfl
      · exact h.frame _ false a fun _ => by omega
    · have hb' : ∀ c ∈ s.mesh.cons, b ≠ c.side true := fun c hc e => hb ⟨c, hc, e⟩
      rw [Setup.stateBc, runBc_same _ _ _ _ _ _ _ _ _ (Or.inl hb'), runBc_same _ _ _ _ _ _ _ _ _ (Or.inl hb')]
      funext a
      refine h.frame b false a fun hu => absurd hu ?_
      intro hu
      rcases List.mem_append.1 hu with h1 | h1
      · obtain ⟨c, hc, sd, e⟩ := sidesOf_mem h1
        cases sd
        · rw [e, hm.ghost c hc] at hg; cases hg
        · exact hb' c hc e
      · obtain ⟨r, hr, e⟩ := List.mem_map.1 h1
        obtain ⟨x, _, f, _, e'⟩ := coarse_elem hm hr
        rw [← e, e'] at hg; cases hg
  · rw [Setup.stateBc, (runBc_ghostOnly _ _ _ _ _ _ w').2.2 b (by simpa using hg), (runBc_ghostOnly _ _ _ _ _ _ w).2.2 b (by simpa using hg), h.buf b (by simpa using hg)]

theorem stateBc_true (w : World) (b : Buf) : (s.stateBc w).buf b true = w.buf b true := runBc_same _ _ _ _ _ _ _ _ _ (Or.inr (by simp))

/-- The worlds on which the element kernel `Local` runs. -/
theorem local_same {p : Spatial.Pde} (hp : p.hasConv = true) (hpu : p.nUpdate = s.mesh.nd + 2) {m : Mesh} (hm : m.Ok s.bs) (hme : m.elems = s.mesh.elems) (o : Opts) (hst : o.stage = false) (hres : o.residual = false)
    {x x' : World} (h1 : x'.state = x.state) (h2 : ∀ e, e ∉ s.mesh.elems → x'.cache e = x.cache e) (h3 : ∀ e k, s.mesh.nd + 2 ≤ k.1 → x'.cache e k = x.cache e k) (h4 : x'.buf = x.buf) :
    runLocal p s.bs m o x' = runLocal p s.bs m o x := by
  obtain ⟨a1, a2, a3⟩ := elems_fold m.nd (fun e => localKernel p s.bs m.nd o (m.elem e)) m.elems x hm.elems_nodup
  obtain ⟨b1, b2, b3⟩ := elems_fold m.nd (fun e => localKernel p s.bs m.nd o (m.elem e)) m.elems x' hm.elems_nodup
  have key : ∀ e, localKernel p s.bs m.nd o (m.elem e) (x'.state e) (x'.cache e) (fun f => x'.buf (.elem e f) false) (fun f => x'.buf (.elem e f) true) =
      localKernel p s.bs m.nd o (m.elem e) (x.state e) (x.cache e) (fun f => x.buf (.elem e f) false) (fun f => x.buf (.elem e f) true) := by
    intro e
    rw [h1, h4]
    simp only [localKernel, hst, hres, hp]
    congr 1
    funext k
    by_cases hk : k.1 < p.nUpdate
    · simp [hk]
    · simp only [hk, if_false]
      exact h3 e k (by omega)
  refine World.ext' (funext fun e => ?_) (funext fun e => ?_) (funext fun b => ?_)
  · by_cases he : e ∈ m.elems
    · exact ((b1 e he).1.trans (by rw [key])).trans (a1 e he).1.symm
    · exact ((b2 e he).1.trans (by rw [h1])).trans (a2 e he).1.symm
  · by_cases he : e ∈ m.elems
    · exact ((b1 e he).2.1.trans (by rw [key])).trans (a1 e he).2.1.symm
    · exact ((b2 e he).2.trans (h2 e (hme ▸ he))).trans (a2 e he).2.symm
  · by_cases hb : ∃ e ∈ m.elems, ∃ f < 2 * m.nd, b = .elem e f
    · obtain ⟨e, he, f, hf, rfl⟩ := hb
      funext ld
      cases ld
      · exact (((b1 e he).2.2 f hf).1.trans (by rw [key])).trans ((a1 e he).2.2 f hf).1.symm
      · exact (((b1 e he).2.2 f hf).2.trans (by rw [key])).trans ((a1 e he).2.2 f hf).2.symm
    · have n1 : ∀ e ∈ m.elems, ∀ f < 2 * m.nd, b ≠ .elem e f := fun e he f hf h' => hb ⟨e, he, f, hf, h'⟩
      exact ((b3 b n1).trans (by rw [h4])).trans (a3 b n1).symm

include hm hn in
/-- The data on which a stage works, up to the element kernel, in both worlds. -/
theorem before_local {w w' : World} (h : Same s w w') (tss : Nat → Nat → ℝ) :
    let m := withTss s.mesh tss
    let p := ns s.mesh.nd s.useLdg s.mu s.kappa
    let x := runRestrict p s.bs m true false (runNeighbor p s.bs m (s.stateBc w))
    let x' := runRestrict p s.bs m true false (runNeighbor p s.bs m (s.stateBc w'))
    x'.state = x.state ∧ x.state = w.state ∧ x'.cache = w'.cache ∧ x.cache = w.cache ∧ (∀ b, x'.buf b false = x.buf b false) ∧
    (∀ b, b ∈ sidesOf s.mesh.cons ∨ s.useLdg = false → x'.buf b true = x.buf b true) ∧
    Fr s.mesh ((s.mesh.nd + 2) * s.bs.n ^ (s.mesh.nd - 1)) x x' := by
  intro m p x x'
  have hmt : m.Ok s.bs := withTss_ok hm tss
  have g := runBc_ghostOnly s.mesh.nd s.bs.n (s.mesh.nd + 2) false s.stateRule s.mesh.cons w
  have g' := runBc_ghostOnly s.mesh.nd s.bs.n (s.mesh.nd + 2) false s.stateRule s.mesh.cons w'
  have nw := neighbor_world hmt p (s.stateBc w)
  have nw' := neighbor_world hmt p (s.stateBc w')
  have e1 : x.state = w.state := nw.1.trans g.1
  have e2 : x'.state = w'.state := nw'.1.trans g'.1
  obtain ⟨c1, c2, _, _⟩ := cons_fold (fun c st => neighbor p m.nd s.bs.n c.deformed c.dir c.normal st) m.cons (s.stateBc w) hmt.sides_nodup
  obtain ⟨d1, d2, _, _⟩ := cons_fold (fun c st => neighbor p m.nd s.bs.n c.deformed c.dir c.normal st) m.cons (s.stateBc w') hmt.sides_nodup
  have hbf := stateBc_false hm h
  have hF0 : Fr s.mesh ((s.mesh.nd + 2) * s.bs.n ^ (s.mesh.nd - 1)) (s.stateBc w) (s.stateBc w') :=
    (fr_bc _ _ _ w hm).symm.trans (h.frame.trans (fr_bc _ _ _ w' hm))
  have hN : ∀ v : World, Fr s.mesh ((s.mesh.nd + 2) * s.bs.n ^ (s.mesh.nd - 1)) v (runNeighbor p s.bs m v) := fun v => fr_neighbor (m := m) p (Nat.le_refl _) v hmt
  have hR : ∀ v : World, Fr s.mesh ((s.mesh.nd + 2) * s.bs.n ^ (s.mesh.nd - 1)) v (runRestrict p s.bs m true false v) := fun v => fr_restrict (m := m) hn p true false v hmt
  have hy : ∀ b, (runNeighbor p s.bs m (s.stateBc w')).buf b false = (runNeighbor p s.bs m (s.stateBc w)).buf b false := by
    intro b
    by_cases hb : b ∈ sidesOf m.cons
    · obtain ⟨c, hc, sd, rfl⟩ := sidesOf_mem hb
      have t1 := congrFun (c1 c hc sd) false
      have t2 := congrFun (d1 c hc sd) false
      refine t2.trans (Eq.trans ?_ t1.symm)
      exact neighbor_false p _ _ _ _ _ _ _ (fun s => hbf _) sd
    · exact (congrFun (d2 b hb) false).trans ((hbf b).trans (congrFun (c2 b hb) false).symm)
  refine ⟨?_, e1, nw'.2.trans g'.2.1, nw.2.trans g.2.1, ?_, ?_, ?_⟩
  · rw [e1, e2, h.state]
  · intro b
    exact restrict_congr hmt hn p true false _ _ (fun r _ i _ => hy _) (fun r _ a _ => congrFun (hy _) a) (fun b _ => hy b) b
  · intro b hb
    show (runRestrict p s.bs m true false _).buf b true = (runRestrict p s.bs m true false _).buf b true
    rw [restrict_other hmt hn p true false _ b true (by simp), restrict_other hmt hn p true false _ b true (by simp)]
    by_cases hl : s.useLdg = false
    · have hpd : p.hasDiff = false := hl
      by_cases hb : b ∈ sidesOf m.cons
      · obtain ⟨c, hc, sd, rfl⟩ := sidesOf_mem hb
        have t1 := congrFun (c1 c hc sd) true
        have t2 := congrFun (d1 c hc sd) true
        refine t2.trans (Eq.trans ?_ t1.symm)
        show neighbor p _ _ _ _ _ _ sd true = neighbor p _ _ _ _ _ _ sd true
        rw [neighbor_ldg p hpd, neighbor_ldg p hpd, stateBc_true, stateBc_true, h.ldg hl]
      · refine (congrFun (d2 b hb) true).trans (Eq.trans ?_ (congrFun (c2 b hb) true).symm)
        rw [stateBc_true, stateBc_true, h.ldg hl]
    · have hpd : p.hasDiff = true := Bool.eq_true_of_not_eq_false hl
      have hb : b ∈ sidesOf m.cons := hb.resolve_right hl
      obtain ⟨c, hc, sd, rfl⟩ := sidesOf_mem hb
      have t1 := congrFun (c1 c hc sd) true
      have t2 := congrFun (d1 c hc sd) true
      refine t2.trans (Eq.trans ?_ t1.symm)
      exact neighbor_true p hpd _ _ _ _ _ _ _ (fun s => hbf _) (fun sd a ha => hF0 _ true a fun _ => ha) sd
  · exact (hR _).symm.trans ((hN _).symm.trans (hF0.trans ((hN _).trans (hR _))))

include hm hn in
/-- A time step does not distinguish the worlds. -/
theorem stage_same {w w' : World} (h : Same s w w') (tss : Nat → Nat → ℝ) (dt : ℝ) : s.stage tss dt w' = s.stage tss dt w := by
  obtain ⟨b1, b2, b3, b4, b5, b6, b7⟩ := before_local hm hn h tss
  have hmt := withTss_ok hm tss
  unfold Setup.stage
  by_cases hl : s.useLdg = true
  · rw [if_pos hl, if_pos hl]
    rw [hl] at b1 b2 b3 b4 b5 b6 b7
    unfold computeDiffusion
    have hg : ((ns s.mesh.nd true s.mu s.kappa).hasDiff && false || false && false || !(ns s.mesh.nd true s.mu s.kappa).hasConv && false) = false := rfl
    simp only [hg, Bool.false_eq_true, if_false]
    have key : ∀ o : Opts, o.stage = false → o.residual = false →
        runLocal (ns s.mesh.nd true s.mu s.kappa) s.bs (withTss s.mesh tss) o (runRestrict (ns s.mesh.nd true s.mu s.kappa) s.bs (withTss s.mesh tss) false true
          (runRestrict (ns s.mesh.nd true s.mu s.kappa) s.bs (withTss s.mesh tss) true false (runNeighbor (ns s.mesh.nd true s.mu s.kappa) s.bs (withTss s.mesh tss) (s.stateBc w')))) =
        runLocal (ns s.mesh.nd true s.mu s.kappa) s.bs (withTss s.mesh tss) o (runRestrict (ns s.mesh.nd true s.mu s.kappa) s.bs (withTss s.mesh tss) false true
          (runRestrict (ns s.mesh.nd true s.mu s.kappa) s.bs (withTss s.mesh tss) true false (runNeighbor (ns s.mesh.nd true s.mu s.kappa) s.bs (withTss s.mesh tss) (s.stateBc w)))) := by
      intro o ho1 ho2
      refine local_same rfl rfl hmt rfl o ho1 ho2 b1 ?_ ?_ ?_
      · intro e he
        exact (congrFun b3 e).trans ((h.cache_out e he).trans (congrFun b4 e).symm)
      · intro e k hk
        exact (congrFun (congrFun b3 e) k).trans ((h.cache_hi e k hk).trans (congrFun (congrFun b4 e) k).symm)
      · funext b l
        cases l
        · exact (restrict_other hmt hn _ false true _ b false (by simp)).trans ((b5 b).trans (restrict_other hmt hn _ false true _ b false (by simp)).symm)
        · refine restrict_congr hmt hn _ _ _ _ _ ?_ ?_ ?_ b
          · intro r hr i hi
            exact b6 _ (Or.inl (hm.fine_side hr hi))
          · intro r hr a ha
            exact b7 _ true a fun _ => ha
          · intro b hb
            by_cases hs : b ∈ sidesOf s.mesh.cons
            · exact b6 b (Or.inl hs)
            · funext a
              refine b7 b true a fun hu => absurd hu ?_
              intro hu
              rcases List.mem_append.1 hu with h1 | h1
              · exact hs h1
              · obtain ⟨r, hr, e⟩ := List.mem_map.1 h1
                exact hb (List.mem_flatMap.2 ⟨r, hr, by rw [← e]; exact List.mem_cons_self⟩)
    rw [key _ rfl rfl]
  · have hl' : s.useLdg = false := by simpa using hl
    rw [if_neg hl, if_neg hl]
    rw [hl'] at b1 b2 b3 b4 b5 b6 b7
    unfold computeConvection
    have hg : ((ns s.mesh.nd false s.mu s.kappa).hasDiff && false || false && false) = false := rfl
    simp only [hg, Bool.false_eq_true, if_false]
    have key : ∀ o : Opts, o.stage = false → o.residual = false →
        runLocal (ns s.mesh.nd false s.mu s.kappa) s.bs (withTss s.mesh tss) o
          (runRestrict (ns s.mesh.nd false s.mu s.kappa) s.bs (withTss s.mesh tss) true false (runNeighbor (ns s.mesh.nd false s.mu s.kappa) s.bs (withTss s.mesh tss) (s.stateBc w'))) =
        runLocal (ns s.mesh.nd false s.mu s.kappa) s.bs (withTss s.mesh tss) o
          (runRestrict (ns s.mesh.nd false s.mu s.kappa) s.bs (withTss s.mesh tss) true false (runNeighbor (ns s.mesh.nd false s.mu s.kappa) s.bs (withTss s.mesh tss) (s.stateBc w))) := by
      intro o ho1 ho2
      refine local_same rfl rfl hmt rfl o ho1 ho2 b1 ?_ ?_ ?_
      · intro e he
        exact (congrFun b3 e).trans ((h.cache_out e he).trans (congrFun b4 e).symm)
      · intro e k hk
        exact (congrFun (congrFun b3 e) k).trans ((h.cache_hi e k hk).trans (congrFun (congrFun b4 e) k).symm)
      · funext b l
        cases l
        · exact b5 b
        · exact b6 b (Or.inr rfl)
    rw [key _ rfl rfl]

include hm hn in
theorem step_same {w w' : World} (h : Same s w w') (tss : Nat → Nat → ℝ) (dt : ℝ) : s.step tss dt w' = s.step tss dt w := by
  have e := stage_same hm hn h tss dt
  unfold Setup.step flowStep
  unfold Setup.stage at e
  exact congrArg (fun o => Option.bind o _) e

end
end Hexed.Residual
