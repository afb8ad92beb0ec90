import Verif.Residual.Rate
set_option autoImplicit false
set_option linter.unusedVariables false

/-!
# Steady flows
-/

namespace Hexed.Residual
open Hexed.Spatial Hexed.Pde Hexed.Solver
open Hexed.RowIndex (RowIndex)

/-! ## The convective part of the rate of change -/

theorem foldl_rel {α β γ : Type} (R : α → β → Prop) (f : α → γ → α) (g : β → γ → β) (l : List γ) (h : ∀ c ∈ l, ∀ a b, R a b → R (f a c) (g b c)) : ∀ a b, R a b → R (l.foldl f a) (l.foldl g b) := by
  induction l with
  | nil => intro a b h; exact h
  | cons c l ih => intro a b hab; exact ih (fun c hc => h c (by simp [hc])) _ _ (h c (by simp) a b hab)

theorem rowOf_out {nd n d q : Nat} (hn : 0 < n) (hd : d < nd) (hq : n ^ nd ≤ q) : n ^ (nd - 1) ≤ rowOf nd n d q := by
  have h1 : n ^ d ≤ q / n ^ (nd - 1 - d) / n := by
    rw [Nat.div_div_eq_div_mul, Nat.le_div_iff_mul_le (Nat.mul_pos (Nat.pow_pos hn) hn), ← pow_succ, ← pow_add]
    rwa [show d + (nd - 1 - d + 1) = nd by omega]
  have h2 := Nat.mul_le_mul_right (n ^ (nd - 1 - d)) h1
  rw [← pow_add, show d + (nd - 1 - d) = nd - 1 by omega] at h2
  exact h2.trans (Nat.le_add_right _ _)

theorem filter_rel (bs : BasisData) (hn : 0 < bs.n) (nd nvar N : Nat) (a b : Arr) (h : ∀ k : Nat × Nat, k.1 < N → a k = b k) : ∀ k : Nat × Nat, k.1 < N → applyFilter bs nd nvar a k = applyFilter bs nd nvar b k := by
  simp only [applyFilter]
  rw [overRows_eq _ _ hn, overRows_eq _ _ hn]
  refine foldl_rel (fun a b : Arr => ∀ k : Nat × Nat, k.1 < N → a k = b k) _ _ (dk nd bs.n) ?_ _ _ h
  rintro ⟨d, j⟩ hdj a b hab ⟨u, q⟩ hu
  have hd := (mem_dk.1 hdj).1
  rw [writeRow_at hn hd, writeRow_at hn hd, hab _ hu]
  simp only [matRow, readRow]
  have hu' : ∀ x, ((0 + (u - 0), x) : Nat × Nat).1 < N := fun x => by simpa using hu
  simp only [hab _ (hu' _)]

/-- The entries with which the convective update is done do not depend on viscosity. -/
theorem localRate_conv (bs : BasisData) (hn : 0 < bs.n) (nd : Nat) (mu kappa : Transport) (c c' : Bool) (o o' : Opts) (ho : o.useFilter = o'.useFilter) (e : ElemRec) (st : Arr) (fa : Nat → Mem) (vi vi' : Nat → Mem)
    (k : Nat × Nat) (hk : k.1 < nd + 2) : (localRate (ns nd c mu kappa) bs nd o e st fa vi).1 k = (localRate (ns nd c' mu kappa) bs nd o' e st fa vi').1 k := by
  have hb : ∀ c, Spatial.Pde.blockSize (ns nd c mu kappa) = nd + 2 := fun c => by simp only [Spatial.Pde.blockSize, ns]; omega
  have hrow : ∀ (c : Bool) (vs : Nat → Arr) (acc : Arr × (Nat → Mem)) (d j u q : Nat), d < nd → u < nd + 2 → (residualRow (ns nd c mu kappa) bs (convFlux (ns nd c mu kappa) nd e st) vs fa acc d (RowIndex.after nd bs.n d j)).1 (u, q) =
      writeRow (nd + 2) (fun i v => -deriv2 bs (readRow (convFlux (ns nd false mu kappa) nd e st d) 0 (RowIndex.after nd bs.n d j)) (readBound fa (RowIndex.after nd bs.n d j)) i v) acc.1 0 (RowIndex.after nd bs.n d j) 1 (u, q) := by
    intro c vs acc d j u q hd hu
    cases c
    · rfl
    · change writeRow _ _ (writeRow _ _ _ 0 _ 1) (Spatial.Pde.blockSize _) _ 1 (u, q) = _
      rw [hb, writeRow_at hn hd, if_neg (by omega)]
      rfl
  have raw : ∀ k : Nat × Nat, k.1 < nd + 2 →
      (overRows nd bs.n (residualRow (ns nd c mu kappa) bs (convFlux (ns nd c mu kappa) nd e st) (diffFlux (ns nd c mu kappa) bs nd e st vi) fa) (initRate (ns nd c mu kappa) e o.stage st, vi)).1 k =
      (overRows nd bs.n (residualRow (ns nd c' mu kappa) bs (convFlux (ns nd c' mu kappa) nd e st) (diffFlux (ns nd c' mu kappa) bs nd e st vi') fa) (initRate (ns nd c' mu kappa) e o'.stage st, vi')).1 k := by
    rw [overRows_eq _ _ hn, overRows_eq _ _ hn]
    refine foldl_rel (fun a b : Arr × (Nat → Mem) => ∀ k : Nat × Nat, k.1 < nd + 2 → a.1 k = b.1 k) _ _ _ ?_ _ _ ?_
    · rintro ⟨d, j⟩ hdj a b hab ⟨u, q⟩ hu
      have hd := (mem_dk.1 hdj).1
      rw [hrow c _ _ _ _ _ _ hd hu, hrow c' _ _ _ _ _ _ hd hu, writeRow_at hn hd, writeRow_at hn hd, hab _ hu]
    · intro k hk
      simp only [initRate, ns, Bool.false_eq_true, false_and, if_false]
      have h1 : ¬ 2 * (nd + 2) ≤ k.1 := by omega
      simp [h1]
  simp only [localRate]
  rw [ho]
  split
  · exact filter_rel bs hn nd (2 * (nd + 2)) (nd + 2) _ _ raw k hk
  · exact raw k hk

/-- Nothing is written at points that do not exist. -/
theorem rows_out (nd : Nat) (bs : BasisData) (hn : 0 < bs.n) {α : Type} (g : α → Arr) (f : α → Nat → RowIndex → α)
    (hf : ∀ a d j u q, d < nd → j < bs.n ^ (nd - 1) → rowOf nd bs.n d q ≠ j → g (f a d (RowIndex.after nd bs.n d j)) (u, q) = g a (u, q)) (a : α) (u q : Nat) (hq : bs.n ^ nd ≤ q) :
    g (overRows nd bs.n f a) (u, q) = g a (u, q) := by
  rw [overRows_eq _ _ hn]
  refine foldl_rel (fun x y : α => g x (u, q) = g a (u, q)) _ (fun _ _ => a) (dk nd bs.n) ?_ _ a rfl
  rintro ⟨d, j⟩ hdj x y hxy
  obtain ⟨hd, hj⟩ := mem_dk.1 hdj
  rw [hf x d j u q hd hj ?_, hxy]
  exact Nat.ne_of_gt (hj.trans_le (rowOf_out hn hd hq))

theorem filter_out (bs : BasisData) (hn : 0 < bs.n) (nd nvar : Nat) (a : Arr) (u q : Nat) (hq : bs.n ^ nd ≤ q) : applyFilter bs nd nvar a (u, q) = a (u, q) := by
  refine rows_out nd bs hn (fun x => x) _ ?_ a u q hq
  intro a d j u q hd hj hne
  rw [writeRow_at hn hd, if_neg (by tauto)]

theorem localRate_out (bs : BasisData) (hn : 0 < bs.n) (nd : Nat) (mu kappa : Transport) (c : Bool) (o : Opts) (e : ElemRec) (st : Arr) (fa vi : Nat → Mem) (u q : Nat) (hq : bs.n ^ nd ≤ q) :
    (localRate (ns nd c mu kappa) bs nd o e st fa vi).1 (u, q) = 0 := by
  have raw : (overRows nd bs.n (residualRow (ns nd c mu kappa) bs (convFlux (ns nd c mu kappa) nd e st) (diffFlux (ns nd c mu kappa) bs nd e st vi) fa) (initRate (ns nd c mu kappa) e o.stage st, vi)).1 (u, q) = 0 := by
    refine (rows_out nd bs hn (fun x : Arr × (Nat → Mem) => x.1) _ ?_ _ u q hq).trans ?_
    · intro a d j u q hd hj hne
      cases c
      · change writeRow _ _ _ 0 _ 1 (u, q) = _
        rw [writeRow_at hn hd, if_neg (by tauto)]
      · change writeRow _ _ (writeRow _ _ _ 0 _ 1) (Spatial.Pde.blockSize _) _ 1 (u, q) = _
        rw [writeRow_at hn hd, if_neg (by tauto), writeRow_at hn hd, if_neg (by tauto)]
    · simp only [initRate]
      split_ifs with h1 h2
      · exact absurd h1.1 (by simp [ns])
      · have h3 : 2 * (nd + 2) < nd + 2 := lt_of_le_of_lt h2.2.1 h2.2.2
        omega
      · rfl
  simp only [localRate]
  split
  · rw [filter_out bs hn _ _ _ _ _ hq, raw]
  · exact raw

theorem reconcile_out (bs : BasisData) (hn : 0 < bs.n) (nd nvar : Nat) (w : RowIndex → Nat → Nat → ℝ) (u q : Nat) (hq : bs.n ^ nd ≤ q) :
    overRows nd bs.n (fun rate i_dim r => writeRow nvar (w r) rate 0 r 1) (fun _ => 0) (u, q) = 0 := by
  refine (rows_out nd bs hn (fun x => x) _ ?_ _ u q hq).trans rfl
  intro a d j u q hd hj hne
  rw [writeRow_at hn hd, if_neg (by tauto)]

section
variable {s : Setup} (hm : s.mesh.Ok s.bs) (hn : 0 < s.bs.n)

local notation "P0" => ns s.mesh.nd false s.mu s.kappa
local notation "PL" => ns s.mesh.nd true s.mu s.kappa
local notation "LL" => (s.mesh.nd + 2) * s.bs.n ^ (s.mesh.nd - 1)

include hm hn in
/-- The data that convection works on does not depend on viscosity. -/
theorem pre_visc (tss : Nat → Nat → ℝ) (w : World) (b : Buf) : (s.pre PL tss w).buf b false = (s.pre P0 tss w).buf b false := by
  have hmt := withTss_ok hm tss
  have hy : ∀ b, (runNeighbor PL s.bs (withTss s.mesh tss) (s.stateBc w)).buf b false = (runNeighbor P0 s.bs (withTss s.mesh tss) (s.stateBc w)).buf b false := by
    obtain ⟨c1, c2, _, _⟩ := cons_fold (fun c st => neighbor PL (withTss s.mesh tss).nd s.bs.n c.deformed c.dir c.normal st) (withTss s.mesh tss).cons (s.stateBc w) hmt.sides_nodup
    obtain ⟨d1, d2, _, _⟩ := cons_fold (fun c st => neighbor P0 (withTss s.mesh tss).nd s.bs.n c.deformed c.dir c.normal st) (withTss s.mesh tss).cons (s.stateBc w) hmt.sides_nodup
    intro b
    by_cases hb : b ∈ sidesOf (withTss s.mesh tss).cons
    · obtain ⟨c, hc, sd, rfl⟩ := sidesOf_mem hb
      exact (congrFun (c1 c hc sd) false).trans (congrFun (d1 c hc sd) false).symm
    · exact (congrFun (c2 b hb) false).trans (congrFun (d2 b hb) false).symm
  exact restrict_congr hmt hn P0 true false _ _ (fun r _ i _ => hy _) (fun r _ a _ => congrFun (hy _) a) (fun b _ => hy b) b

include hm hn in
/-- What the first stage leaves: the convective rates of change in the cache, and worlds that a further stage does not distinguish if the
states have not changed. -/
theorem stage_cache (tss : Nat → Nat → ℝ) (dt : ℝ) (w w1 : World) (hr : s.Ready w) (h1 : s.stage tss dt w = some w1) :
    (∀ e ∈ s.mesh.elems, ∀ k : Nat × Nat, k.1 < s.mesh.nd + 2 → w1.cache e k =
      (localRate P0 s.bs s.mesh.nd ⟨dt * s.stepRatio, true, false, s.filter⟩ ((withTss s.mesh tss).elem e) (w.state e) (fun f => (s.pre P0 tss w).buf (.elem e f) false) fun f => (s.pre P0 tss w).buf (.elem e f) true).1 k) ∧
    (w1.state = w.state → Same s w w1) := by
  have hmt := withTss_ok hm tss
  unfold Setup.stage at h1
  by_cases hl : s.useLdg = true
  · rw [stage_eq_ldg tss dt false w hl] at h1
    have h1 := (Option.some.inj h1).symm
    set m := withTss s.mesh tss with hmm
    set o : Opts := ⟨dt, false, false, s.filter⟩ with ho
    obtain ⟨p1, p2, p3, _⟩ := pre_facts hm hn (s := s) true tss w
    set y := runRestrict PL s.bs m false true (s.pre PL tss w) with hy
    have hys : y.state = w.state := p1
    have hyF : Fr s.mesh LL w y := p3.trans (fr_restrict (m := m) hn PL false true _ hmt)
    obtain ⟨b1, b2, b3⟩ := elems_fold m.nd (fun e => localKernel PL s.bs m.nd o (m.elem e)) m.elems y hmt.elems_nodup
    have y1F : Fr s.mesh LL y (runLocal PL s.bs m o y) := fr_local (m := m) hn PL (Nat.le_refl _) o y hmt
    obtain ⟨t1, t2, t3⟩ := mid_facts hm hn (s := s) tss (runLocal PL s.bs m o y)
    set z := s.mid tss (runLocal PL s.bs m o y) with hz
    obtain ⟨d1, d2, d3⟩ := elems_fold m.nd (fun e => reconcileKernel PL s.bs m.nd o (m.elem e)) m.elems z hmt.elems_nodup
    have uF : Fr s.mesh LL z (runReconcileElems PL s.bs m o z) := fr_reconcileElems (m := m) hn PL o z hmt
    have vF : Fr s.mesh LL (runReconcileElems PL s.bs m o z) w1 := h1 ▸ fr_prolong (m := m) hn PL false false _ hmt
    have hc : ∀ e, w1.cache e = (runLocal PL s.bs m o y).cache e := by
      intro e
      rw [h1]
      by_cases he : e ∈ m.elems
      · exact (d1 e he).2.1.trans (congrFun t2 e)
      · exact (d2 e he).2.trans (congrFun t2 e)
    refine ⟨fun e he k hk => ?_, fun hs => ⟨hs, ?_, ?_, ?_, hyF.trans (y1F.trans (t3.trans (uF.trans vF))), fun h => by rw [hl] at h; cases h⟩⟩
    · rw [hc]
      refine (congrFun (b1 e he).2.1 k).trans ?_
      have hf : (fun f => y.buf (.elem e f) false) = fun f => (s.pre P0 tss w).buf (.elem e f) false :=
        funext fun f => (restrict_other hmt hn _ false true _ _ false (by simp)).trans (pre_visc hm hn tss w _)
      rw [hf, hys]
      refine Eq.trans ?_ (localRate_conv s.bs hn s.mesh.nd s.mu s.kappa true false o ⟨dt * s.stepRatio, true, false, s.filter⟩ rfl _ _ _ (fun f => y.buf (.elem e f) true) _ k hk)
      simp only [localKernel, ho, ns, hk, if_true, Bool.false_eq_true, if_false, Bool.not_false, Bool.and_self]
      rfl
    · intro e he
      rw [hc]
      exact (b2 e he).2.trans (congrFun p2 e)
    · intro e k hk
      rw [hc]
      by_cases he : e ∈ m.elems
      · refine (congrFun (b1 e he).2.1 k).trans ?_
        rw [show y.cache = w.cache from p2]
        simp [localKernel, ho, ns, hk]
      · exact congrFun ((b2 e he).2.trans (congrFun p2 e)) k
    · intro b hb
      have hst : ∀ e ∈ s.mesh.elems, (reconcileKernel PL s.bs m.nd o (m.elem e) (z.state e) (z.cache e) (fun f => z.buf (.elem e f) false) fun f => z.buf (.elem e f) true).state = w.state e := by
        intro e he
        have := (d1 e he).1
        refine this.symm.trans ?_
        have h2 := congrFun hs e
        rw [h1] at h2
        exact h2
      have := faces_determined hm hn P0 (fun e => reconcileKernel PL s.bs m.nd o (m.elem e)) (fun _ state cache faces visc => ⟨state, cache, writeFace P0 s.bs s.mesh.nd state faces, visc⟩) w.state
        (hyF.trans (y1F.trans t3)).symm (fun e he => by rw [← hst e he]; rfl) (fun e he => rfl) b hb
      rw [h1]
      refine this.trans ?_
      exact congrArg (fun x : World => x.buf b false) hr
  · have hl : s.useLdg = false := by simpa using hl
    rw [stage_eq tss dt false w hl] at h1
    have h1 := (Option.some.inj h1).symm
    set m := withTss s.mesh tss with hmm
    set o : Opts := ⟨dt, false, false, s.filter⟩ with ho
    obtain ⟨p1, p2, p3, p4⟩ := pre_facts hm hn (s := s) false tss w
    set z := s.pre P0 tss w with hz
    obtain ⟨b1, b2, b3⟩ := elems_fold m.nd (fun e => localKernel P0 s.bs m.nd o (m.elem e)) m.elems z hmt.elems_nodup
    have uF : Fr s.mesh LL z (runLocal P0 s.bs m o z) := fr_local (m := m) hn P0 (Nat.le_refl _) o z hmt
    have vF : Fr s.mesh LL (runLocal P0 s.bs m o z) w1 := h1 ▸ fr_prolong (m := m) hn P0 false false _ hmt
    refine ⟨fun e he k hk => ?_, fun hs => ⟨hs, ?_, ?_, ?_, p3.trans (uF.trans vF), ?_⟩⟩
    · rw [h1]
      refine (congrFun (b1 e he).2.1 k).trans ?_
      rw [p1]
      refine Eq.trans ?_ (localRate_conv s.bs hn s.mesh.nd s.mu s.kappa false false o ⟨dt * s.stepRatio, true, false, s.filter⟩ rfl _ _ _ (fun f => z.buf (.elem e f) true) _ k hk)
      simp only [localKernel, ho, ns, hk, if_true, Bool.false_eq_true, if_false, Bool.not_false, Bool.and_self]
      rfl
    · intro e he
      rw [h1]
      exact (b2 e he).2.trans (congrFun p2 e)
    · intro e k hk
      rw [h1]
      by_cases he : e ∈ m.elems
      · refine (congrFun (b1 e he).2.1 k).trans ?_
        rw [p2]
        simp [localKernel, ho, ns, hk]
      · exact congrFun ((b2 e he).2.trans (congrFun p2 e)) k
    · intro b hb
      have hst : ∀ e ∈ s.mesh.elems, (localKernel P0 s.bs m.nd o (m.elem e) (z.state e) (z.cache e) (fun f => z.buf (.elem e f) false) fun f => z.buf (.elem e f) true).state = w.state e := by
        intro e he
        have := (b1 e he).1
        refine this.symm.trans ?_
        have h2 := congrFun hs e
        rw [h1] at h2
        exact h2
      have := faces_determined hm hn P0 (fun e => localKernel P0 s.bs m.nd o (m.elem e)) (fun _ state cache faces visc => ⟨state, cache, writeFace P0 s.bs s.mesh.nd state faces, visc⟩) w.state
        p3.symm (fun e he => by rw [← hst e he]; rfl) (fun e he => rfl) b hb
      rw [h1]
      refine this.trans ?_
      exact congrArg (fun x : World => x.buf b false) hr
    · intro _ b
      rw [h1, prolong_other hmt _ _ _ _ _ _ (by simp)]
      refine Eq.trans ?_ (p4 rfl b)
      by_cases hb : ∃ e ∈ m.elems, ∃ f < 2 * m.nd, b = .elem e f
      · obtain ⟨e, he, f, hf, rfl⟩ := hb
        refine ((b1 e he).2.2 f hf).2.trans ?_
        simp only [localKernel, localRate]
        rw [residual_visc]
        simp [ns]
      · rw [runLocal, b3 b fun e he f hf h' => hb ⟨e, he, f, hf, h'⟩]

include hm hn in
/-- The second stage after a first stage that has changed nothing. -/
theorem second_stage (tss : Nat → Nat → ℝ) (dt : ℝ) (w w' : World) (hr : s.Ready w) (h : s.step tss dt w = some w') (hst : ∀ w1, s.stage tss dt w = some w1 → w1.state = w.state) : w'.state = w.state := by
  have hmt := withTss_ok hm tss
  obtain ⟨w1, h1, h2⟩ := Option.bind_eq_some_iff.1 h
  have h1 : s.stage tss dt w = some w1 := h1
  have h3 : some (runProlong P0 s.bs (withTss s.mesh tss) false false (runLocal P0 s.bs (withTss s.mesh tss) ⟨dt * s.stepRatio, true, false, s.filter⟩ (s.pre P0 tss w1))) = some w' := h2
  have h4 := (Option.some.inj h3).symm
  obtain ⟨c1, c2⟩ := stage_cache hm hn tss dt w w1 hr h1
  have hs := c2 (hst w1 h1)
  obtain ⟨p1, p2, _, _⟩ := pre_facts hm hn (s := s) false tss w1
  have hbuf : ∀ b, (s.pre P0 tss w1).buf b false = (s.pre P0 tss w).buf b false := by
    intro b
    have := (before_local hm hn hs tss).2.2.2.2.1 b
    cases hu : s.useLdg
    · rw [hu] at this
      exact this
    · rw [hu] at this
      rw [← pre_visc hm hn, ← pre_visc hm hn]
      exact this
  obtain ⟨b1, b2, b3⟩ := elems_fold (withTss s.mesh tss).nd (fun e => localKernel P0 s.bs (withTss s.mesh tss).nd ⟨dt * s.stepRatio, true, false, s.filter⟩ ((withTss s.mesh tss).elem e)) (withTss s.mesh tss).elems (s.pre P0 tss w1) hmt.elems_nodup
  funext e
  rw [h4]
  by_cases he : e ∈ (withTss s.mesh tss).elems
  · refine (b1 e he).1.trans ?_
    rw [p1, p2, hs.state, show (fun f => (s.pre P0 tss w1).buf (.elem e f) false) = fun f => (s.pre P0 tss w).buf (.elem e f) false from funext fun f => hbuf _]
    funext k
    show (if k.1 < s.mesh.nd + 2 then w.state e (k.1, k.2) + ((localRate P0 s.bs s.mesh.nd ⟨dt * s.stepRatio, true, false, s.filter⟩ ((withTss s.mesh tss).elem e) (w.state e) _ _).1 (k.1, k.2) - w1.cache e (k.1, k.2)) * _ else w.state e (k.1, k.2)) = _
    split
    · rename_i hk
      rw [c1 e he (k.1, k.2) hk]
      rw [localRate_conv s.bs hn s.mesh.nd s.mu s.kappa false false ⟨dt * s.stepRatio, true, false, s.filter⟩ ⟨dt * s.stepRatio, true, false, s.filter⟩ rfl _ _ _ _ (fun f => (s.pre P0 tss w).buf (.elem e f) true) (k.1, k.2) hk]
      simp
    · rfl
  · exact (b2 e he).1.trans (by rw [p1, hs.state])

include hm hn in
/-- The residual at points that do not exist. -/
theorem residual_out (tss : Nat → Nat → ℝ) (w wr : World) (h : s.computeResidual tss w = some wr) (e : Nat) (he : e ∈ s.mesh.elems) (v q : Nat) (hv : v < s.mesh.nd + 2) (hq : s.bs.n ^ s.mesh.nd ≤ q) :
    wr.cache e (v, q) = 0 := by
  have hmt := withTss_ok hm tss
  unfold Setup.computeResidual at h
  by_cases hl : s.useLdg = true
  · rw [stage_eq_ldg tss 1 true w hl] at h
    rw [← Option.some.inj h]
    set m := withTss s.mesh tss with hmm
    set r : Opts := ⟨1, false, true, s.filter⟩ with hr
    set y := runRestrict PL s.bs m false true (s.pre PL tss w) with hy
    obtain ⟨a1, a2, a3⟩ := elems_fold m.nd (fun e => localKernel PL s.bs m.nd r (m.elem e)) m.elems y hmt.elems_nodup
    obtain ⟨q1, q2, _⟩ := mid_facts hm hn (s := s) tss (runLocal PL s.bs m r y)
    obtain ⟨c1, c2, c3⟩ := elems_fold m.nd (fun e => reconcileKernel PL s.bs m.nd r (m.elem e)) m.elems (s.mid tss (runLocal PL s.bs m r y)) hmt.elems_nodup
    refine (congrFun (c1 e he).2.1 (v, q)).trans ?_
    rw [q2]
    have e2 : (runLocal PL s.bs m r y).cache e (v, q) = 0 := by
      refine (congrFun (a1 e he).2.1 (v, q)).trans ?_
      refine (if_pos hv).trans ?_
      show ((localRate PL s.bs s.mesh.nd r (m.elem e) _ _ _).1 (v, q) + (localRate PL s.bs s.mesh.nd r (m.elem e) _ _ _).1 (_, q)) * _ = 0
      rw [localRate_out _ hn _ _ _ _ _ _ _ _ _ _ _ hq, localRate_out _ hn _ _ _ _ _ _ _ _ _ _ _ hq]
      ring
    simp only [reconcileKernel, hr, if_true]
    show (if v < s.mesh.nd + 2 then (runLocal PL s.bs m r y).cache e (v, q) + _ * _ else _) = 0
    rw [if_pos hv, e2]
    split
    · rw [filter_out s.bs hn m.nd _ _ _ _ hq]
      rw [reconcile_out s.bs hn m.nd _ _ v q hq]
      ring
    · rw [reconcile_out s.bs hn m.nd _ _ v q hq]
      ring
  · have hl : s.useLdg = false := by simpa using hl
    rw [stage_eq tss 1 true w hl] at h
    rw [← Option.some.inj h]
    set m := withTss s.mesh tss with hmm
    set r : Opts := ⟨1, false, true, s.filter⟩ with hr
    obtain ⟨a1, a2, a3⟩ := elems_fold m.nd (fun e => localKernel P0 s.bs m.nd r (m.elem e)) m.elems (s.pre P0 tss w) hmt.elems_nodup
    refine (congrFun (a1 e he).2.1 (v, q)).trans ?_
    refine (if_pos hv).trans ?_
    show (localRate P0 s.bs s.mesh.nd r (m.elem e) _ _ _).1 (v, q) * _ = 0
    rw [localRate_out _ hn _ _ _ _ _ _ _ _ _ _ _ hq]
    ring

include hm hn in
/-- The residual is proportional to the time step scale. -/
theorem residual_tss (tss tss' : Nat → Nat → ℝ) (w : World) : ∃ a b, s.computeResidual tss w = some a ∧ s.computeResidual tss' w = some b ∧
    ∀ e ∈ s.mesh.elems, ∀ v < s.mesh.nd + 2, ∀ q, a.cache e (v, q) * tss' e q = b.cache e (v, q) * tss e q := by
  have hmt := withTss_ok hm tss
  have hmt' := withTss_ok hm tss'
  have hmul : ∀ e q, updateMult 1 ((withTss s.mesh tss).elem e) q * tss' e q = updateMult 1 ((withTss s.mesh tss').elem e) q * tss e q := by
    intro e q
    simp only [updateMult, withTss]
    split <;> ring
  unfold Setup.computeResidual
  by_cases hl : s.useLdg = true
  · rw [stage_eq_ldg tss 1 true w hl, stage_eq_ldg tss' 1 true w hl]
    refine ⟨_, _, rfl, rfl, ?_⟩
    set m := withTss s.mesh tss with hmm
    set m' := withTss s.mesh tss' with hmm'
    set r : Opts := ⟨1, false, true, s.filter⟩ with hr
    have hpre : runRestrict PL s.bs m' false true (s.pre PL tss' w) = runRestrict PL s.bs m false true (s.pre PL tss w) := rfl
    rw [hpre]
    set y := runRestrict PL s.bs m false true (s.pre PL tss w) with hy
    obtain ⟨a1, a2, a3⟩ := elems_fold s.mesh.nd (fun e => localKernel PL s.bs s.mesh.nd r (m.elem e)) s.mesh.elems y hm.elems_nodup
    obtain ⟨b1, b2, b3⟩ := elems_fold s.mesh.nd (fun e => localKernel PL s.bs s.mesh.nd r (m'.elem e)) s.mesh.elems y hm.elems_nodup
    have hbuf : (runLocal PL s.bs m r y).buf = (runLocal PL s.bs m' r y).buf := elems_buf (s := s) hm (fun e => localKernel PL s.bs s.mesh.nd r (m.elem e)) (fun e => localKernel PL s.bs s.mesh.nd r (m'.elem e)) y (fun e he st ca fa vi => ⟨rfl, rfl⟩)
    obtain ⟨q1, q2, _⟩ := mid_facts hm hn (s := s) tss (runLocal PL s.bs m r y)
    obtain ⟨t1, t2, _⟩ := mid_facts hm hn (s := s) tss' (runLocal PL s.bs m' r y)
    have hmid : (s.mid tss (runLocal PL s.bs m r y)).buf = (s.mid tss' (runLocal PL s.bs m' r y)).buf := mid_buf (s := s) tss hbuf
    obtain ⟨c1, c2, c3⟩ := elems_fold s.mesh.nd (fun e => reconcileKernel PL s.bs s.mesh.nd r (m.elem e)) s.mesh.elems (s.mid tss (runLocal PL s.bs m r y)) hm.elems_nodup
    obtain ⟨d1, d2, d3⟩ := elems_fold s.mesh.nd (fun e => reconcileKernel PL s.bs s.mesh.nd r (m'.elem e)) s.mesh.elems (s.mid tss' (runLocal PL s.bs m' r y)) hm.elems_nodup
    intro e he v hv q
    have h1 : (runProlong PL s.bs m false false (runReconcileElems PL s.bs m r (s.mid tss (runLocal PL s.bs m r y)))).cache e (v, q) = _ := congrFun (c1 e he).2.1 (v, q)
    have h2 : (runProlong PL s.bs m' false false (runReconcileElems PL s.bs m' r (s.mid tss' (runLocal PL s.bs m' r y)))).cache e (v, q) = _ := congrFun (d1 e he).2.1 (v, q)
    rw [h1, h2, q2, t2, hmid]
    have e1 : (runLocal PL s.bs m r y).cache e = _ := (a1 e he).2.1
    have e2 : (runLocal PL s.bs m' r y).cache e = _ := (b1 e he).2.1
    rw [e1, e2]
    have hrate : localRate PL s.bs s.mesh.nd r (m.elem e) = localRate PL s.bs s.mesh.nd r (m'.elem e) := rfl
    simp only [reconcileKernel, localKernel, hrate, hr, if_true, Bool.false_eq_true, if_false]
    simp only [ns, hv, if_true, Bool.or_false, add_mul, mul_assoc, hmul]
    rfl
  · have hl : s.useLdg = false := by simpa using hl
    rw [stage_eq tss 1 true w hl, stage_eq tss' 1 true w hl]
    refine ⟨_, _, rfl, rfl, ?_⟩
    set m := withTss s.mesh tss with hmm
    set m' := withTss s.mesh tss' with hmm'
    set r : Opts := ⟨1, false, true, s.filter⟩ with hr
    have hpre : s.pre P0 tss' w = s.pre P0 tss w := rfl
    rw [hpre]
    set y := s.pre P0 tss w with hy
    obtain ⟨a1, a2, a3⟩ := elems_fold s.mesh.nd (fun e => localKernel P0 s.bs s.mesh.nd r (m.elem e)) s.mesh.elems y hm.elems_nodup
    obtain ⟨b1, b2, b3⟩ := elems_fold s.mesh.nd (fun e => localKernel P0 s.bs s.mesh.nd r (m'.elem e)) s.mesh.elems y hm.elems_nodup
    intro e he v hv q
    have h1 : (runProlong P0 s.bs m false false (runLocal P0 s.bs m r y)).cache e (v, q) = _ := congrFun (a1 e he).2.1 (v, q)
    have h2 : (runProlong P0 s.bs m' false false (runLocal P0 s.bs m' r y)).cache e (v, q) = _ := congrFun (b1 e he).2.1 (v, q)
    rw [h1, h2]
    have hrate : localRate P0 s.bs s.mesh.nd r (m.elem e) = localRate P0 s.bs s.mesh.nd r (m'.elem e) := rfl
    simp only [localKernel, hrate, hr, if_true, Bool.false_eq_true, if_false]
    simp only [ns, hv, if_true, Bool.or_false, Bool.false_eq_true, if_false, mul_assoc, hmul]
    rfl

end
end Hexed.Residual
