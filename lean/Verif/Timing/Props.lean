import Verif.Timing.Lemmas
set_option autoImplicit false
set_option linter.unusedVariables false

/-!
# C95: the report of times

Theorems about all histories of calls, with all sizes of meshes and all durations of pieces of work.
-/

namespace Hexed.Timing

open Name Cmd

section
variable {P : Type} [DecidableEq P]

/-- What is shown of `b` holds of `a`. -/
def Sim (a b : Cmd P) : Prop :=
  (∀ ks, free ks b = true → free ks a = true) ∧ (∀ ks, apart ks b = true → apart ks a = true) ∧ (∀ p ks, within p ks b = true → within p ks a = true) ∧ ∀ tree run, legal tree run b = true → legal tree run a = true

theorem Sim.refl (a : Cmd P) : Sim a a := ⟨fun _ h => h, fun _ h => h, fun _ _ h => h, fun _ _ h => h⟩
theorem Sim.skip (b : Cmd P) : Sim .skip b := ⟨fun _ _ => rfl, fun _ _ => rfl, fun _ _ _ => rfl, fun _ _ _ => rfl⟩
theorem Sim.units (p : P) (k l : ℕ) : Sim (.units p k) (.units p l) := ⟨fun _ h => h, fun _ h => h, fun _ _ h => h, fun _ _ h => h⟩

theorem Sim.seq {a b a' b' : Cmd P} (h : Sim a a') (h' : Sim b b') : Sim (.seq a b) (.seq a' b') := by
  obtain ⟨h1, h2, h3, h4⟩ := h
  obtain ⟨h1', h2', h3', h4'⟩ := h'
  refine ⟨fun ks h => ?_, fun ks h => ?_, fun p ks h => ?_, fun t r h => ?_⟩
  · simp only [free, Bool.and_eq_true] at h ⊢; exact ⟨h1 _ h.1, h1' _ h.2⟩
  · simp only [apart, Bool.and_eq_true] at h ⊢; exact ⟨h2 _ h.1, h2' _ h.2⟩
  · simp only [within, Bool.and_eq_true] at h ⊢; exact ⟨h3 _ _ h.1, h3' _ _ h.2⟩
  · simp only [legal, Bool.and_eq_true] at h ⊢; exact ⟨h4 _ _ h.1, h4' _ _ h.2⟩

theorem Sim.left {a a' b' : Cmd P} (h : Sim a a') : Sim a (.seq a' b') := by
  obtain ⟨h1, h2, h3, h4⟩ := h
  refine ⟨fun ks h => ?_, fun ks h => ?_, fun p ks h => ?_, fun t r h => ?_⟩
  · simp only [free, Bool.and_eq_true] at h; exact h1 _ h.1
  · simp only [apart, Bool.and_eq_true] at h; exact h2 _ h.1
  · simp only [within, Bool.and_eq_true] at h; exact h3 _ _ h.1
  · simp only [legal, Bool.and_eq_true] at h; exact h4 _ _ h.1

theorem Sim.right {b a' b' : Cmd P} (h : Sim b b') : Sim b (.seq a' b') := by
  obtain ⟨h1, h2, h3, h4⟩ := h
  refine ⟨fun ks h => ?_, fun ks h => ?_, fun p ks h => ?_, fun t r h => ?_⟩
  · simp only [free, Bool.and_eq_true] at h; exact h1 _ h.2
  · simp only [apart, Bool.and_eq_true] at h; exact h2 _ h.2
  · simp only [within, Bool.and_eq_true] at h; exact h3 _ _ h.2
  · simp only [legal, Bool.and_eq_true] at h; exact h4 _ _ h.2

theorem Sim.timed {a a' : Cmd P} (q : P) (h : Sim a a') : Sim (.timed q a) (.timed q a') := by
  obtain ⟨h1, h2, h3, h4⟩ := h
  refine ⟨fun ks h => ?_, fun ks h => ?_, fun p ks h => ?_, fun t r h => ?_⟩
  · simp only [free, Bool.and_eq_true] at h ⊢; exact ⟨h.1, h1 _ h.2⟩
  · rw [apart] at h ⊢; split at h
    · rename_i hq; rw [if_pos hq]; exact h1 _ h
    · rename_i hq; rw [if_neg hq]; exact h2 _ h
  · rw [within] at h ⊢; split at h
    · rename_i hq; rw [if_pos hq]; exact h2 _ h
    · rename_i hq; rw [if_neg hq]; simp only [Bool.and_eq_true] at h ⊢; exact ⟨h.1, h3 _ _ h.2⟩
  · simp only [legal, Bool.and_eq_true] at h ⊢; exact ⟨h.1, h4 _ _ h.2⟩

theorem Sim.guarded {a a' : Cmd P} (q : P) (h : Sim a a') : Sim (.guarded q a) (.guarded q a') := Sim.timed q h

theorem Sim.rep {a a' : Cmd P} (h : Sim a a') (n : ℕ) : Sim (a.rep n) a' :=
  ⟨fun _ e => free_rep (h.1 _ e) n, fun _ e => apart_rep (h.2.1 _ e) n, fun _ _ e => within_rep (h.2.2.1 _ _ e) n, fun _ _ e => legal_rep (h.2.2.2 _ _ e) n⟩

theorem Sim.all {l : List (Cmd P)} {b : Cmd P} (h : ∀ a ∈ l, Sim a b) : Sim (Cmd.block l) b :=
  ⟨fun _ e => free_block fun a ha => (h a ha).1 _ e, fun _ e => apart_block fun a ha => (h a ha).2.1 _ e, fun _ _ e => within_block fun a ha => (h a ha).2.2.1 _ _ e, fun _ _ e => legal_block fun a ha => (h a ha).2.2.2 _ _ e⟩

theorem Sim.nil : Sim (Cmd.block ([] : List (Cmd P))) (Cmd.block []) := Sim.refl _
theorem Sim.cons {a a' : Cmd P} {l l' : List (Cmd P)} (h : Sim a a') (h' : Sim (Cmd.block l) (Cmd.block l')) : Sim (Cmd.block (a :: l)) (Cmd.block (a' :: l')) := Sim.seq h h'
end

/-! Sizes and numbers of iterations don't matter. -/

def z0 : Sizes := ⟨0, 0, 0, 0, 0, 0, 0⟩

theorem sim_kernel (k : ℕ) (p : Path) : Sim (kernel k p) (kernel 0 p) := Sim.seq (Sim.units _ _ _) (Sim.refl _)
theorem sim_kernel2 (k : ℕ) (p : Path) (n : Name) : Sim (kernel2 k p n) (kernel2 0 p n) := Sim.seq (Sim.units _ _ _) (Sim.refl _)
theorem sim_maxDt (z : Sizes) (p : Path) : Sim (maxDt z p) (maxDt z0 p) := Sim.seq (sim_kernel2 _ _ _) (sim_kernel2 _ _ _)
theorem sim_convection (z : Sizes) (p : Path) : Sim (convection z p) (convection z0 p) := by
  unfold convection
  repeat first | exact Sim.nil | refine Sim.cons ?_ ?_ | exact sim_kernel2 _ _ _ | exact sim_kernel _ _ | exact Sim.refl _
theorem sim_diffusive (z : Sizes) (p : Path) : Sim (diffusive z p) (diffusive z0 p) := by
  unfold diffusive
  repeat first | exact Sim.nil | refine Sim.cons ?_ ?_ | exact sim_kernel2 _ _ _ | exact sim_kernel _ _ | exact Sim.refl _
theorem sim_bcs (z : Sizes) : Sim (applyStateBcs z) (applyStateBcs z0) := Sim.seq (Sim.refl _) (Sim.units _ _ _)
theorem sim_check (z : Sizes) : Sim (isAdmissible z) (isAdmissible z0) := Sim.timed _ (Sim.seq (Sim.refl _) (Sim.units _ _ _))
theorem sim_pass (z : Sizes) : Sim (pass z) (pass z0) := by
  unfold pass
  repeat first | exact Sim.nil | refine Sim.cons ?_ ?_ | exact sim_check _ | exact sim_maxDt _ _ | exact sim_diffusive _ _ | exact Sim.refl _

def fix0 : Cmd Path := timed [fix] (block [work, pass z0, work, units [fix] 0])
def stage0 : Cmd Path := block [applyStateBcs z0, seq (diffusive z0 []) (convection z0 []), fix0]

theorem sim_fix (z : Sizes) {f : Fix} (hf : f.ok) : Sim (fixAdmissibility z f) fix0 := by
  cases f with
  | off => exact Sim.skip _
  | fine => exact Sim.timed _ (Sim.cons (Sim.refl _) (Sim.cons (Sim.left (sim_check z)) (Sim.refl _)))
  | repaired k => exact Sim.timed _ (Sim.cons (Sim.refl _) (Sim.cons (Sim.rep (sim_pass z) k) (Sim.cons (Sim.refl _) (Sim.cons (Sim.units _ _ _) Sim.nil))))
  | failed k => exact hf.elim

theorem sim_flow (z : Sizes) (v : Bool) : Sim (if v then diffusive z [] else convection z []) (seq (diffusive z0 []) (convection z0 [])) := by
  cases v
  · exact Sim.right (sim_convection z _)
  · exact Sim.left (sim_diffusive z _)

theorem sim_stage (z : Sizes) (s : Bool × Fix) (hs : s.2.ok) : Sim (stage z s) stage0 := Sim.cons (sim_bcs z) (Sim.cons (sim_flow z s.1) (Sim.cons (sim_fix z hs) Sim.nil))

/-- One program for all calls. -/
def canon : Call → Cmd Path
  | .update _ => timed [] (block [block [work, maxDt z0 [], stage0, stage0, work], work, units [] 0, units [cartesian] 0, units [deformed] 0])
  | .smoothness _ _ => smoothness z0 1 1
  | .artViscAdmis => artViscAdmis z0
  | .isAdmissible => isAdmissible z0
  | .computeResidual _ => seq (applyStateBcs z0) (seq (diffusive z0 []) (convection z0 []))
  | .updateImplicit _ _ _ => block [seq work (seq (applyStateBcs z0) (seq (diffusive z0 []) (convection z0 []))), work, fix0]
  | .ltsConstraints => seq (maxDt z0 []) work

theorem rep_one (a : Cmd Path) : Sim a (a.rep 1) := Sim.left (Sim.refl a)
theorem Sim.trans {P : Type} [DecidableEq P] {a b c : Cmd P} (h : Sim a b) (h' : Sim b c) : Sim a c :=
  ⟨fun _ e => h.1 _ (h'.1 _ e), fun _ e => h.2.1 _ (h'.2.1 _ e), fun _ _ e => h.2.2.1 _ _ (h'.2.2.1 _ _ e), fun _ _ e => h.2.2.2 _ _ (h'.2.2.2 _ _ e)⟩

theorem sim_call (z : Sizes) (c : Call) (hc : c.ok) : Sim (c.prog z) (canon c) := by
  cases c with
  | update steps =>
    refine Sim.timed _ (Sim.cons (Sim.all fun a ha => ?_) (Sim.cons (Sim.refl _) (Sim.cons (Sim.units _ _ _) (Sim.cons (Sim.units _ _ _) (Sim.cons (Sim.units _ _ _) Sim.nil)))))
    obtain ⟨s, hs, rfl⟩ := List.mem_map.1 ha
    exact Sim.cons (Sim.refl _) (Sim.cons (sim_maxDt z _) (Sim.cons (sim_stage z _ (hc s hs).1) (Sim.cons (sim_stage z _ (hc s hs).2) (Sim.refl _))))
  | smoothness a d =>
    refine Sim.timed _ (Sim.seq (Sim.timed _ ?_) (Sim.units _ _ _))
    refine Sim.cons (Sim.refl _) (Sim.cons (Sim.refl _) (Sim.cons (Sim.units _ _ _) (Sim.cons (Sim.timed _ ?_) (Sim.cons (Sim.units _ _ _) (Sim.cons (Sim.refl _) (Sim.cons (Sim.timed _ ?_) (Sim.cons (Sim.units _ _ _) (Sim.refl _))))))))
    · refine Sim.cons (Sim.refl _) (Sim.cons (sim_maxDt z _) (Sim.cons (Sim.rep (Sim.trans ?_ (rep_one _)) a) (Sim.cons (Sim.units _ _ _) (Sim.cons (Sim.units _ _ _) Sim.nil))))
      refine Sim.cons (Sim.refl _) (Sim.cons (Sim.rep (Sim.trans ?_ (Sim.left (Sim.refl _))) 2) (Sim.cons (Sim.units _ _ _) (Sim.cons (Sim.units _ _ _) Sim.nil)))
      exact Sim.cons (Sim.refl _) (Sim.cons (Sim.units _ _ _) (Sim.cons (sim_convection z _) Sim.nil))
    · exact Sim.cons (Sim.refl _) (Sim.cons (sim_maxDt z _) (Sim.cons (Sim.refl _) (Sim.cons (Sim.rep (Sim.trans (Sim.seq (Sim.refl _) (sim_diffusive z _)) (rep_one _)) d) Sim.nil)))
  | artViscAdmis => exact Sim.seq (Sim.refl _) (Sim.units _ _ _)
  | isAdmissible => exact sim_check z
  | computeResidual v => exact Sim.seq (sim_bcs z) (sim_flow z v)
  | updateImplicit v k f => exact Sim.cons (Sim.rep (Sim.seq (Sim.refl _) (Sim.seq (sim_bcs z) (sim_flow z v))) k) (Sim.cons (Sim.refl _) (Sim.cons (sim_fix z hc) Sim.nil))
  | ltsConstraints => exact Sim.rep (Sim.seq (sim_maxDt z _) (Sim.refl _)) 2

theorem canon_legal (c : Call) : legal tree [] (canon c) = true := by
  cases c <;> dsimp only [canon] <;> decide +kernel

theorem canon_within (c : Call) : ∀ p ∈ tasks, p ≠ [] → within p (kids p) (canon c) = true := by
  cases c <;> dsimp only [canon] <;> decide +kernel

theorem kids_fine : ∀ p ∈ tasks, (kids p).Nodup ∧ p ∉ kids p := by decide +kernel

theorem call_legal (z : Sizes) (c : Call) (hc : c.ok) : legal tree [] (c.prog z) = true := (sim_call z c hc).2.2.2 _ _ (canon_legal c)

/-- Between calls no stopwatch runs. A call of which no repair fails doesn't throw because of measuring, its time is counted once for each task it does, and the counts of calls and work units are right. -/
theorem call_times (z : Sizes) (c : Call) (hc : c.ok) (lag : ℕ → ℕ) {s : State Path} (hs : Idle s) :
    let r := exec tree lag (c.prog z) s
    r.2 = true ∧ Idle r.1 ∧ r.1.clock = s.clock + (c.prog z).dur lag s.step ∧
      ∀ p, (r.1.watch p).t = (s.watch p).t + (c.prog z).spent lag p s.step ∧ (r.1.watch p).n = (s.watch p).n + (c.prog z).calls p ∧ r.1.units p = s.units p + (c.prog z).count p := by
  obtain ⟨h1, h2, h3, h4⟩ := exec_legal (lag := lag) (s := s) (call_legal z c hc) fun p hp => by rw [hs p] at hp; cases hp
  exact ⟨h1, fun p => by rw [(h4 p).1]; exact hs p, h2, fun p => (h4 p).2⟩

/-- The same for histories. -/
theorem history_idle (lag : ℕ → ℕ) (l : List (Sizes × Call)) (hl : ∀ c ∈ l, c.2.ok) : Idle (history lag l fresh) := by
  have : ∀ (l : List (Sizes × Call)) (s : State Path), (∀ c ∈ l, c.2.ok) → Idle s → Idle (history lag l s) := by
    intro l
    induction l with
    | nil => intro s _ hs; exact hs
    | cons c l ih => intro s h hs; exact ih _ (fun c hc => h c (List.mem_cons_of_mem _ hc)) (call_times c.1 c.2 (h c List.mem_cons_self) lag hs).2.1
  exact this l _ hl fun p => rfl

/-- After any history the times of the parts of a task are not more than that of the task, except for the whole. -/
theorem parts_le (lag : ℕ → ℕ) (l : List (Sizes × Call)) (hl : ∀ c ∈ l, c.2.ok) {p : Path} (hp : p ∈ tasks) (h0 : p ≠ []) :
    ((kids p).map fun q => ((history lag l fresh).watch q).t).sum ≤ ((history lag l fresh).watch p).t := by
  have : ∀ (l : List (Sizes × Call)) (s : State Path), (∀ c ∈ l, c.2.ok) → Idle s → ((kids p).map fun q => (s.watch q).t).sum ≤ (s.watch p).t →
      ((kids p).map fun q => ((history lag l s).watch q).t).sum ≤ ((history lag l s).watch p).t := by
    intro l
    induction l with
    | nil => intro s _ hs h; exact h
    | cons c l ih =>
      intro s h hs hle
      obtain ⟨-, h2, -, h4⟩ := call_times c.1 c.2 (h c List.mem_cons_self) lag hs
      refine ih _ (fun c hc => h c (List.mem_cons_of_mem _ hc)) h2 ?_
      rw [(h4 p).1, List.map_congr_left (g := fun q => (s.watch q).t + (c.2.prog c.1).spent lag q s.step) fun q _ => (h4 q).1, List.sum_map_add]
      exact Nat.add_le_add hle (spent_within (kids_fine p hp).1 (kids_fine p hp).2 ((sim_call c.1 c.2 (h c List.mem_cons_self)).2.2.1 _ _ (canon_within c.2 p hp h0)))
  refine this l _ hl (fun p => rfl) ?_
  exact le_of_eq (sum_zero fun p _ => rfl)

/-- The calls that are counted in the total. -/
def Call.counted : Call → Prop
  | .update _ => True
  | .smoothness _ _ => True
  | _ => False

theorem spent_le_dur {P : Type} [DecidableEq P] {tree : P → Bool} (lag : ℕ → ℕ) (p : P) {c : Cmd P} : ∀ {run : List P} {k : ℕ}, legal tree run c = true → c.spent lag p k ≤ c.dur lag k ∧ (p ∈ run → c.spent lag p k = 0) := by
  induction c with
  | seq a b iha ihb =>
    intro run k h
    simp only [legal, Bool.and_eq_true] at h
    rw [Cmd.spent, dur_seq]
    refine ⟨Nat.add_le_add (iha h.1).1 (ihb h.2).1, fun hp => ?_⟩
    rw [(iha h.1).2 hp, (ihb h.2).2 hp]
  | timed q a ih =>
    intro run k h
    simp only [legal, Bool.and_eq_true, Bool.not_eq_true', decide_eq_false_iff_not] at h
    rw [Cmd.spent, dur_timed]
    obtain ⟨h1, h2⟩ := ih (k := k) h.2
    by_cases e : q = p
    · subst e
      rw [if_pos rfl, h2 List.mem_cons_self]
      exact ⟨le_refl _, fun hp => absurd hp h.1.2⟩
    · rw [if_neg e, Nat.zero_add]
      exact ⟨h1, fun hp => h2 (List.mem_cons_of_mem _ hp)⟩
  | guarded q a ih =>
    intro run k h
    simp only [legal, Bool.and_eq_true, Bool.not_eq_true', decide_eq_false_iff_not] at h
    rw [Cmd.spent, dur_guarded]
    obtain ⟨h1, h2⟩ := ih (k := k) h.2
    by_cases e : q = p
    · subst e
      rw [if_pos rfl, h2 List.mem_cons_self]
      exact ⟨le_refl _, fun hp => absurd hp h.1.2⟩
    · rw [if_neg e, Nat.zero_add]
      exact ⟨h1, fun hp => h2 (List.mem_cons_of_mem _ hp)⟩
  | _ => intro run k h; exact ⟨Nat.zero_le _, fun _ => rfl⟩

/-- In histories of updates of the flow and of the smoothness based artificial viscosity the total is the time of all calls, and no task takes longer. -/
theorem total_partial (lag : ℕ → ℕ) (l : List (Sizes × Call)) (hl : ∀ c ∈ l, c.2.ok ∧ c.2.counted) (p : Path) :
    ((history lag l fresh).watch []).t = (history lag l fresh).clock ∧ ((history lag l fresh).watch p).t ≤ (history lag l fresh).clock := by
  have : ∀ (l : List (Sizes × Call)) (s : State Path), (∀ c ∈ l, c.2.ok ∧ c.2.counted) → Idle s → (s.watch []).t = s.clock ∧ (s.watch p).t ≤ s.clock →
      ((history lag l s).watch []).t = (history lag l s).clock ∧ ((history lag l s).watch p).t ≤ (history lag l s).clock := by
    intro l
    induction l with
    | nil => intro s _ hs h; exact h
    | cons c l ih =>
      intro s h hs hle
      obtain ⟨hc, hc'⟩ := h c List.mem_cons_self
      obtain ⟨-, h2, h3, h4⟩ := call_times c.1 c.2 hc lag hs
      refine ih _ (fun c hc => h c (List.mem_cons_of_mem _ hc)) h2 ?_
      rw [(h4 p).1, (h4 []).1, h3, hle.1]
      refine ⟨?_, Nat.add_le_add hle.2 (spent_le_dur lag p (call_legal c.1 c.2 hc)).1⟩
      congr 1
      have hL := call_legal c.1 c.2 hc
      have key : ∀ a : Cmd Path, legal tree [] (timed [] a) = true → (timed [] a).spent lag [] s.step = (timed [] a).dur lag s.step := by
        intro a ha
        rw [Cmd.spent, if_pos rfl, dur_timed]
        simp only [legal, Bool.and_eq_true] at ha
        rw [(spent_le_dur lag [] ha.2).2 List.mem_cons_self, Nat.add_zero]
      rcases c with ⟨z, c⟩
      cases c with
      | update st => exact key _ hL
      | smoothness a d => exact key _ hL
      | _ => exact hc'.elim
  exact this l _ hl (fun p => rfl) ⟨rfl, le_refl _⟩

/-- The stopwatch of a program: every history of starts, pauses and resets while it does not run gives the time it ran since the last reset and the number of pauses. -/
theorem watch_time {l : List (ℕ × Event)} (hl : Proper l false 0) {w : Watch} (h : watchRun l {} = some w) : w.r = false ∧ w.t = measured l false 0 0 ∧ w.n = pauses l 0 := by
  have : ∀ (l : List (ℕ × Event)) (v : Watch) (last sum : ℕ), Proper l v.r last → (v.r = true → v.started ≤ last ∧ sum = v.t + (last - v.started)) → (v.r = false → sum = v.t) → watchRun l v = some w → w.r = false ∧ w.t = measured l v.r last sum ∧ w.n = pauses l v.n := by
    intro l
    induction l with
    | nil =>
      intro v last sum hp _ hs hw
      rw [watchRun, Option.some.injEq] at hw
      subst hw
      exact ⟨hp, (hs hp).symm, rfl⟩
    | cons e l ih =>
      intro v last sum hp hr hs hw
      obtain ⟨τ, e⟩ := e
      cases e with
      | start =>
        rcases hv : v.r with _ | _
        · rw [watchRun, start_idle hv, Option.bind_some] at hw
          rw [Proper] at hp
          have := ih _ τ sum hp.2 (fun _ => ⟨le_refl _, by simp [hs hv]⟩) (by simp) hw
          simpa [measured, pauses] using this
        · rw [watchRun, start_run hv] at hw
          cases hw
      | pause =>
        rcases hv : v.r with _ | _
        · rw [watchRun, Watch.pause, hv] at hw
          cases hw
        · rw [watchRun, pause_run hv, Option.bind_some] at hw
          rw [Proper] at hp
          obtain ⟨h1, h2⟩ := hr hv
          have := ih _ τ (sum + (τ - last)) hp.2 (by simp) (fun _ => by dsimp only; have := hp.1; omega) hw
          simpa [measured, pauses] using this
      | reset =>
        rw [Proper] at hp
        obtain ⟨hp1, hp2, hp3⟩ := hp
        rw [watchRun] at hw
        have := ih v.reset τ 0 hp3 (by intro e; rw [Watch.reset] at e; dsimp only at e; rw [hp2] at e; cases e) (fun _ => rfl) hw
        rw [show v.reset.r = v.r from rfl, show v.reset.n = 0 from rfl] at this
        simpa [measured, pauses] using this
  exact this l {} 0 0 hl (by simp) (by simp) h

/-- Resetting a stopwatch that runs does not forget the time before. -/
theorem reset_refuted : ∃ w, watchRun [(0, .start), (5, .reset), (10, .pause)] {} = some w ∧ w.t ≠ measured [(0, .start), (5, .reset), (10, .pause)] false 0 0 := ⟨_, rfl, by decide⟩

/-- Threads that add their stopwatches to a shared one, in any order of their updates, give the sums. -/
theorem adds_any_order (w : Watch) (vs : List Watch) {l : List Atomic} (hl : l.Perm (vs.flatMap addActs)) :
    (l.foldl (fun w a => a.apply w) w).t = w.t + (vs.map Watch.t).sum ∧ (l.foldl (fun w a => a.apply w) w).n = w.n + (vs.map Watch.n).sum := by
  have comm : ∀ (w : Watch) (a b : Atomic), b.apply (a.apply w) = a.apply (b.apply w) := by
    intro w a b
    cases a <;> cases b <;> simp [Atomic.apply] <;> omega
  rw [hl.foldl_eq' fun a _ b _ w => comm w a b]
  clear hl
  induction vs generalizing w with
  | nil => exact ⟨rfl, rfl⟩
  | cons v vs ih =>
    rw [List.flatMap_cons, List.foldl_append]
    obtain ⟨h1, h2⟩ := ih ((addActs v).foldl (fun w a => a.apply w) w)
    rw [h1, h2]
    simp [addActs, Atomic.apply]
    omega

/-- Adding stopwatches adds times and calls; it throws if one of them runs. -/
theorem plus_iff (w v : Watch) : (∀ u, w.plus v = some u → u.t = w.t + v.t ∧ u.n = w.n + v.n ∧ u.r = false) ∧ (∀ u, w.addTo v = some u → u.t = w.t + v.t ∧ u.n = w.n + v.n ∧ u.r = false) ∧ (w.plus v = none ↔ w.r = true ∨ v.r = true) ∧ (w.addTo v = none ↔ w.r = true ∨ v.r = true) := by
  unfold Watch.plus Watch.addTo
  rcases hw : w.r with _ | _ <;> rcases hv : v.r with _ | _ <;> simp [hw]

mutual
theorem lines_eq (d : ℕ) : ∀ r : Report, Report.lines (pad d) r = (match r with | .node line _ => line) :: (match r with | .node _ children => (childEntries (d + 1) children).map entryLine)
  | .node line children => by
    rw [Report.lines]
    exact congrArg _ (childLines_eq (d + 1) children)
theorem childLines_eq (d : ℕ) : ∀ l : List (String × Report), childLines (pad d) l = (childEntries d l).map entryLine
  | [] => by rw [childLines, childEntries]; rfl
  | (name, .node line children) :: l => by
    rw [childLines, childEntries, List.map_append, lines_eq d (.node line children), childLines_eq d l, Report.entries]
    rfl
end

/-- The report has the text of the whole and one line for each task below it, indented by its depth, in the order of the tree. -/
theorem report_lines (line : String) (children : List (String × Report)) : Report.lines "" (.node line children) = line :: (childEntries 1 children).map entryLine := lines_eq 0 (.node line children)

/-! ## Where the report is wrong -/

theorem exec_update_stuck (lag : ℕ → ℕ) {s : State Path} (h : (s.watch []).r = true) (a : Cmd Path) : exec tree lag (timed [] a) s = (s, false) := by
  unfold exec
  rw [if_pos (by decide +kernel), start_run h]

/-- If a repair fails in an update, the stopwatch of the solver is left running, and whatever is called afterwards, every later update throws and does nothing. -/
theorem failure_refuted (lag : ℕ → ℕ) (z : Sizes) (v : Bool) (k : ℕ) (rest : List ((Bool × Fix) × (Bool × Fix))) (s2 : Bool × Fix) {s : State Path} (hs : Idle s) (calls : List (Sizes × Call)) :
    let s1 := exec tree lag ((Call.update (((v, .failed k), s2) :: rest)).prog z) s
    s1.2 = false ∧ ∀ z' steps, exec tree lag ((Call.update steps).prog z') (history lag calls s1.1) = (history lag calls s1.1, false) := by
  have hrun : ∀ (a : Cmd Path) (s : State Path), (s.watch []).r = false → (exec tree lag a { s with watch := Function.update s.watch [] { s.watch [] with r := true, started := s.clock } }).2 = false →
      (exec tree lag (timed [] a) s).2 = false ∧ ((exec tree lag (timed [] a) s).1.watch []).r = true := by
    intro a s h0 h1
    unfold exec
    rw [if_pos (by decide +kernel), start_idle h0]
    dsimp only
    rw [if_neg (by rw [h1]; decide)]
    refine ⟨h1, ?_⟩
    rw [exec_running _ _ _ _ _ (by simp)]
    simp
  have hseqr : ∀ (a b : Cmd Path) (s : State Path), (exec tree lag a s).2 = false → (exec tree lag (seq a b) s).2 = false := by
    intro a b s h
    unfold exec
    dsimp only
    rw [if_neg (by rw [h]; decide)]
    exact h
  have hseql : ∀ (a b : Cmd Path), (∀ s, (exec tree lag b s).2 = false) → ∀ s, (exec tree lag (seq a b) s).2 = false := by
    intro a b h s
    unfold exec
    dsimp only
    split
    · exact h _
    · rename_i e; simpa using e
  have hfix : ∀ s, (exec tree lag (fixAdmissibility z (.failed k)) s).2 = false := by
    intro s
    unfold fixAdmissibility
    unfold exec
    rw [if_pos (by decide +kernel)]
    have hb := hseql work _ (hseql (rep (pass z) k) _ fun s => hseqr fail skip s rfl)
    split
    · rfl
    · rw [if_neg (by intro e; rw [show block [work, rep (pass z) k, fail] = seq work (seq (rep (pass z) k) (seq fail skip)) from rfl, hb] at e; cases e)]
      exact hb _
  have hstage : ∀ s, (exec tree lag (stage z (v, .failed k)) s).2 = false := hseql _ _ (hseql _ _ fun s => hseqr _ skip s (hfix s))
  have h1 := hrun (block [block ((((v, Fix.failed k), s2) :: rest).map fun (x : (Bool × Fix) × (Bool × Fix)) => block [work, maxDt z [], stage z x.1, stage z x.2, work]), work, units [] z.elems, units [cartesian] z.carElems, units [deformed] z.defElems]) s (hs [])
    (hseqr _ _ _ (hseqr _ _ _ (hseql work _ (hseql (maxDt z []) _ fun s => hseqr _ _ s (hstage s)) _)))
  refine ⟨h1.1, fun z' steps => ?_⟩
  refine exec_update_stuck lag ?_ _
  have : ∀ (l : List (Sizes × Call)) (s : State Path), (s.watch []).r = true → ((history lag l s).watch []).r = true := by
    intro l
    induction l with
    | nil => intro s h; exact h
    | cons c l ih => intro s h; exact ih _ (by rw [exec_running _ _ _ _ _ h]; exact h)
  exact this calls _ h1.2

/-- The parts of the total can take longer than the total: checks are done within repairs. -/
theorem parts_refuted : ∃ (lag : ℕ → ℕ) (c : Sizes × Call), c.2.ok ∧ c.2.counted ∧ ((history lag [c] fresh).watch []).t < ((kids []).map fun q => ((history lag [c] fresh).watch q).t).sum :=
  ⟨fun _ => 1, (z0, .update [((false, .repaired 2), (false, .off))]), by intro s hs; rw [List.mem_singleton] at hs; subst hs; exact ⟨trivial, trivial⟩, trivial, by decide +kernel⟩

/-- Tasks that are done outside of updates are not in the total: residuals, the other artificial viscosity and checks. -/
theorem total_refuted : (∃ (lag : ℕ → ℕ), ((history lag [(z0, .computeResidual false)] fresh).watch []).t < ((history lag [(z0, .computeResidual false)] fresh).watch [cartesian]).t) ∧
    (∃ (lag : ℕ → ℕ), ((history lag [(z0, .artViscAdmis)] fresh).watch []).t < ((history lag [(z0, .artViscAdmis)] fresh).watch [av]).t) ∧
    ∃ (lag : ℕ → ℕ), ((history lag [(z0, .isAdmissible)] fresh).watch []).t < ((history lag [(z0, .isAdmissible)] fresh).watch [check]).t :=
  ⟨⟨fun _ => 1, by decide +kernel⟩, ⟨fun _ => 1, by decide +kernel⟩, ⟨fun _ => 1, by decide +kernel⟩⟩

theorem canon_free (c : Call) : free [[av, advection, update]] (canon c) = true := by
  cases c <;> dsimp only [canon] <;> decide +kernel

/-- There is a task whose work units are counted but never its time. -/
theorem untimed_refuted : (∀ (lag : ℕ → ℕ) (l : List (Sizes × Call)), (∀ c ∈ l, c.2.ok) → ((history lag l fresh).watch [av, advection, update]).t = 0) ∧
    ∃ (lag : ℕ → ℕ) (c : Sizes × Call), c.2.ok ∧ 0 < (history lag [c] fresh).units [av, advection, update] := by
  refine ⟨fun lag l hl => ?_, fun _ => 1, (⟨1, 1, 0, 0, 0, 0, 0⟩, .smoothness 1 1), trivial, by decide +kernel⟩
  have : ∀ (l : List (Sizes × Call)) (s : State Path), (∀ c ∈ l, c.2.ok) → Idle s → (s.watch [av, advection, update]).t = 0 → ((history lag l s).watch [av, advection, update]).t = 0 := by
    intro l
    induction l with
    | nil => intro s _ hs h; exact h
    | cons c l ih =>
      intro s h hs h0
      obtain ⟨-, h2, -, h4⟩ := call_times c.1 c.2 (h c List.mem_cons_self) lag hs
      refine ih _ (fun c hc => h c (List.mem_cons_of_mem _ hc)) h2 ?_
      rw [(h4 _).1, h0, spent_free ((sim_call c.1 c.2 (h c List.mem_cons_self)).1 _ (canon_free c.2)) _ List.mem_cons_self]
  exact this l _ hl (fun p => rfl) rfl

/-- And there are tasks whose time is measured but not their work units. -/
theorem uncounted_refuted : ∃ (lag : ℕ → ℕ) (c : Sizes × Call), c.2.ok ∧ 0 < c.1.carElems ∧ 0 < ((history lag [c] fresh).watch [av, diffusion, cartesian]).t ∧ (history lag [c] fresh).units [av, diffusion, cartesian] = 0 :=
  ⟨fun _ => 1, (⟨1, 1, 0, 0, 0, 0, 0⟩, .smoothness 1 1), trivial, by decide, by decide +kernel, by decide +kernel⟩

/-- C95: the time of one part of the program is not counted for another: computing the artificial viscosity adds nothing to the tasks of
the flow solver, and all other calls add nothing to the tasks of the artificial viscosity. (Prolongation and restriction are one task for
both.) -/
theorem separate (lag : ℕ → ℕ) (z : Sizes) (c : Call) (hc : c.ok) {s : State Path} (hs : Idle s) (p : Path) (hp : p ∈ tasks) :
    ((∃ a d, c = .smoothness a d) → p ≠ [] → p ≠ [pr] → p.head? ≠ some av → ((exec tree lag (c.prog z) s).1.watch p).t = (s.watch p).t) ∧
    ((∀ a d, c ≠ .smoothness a d) → c ≠ .artViscAdmis → p.head? = some av → ((exec tree lag (c.prog z) s).1.watch p).t = (s.watch p).t) := by
  obtain ⟨-, -, -, h4⟩ := call_times z c hc lag hs
  have hsim := (sim_call z c hc).1
  refine ⟨?_, ?_⟩
  · rintro ⟨a, d, rfl⟩ h0 h1 h2
    have hf : free (tasks.filter fun p => p ≠ [] ∧ p ≠ [pr] ∧ p.head? ≠ some av) (canon (.smoothness a d)) = true := by dsimp only [canon]; decide +kernel
    rw [(h4 p).1, spent_free (hsim _ hf) _ (List.mem_filter.2 ⟨hp, by simp [h0, h1, h2]⟩)]; rfl
  · intro h0 h1 h2
    have hf : free (tasks.filter fun p => p.head? = some av) (canon c) = true := by
      cases c with
      | smoothness a d => exact absurd rfl (h0 a d)
      | artViscAdmis => exact absurd rfl h1
      | _ => dsimp only [canon]; decide +kernel
    rw [(h4 p).1, spent_free (hsim _ hf) _ (List.mem_filter.2 ⟨hp, by simp [h2]⟩)]; rfl

end Hexed.Timing
