import Verif.Timing.Spec
import Mathlib.Algebra.BigOperators.Intervals
import Mathlib.Tactic.Ring
set_option autoImplicit false
set_option linter.unusedVariables false

namespace Hexed.Timing

open Finset

variable {P : Type} [DecidableEq P]

theorem dur_seq (lag : ℕ → ℕ) (k : ℕ) (a b : Cmd P) : (Cmd.seq a b).dur lag k = a.dur lag k + b.dur lag (k + a.steps) := by
  unfold Cmd.dur
  rw [Cmd.steps, sum_range_add]
  congr 1
  exact sum_congr rfl fun i _ => by rw [Nat.add_assoc]

theorem dur_timed (lag : ℕ → ℕ) (k : ℕ) (p : P) (a : Cmd P) : (Cmd.timed p a).dur lag k = a.dur lag k := rfl
theorem dur_guarded (lag : ℕ → ℕ) (k : ℕ) (p : P) (a : Cmd P) : (Cmd.guarded p a).dur lag k = a.dur lag k := rfl

/-- All tasks exist, there is no exception and no task is done within itself or within those of `run`. -/
def legal (tree : P → Bool) : List P → Cmd P → Bool
  | _, .skip => true
  | _, .work => true
  | _, .fail => false
  | _, .units p _ => tree p
  | run, .seq a b => legal tree run a && legal tree run b
  | run, .timed p a => tree p && !decide (p ∈ run) && legal tree (p :: run) a
  | run, .guarded p a => tree p && !decide (p ∈ run) && legal tree (p :: run) a

theorem start_run {w : Watch} {now : ℕ} (h : w.r = true) : w.start now = none := by simp [Watch.start, h]
theorem start_idle {w : Watch} {now : ℕ} (h : w.r = false) : w.start now = some { w with r := true, started := now } := by simp [Watch.start, h]
theorem pause_run {w : Watch} {now : ℕ} (h : w.r = true) : w.pause now = some { w with r := false, n := w.n + 1, t := w.t + (now - w.started) } := by simp [Watch.pause, h]

/-- Nothing stops a stopwatch that is running before. -/
theorem exec_running (tree : P → Bool) (lag : ℕ → ℕ) (c : Cmd P) : ∀ (s : State P) (p : P), (s.watch p).r = true → (exec tree lag c s).1.watch p = s.watch p := by
  induction c with
  | skip => intro s p h; rfl
  | work => intro s p h; rfl
  | fail => intro s p h; rfl
  | units q k => intro s p h; unfold exec; split <;> rfl
  | seq a b iha ihb =>
    intro s p h
    unfold exec
    dsimp only
    split
    · rw [ihb _ _ (by rw [iha _ _ h]; exact h), iha _ _ h]
    · exact iha _ _ h
  | timed q a ih =>
    intro s p h
    unfold exec
    split
    · rcases hq : (s.watch q).r with _ | _
      · have hne : p ≠ q := by rintro rfl; rw [h] at hq; cases hq
        rw [start_idle hq]
        dsimp only
        have h1 := ih { s with watch := Function.update s.watch q { s.watch q with r := true, started := s.clock } } p (by dsimp only; rw [Function.update_of_ne hne]; exact h)
        dsimp only at h1
        rw [Function.update_of_ne hne] at h1
        split
        · split
          · exact h1
          · dsimp only; rw [Function.update_of_ne hne]; exact h1
        · exact h1
      · rw [start_run hq]
    · rfl
  | guarded q a ih =>
    intro s p h
    unfold exec
    split
    · rcases hq : (s.watch q).r with _ | _
      · have hne : p ≠ q := by rintro rfl; rw [h] at hq; cases hq
        rw [start_idle hq]
        dsimp only
        have h1 := ih { s with watch := Function.update s.watch q { s.watch q with r := true, started := s.clock } } p (by dsimp only; rw [Function.update_of_ne hne]; exact h)
        dsimp only at h1
        rw [Function.update_of_ne hne] at h1
        split
        · exact h1
        · dsimp only; rw [Function.update_of_ne hne]; exact h1
      · rw [start_run hq]
    · rfl

/-- The outcome of a program. -/
def Outcome (lag : ℕ → ℕ) (c : Cmd P) (s : State P) (r : State P × Bool) : Prop :=
  r.2 = true ∧ r.1.clock = s.clock + c.dur lag s.step ∧ r.1.step = s.step + c.steps ∧
    ∀ p, (r.1.watch p).r = (s.watch p).r ∧ (r.1.watch p).t = (s.watch p).t + c.spent lag p s.step ∧ (r.1.watch p).n = (s.watch p).n + c.calls p ∧ r.1.units p = s.units p + c.count p

theorem exec_timed {tree : P → Bool} {lag : ℕ → ℕ} {q : P} {a : Cmd P} {s : State P} {r : State P × Bool} (hq : (s.watch q).r = false)
    (h : Outcome lag a { s with watch := Function.update s.watch q { s.watch q with r := true, started := s.clock } } r)
    (hr : r.1.watch q = { s.watch q with r := true, started := s.clock }) :
    ∃ v, (r.1.watch q).pause r.1.clock = some v ∧ Outcome lag (.timed q a) s ({ r.1 with watch := Function.update r.1.watch q v }, true) := by
  obtain ⟨h1, h2, h3, h4⟩ := h
  refine ⟨_, pause_run (by rw [hr]), rfl, ?_, ?_, fun p => ?_⟩
  · rw [dur_timed]; exact h2
  · exact h3
  · obtain ⟨e1, e2, e3, e4⟩ := h4 p
    dsimp only at e1 e2 e3 e4 h2 ⊢
    by_cases hp : p = q
    · subst hp
      rw [Function.update_self] at e1 e2 e3 ⊢
      rw [hr] at e2 e3 ⊢
      dsimp only at e2 e3 ⊢
      refine ⟨hq.symm, ?_, ?_, e4⟩
      · rw [Cmd.spent, if_pos rfl, h2]
        omega
      · rw [Cmd.calls, if_pos rfl]
        omega
    · rw [Function.update_of_ne hp] at e1 e2 e3 ⊢
      refine ⟨e1, ?_, ?_, e4⟩
      · rw [Cmd.spent, if_neg (Ne.symm hp), e2]; omega
      · rw [Cmd.calls, if_neg (Ne.symm hp), e3]; omega

theorem exec_legal {tree : P → Bool} {lag : ℕ → ℕ} {c : Cmd P} : ∀ {run : List P} {s : State P}, legal tree run c = true → (∀ p, (s.watch p).r = true → p ∈ run) → Outcome lag c s (exec tree lag c s) := by
  induction c with
  | skip => intro run s h hs; exact ⟨rfl, rfl, rfl, fun p => ⟨rfl, rfl, rfl, rfl⟩⟩
  | work =>
    intro run s h hs
    refine ⟨rfl, ?_, rfl, fun p => ⟨rfl, rfl, rfl, rfl⟩⟩
    simp [exec, Cmd.dur, Cmd.steps]
  | fail => intro run s h hs; cases h
  | units q k =>
    intro run s h hs
    rw [legal] at h
    unfold exec
    rw [if_pos h]
    refine ⟨rfl, rfl, rfl, fun p => ⟨rfl, rfl, rfl, ?_⟩⟩
    rw [Cmd.count]
    by_cases hp : q = p
    · subst hp; simp
    · simp [hp, Function.update_of_ne (Ne.symm hp)]
  | seq a b iha ihb =>
    intro run s h hs
    simp only [legal, Bool.and_eq_true] at h
    obtain ⟨a1, a2, a3, a4⟩ := iha h.1 hs
    obtain ⟨b1, b2, b3, b4⟩ := ihb (s := (exec tree lag a s).1) h.2 fun p hp => hs p (by rw [← (a4 p).1]; exact hp)
    unfold exec
    rw [if_pos a1]
    refine ⟨b1, ?_, ?_, fun p => ⟨?_, ?_, ?_, ?_⟩⟩
    · rw [b2, a2, a3, dur_seq]; omega
    · rw [b3, a3, Cmd.steps]; omega
    · rw [(b4 p).1, (a4 p).1]
    · rw [(b4 p).2.1, (a4 p).2.1, a3, Cmd.spent]; omega
    · rw [(b4 p).2.2.1, (a4 p).2.2.1, Cmd.calls]; omega
    · rw [(b4 p).2.2.2, (a4 p).2.2.2, Cmd.count]; omega
  | timed q a ih =>
    intro run s h hs
    simp only [legal, Bool.and_eq_true, Bool.not_eq_true', decide_eq_false_iff_not] at h
    have hq : (s.watch q).r = false := by
      rcases e : (s.watch q).r with _ | _
      · rfl
      · exact absurd (hs q e) h.1.2
    have h1 := ih (s := { s with watch := Function.update s.watch q { s.watch q with r := true, started := s.clock } }) h.2 (by
      intro p hp
      by_cases e : p = q
      · subst e; exact List.mem_cons_self
      · dsimp only at hp; rw [Function.update_of_ne e] at hp; exact List.mem_cons_of_mem _ (hs p hp))
    obtain ⟨v, hv, ho⟩ := exec_timed (tree := tree) hq h1 (by rw [exec_running _ _ _ _ _ (by simp)]; simp)
    unfold exec
    rw [if_pos h.1.1, start_idle hq]
    dsimp only
    rw [if_pos h1.1, hv]
    exact ho
  | guarded q a ih =>
    intro run s h hs
    simp only [legal, Bool.and_eq_true, Bool.not_eq_true', decide_eq_false_iff_not] at h
    have hq : (s.watch q).r = false := by
      rcases e : (s.watch q).r with _ | _
      · rfl
      · exact absurd (hs q e) h.1.2
    have h1 := ih (s := { s with watch := Function.update s.watch q { s.watch q with r := true, started := s.clock } }) h.2 (by
      intro p hp
      by_cases e : p = q
      · subst e; exact List.mem_cons_self
      · dsimp only at hp; rw [Function.update_of_ne e] at hp; exact List.mem_cons_of_mem _ (hs p hp))
    obtain ⟨v, hv, ho⟩ := exec_timed (tree := tree) hq h1 (by rw [exec_running _ _ _ _ _ (by simp)]; simp)
    unfold exec
    rw [if_pos h.1.1, start_idle hq]
    dsimp only
    rw [hv]
    dsimp only
    rw [h1.1]
    exact ho

theorem legal_rep {tree : P → Bool} {run : List P} {a : Cmd P} (h : legal tree run a = true) : ∀ n, legal tree run (a.rep n) = true
  | 0 => rfl
  | n + 1 => by rw [Cmd.rep, legal, h, legal_rep h n]; rfl

theorem legal_block {tree : P → Bool} {run : List P} {l : List (Cmd P)} (h : ∀ a ∈ l, legal tree run a = true) : legal tree run (Cmd.block l) = true := by
  induction l with
  | nil => rfl
  | cons a l ih => rw [Cmd.block, legal, h a List.mem_cons_self, ih fun b hb => h b (List.mem_cons_of_mem _ hb)]; rfl

/-! ## Parts of a task -/

/-- None of the tasks is done. -/
def free (ks : List P) : Cmd P → Bool
  | .seq a b => free ks a && free ks b
  | .timed q a => !decide (q ∈ ks) && free ks a
  | .guarded q a => !decide (q ∈ ks) && free ks a
  | _ => true

/-- The tasks are not done within each other. -/
def apart (ks : List P) : Cmd P → Bool
  | .seq a b => apart ks a && apart ks b
  | .timed q a => if q ∈ ks then free ks a else apart ks a
  | .guarded q a => if q ∈ ks then free ks a else apart ks a
  | _ => true

/-- The tasks are only done within `p` and not within each other. -/
def within (p : P) (ks : List P) : Cmd P → Bool
  | .seq a b => within p ks a && within p ks b
  | .timed q a => if q = p then apart ks a else !decide (q ∈ ks) && within p ks a
  | .guarded q a => if q = p then apart ks a else !decide (q ∈ ks) && within p ks a
  | _ => true

theorem spent_free {lag : ℕ → ℕ} {ks : List P} {c : Cmd P} : ∀ {k : ℕ}, free ks c = true → ∀ p ∈ ks, c.spent lag p k = 0 := by
  induction c with
  | seq a b iha ihb =>
    intro k h p hp
    simp only [free, Bool.and_eq_true] at h
    rw [Cmd.spent, iha h.1 p hp, ihb h.2 p hp]
  | timed q a ih =>
    intro k h p hp
    simp only [free, Bool.and_eq_true, Bool.not_eq_true', decide_eq_false_iff_not] at h
    rw [Cmd.spent, ih h.2 p hp, if_neg (by rintro rfl; exact h.1 hp)]
  | guarded q a ih =>
    intro k h p hp
    simp only [free, Bool.and_eq_true, Bool.not_eq_true', decide_eq_false_iff_not] at h
    rw [Cmd.spent, ih h.2 p hp, if_neg (by rintro rfl; exact h.1 hp)]
  | _ => intro k h p hp; rfl

theorem sum_zero {ks : List P} {f : P → ℕ} (h : ∀ p ∈ ks, f p = 0) : (ks.map f).sum = 0 := by
  induction ks with
  | nil => rfl
  | cons a l ih => rw [List.map_cons, List.sum_cons, h a List.mem_cons_self, ih fun p hp => h p (List.mem_cons_of_mem _ hp)]

theorem sum_if {ks : List P} (hn : ks.Nodup) (q : P) (x : ℕ) (f : P → ℕ) : (ks.map fun p => (if q = p then x else 0) + f p).sum = (if q ∈ ks then x else 0) + (ks.map f).sum := by
  induction ks with
  | nil => rfl
  | cons a l ih =>
    rw [List.nodup_cons] at hn
    rw [List.map_cons, List.sum_cons, ih hn.2, List.map_cons, List.sum_cons]
    by_cases e : q = a
    · subst e
      simp [hn.1]; omega
    · simp [e]; omega

theorem spent_apart {lag : ℕ → ℕ} {ks : List P} (hn : ks.Nodup) {c : Cmd P} : ∀ {k : ℕ}, apart ks c = true → (ks.map fun p => c.spent lag p k).sum ≤ c.dur lag k := by
  induction c with
  | seq a b iha ihb =>
    intro k h
    simp only [apart, Bool.and_eq_true] at h
    simp only [Cmd.spent]
    rw [List.sum_map_add, dur_seq]
    exact Nat.add_le_add (iha h.1) (ihb h.2)
  | timed q a ih =>
    intro k h
    simp only [Cmd.spent]
    rw [sum_if hn, dur_timed]
    rw [apart] at h
    split at h
    · rename_i hq
      rw [if_pos hq, sum_zero fun p hp => spent_free h p hp]; omega
    · rename_i hq
      rw [if_neg hq]; have := ih (k := k) h; omega
  | guarded q a ih =>
    intro k h
    simp only [Cmd.spent]
    rw [sum_if hn, dur_guarded]
    rw [apart] at h
    split at h
    · rename_i hq
      rw [if_pos hq, sum_zero fun p hp => spent_free h p hp]; omega
    · rename_i hq
      rw [if_neg hq]; have := ih (k := k) h; omega
  | _ => intro k h; exact le_trans (le_of_eq (sum_zero fun p hp => rfl)) (Nat.zero_le _)

theorem spent_within {lag : ℕ → ℕ} {p : P} {ks : List P} (hn : ks.Nodup) (hp : p ∉ ks) {c : Cmd P} : ∀ {k : ℕ}, within p ks c = true → (ks.map fun q => c.spent lag q k).sum ≤ c.spent lag p k := by
  induction c with
  | seq a b iha ihb =>
    intro k h
    simp only [within, Bool.and_eq_true] at h
    simp only [Cmd.spent]
    rw [List.sum_map_add]
    exact Nat.add_le_add (iha h.1) (ihb h.2)
  | timed q a ih =>
    intro k h
    simp only [Cmd.spent]
    rw [sum_if hn]
    rw [within] at h
    split at h
    · rename_i hq
      subst hq
      rw [if_neg hp, if_pos rfl]
      have := spent_apart (lag := lag) (k := k) hn h
      omega
    · rename_i hq
      simp only [Bool.and_eq_true, Bool.not_eq_true', decide_eq_false_iff_not] at h
      rw [if_neg h.1, if_neg hq]; have := ih (k := k) h.2; omega
  | guarded q a ih =>
    intro k h
    simp only [Cmd.spent]
    rw [sum_if hn]
    rw [within] at h
    split at h
    · rename_i hq
      subst hq
      rw [if_neg hp, if_pos rfl]
      have := spent_apart (lag := lag) (k := k) hn h
      omega
    · rename_i hq
      simp only [Bool.and_eq_true, Bool.not_eq_true', decide_eq_false_iff_not] at h
      rw [if_neg h.1, if_neg hq]; have := ih (k := k) h.2; omega
  | _ => intro k h; exact le_trans (le_of_eq (sum_zero fun p hp => rfl)) (Nat.zero_le _)

theorem free_rep {ks : List P} {a : Cmd P} (h : free ks a = true) : ∀ n, free ks (a.rep n) = true
  | 0 => rfl
  | n + 1 => by rw [Cmd.rep, free, h, free_rep h n]; rfl

theorem apart_rep {ks : List P} {a : Cmd P} (h : apart ks a = true) : ∀ n, apart ks (a.rep n) = true
  | 0 => rfl
  | n + 1 => by rw [Cmd.rep, apart, h, apart_rep h n]; rfl

theorem within_rep {p : P} {ks : List P} {a : Cmd P} (h : within p ks a = true) : ∀ n, within p ks (a.rep n) = true
  | 0 => rfl
  | n + 1 => by rw [Cmd.rep, within, h, within_rep h n]; rfl

theorem free_block {ks : List P} {l : List (Cmd P)} (h : ∀ a ∈ l, free ks a = true) : free ks (Cmd.block l) = true := by
  induction l with
  | nil => rfl
  | cons a l ih => rw [Cmd.block, free, h a List.mem_cons_self, ih fun b hb => h b (List.mem_cons_of_mem _ hb)]; rfl

theorem apart_block {ks : List P} {l : List (Cmd P)} (h : ∀ a ∈ l, apart ks a = true) : apart ks (Cmd.block l) = true := by
  induction l with
  | nil => rfl
  | cons a l ih => rw [Cmd.block, apart, h a List.mem_cons_self, ih fun b hb => h b (List.mem_cons_of_mem _ hb)]; rfl

theorem within_block {p : P} {ks : List P} {l : List (Cmd P)} (h : ∀ a ∈ l, within p ks a = true) : within p ks (Cmd.block l) = true := by
  induction l with
  | nil => rfl
  | cons a l ih => rw [Cmd.block, within, h a List.mem_cons_self, ih fun b hb => h b (List.mem_cons_of_mem _ hb)]; rfl

end Hexed.Timing
