import Verif.CaseRun.Model
set_option autoImplicit false
set_option linter.unusedVariables false

/-!
# The iteration schedule of a case (C38)
-/

namespace Hexed.CaseRun

theorem solverUpdates_eq (n : Nat) (it : Int) : solverUpdates n it = it + n := by
  induction n generalizing it with
  | zero => simp [solverUpdates]
  | succ n ih => rw [solverUpdates, ih]; push_cast; ring

/-- The iteration after an update. -/
def next (iter pf : Int) : Int := if iter = 0 then 1 else iter + (pf - Int.tmod iter pf)

theorem next_spec {iter pf : Int} (hp : 0 < pf) (hi : 0 < iter) : pf ∣ next iter pf ∧ iter < next iter pf ∧ ∀ k, iter < k → pf ∣ k → next iter pf ≤ k := by
  rw [next, if_neg (by omega), Int.tmod_eq_emod_of_nonneg hi.le]
  have h1 := Int.emod_lt_of_pos iter hp
  have h2 := Int.emod_nonneg iter (show pf ≠ 0 by omega)
  have h3 := Int.mul_ediv_add_emod iter pf
  have e : iter + (pf - iter % pf) = pf * (iter / pf + 1) := by rw [mul_add, mul_one]; linarith
  refine ⟨⟨_, e⟩, by omega, ?_⟩
  rintro k hk ⟨c, rfl⟩
  rw [e]
  have : iter / pf < c := by
    by_contra hcon
    rw [not_lt] at hcon
    have := mul_le_mul_of_nonneg_left hcon hp.le
    omega
  exact mul_le_mul_of_nonneg_left (by omega) hp.le

theorem update_eq (p : Params) (r : Run) (hp : 0 < p.print_freq) (hi : 0 ≤ r.iteration) :
    update p r = some { r with iteration := next r.iteration p.print_freq, samples := r.samples ++ [(r.iteration, next r.iteration p.print_freq)] } := by
  have h : ∃ n : Int, nUpdates r.iteration p.print_freq = some n ∧ 0 ≤ n ∧ r.iteration + n = next r.iteration p.print_freq := by
    by_cases h0 : r.iteration = 0
    · exact ⟨1, by rw [nUpdates, if_neg (by simpa using h0)], by norm_num, by rw [next, if_pos h0, h0]; rfl⟩
    · refine ⟨_, by rw [nUpdates, if_pos h0, if_neg (by omega)], ?_, by rw [next, if_neg h0]⟩
      rw [Int.tmod_eq_emod_of_nonneg hi]
      have := Int.emod_lt_of_pos r.iteration hp; omega
  obtain ⟨n, h1, h2, h3⟩ := h
  rw [update, h1]
  simp only [Option.bind_some, solverUpdates_eq, Int.toNat_of_nonneg h2, h3]

theorem hits_eq {it f : Int} (hf : 0 < f) : hits it f = some (decide (f ∣ it)) := by
  rw [hits, if_neg (by omega)]
  congr 1
  exact decide_eq_decide.2 (by rw [Int.dvd_iff_tmod_eq_zero])

/-- C38: `update` from a positive iteration stops at the first later multiple of `print_freq`. -/
theorem update_lands (p : Params) (r : Run) (hp : 0 < p.print_freq) (hi : 0 < r.iteration) :
    ∃ r', update p r = some r' ∧ IsLeast {k | r.iteration < k ∧ p.print_freq ∣ k} r'.iteration := by
  refine ⟨_, update_eq p r hp hi.le, ?_⟩
  obtain ⟨h1, h2, h3⟩ := next_spec hp hi
  exact ⟨⟨h2, h1⟩, fun k hk => h3 k hk.1 hk.2⟩

/-- C38: the first `update` makes one iteration. -/
theorem first_update (p : Params) (r : Run) (hp : 0 < p.print_freq) (hi : r.iteration = 0) : ∃ r', update p r = some r' ∧ r'.iteration = 1 :=
  ⟨_, update_eq p r hp hi.ge, by show next _ _ = 1; rw [next, if_pos hi]⟩

/-- All frequencies are positive. -/
structure Params.Ok (p : Params) : Prop where
  print : 0 < p.print_freq
  write : 0 < p.write_freq
  vis : 0 < p.vis_freq

theorem iterate_eq (p : Params) (hp : p.Ok) (r : Run) (hi : 0 ≤ r.iteration) : ∃ r', iterate p r = some r' ∧ r'.iteration = next r.iteration p.print_freq ∧
    r'.samples = r.samples ++ [(r.iteration, r'.iteration)] ∧
    r'.printed = r.printed ++ (if r'.iteration ≠ 1 then [r'.iteration] else []) ∧
    r'.written = r.written ++ (if p.write_freq ∣ r'.iteration then [r'.iteration] else []) ∧
    r'.visualized = r.visualized ++ (if p.vis_freq ∣ r'.iteration then [r'.iteration] else []) ∧
    (r'.ramped = true ↔ r.ramped = true ∨ r'.iteration = p.ramping_initial_iters) := by
  rw [iterate, update_eq p r hp.print hi]
  simp only [Option.bind_some, writeIter, visIter, printIter, ramp]
  by_cases c1 : next r.iteration p.print_freq = 1 <;> by_cases c2 : p.write_freq ∣ next r.iteration p.print_freq <;>
    by_cases c3 : p.vis_freq ∣ next r.iteration p.print_freq <;> by_cases c4 : next r.iteration p.print_freq = p.ramping_initial_iters <;>
    simp [c1, c2, c3, c4, hits_eq hp.write, hits_eq hp.vis] <;> simp_all

/-- What a run of positive frequencies, `print_freq` fixed, has done when it has reached an iteration. -/
structure Sched (pf wf vf R : Int) (r : Run) : Prop where
  nonneg : 0 ≤ r.iteration
  visited : r.iteration = 0 ∨ r.iteration = 1 ∨ pf ∣ r.iteration
  printed : ∀ i, i ∈ r.printed ↔ 0 < i ∧ i ≤ r.iteration ∧ i ≠ 1 ∧ pf ∣ i
  printed_sorted : r.printed.Pairwise (· < ·)
  written : ∀ i, i ∈ r.written ↔ 0 < i ∧ i ≤ r.iteration ∧ wf ∣ i ∧ (i = 1 ∨ pf ∣ i)
  written_sorted : r.written.Pairwise (· < ·)
  visualized : ∀ i, i ∈ r.visualized ↔ 0 < i ∧ i ≤ r.iteration ∧ vf ∣ i ∧ (i = 1 ∨ pf ∣ i)
  visualized_sorted : r.visualized.Pairwise (· < ·)
  ramped : r.ramped = true ↔ 0 < R ∧ R ≤ r.iteration ∧ (R = 1 ∨ pf ∣ R)
  samples : (r.samples.map Prod.fst).Pairwise (· < ·)
  label : ∀ s ∈ r.samples, 0 ≤ s.1 ∧ s.1 < s.2 ∧ s.2 = next s.1 pf ∧ s.2 ≤ r.iteration

theorem next_gap {iter pf i : Int} (hp : 0 < pf) (hi : 0 ≤ iter) (hv : i = 1 ∨ pf ∣ i) (h0 : 0 < i) : i ≤ next iter pf ↔ i ≤ iter ∨ i = next iter pf := by
  rcases hi.lt_or_eq with hi | hi
  · obtain ⟨h1, h2, h3⟩ := next_spec hp hi
    constructor
    · intro h
      rcases hv with rfl | hv
      · left; omega
      · by_cases hc : i ≤ iter
        · exact Or.inl hc
        · exact Or.inr (le_antisymm h (h3 i (by omega) hv))
    · rintro (h | h) <;> omega
  · subst hi
    have : next 0 pf = 1 := rfl
    rw [this]; omega

theorem next_visited {iter pf : Int} (hp : 0 < pf) (hi : 0 ≤ iter) : 0 < next iter pf ∧ iter < next iter pf ∧ (next iter pf = 1 ∨ pf ∣ next iter pf) := by
  rcases hi.lt_or_eq with hi | hi
  · obtain ⟨h1, h2, h3⟩ := next_spec hp hi
    exact ⟨by omega, h2, Or.inr h1⟩
  · subst hi; exact ⟨by rw [show next 0 pf = 1 from rfl]; norm_num, by rw [show next 0 pf = 1 from rfl]; norm_num, Or.inl rfl⟩

theorem sorted_append {l : List Int} {n : Int} {c : Prop} [Decidable c] (h : l.Pairwise (· < ·)) (hl : ∀ i ∈ l, i < n) : (l ++ if c then [n] else []).Pairwise (· < ·) := by
  split
  · rw [List.pairwise_append]
    refine ⟨h, List.pairwise_singleton _ _, fun a ha b hb => ?_⟩
    rw [List.mem_singleton.1 hb]; exact hl a ha
  · simpa using h

theorem sched_iterate {p : Params} (hp : p.Ok) {r : Run} (h : Sched p.print_freq p.write_freq p.vis_freq p.ramping_initial_iters r) :
    ∃ r', iterate p r = some r' ∧ Sched p.print_freq p.write_freq p.vis_freq p.ramping_initial_iters r' ∧ r'.iteration = next r.iteration p.print_freq := by
  obtain ⟨r', e, e1, e2, e3, e4, e5, e6⟩ := iterate_eq p hp r h.nonneg
  obtain ⟨n1, n2, n3⟩ := next_visited hp.print h.nonneg
  rw [← e1] at n1 n2 n3
  have gap : ∀ i, 0 < i → (i = 1 ∨ p.print_freq ∣ i) → (i ≤ r'.iteration ↔ i ≤ r.iteration ∨ i = r'.iteration) := fun i h0 hv => by
    rw [e1]; exact next_gap hp.print h.nonneg hv h0
  have events : ∀ (l : List Int) (f : Int), (∀ i, i ∈ l ↔ 0 < i ∧ i ≤ r.iteration ∧ f ∣ i ∧ (i = 1 ∨ p.print_freq ∣ i)) →
      ∀ i, i ∈ l ++ (if f ∣ r'.iteration then [r'.iteration] else []) ↔ 0 < i ∧ i ≤ r'.iteration ∧ f ∣ i ∧ (i = 1 ∨ p.print_freq ∣ i) := by
    intro l f hl i
    rw [List.mem_append, hl]
    constructor
    · rintro (⟨a, b, c, d⟩ | hm)
      · exact ⟨a, by omega, c, d⟩
      · split at hm
        · rename_i hf; rw [List.mem_singleton.1 hm]; exact ⟨n1, le_refl _, hf, n3⟩
        · cases hm
    · rintro ⟨a, b, c, d⟩
      rcases (gap i a d).1 b with hc | rfl
      · exact Or.inl ⟨a, hc, c, d⟩
      · rw [if_pos c]; simp
  refine ⟨r', e, ?_, e1⟩
  constructor
  · omega
  · exact Or.inr n3
  · intro i
    rw [e3, List.mem_append, h.printed]
    constructor
    · rintro (⟨a, b, c, d⟩ | hm)
      · exact ⟨a, by omega, c, d⟩
      · split at hm
        · rename_i hf
          rw [List.mem_singleton.1 hm]
          exact ⟨n1, le_refl _, hf, n3.resolve_left hf⟩
        · cases hm
    · rintro ⟨a, b, c, d⟩
      rcases (gap i a (Or.inr d)).1 b with hc | rfl
      · exact Or.inl ⟨a, hc, c, d⟩
      · rw [if_pos c]; simp
  · rw [e3]; exact sorted_append h.printed_sorted fun i hi => by have := (h.printed i).1 hi; omega
  · rw [e4]; exact events _ _ h.written
  · rw [e4]; exact sorted_append h.written_sorted fun i hi => by have := (h.written i).1 hi; omega
  · rw [e5]; exact events _ _ h.visualized
  · rw [e5]; exact sorted_append h.visualized_sorted fun i hi => by have := (h.visualized i).1 hi; omega
  · rw [e6, h.ramped]
    constructor
    · rintro (⟨a, b, c⟩ | hm)
      · exact ⟨a, by omega, c⟩
      · rw [← hm]; exact ⟨n1, le_refl _, n3⟩
    · rintro ⟨a, b, c⟩
      rcases (gap _ a c).1 b with hc | hc
      · exact Or.inl ⟨a, hc, c⟩
      · exact Or.inr hc.symm
  · rw [e2, List.map_append, List.pairwise_append]
    refine ⟨h.samples, List.pairwise_singleton _ _, fun a ha b hb => ?_⟩
    obtain ⟨s, hs, rfl⟩ := List.mem_map.1 ha
    have hb' : b = r.iteration := by simpa using hb
    rw [hb']
    have := h.label s hs; omega
  · intro s hs
    rw [e2] at hs
    rcases List.mem_append.1 hs with hs | hs
    · have := h.label s hs
      exact ⟨this.1, this.2.1, this.2.2.1, by omega⟩
    · rw [List.mem_singleton.1 hs]
      exact ⟨h.nonneg, n2, e1, le_refl _⟩

theorem sched_start (pf wf vf R : Int) : Sched pf wf vf R Run.start where
  nonneg := le_refl 0
  visited := Or.inl rfl
  printed i := by simp [Run.start]; intros; omega
  printed_sorted := List.Pairwise.nil
  written i := by simp [Run.start]; intros; omega
  written_sorted := List.Pairwise.nil
  visualized i := by simp [Run.start]; intros; omega
  visualized_sorted := List.Pairwise.nil
  ramped := by simp [Run.start]; intros; omega
  samples := List.Pairwise.nil
  label s hs := by simp [Run.start] at hs

/-- C38: the whole schedule of a run with constant frequencies, after any number `k` of passes of the loop. It is always defined; the report is
printed at exactly the multiples of `print_freq` other than 1, once each and in order; the mesh and state are written at exactly the common
multiples of `write_freq` and `print_freq` (and at 1 if `write_freq` is 1), visualized likewise; the safety factor was ramped up exactly if
`ramping_initial_iters` is 1 or a multiple of `print_freq` that has been reached; and the monitors receive increasing nonnegative iterations. -/
theorem run_schedule (p : Params) (hp : p.Ok) (k : Nat) : ∃ r, run (List.replicate k p) Run.start = some r ∧
    Sched p.print_freq p.write_freq p.vis_freq p.ramping_initial_iters r := by
  have hgen : ∀ (k : Nat) (r0 : Run), Sched p.print_freq p.write_freq p.vis_freq p.ramping_initial_iters r0 → ∃ r, run (List.replicate k p) r0 = some r ∧
      Sched p.print_freq p.write_freq p.vis_freq p.ramping_initial_iters r := by
    intro k
    induction k with
    | zero => intro r0 h; exact ⟨r0, rfl, h⟩
    | succ k ih =>
      intro r0 h
      obtain ⟨r1, e, h1, _⟩ := sched_iterate hp h
      obtain ⟨r, e2, h2⟩ := ih r1 h1
      exact ⟨r, by rw [List.replicate_succ, run, e]; exact e2, h2⟩
  exact hgen k _ (sched_start _ _ _ _)

/-- C38: the iteration reached after `k + 1` passes. -/
theorem run_iteration (p : Params) (hp : p.Ok) (k : Nat) : ∃ r, run (List.replicate (k + 1) p) Run.start = some r ∧
    r.iteration = if p.print_freq = 1 then (k : Int) + 1 else if k = 0 then 1 else k * p.print_freq := by
  have hrun : ∀ (k : Nat) (r0 : Run), run (List.replicate (k + 1) p) r0 = (run (List.replicate k p) r0).bind (iterate p) := by
    intro k
    induction k with
    | zero =>
      intro r0
      show (iterate p r0).bind (fun r => some r) = iterate p r0
      cases iterate p r0 <;> rfl
    | succ k ih =>
      intro r0
      show (iterate p r0).bind (run (List.replicate (k + 1) p)) = ((iterate p r0).bind (run (List.replicate k p))).bind (iterate p)
      cases h : iterate p r0 with
      | none => rfl
      | some r1 => simp only [Option.bind_some]; rw [ih]
  have hpf := hp.print
  induction k with
  | zero =>
    obtain ⟨r, e, h1, h2⟩ := sched_iterate hp (sched_start p.print_freq p.write_freq p.vis_freq p.ramping_initial_iters)
    refine ⟨r, by rw [hrun]; exact e, ?_⟩
    rw [h2, show Run.start.iteration = 0 from rfl, next]; simp
  | succ k ih =>
    obtain ⟨r0, e0, h0⟩ := ih
    obtain ⟨r0', e0', hs⟩ := run_schedule p hp (k + 1)
    rw [e0] at e0'; obtain rfl := Option.some.inj e0'
    obtain ⟨r, e, h1, h2⟩ := sched_iterate hp hs
    refine ⟨r, by rw [hrun, e0]; exact e, ?_⟩
    rw [h2, h0]
    by_cases c1 : p.print_freq = 1
    · rw [if_pos c1, if_pos c1, next, if_neg (by omega), c1]; simp; 
    · rw [if_neg c1, if_neg c1, if_neg (Nat.succ_ne_zero k)]
      by_cases c0 : k = 0
      · subst c0
        rw [if_pos rfl, next, if_neg (by norm_num), Int.tmod_eq_emod_of_nonneg (by norm_num), Int.emod_eq_of_lt (by norm_num) (by omega)]
        push_cast; ring
      · rw [if_neg c0, next, if_neg (by positivity), Int.tmod_eq_emod_of_nonneg (by positivity), Int.mul_emod_left]
        push_cast; ring

/-- C38: if `write_freq` is a multiple of `print_freq`, the data is written at every multiple of `write_freq` that has been passed. -/
theorem write_every (p : Params) (hp : p.Ok) (hd : p.print_freq ∣ p.write_freq) (k : Nat) : ∃ r, run (List.replicate k p) Run.start = some r ∧
    ∀ i, i ∈ r.written ↔ 0 < i ∧ i ≤ r.iteration ∧ p.write_freq ∣ i := by
  obtain ⟨r, e, h⟩ := run_schedule p hp k
  refine ⟨r, e, fun i => ?_⟩
  rw [h.written]
  exact ⟨fun h => ⟨h.1, h.2.1, h.2.2.1⟩, fun h => ⟨h.1, h.2.1, h.2.2, Or.inr (dvd_trans hd h.2.2)⟩⟩

/-- Refuted without that condition: with `print_freq` 100 and `write_freq` 150, iteration 150 is passed without being written. -/
theorem write_refuted : ∃ r, run (List.replicate 3 ⟨100, 150, 10000, 1000⟩) Run.start = some r ∧ 150 ≤ r.iteration ∧ 150 ∉ r.written := by
  decide +kernel

/-- Refuted: `set_ramping` does not always increase the safety factor: with `print_freq` 300 it never happens, however long the run. -/
theorem ramp_refuted (wf vf : Int) (hw : 0 < wf) (hv : 0 < vf) (k : Nat) : ∃ r, run (List.replicate k ⟨300, wf, vf, 1000⟩) Run.start = some r ∧ r.ramped = false := by
  obtain ⟨r, e, h⟩ := run_schedule ⟨300, wf, vf, 1000⟩ ⟨by norm_num, hw, hv⟩ k
  refine ⟨r, e, ?_⟩
  have := h.ramped
  rw [Bool.eq_false_iff]
  intro hr
  obtain ⟨_, _, h | h⟩ := this.1 hr
  · norm_num at h
  · exact absurd (show (300 : Int) ∣ 1000 from h) (by decide)

/-- Refuted: the iteration given to the monitors is never the one at which the value was evaluated, but that of the previous report. -/
theorem label_stale (p : Params) (hp : p.Ok) (k : Nat) : ∃ r, run (List.replicate k p) Run.start = some r ∧ ∀ s ∈ r.samples, s.1 < s.2 := by
  obtain ⟨r, e, h⟩ := run_schedule p hp k
  exact ⟨r, e, fun s hs => (h.label s hs).2.1⟩

/-- Refuted for a negative `print_freq`: once at iteration 1 the run makes no progress. -/
theorem negative_freq_stuck (p : Params) (hp : p.print_freq < 0) (r r' : Run) (hr : r.iteration = 1) (h : update p r = some r') : r'.iteration = 1 := by
  rw [update, nUpdates, hr, if_pos (by norm_num), if_neg (by omega)] at h
  simp only [Option.bind_some, Option.some.injEq] at h
  rw [← h]
  show solverUpdates _ _ = 1
  rw [solverUpdates_eq]
  have h1 : Int.tmod 1 p.print_freq = Int.tmod 1 (-p.print_freq) := by rw [Int.tmod_neg]
  have h2 : 0 ≤ Int.tmod 1 p.print_freq := by rw [h1, Int.tmod_eq_emod_of_nonneg (by norm_num)]; exact Int.emod_nonneg _ (by omega)
  rw [Int.toNat_of_nonpos (by omega)]; rfl

/-- A zero `print_freq` divides by zero after the first iteration. -/
theorem zero_freq_undefined (p : Params) (hp : p.print_freq = 0) (r : Run) (hr : r.iteration ≠ 0) : update p r = none := by
  rw [update, nUpdates, if_pos hr, if_pos hp]; rfl

/-! ## Non-vacuity -/

/-- The default frequencies: after three passes, iteration 200, reports at 100 and 200. -/
example : ∃ r, run (List.replicate 3 ⟨100, 200, 10000, 1000⟩) Run.start = some r ∧ r.iteration = 200 ∧ r.printed = [100, 200] ∧ r.written = [200] ∧ r.samples = [(0, 1), (1, 100), (100, 200)] := by
  decide +kernel

example : (⟨100, 10000, 10000, 1000⟩ : Params).Ok := ⟨by norm_num, by norm_num, by norm_num⟩

end Hexed.CaseRun
