import Verif.Settings.Model
import Verif.Settings.Spec
import Verif.Namespace.Lemmas
import Mathlib.Tactic.Tauto
import Mathlib.Tactic.Push
import Mathlib.Tactic.ByContra

set_option autoImplicit false
set_option linter.unusedVariables false

/-! The settings that the constructor of `Solver` leaves in the namespace (C104). -/

namespace Hexed.Settings

open Hexed.Namespace

variable {D : Type}

theorem existsRec_iff (h : Heap D) (id : Nat) (n : String) : existsRec h id n = true ↔ Given h id n := by
  unfold existsRec Given supersOf
  rw [cell_eq]
  cases hs : h[id]? with
  | none => simp
  | some s =>
    simp only [Option.bind_some, exists_iff]
    by_cases hc : (s.cell n).isSome
    · simp [hc]
    · simp only [hc, if_false, Bool.false_eq_true, false_or]
      by_cases he : s.supers = []
      · simp [he]
      · have : (!s.supers.isEmpty) = true := by simp [he]
        rw [if_pos this, List.all_eq_true]
        simp only [existsAt_iff, ne_eq, he, not_false_eq_true, true_and]

theorem runAll_append (ofInt : Int → D) (a b : List (Op D)) : ∀ h h' : Heap D, runAll ofInt h a = .ok h' →
    runAll ofInt h (a ++ b) = runAll ofInt h' b := by
  induction a with
  | nil => intro h h' e; simp only [runAll, Outcome.ok.injEq] at e; subst e; rfl
  | cons op ops ih =>
    intro h h' e
    simp only [runAll, List.cons_append] at e ⊢
    cases hs : step ofInt h op with
    | throws => rw [hs] at e; simp at e
    | ok k => rw [hs] at e; exact ih k h' e

theorem given_congr (h k : Heap D) (id : Nat) (n : String) (hc : ∀ j, cell k j n = cell h j n)
    (hs : ∀ j, supersOf k j = supersOf h j) : Given k id n ↔ Given h id n := by
  unfold Given; simp only [hc, hs]

/-- Defaults in a row. -/
theorem run_defaults (ofInt : Int → D) (id : Nat) (l : List (String × Val D)) : ∀ (h : Heap D), HWF h →
    id < h.length → (l.map Prod.fst).Nodup →
    ∃ h', runAll ofInt h (l.map (fun p => Op.assignDefault id p.1 p.2)) = .ok h' ∧ HWF h' ∧ id < h'.length ∧
      (∀ p ∈ l, Given h id p.1 → cell h' id p.1 = cell h id p.1) ∧
      (∀ p ∈ l, ¬Given h id p.1 → cell h' id p.1 = some (.val p.2)) ∧
      (∀ i m, ¬(i = id ∧ m ∈ l.map Prod.fst) → cell h' i m = cell h i m) ∧
      (∀ i, supersOf h' i = supersOf h i) := by
  induction l with
  | nil => intro h wf lt _; exact ⟨h, rfl, wf, lt, by simp, by simp, by simp, by simp⟩
  | cons p l ih =>
    intro h wf lt nd
    rw [List.map_cons, List.nodup_cons] at nd
    obtain ⟨hp, nd⟩ := nd
    -- the first statement
    have key : ∃ k, step ofInt h (.assignDefault id p.1 p.2) = .ok k ∧ HWF k ∧ id < k.length ∧
        (Given h id p.1 → cell k id p.1 = cell h id p.1) ∧ (¬Given h id p.1 → cell k id p.1 = some (.val p.2)) ∧
        (∀ i m, ¬(i = id ∧ m = p.1) → cell k i m = cell h i m) ∧ (∀ i, supersOf k i = supersOf h i) := by
      by_cases g : Given h id p.1
      · exact ⟨h, by simp [step, (existsRec_iff h id p.1).mpr g], wf, lt, fun _ => rfl, fun c => absurd g c,
          fun _ _ _ => rfl, fun _ => rfl⟩
      · have hn : existsRec h id p.1 = false := by
          rw [Bool.eq_false_iff]; exact fun c => g ((existsRec_iff h id p.1).mp c)
        have hx : cell h id p.1 = none := by
          cases hc : cell h id p.1 with
          | none => rfl
          | some c => exact absurd (Or.inl (by simp [hc])) g
        have a := assign_lift ofInt h wf id p.1 p.2 lt
        rw [hx] at a
        have : specAssign ofInt (none : Option (Cell D)) p.2 = some (.val p.2) := by cases p.2 <;> rfl
        rw [this] at a
        obtain ⟨k, e, w, len, b, c, d⟩ := a
        exact ⟨k, by simpa [step, hn] using e, w, by omega, fun c => absurd c g, fun _ => b, c, d⟩
    obtain ⟨k, e, w, ltk, g1, g2, fr, sup⟩ := key
    obtain ⟨h', e', w', lt', a1, a2, a3, a4⟩ := ih k w ltk nd
    have cong : ∀ q ∈ l, (Given k id q.1 ↔ Given h id q.1) ∧ cell k id q.1 = cell h id q.1 := by
      intro q hq
      have ne : q.1 ≠ p.1 := fun c => hp (c ▸ List.mem_map_of_mem hq)
      exact ⟨given_congr h k id q.1 (fun j => fr j q.1 (fun c => ne c.2)) sup, fr id q.1 (fun c => ne c.2)⟩
    have hp' : cell h' id p.1 = cell k id p.1 := a3 id p.1 (fun c => hp c.2)
    refine ⟨h', by simp only [List.map_cons, runAll, e]; exact e', w', lt', ?_, ?_, ?_, ?_⟩
    · intro q hq g
      rcases List.mem_cons.mp hq with rfl | hq
      · rw [hp', g1 g]
      · rw [a1 q hq ((cong q hq).1.mpr g), (cong q hq).2]
    · intro q hq g
      rcases List.mem_cons.mp hq with rfl | hq
      · rw [hp', g2 g]
      · exact a2 q hq (fun c => g ((cong q hq).1.mp c))
    · intro i m hne
      rw [a3 i m (fun c => hne ⟨c.1, by simp [c.2]⟩), fr i m (fun c => hne ⟨c.1, by simp [c.2]⟩)]
    · intro i; rw [a4, sup]

/-- Assignments in a row, all of which are possible. -/
theorem run_assigns (ofInt : Int → D) (id : Nat) (l : List (String × Val D)) : ∀ (h : Heap D), HWF h →
    id < h.length → (l.map Prod.fst).Nodup → (∀ p ∈ l, specAssign ofInt (cell h id p.1) p.2 ≠ none) →
    ∃ h', runAll ofInt h (l.map (fun p => Op.assign id p.1 p.2)) = .ok h' ∧
      (∀ p ∈ l, cell h' id p.1 = specAssign ofInt (cell h id p.1) p.2) ∧
      (∀ i m, ¬(i = id ∧ m ∈ l.map Prod.fst) → cell h' i m = cell h i m) ∧
      (∀ i, supersOf h' i = supersOf h i) := by
  induction l with
  | nil => intro h wf lt _ _; exact ⟨h, rfl, by simp, by simp, by simp⟩
  | cons p l ih =>
    intro h wf lt nd ok
    rw [List.map_cons, List.nodup_cons] at nd
    obtain ⟨hp, nd⟩ := nd
    have a := assign_lift ofInt h wf id p.1 p.2 lt
    cases hc : specAssign ofInt (cell h id p.1) p.2 with
    | none => exact absurd hc (ok p (by simp))
    | some c =>
      rw [hc] at a
      obtain ⟨k, e, w, len, b, fr, sup⟩ := a
      have cong : ∀ q ∈ l, cell k id q.1 = cell h id q.1 := by
        intro q hq
        have ne : q.1 ≠ p.1 := fun c => hp (c ▸ List.mem_map_of_mem hq)
        exact fr id q.1 (fun c => ne c.2)
      obtain ⟨h', e', a1, a2, a3⟩ := ih k w (by omega) nd
        (fun q hq => by rw [cong q hq]; exact ok q (by simp [hq]))
      have e0 : step ofInt h (.assign id p.1 p.2) = .ok k := e
      refine ⟨h', by simp only [List.map_cons, runAll, e0]; exact e', ?_, ?_, ?_⟩
      · intro q hq
        rcases List.mem_cons.mp hq with rfl | hq
        · rw [a2 id q.1 (fun c => hp c.2), b, hc]
        · rw [a1 q hq, cong q hq]
      · intro i m hne
        rw [a2 i m (fun c => hne ⟨c.1, by simp [c.2]⟩), fr i m (fun c => hne ⟨c.1, by simp [c.2]⟩)]
      · intro i; rw [a3, sup]

/-- Assignments in a row, one of which is impossible. -/
theorem run_assigns_throws (ofInt : Int → D) (id : Nat) (l : List (String × Val D)) : ∀ (h : Heap D), HWF h →
    id < h.length → (l.map Prod.fst).Nodup → (∃ p ∈ l, specAssign ofInt (cell h id p.1) p.2 = none) →
    runAll ofInt h (l.map (fun p => Op.assign id p.1 p.2)) = .throws := by
  induction l with
  | nil => intro h _ _ _ ⟨p, hp, _⟩; simp at hp
  | cons p l ih =>
    intro h wf lt nd ⟨q, hq, bad⟩
    rw [List.map_cons, List.nodup_cons] at nd
    obtain ⟨hp, nd⟩ := nd
    have a := assign_lift ofInt h wf id p.1 p.2 lt
    cases hc : specAssign ofInt (cell h id p.1) p.2 with
    | none =>
      rw [hc] at a
      have e0 : step ofInt h (.assign id p.1 p.2) = .throws := a
      simp only [List.map_cons, runAll, e0]
    | some c =>
      rw [hc] at a
      obtain ⟨k, e, w, len, b, fr, sup⟩ := a
      have e0 : step ofInt h (.assign id p.1 p.2) = .ok k := e
      simp only [List.map_cons, runAll, e0]
      rcases List.mem_cons.mp hq with rfl | hq
      · rw [hc] at bad; simp at bad
      · have ne : q.1 ≠ p.1 := fun c => hp (c ▸ List.mem_map_of_mem hq)
        exact ih k w (by omega) nd ⟨q, hq, by rw [fr id q.1 (fun c => ne c.2)]; exact bad⟩

variable (ofInt : Int → D) (lit : Rat → D) (mul : D → D → D) (huge sqrtDim : D) (localTime : Bool)

theorem default_names : (defaults lit mul huge sqrtDim localTime).map Prod.fst = settingNames := rfl
theorem progress_names : (progress lit).map Prod.fst = countNames ++ realNames := rfl

theorem takes_int (c : Option (Cell D)) (i : Int) : specAssign ofInt c (.int i) ≠ none ↔ TakesInt c := by
  rcases c with _ | (v | _)
  · simp [specAssign, TakesInt]
  · cases v <;> simp [specAssign, TakesInt]
  · simp [specAssign, TakesInt]

theorem takes_real (c : Option (Cell D)) (d : D) : specAssign ofInt c (.dbl d) ≠ none ↔ TakesReal c := by
  rcases c with _ | (v | _)
  · simp [specAssign, TakesReal]
  · cases v <;> simp [specAssign, TakesReal]
  · simp [specAssign, TakesReal]

theorem progress_ok (h : Heap D) (id : Nat) :
    (∀ p ∈ progress lit, specAssign ofInt (cell h id p.1) p.2 ≠ none) ↔
      (∀ n ∈ countNames, TakesInt (cell h id n)) ∧ (∀ n ∈ realNames, TakesReal (cell h id n)) := by
  simp only [progress, countNames, realNames, List.forall_mem_cons, List.not_mem_nil, false_imp_iff, implies_true,
    takes_int, takes_real, and_true, and_assoc]

/-- The constructor completes exactly if the progress variables can be set. Then settings that the user has given
keep their values, others exist in the namespace, the progress variables are zero and everything else is as before. -/
theorem constructed {h : Heap D} (r : Reachable ofInt h) (id : Nat) (lt : id < h.length)
    (hi : ∀ n ∈ countNames, TakesInt (cell h id n)) (hr : ∀ n ∈ realNames, TakesReal (cell h id n)) :
    ∃ h', construct ofInt lit mul huge sqrtDim localTime h id = .ok h' ∧
      (∀ n ∈ settingNames, Given h id n → cell h' id n = cell h id n) ∧
      (∀ p ∈ defaults lit mul huge sqrtDim localTime, ¬Given h id p.1 → cell h' id p.1 = some (.val p.2)) ∧
      (∀ n ∈ countNames, cell h' id n = some (.val (.int 0)) ∨
        ((∃ d, cell h id n = some (.val (.dbl d))) ∧ cell h' id n = some (.val (.dbl (ofInt 0))))) ∧
      (∀ n ∈ realNames, cell h' id n = some (.val (.dbl (lit 0)))) ∧
      (∀ i m, ¬(i = id ∧ m ∈ settingNames ++ countNames ++ realNames) → cell h' i m = cell h i m) ∧
      (∀ i, supersOf h' i = supersOf h i) := by
  obtain ⟨k, e, w, ltk, a1, a2, a3, a4⟩ := run_defaults ofInt id (defaults lit mul huge sqrtDim localTime) h
    (reachable_hwf r) lt (by rw [default_names]; decide +kernel)
  rw [default_names] at a3
  have same : ∀ n ∈ countNames ++ realNames, cell k id n = cell h id n := by
    intro n hn
    refine a3 id n (fun c => ?_)
    have : ∀ n ∈ countNames ++ realNames, n ∉ settingNames := by decide +kernel
    exact this n hn c.2
  have hi' : ∀ n ∈ countNames, TakesInt (cell k id n) := fun n hn => by
    rw [same n (by simp [hn])]; exact hi n hn
  have hr' : ∀ n ∈ realNames, TakesReal (cell k id n) := fun n hn => by
    rw [same n (by simp [hn])]; exact hr n hn
  obtain ⟨h', e', b1, b2, b3⟩ := run_assigns ofInt id (progress lit) k w ltk
    (by rw [progress_names]; decide +kernel) ((progress_ok ofInt lit k id).mpr ⟨hi', hr'⟩)
  rw [progress_names] at b2
  have keep : ∀ n ∈ settingNames, cell h' id n = cell k id n := by
    intro n hn
    refine b2 id n (fun c => ?_)
    have : ∀ n ∈ settingNames, n ∉ countNames ++ realNames := by decide +kernel
    exact this n hn c.2
  refine ⟨h', ?_, ?_, ?_, ?_, ?_, ?_, ?_⟩
  · unfold construct
    rw [runAll_append ofInt _ _ h k e, e']
  · intro n hn g
    have hm : n ∈ (defaults lit mul huge sqrtDim localTime).map Prod.fst := by rw [default_names]; exact hn
    obtain ⟨p, hp, rfl⟩ := List.mem_map.mp hm
    rw [keep _ hn, a1 p hp g]
  · intro p hp g
    have hm : p.1 ∈ settingNames := by
      rw [← default_names lit mul huge sqrtDim localTime]; exact List.mem_map_of_mem hp
    rw [keep _ hm, a2 p hp g]
  · have int0 : ∀ n, (n, Val.int 0) ∈ progress lit → TakesInt (cell k id n) → cell k id n = cell h id n →
        cell h' id n = some (.val (.int 0)) ∨
          ((∃ d, cell h id n = some (.val (.dbl d))) ∧ cell h' id n = some (.val (.dbl (ofInt 0)))) := by
      intro n hn t s
      have := b1 _ hn
      simp only at this
      rw [this, ← s]
      rcases t with t | ⟨i, t⟩ | ⟨d, t⟩ <;> rw [t] <;> simp [specAssign]
    intro n hn
    refine int0 n ?_ (hi' n hn) (same n (by simp [hn]))
    simp only [countNames, List.mem_cons, List.not_mem_nil, or_false] at hn
    rcases hn with rfl | rfl <;> simp [progress]
  · have real0 : ∀ n, (n, Val.dbl (lit 0)) ∈ progress lit → TakesReal (cell k id n) →
        cell h' id n = some (.val (.dbl (lit 0))) := by
      intro n hn t
      have := b1 _ hn
      simp only at this
      rw [this]
      rcases t with t | ⟨d, t⟩ <;> rw [t] <;> simp [specAssign]
    intro n hn
    refine real0 n ?_ (hr' n hn)
    simp only [realNames, List.mem_cons, List.not_mem_nil, or_false] at hn
    rcases hn with rfl | rfl | rfl <;> simp [progress]
  · intro i m hne
    rw [b2 i m (fun c => hne ⟨c.1, by
        have := c.2; simp only [List.mem_append] at this ⊢; tauto⟩),
      a3 i m (fun c => hne ⟨c.1, by
        have := c.2; simp only [List.mem_append] at this ⊢; tauto⟩)]
  · intro i; rw [b3, a4]

/-- If one of the progress variables exists with a type that cannot hold zero of its type, the constructor throws. -/
theorem rejected {h : Heap D} (r : Reachable ofInt h) (id : Nat) (lt : id < h.length)
    (bad : (∃ n ∈ countNames, ¬TakesInt (cell h id n)) ∨ (∃ n ∈ realNames, ¬TakesReal (cell h id n))) :
    construct ofInt lit mul huge sqrtDim localTime h id = .throws := by
  obtain ⟨k, e, w, ltk, a1, a2, a3, a4⟩ := run_defaults ofInt id (defaults lit mul huge sqrtDim localTime) h
    (reachable_hwf r) lt (by rw [default_names]; decide +kernel)
  rw [default_names] at a3
  have same : ∀ n ∈ countNames ++ realNames, cell k id n = cell h id n := by
    intro n hn
    refine a3 id n (fun c => ?_)
    have : ∀ n ∈ countNames ++ realNames, n ∉ settingNames := by decide +kernel
    exact this n hn c.2
  unfold construct
  rw [runAll_append ofInt _ _ h k e]
  refine run_assigns_throws ofInt id (progress lit) k w ltk (by rw [progress_names]; decide +kernel) ?_
  by_contra hno
  push Not at hno
  obtain ⟨p1, p2⟩ := (progress_ok ofInt lit k id).mp hno
  rcases bad with ⟨n, hn, hb⟩ | ⟨n, hn, hb⟩
  · exact hb (by rw [← same n (by simp [hn])]; exact p1 n hn)
  · exact hb (by rw [← same n (by simp [hn])]; exact p2 n hn)

/-- The settings of a solver for which the user has given none. -/
theorem default_values {h : Heap D} (r : Reachable ofInt h) (id : Nat) (lt : id < h.length)
    (none : ∀ n ∈ settingNames ++ countNames ++ realNames, ¬Given h id n) :
    ∃ h', construct ofInt lit mul huge sqrtDim localTime h id = .ok h' ∧
      cell h' id "max_safety" = some (.val (.dbl (lit (7 / 10)))) ∧
      cell h' id "max_time_step" = some (.val (.dbl huge)) ∧
      cell h' id "fix_admis_max_safety" = some (.val (.dbl (lit (7 / 10)))) ∧
      cell h' id "av_diff_ratio" = some (.val (.dbl (lit (3 / 10)))) ∧
      cell h' id "av_visc_mult" = some (.val (.dbl (lit 100))) ∧
      cell h' id "av_unscaled_max" = some (.val (.dbl (lit 5))) ∧
      cell h' id "av_advect_max_safety" = some (.val (.dbl (lit (7 / 10)))) ∧
      cell h' id "av_diff_max_safety" = some (.val (.dbl (lit (7 / 10)))) ∧
      cell h' id "buffer_dist" = some (.val (.dbl (mul (lit (8 / 10)) sqrtDim))) ∧
      (∀ n ∈ ["n_cheby_flow", "n_cheby_av", "av_advect_iters", "av_diff_iters", "flow_iters"],
        cell h' id n = some (.val (.int 1))) ∧
      (∀ n ∈ ["use_filter", "elementwise_art_visc", "fix_iters", "iteration"],
        cell h' id n = some (.val (.int 0))) ∧
      cell h' id "local_time" = some (.val (.int (if localTime then 1 else 0))) ∧
      cell h' id "elementwise_art_visc_diff_ratio" = some (.val (.dbl (lit 5))) ∧
      cell h' id "working_dir" = some (.val (.str ".")) ∧
      (∀ n ∈ ["flow_time", "art_visc_residual", "wall_time"], cell h' id n = some (.val (.dbl (lit 0)))) := by
  have absent : ∀ n ∈ settingNames ++ countNames ++ realNames, cell h id n = Option.none := by
    intro n hn
    cases hc : cell h id n with
    | none => rfl
    | some c => exact absurd (Or.inl (by simp [hc])) (none n hn)
  obtain ⟨h', e, _, a2, a3, a4, _, _⟩ := constructed ofInt lit mul huge sqrtDim localTime r id lt
    (fun n hn => Or.inl (absent n (by simp [hn]))) (fun n hn => Or.inl (absent n (by simp [hn])))
  have d : ∀ p ∈ defaults lit mul huge sqrtDim localTime, cell h' id p.1 = some (.val p.2) := by
    intro p hp
    refine a2 p hp (none p.1 ?_)
    have : p.1 ∈ settingNames := by
      rw [← default_names lit mul huge sqrtDim localTime]; exact List.mem_map_of_mem hp
    simp [this]
  have c0 : ∀ n ∈ countNames, cell h' id n = some (.val (.int 0)) := by
    intro n hn
    rcases a3 n hn with g | ⟨⟨x, g⟩, _⟩
    · exact g
    · rw [absent n (by simp [hn])] at g; simp at g
  simp only [defaults, List.forall_mem_cons, List.not_mem_nil, false_imp_iff, implies_true, and_true] at d
  simp only [countNames, List.forall_mem_cons, List.not_mem_nil, false_imp_iff, implies_true, and_true] at c0
  simp only [realNames, List.forall_mem_cons, List.not_mem_nil, false_imp_iff, implies_true, and_true] at a4
  obtain ⟨d1, d2, d3, d4, d5, d6, d7, d8, d9, d10, d11, d12, d13, d14, d15, d16, d17, d18, d19⟩ := d
  refine ⟨h', e, d1, d2, d3, d4, d5, d6, d7, d8, d9, ?_, ?_, d16, d18, d19, ?_⟩
  · simp only [List.forall_mem_cons, List.not_mem_nil, false_imp_iff, implies_true, and_true]
    exact ⟨d10, d11, d12, d13, d14⟩
  · simp only [List.forall_mem_cons, List.not_mem_nil, false_imp_iff, implies_true, and_true]
    exact ⟨d15, d17, c0.1, c0.2⟩
  · simp only [List.forall_mem_cons, List.not_mem_nil, false_imp_iff, implies_true, and_true]
    exact a4

/-- A new namespace meets the hypotheses of `default_values`. -/
example : ∃ h : Heap Int, Reachable id h ∧ 0 < h.length ∧
    (∀ n ∈ settingNames ++ countNames ++ realNames, ¬Given h 0 n) := by
  refine ⟨_, ⟨[.new], rfl⟩, by decide, ?_⟩
  intro n _
  simp [Given, exec, step, Space.empty, cell, supersOf]

/-- A namespace with a setting of the user and a real progress variable meets the hypotheses of `constructed`; one
with an iteration counter that is a string those of `rejected`. -/
example : ∃ h : Heap Int, Reachable id h ∧ 0 < h.length ∧ Given h 0 "max_safety" ∧
    (∀ n ∈ countNames, TakesInt (cell h 0 n)) ∧ (∀ n ∈ realNames, TakesReal (cell h 0 n)) := by
  refine ⟨_, ⟨[.new, .assign 0 "max_safety" (.dbl 3), .assign 0 "flow_time" (.dbl 2)], rfl⟩, by decide,
    Or.inl (by decide +kernel), ?_, ?_⟩
  · intro n hn
    simp only [countNames, List.mem_cons, List.not_mem_nil, or_false] at hn
    rcases hn with rfl | rfl <;> exact Or.inl (by decide +kernel)
  · intro n hn
    simp only [realNames, List.mem_cons, List.not_mem_nil, or_false] at hn
    rcases hn with rfl | rfl | rfl
    · exact Or.inr ⟨2, by decide +kernel⟩
    · exact Or.inl (by decide +kernel)
    · exact Or.inl (by decide +kernel)

example : ∃ h : Heap Int, Reachable id h ∧ 0 < h.length ∧ ¬TakesInt (cell h 0 "iteration") := by
  refine ⟨_, ⟨[.new, .assign 0 "iteration" (.str "x")], rfl⟩, by decide, ?_⟩
  have : cell (exec id ([] : Heap Int) [.new, .assign 0 "iteration" (.str "x")]) 0 "iteration"
      = some (.val (.str "x")) := by decide +kernel
  rw [this]
  simp [TakesInt]

end Hexed.Settings
