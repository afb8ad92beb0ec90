import Verif.Admis.Lemmas
import Mathlib.Tactic.NormNum

set_option autoImplicit false
set_option linter.unusedVariables false

/-!
# C36: repairing inadmissible states
-/

namespace Hexed.Admis

variable {S : Type} {ne nv nq : ℕ}

/-- Switched off, the repair does nothing and reports that nothing was repaired. -/
theorem fix_off (P : Setting S ne nv nq) (m : Data S ne nv nq) (h : P.enabled = false) :
    fix P m = .done false m := by simp [fix, h]

/-- **C36.** A call that returns `false` found the solution admissible and changed neither it nor any
artificial viscosity coefficient. -/
theorem fix_false (P : Setting S ne nv nq) (m m' : Data S ne nv nq) (h : P.enabled = true)
    (hr : fix P m = .done false m') :
    P.Adm m.sol ∧ m'.sol = m.sol ∧ m'.lap = m.lap ∧ m'.bulk = m.bulk ∧ m'.fixIters = m.fixIters := by
  rcases fix_cases P m h with ⟨_, h2⟩ | ⟨h1, r, h2⟩ | ⟨h1, h2, r, h3⟩
  · rw [h2] at hr; exact absurd hr (by simp)
  · rw [h2] at hr
    simp only [Outcome.done.injEq, true_and] at hr
    subst hr
    exact ⟨h1, rfl, rfl, rfl, rfl⟩
  · rw [hr] at h3
    exact absurd h3.1 (by simp)

/-- **C36, partial.** A call that returns `true` found the solution inadmissible at first, made an
even number of passes `2 k`, at most a hundred thousand, found the solution admissible
after each of the passes `k`, ..., `2 k - 1`, and had not found such a run of successes before.  The
solution it leaves behind is the one after `2 k` passes: one pass *later* than the last check.  The
bulk viscosity coefficients are as they were; the reported number of iterations is one less than
the number of passes.

Missing for the full claim: that the solution left behind is admissible (refuted by
`last_pass_refuted`) and that the Laplacian viscosity is as it was (refuted by `laplacian_erased`). -/
theorem fix_true_partial (P : Setting S ne nv nq) (m m' : Data S ne nv nq)
    (hr : fix P m = .done true m') :
    ¬ P.Adm m.sol ∧ ∃ k, P.Steady m.sol k ∧ (∀ j < k, ¬ P.Steady m.sol j) ∧ 2 * k ≤ 100000 ∧
      m'.sol = P.after m.sol (2 * k) ∧ m'.passes = m.passes + 2 * k ∧
      m'.fixIters = m.fixIters + (2 * k - 1) ∧ m'.bulk = m.bulk := by
  have h : P.enabled = true := by
    cases he : P.enabled with
    | true => rfl
    | false => rw [fix_off P m he] at hr; simp at hr
  rcases fix_cases P m h with ⟨_, h2⟩ | ⟨h1, r, h2⟩ | ⟨h1, h2, r, h3⟩
  · rw [h2] at hr; exact absurd hr (by simp)
  · rw [h2] at hr; exact absurd hr (by simp)
  · rw [hr] at h3
    obtain ⟨_, k, a1, a2, a3, a4, a5, a6, a7, a8, a9, a10⟩ := h3
    refine ⟨h2, k, a1, a2, a3, a5, ?_, a6, a8⟩
    rw [a7, pass_passes]
    show m.passes + 1 + (2 * k - 1) = _
    omega

/-- **C36.** Exactly when the call succeeds: if all values met are finite numbers, it returns whenever
some `k` with `2 k ≤ 100000` makes the solution admissible after `k`, ..., `2 k - 1` passes (or it is
admissible from the beginning), and it throws otherwise. -/
theorem fix_returns_iff (P : Setting S ne nv nq) (m : Data S ne nv nq) (h : P.enabled = true)
    (hf : ∀ i, P.Finite (P.after m.sol i)) :
    ((∃ b m', fix P m = .done b m') ↔
      P.Adm m.sol ∨ ∃ k, P.Steady m.sol k ∧ 2 * k ≤ 100000) ∧
    ((∃ m', fix P m = .failed m') ↔
      ¬ (P.Adm m.sol ∨ ∃ k, P.Steady m.sol k ∧ 2 * k ≤ 100000)) ∧
    fix P m ≠ .abort := by
  rcases fix_cases P m h with ⟨h1, h2⟩ | ⟨h1, r, h2⟩ | ⟨h1, h2, r, h3⟩
  · exact absurd (hf 0) h1
  · rw [h2]
    simp [h1]
  · cases ho : fix P m with
    | abort =>
      rw [ho] at h3
      obtain ⟨i, _, _, hi, _⟩ := h3
      exact absurd (hf i) hi
    | failed m' =>
      rw [ho] at h3
      have hn : ¬ ∃ k, P.Steady m.sol k ∧ 2 * k ≤ 100000 := by
        rintro ⟨k, hk, hk'⟩
        have := h3.1 k hk
        omega
      simp [h2, hn]
    | done b m' =>
      rw [ho] at h3
      obtain ⟨_, k, a1, _, a3, _⟩ := h3
      have hn : ∃ k, P.Steady m.sol k ∧ 2 * k ≤ 100000 := ⟨k, a1, a3⟩
      simp [h2, hn]

/-- **C36.** A call that throws has made a hundred thousand passes and leaves the solution they
produced; it never throws sooner. -/
theorem fix_failed (P : Setting S ne nv nq) (m m' : Data S ne nv nq) (hr : fix P m = .failed m') :
    m'.passes = m.passes + 100000 ∧ m'.sol = P.after m.sol 100000 ∧ m'.bulk = m.bulk ∧
      m'.fixIters = m.fixIters := by
  have h : P.enabled = true := by
    cases he : P.enabled with
    | true => rfl
    | false => rw [fix_off P m he] at hr; simp at hr
  rcases fix_cases P m h with ⟨_, h2⟩ | ⟨h1, r, h2⟩ | ⟨h1, h2, r, h3⟩
  · rw [h2] at hr; exact absurd hr (by simp)
  · rw [h2] at hr; exact absurd hr (by simp)
  · rw [hr] at h3
    exact LoopPost.failed (m := { m with record := r }) (by norm_num) h3

/-- **C36.** If smoothing never spoils an admissible solution, every call that returns leaves an
admissible one. -/
theorem fix_admissible_partial (P : Setting S ne nv nq) (m m' : Data S ne nv nq) (b : Bool)
    (h : P.enabled = true) (hk : ∀ s, P.Adm s → P.Adm (P.smooth s)) (hr : fix P m = .done b m') :
    P.Adm m'.sol := by
  cases b with
  | false =>
    obtain ⟨h1, h2, _⟩ := fix_false P m m' h hr
    rw [h2]; exact h1
  | true =>
    obtain ⟨_, k, hs, _, _, h2, _⟩ := fix_true_partial P m m' hr
    have h1 := hs.1
    have := hs.2 (2 * k - 1) (by omega) (by omega)
    rw [h2, show 2 * k = (2 * k - 1) + 1 by omega, after_succ]
    exact hk _ this

/-- **C36, refuted.** After a repair the Laplacian artificial viscosity is zero at every point,
whatever it was before: the marks, all cleared by the last check, are written over it before it is
set aside (src/Solver.cpp 1032, 1048). -/
theorem laplacian_erased (P : Setting S ne nv nq) (m m' : Data S ne nv nq)
    (hr : fix P m = .done true m') : ∀ e q, m'.lap e q = 0 := by
  have h : P.enabled = true := by
    cases he : P.enabled with
    | true => rfl
    | false => rw [fix_off P m he] at hr; simp at hr
  rcases fix_cases P m h with ⟨_, h2⟩ | ⟨h1, r, h2⟩ | ⟨h1, h2, r, h3⟩
  · rw [h2] at hr; exact absurd hr (by simp)
  · rw [h2] at hr; exact absurd hr (by simp)
  · rw [hr] at h3
    obtain ⟨_, k, a1, a2, a3, a4, a5, a6, a7, a8, a9, a10⟩ := h3
    exact a9

/-! ## A concrete case -/

/-- One element with two vertices and one point.  The "solution" is a whole number, smoothing adds
one, and the solution is admissible when it satisfies `good`. -/
noncomputable def demo (good : ℕ → Bool) : Setting ℕ 1 2 1 where
  Vert := Fin 2
  decVert := inferInstance
  vertexOf := fun _ v => v
  hanging := []
  weight := fun _ _ => 1 / 2
  elem := fun s _ => if good s then .good else .bad
  refined := fun _ => .good
  smooth := fun s => s + 1
  enabled := true

/-- Data to start from, with a viscosity coefficient of 5. -/
noncomputable def demoData : Data ℕ 1 2 1 where
  sol := 0
  record := fun _ => false
  fixCoef := fun _ _ => 0
  lap := fun _ _ => 5
  bulk := fun _ _ => 7
  fixIters := 0
  passes := 0

theorem demo_finite (good : ℕ → Bool) (s : ℕ) : (demo good).Finite s := by
  refine ⟨fun e => ?_, by simp [demo]⟩
  simp only [demo]
  split_ifs <;> simp

theorem demo_adm (good : ℕ → Bool) (s : ℕ) : (demo good).Adm s ↔ good s = true := by
  simp [Setting.Adm, demo]

theorem demo_after (good : ℕ → Bool) (i : ℕ) : (demo good).after 0 i = i := by
  induction i with
  | zero => rfl
  | succ i ih => rw [after_succ, ih]; rfl

/-- Steadiness in the example. -/
theorem demo_steady (good : ℕ → Bool) (k : ℕ) :
    (demo good).Steady 0 k ↔ 1 ≤ k ∧ ∀ i, k ≤ i → i < 2 * k → good i = true := by
  simp only [Setting.Steady, demo_after, demo_adm]

/-- The hypotheses of the theorems above are met: a solution that becomes admissible after three
passes is repaired in six. -/
example : ∃ m', fix (demo (3 ≤ ·)) demoData = .done true m' ∧ m'.sol = 6 ∧ m'.fixIters = 5 := by
  have hf : ∀ i, (demo (3 ≤ ·)).Finite ((demo (3 ≤ ·)).after demoData.sol i) :=
    fun i => demo_finite _ _
  have h3 : (demo (3 ≤ ·)).Steady 0 3 := by
    rw [demo_steady]
    exact ⟨by norm_num, fun i h _ => by simpa using h⟩
  obtain ⟨b, m', h⟩ := (fix_returns_iff (demo (3 ≤ ·)) demoData rfl hf).1.2
    (Or.inr ⟨3, h3, by norm_num⟩)
  cases b with
  | false =>
    have := (fix_false _ _ _ rfl h).1
    rw [demo_adm] at this
    simp [demoData] at this
  | true =>
    obtain ⟨_, k, hk, hmin, _, hsol, _, hit, _⟩ := fix_true_partial _ _ _ h
    have hk3 : ¬ 3 < k := fun hlt => hmin 3 hlt h3
    have hk' : 3 ≤ k := by
      have := (demo_steady _ _).1 hk
      simpa using this.2 k le_rfl (by have := this.1; omega)
    have : k = 3 := by omega
    subst this
    exact ⟨m', h, by rw [hsol]; exact demo_after _ _, by rw [hit]; rfl⟩

/-- **C36, refuted.** The solution left behind can be inadmissible although the call reports success:
what the last pass did is never checked. -/
theorem last_pass_refuted :
    ¬ ∀ (S : Type) (ne nv nq : ℕ) (P : Setting S ne nv nq) (m m' : Data S ne nv nq) (b : Bool),
      P.enabled = true → fix P m = .done b m' → P.Adm m'.sol := by
  intro hall
  have hf : ∀ i, (demo (· == 1)).Finite ((demo (· == 1)).after demoData.sol i) :=
    fun i => demo_finite _ _
  have h1 : (demo (· == 1)).Steady 0 1 := by
    rw [demo_steady]
    refine ⟨le_rfl, fun i h h' => ?_⟩
    have : i = 1 := by omega
    simp [this]
  obtain ⟨b, m', h⟩ := (fix_returns_iff (demo (· == 1)) demoData rfl hf).1.2
    (Or.inr ⟨1, h1, by norm_num⟩)
  have hA := hall _ _ _ _ _ _ _ _ rfl h
  cases b with
  | false =>
    have := (fix_false _ _ _ rfl h).1
    rw [demo_adm] at this
    simp [demoData] at this
  | true =>
    obtain ⟨_, k, hk, hmin, _, hsol, _⟩ := fix_true_partial _ _ _ h
    have hk1 : ¬ 1 < k := fun hlt => hmin 1 hlt h1
    have : k = 1 := by have := hk.1; omega
    subst this
    rw [hsol, demo_adm] at hA
    rw [show demoData.sol = 0 from rfl, demo_after] at hA
    simp at hA

end Hexed.Admis
