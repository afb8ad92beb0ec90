import Verif.MathFn.Bisection
import Mathlib.Algebra.Order.Archimedean.Basic
import Mathlib.Topology.Order.IntermediateValue
import Mathlib.Topology.Instances.Real.Lemmas
import Mathlib.Tactic.Linarith
import Mathlib.Tactic.Ring
import Mathlib.Tactic.Positivity
import Mathlib.Tactic.FieldSimp

set_option autoImplicit false
set_option linter.unusedVariables false

/-!
# C22: bisection keeps the root bracketed
-/

namespace Hexed.MathFn
variable {K : Type} [Field K] [LinearOrder K] [IsStrictOrderedRing K]

/-! ## Lemmas -/

/-- A bracket of a NaN-free function with its function values. -/
def Good (f : K → K) (s : Bracket K) : Prop :=
  s.b0 ≤ s.b1 ∧ s.f0 = some (f s.b0) ∧ s.f1 = some (f s.b1) ∧ f s.b0 * f s.b1 ≤ 0

theorem step_good (f : K → K) (s : Bracket K) (h : Good f s) :
    Good f (bisectStep (fun x => some (f x)) s).1 ∧
    (bisectStep (fun x => some (f x)) s).1.b1 - (bisectStep (fun x => some (f x)) s).1.b0 = (s.b1 - s.b0) / 2 ∧
    s.b0 ≤ (bisectStep (fun x => some (f x)) s).1.b0 ∧ (bisectStep (fun x => some (f x)) s).1.b1 ≤ s.b1 ∧
    ((bisectStep (fun x => some (f x)) s).2 = (bisectStep (fun x => some (f x)) s).1.b0 ∨
     (bisectStep (fun x => some (f x)) s).2 = (bisectStep (fun x => some (f x)) s).1.b1) := by
  obtain ⟨h1, h2, h3, h4⟩ := h
  have hm0 : s.b0 ≤ (s.b0 + s.b1) / 2 := by linarith
  have hm1 : (s.b0 + s.b1) / 2 ≤ s.b1 := by linarith
  simp only [bisectStep, iRepl, h2, h3, nanMul, leZero, Option.isNone_some, Bool.false_eq_true, if_false, decide_eq_true_eq]
  generalize hm : (s.b0 + s.b1) / 2 = m at *
  by_cases hc : f m * f s.b0 ≤ 0
  · simp only [hc, if_true]
    exact ⟨⟨hm0, rfl, rfl, by rw [mul_comm]; exact hc⟩, by rw [← hm]; ring, le_refl _, hm1, Or.inr trivial⟩
  · simp only [hc, if_false]
    refine ⟨⟨hm1, rfl, rfl, ?_⟩, by rw [← hm]; ring, hm0, le_refl _, Or.inl trivial⟩
    push Not at hc
    rcases mul_pos_iff.1 hc with ⟨ha, hb⟩ | ⟨ha, hb⟩
    · have : f s.b1 ≤ 0 := by by_contra hcon; push Not at hcon; linarith [mul_pos hb hcon]
      exact mul_nonpos_of_nonneg_of_nonpos ha.le this
    · have : 0 ≤ f s.b1 := by by_contra hcon; push Not at hcon; linarith [mul_pos_of_neg_of_neg hb hcon]
      exact mul_nonpos_of_nonpos_of_nonneg ha.le this

theorem loop_good (f : K → K) (atol : K) : ∀ (n : Nat) (s : Bracket K), Good f s → s.b1 - s.b0 ≤ atol * 2 ^ (n + 1) →
    ∃ x a b, (∀ k, bisectLoop (fun x => some (f x)) atol (n + 1 + k) s = .ok x) ∧ (x = a ∨ x = b) ∧ s.b0 ≤ a ∧ a ≤ b ∧ b ≤ s.b1 ∧
      f a * f b ≤ 0 ∧ b - a ≤ atol ∧ b - a ≤ (s.b1 - s.b0) / 2
  | n, s, hs, hw => by
    obtain ⟨g, hhalf, hl, hr, hx⟩ := step_good f s hs
    have hwid : 0 ≤ (s.b1 - s.b0) := by linarith [hs.1]
    by_cases hc : (bisectStep (fun x => some (f x)) s).1.b1 - (bisectStep (fun x => some (f x)) s).1.b0 > atol
    · cases n with
      | zero => exfalso; rw [hhalf] at hc; simp at hw; linarith
      | succ n =>
        obtain ⟨x, a, b, e1, e2, e3, e4, e5, e6, e7, e8⟩ := loop_good f atol n _ g (by
          rw [hhalf]; rw [pow_succ] at hw; linarith)
        refine ⟨x, a, b, ?_, e2, hl.trans e3, e4, e5.trans hr, e6, e7, ?_⟩
        · intro k
          rw [show n + 1 + 1 + k = (n + 1 + k) + 1 by omega, bisectLoop]
          simp only [hc, if_true]
          exact e1 k
        · rw [hhalf] at e8; linarith
    · refine ⟨_, _, _, ?_, hx, hl, g.1, hr, g.2.2.2, by push Not at hc; exact hc, hhalf.le⟩
      intro k
      rw [show n + 1 + k = (n + k) + 1 by omega, bisectLoop]
      simp only [hc, if_false]

/-! ## Properties -/

/-- C22: from a bracket without a sign change (values of one strict sign) `bisection` throws. -/
theorem bisection_rejects (fuel : Nat) (f : K → K) (b0 b1 atol : K) (h : 0 < f b0 * f b1) :
    (match bisection fuel (fun x => some (f x)) b0 b1 atol with | .throws => True | _ => False) := by
  simp [bisection, nanMul, gtZero, h]

/-- C22: from a bracket with a sign change, with a positive tolerance, `bisection` ends after at most
`log2(width/atol) + 1` passes (`n + 1` passes suffice if `width ≤ atol * 2^(n+1)`) and returns an end of a
sub-bracket that still has a sign change, is no wider than the tolerance and at most half the original. -/
theorem bisection_bracket (f : K → K) (b0 b1 atol : K) (n : Nat) (hb : b0 ≤ b1) (hsign : f b0 * f b1 ≤ 0)
    (hn : b1 - b0 ≤ atol * 2 ^ (n + 1)) :
    ∃ x a b, (∀ fuel, n + 1 ≤ fuel → bisection fuel (fun x => some (f x)) b0 b1 atol = .ok x) ∧
      (x = a ∨ x = b) ∧ b0 ≤ a ∧ a ≤ b ∧ b ≤ b1 ∧ f a * f b ≤ 0 ∧ b - a ≤ atol ∧ b - a ≤ (b1 - b0) / 2 := by
  obtain ⟨x, a, b, h1, h2⟩ := loop_good f atol n ⟨b0, b1, some (f b0), some (f b1)⟩ ⟨hb, rfl, rfl, hsign⟩ hn
  refine ⟨x, a, b, ?_, h2⟩
  intro fuel hf
  obtain ⟨k, rfl⟩ : ∃ k, fuel = n + 1 + k := ⟨fuel - (n + 1), by omega⟩
  simp only [bisection, nanMul, gtZero]
  rw [if_neg (by simpa using hsign)]
  simpa using h1 k

/-- C22: it always ends if the tolerance is positive. -/
theorem bisection_terminates [Archimedean K] (f : K → K) (b0 b1 atol : K) (hb : b0 ≤ b1) (hsign : f b0 * f b1 ≤ 0)
    (htol : 0 < atol) : ∃ n x, ∀ fuel, n ≤ fuel → bisection fuel (fun x => some (f x)) b0 b1 atol = .ok x := by
  obtain ⟨n, hn⟩ := pow_unbounded_of_one_lt ((b1 - b0) / atol) (show (1 : K) < 2 by norm_num)
  obtain ⟨x, a, b, h, _⟩ := bisection_bracket f b0 b1 atol n hb hsign (by
    rw [div_lt_iff₀ htol] at hn
    rw [pow_succ]
    have : (0 : K) < 2 ^ n := by positivity
    nlinarith)
  exact ⟨n + 1, x, h⟩

/-- C22 for continuous real functions: the value returned is within `atol` of a root inside the given bounds. -/
theorem bisection_root (f : ℝ → ℝ) (hf : Continuous f) (b0 b1 atol : ℝ) (hb : b0 ≤ b1) (hsign : f b0 * f b1 ≤ 0)
    (htol : 0 < atol) : ∃ n x r, (∀ fuel, n ≤ fuel → bisection fuel (fun x => some (f x)) b0 b1 atol = .ok x) ∧
      b0 ≤ x ∧ x ≤ b1 ∧ b0 ≤ r ∧ r ≤ b1 ∧ f r = 0 ∧ |x - r| ≤ atol := by
  obtain ⟨n, hn⟩ := pow_unbounded_of_one_lt ((b1 - b0) / atol) (show (1 : ℝ) < 2 by norm_num)
  obtain ⟨x, a, b, h, hx, h1, h2, h3, h4, h5, _⟩ := bisection_bracket f b0 b1 atol n hb hsign (by
    rw [div_lt_iff₀ htol] at hn
    rw [pow_succ]
    have : (0 : ℝ) < 2 ^ n := by positivity
    nlinarith)
  have hroot : ∃ r ∈ Set.Icc a b, f r = 0 := by
    rcases mul_nonpos_iff.1 h4 with ⟨ha, hb'⟩ | ⟨ha, hb'⟩
    · exact intermediate_value_Icc' h2 hf.continuousOn ⟨hb', ha⟩
    · exact intermediate_value_Icc h2 hf.continuousOn ⟨ha, hb'⟩
  obtain ⟨r, ⟨hr1, hr2⟩, hr⟩ := hroot
  refine ⟨n + 1, x, r, h, ?_, ?_, by linarith, by linarith, hr, ?_⟩
  · rcases hx with rfl | rfl <;> linarith
  · rcases hx with rfl | rfl <;> linarith
  · rw [abs_le]; rcases hx with rfl | rfl <;> constructor <;> linarith

/-! ### NaN -/

/-- C22, NaN handling: if at most one end of the bracket has a NaN value and the function may give NaN anywhere, the end that
is not NaN never becomes a NaN end: at every pass at least one end has a proper value. -/
theorem nan_one_sided (func : K → Option K) (s : Bracket K) (h : ¬ (s.f0 = none ∧ s.f1 = none)) :
    ¬ ((bisectStep func s).1.f0 = none ∧ (bisectStep func s).1.f1 = none) := by
  simp only [bisectStep, iRepl]
  obtain ⟨b0, b1, f0, f1⟩ := s
  cases f0 <;> cases f1
  · simp at h
  · simp
  · simp
  · rename_i a b
    by_cases hc : leZero (nanMul (func ((b0 + b1) / 2)) (some a)) <;> simp [hc]

/-- With a NaN end, it is that end which moves, so the search closes in on the other end until a proper value is met. -/
theorem nan_end_moves (func : K → Option K) (s : Bracket K) :
    (s.f0 = none → s.f1 ≠ none → (bisectStep func s).1.b0 = (s.b0 + s.b1) / 2 ∧ (bisectStep func s).1.b1 = s.b1) ∧
    (s.f1 = none → (bisectStep func s).1.b1 = (s.b0 + s.b1) / 2 ∧ (bisectStep func s).1.b0 = s.b0) := by
  constructor
  · intro h0 h1
    obtain ⟨b, hb⟩ := Option.ne_none_iff_exists'.1 h1
    simp [bisectStep, iRepl, h0, hb]
  · intro h1
    simp [bisectStep, iRepl, h1]

/-- Both ends NaN is rejected. -/
theorem nan_rejects (fuel : Nat) (func : K → Option K) (b0 b1 atol : K) (h0 : func b0 = none) (h1 : func b1 = none) :
    (match bisection fuel func b0 b1 atol with | .throws => True | _ => False) := by
  simp [bisection, h0, h1, nanMul, gtZero]

example : ∃ x : ℚ, (∀ fuel, 3 ≤ fuel → bisection fuel (fun x => some (x * x - 2)) 0 2 (1 / 4) = .ok x) := by
  obtain ⟨x, a, b, h, _⟩ := bisection_bracket (K := ℚ) (fun x => x * x - 2) 0 2 (1 / 4) 2 (by norm_num) (by norm_num) (by norm_num)
  exact ⟨x, h⟩

end Hexed.MathFn
