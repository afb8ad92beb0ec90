import Mathlib.Analysis.SpecialFunctions.Trigonometric.Chebyshev.RootsExtrema
import Mathlib.Algebra.Polynomial.Splits
import Verif.TimeStep.Spec
set_option autoImplicit false
set_option linter.unusedVariables false

/-! # Lemmas about Chebyshev steps -/

namespace Hexed.TimeStep
open Polynomial Polynomial.Chebyshev Real

/-- The roots of the Chebyshev polynomial. -/
noncomputable def root (n k : ℕ) : ℝ := cos ((2 * k + 1) * π / (2 * n))

theorem cheby_root {n i : ℕ} (hi : i < n) : chebyshevStep n i = 1 / (1 - root n (n - 1 - i)) := by
  have h : ((n - 1 - i : ℕ) : ℝ) = n - 1 - i := by
    rw [Nat.sub_sub, Nat.cast_sub (by omega)]; push_cast; ring
  have hn : (n : ℝ) ≠ 0 := by exact_mod_cast (by omega : n ≠ 0)
  unfold chebyshevStep root
  rw [h]
  congr 3
  field_simp
  ring

theorem root_lt {n k : ℕ} (hk : k < n) : root n k < 1 := by
  have hn : (0 : ℝ) < n := by exact_mod_cast (by omega : 0 < n)
  have hkn : (k : ℝ) + 1 ≤ n := by exact_mod_cast hk
  have h := cos_lt_cos_of_nonneg_of_le_pi (x := 0) (y := (2 * k + 1) * π / (2 * n)) le_rfl (by
    rw [div_le_iff₀ (by positivity)]
    nlinarith [pi_pos]) (by positivity)
  rwa [cos_zero] at h

theorem T_prod (n : ℕ) (x : ℝ) : (T ℝ n).eval x = (T ℝ n).leadingCoeff * ∏ k ∈ Finset.range n, (x - root n k) := by
  have h := C_leadingCoeff_mul_prod_multiset_X_sub_C (p := T ℝ n) (by
    rw [roots_T_real, natDegree_T, Int.natAbs_natCast]
    show Finset.card _ = _
    rw [Finset.card_image_of_injOn, Finset.card_range]
    exact (Finset.range n).nodup_map_iff_injOn.mp (roots_T_real_nodup n))
  conv_lhs => rw [← h]
  rw [roots_T_real, eval_mul, eval_C]
  congr 1
  show eval x (Finset.prod _ _) = _
  rw [Finset.prod_image ((Finset.range n).nodup_map_iff_injOn.mp (roots_T_real_nodup n)), eval_prod]
  simp [root]

/-- The combined effect of all the steps is a Chebyshev polynomial. -/
theorem cheby_prod (n : ℕ) (z : ℝ) : ∏ i ∈ Finset.range n, (1 - chebyshevStep n i * z) = (T ℝ n).eval (1 - z) := by
  have h1 := T_prod n 1
  rw [T_eval_one] at h1
  rw [T_prod, ← Finset.prod_range_reflect]
  have : ∀ i ∈ Finset.range n, 1 - chebyshevStep n (n - 1 - i) * z = (1 - z - root n i) / (1 - root n i) := by
    intro i hi
    have hi := Finset.mem_range.1 hi
    have := root_lt hi
    rw [cheby_root (by omega), show n - 1 - (n - 1 - i) = i by omega]
    have : 1 - root n i ≠ 0 := by linarith
    field_simp
    ring
  rw [Finset.prod_congr rfl this, Finset.prod_div_distrib]
  have hne : ∏ k ∈ Finset.range n, (1 - root n k) ≠ 0 := fun h => by simp [h] at h1
  rw [div_eq_iff hne, mul_right_comm, ← h1, one_mul]

theorem deriv_prod (n : ℕ) (s : ℕ → ℝ) :
    (derivative (∏ i ∈ Finset.range n, (1 - C (s i) * X))).eval 0 = -∑ i ∈ Finset.range n, s i ∧
      (∏ i ∈ Finset.range n, (1 - C (s i) * X)).eval 0 = 1 := by
  induction n with
  | zero => simp
  | succ n ih =>
    rw [Finset.prod_range_succ, Finset.sum_range_succ]
    simp [ih.1, ih.2]
    ring

/-- Together the steps advance by the square of their number. -/
theorem cheby_sum (n : ℕ) : ∑ i ∈ Finset.range n, chebyshevStep n i = n ^ 2 := by
  have h : ∏ i ∈ Finset.range n, (1 - C (chebyshevStep n i) * X) = (T ℝ n).comp (1 - X) := by
    apply Polynomial.funext
    intro z
    rw [eval_prod, eval_comp]
    simpa using cheby_prod n z
  have h2 := (deriv_prod n (chebyshevStep n)).1
  rw [h, derivative_comp] at h2
  simp [derivative_T_eval_one] at h2
  linarith

theorem cheby_pos {n i : ℕ} (hi : i < n) : 0 < chebyshevStep n i := by
  rw [cheby_root hi]
  have := root_lt (n := n) (k := n - 1 - i) (by omega)
  apply one_div_pos.2; linarith

theorem root_anti {n j k : ℕ} (hjk : j ≤ k) (hk : k < n) : root n k ≤ root n j := by
  have hn : (0 : ℝ) < n := by exact_mod_cast (by omega : 0 < n)
  have hkn : (k : ℝ) + 1 ≤ n := by exact_mod_cast hk
  have : (j : ℝ) ≤ k := by exact_mod_cast hjk
  apply cos_le_cos_of_nonneg_of_le_pi
  · positivity
  · rw [div_le_iff₀ (by positivity)]
    nlinarith [pi_pos]
  · gcongr

theorem cheby_mono {n i j : ℕ} (hij : i ≤ j) (hj : j < n) : chebyshevStep n i ≤ chebyshevStep n j := by
  rw [cheby_root (by omega : i < n), cheby_root hj]
  have h1 := root_lt (n := n) (k := n - 1 - j) (by omega)
  have h2 := root_anti (n := n) (j := n - 1 - j) (k := n - 1 - i) (by omega) (by omega)
  apply one_div_le_one_div_of_le <;> linarith

theorem cheby_one : chebyshevStep 1 0 = 1 := by
  rw [chebyshevStep]
  norm_num
  have : cos (1 / 2 * π) = 0 := by rw [show (1 / 2 * π) = π / 2 by ring, cos_pi_div_two]
  rw [this]

end Hexed.TimeStep
