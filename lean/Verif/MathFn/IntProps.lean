import Verif.MathFn.Int
import Mathlib.Algebra.Order.Field.Basic
import Mathlib.Algebra.Order.Group.Int
import Mathlib.Algebra.Order.Ring.Int
import Mathlib.Algebra.Order.Ring.Abs
import Mathlib.Tactic.Ring
import Mathlib.Tactic.Linarith
import Mathlib.Tactic.Positivity
import Mathlib.Tactic.IntervalCases

set_option autoImplicit false
set_option linter.unusedVariables false

/-!
# C21: integer power and logarithm
-/

namespace Hexed.MathFn

theorem powUp_eq {K : Type} [Monoid K] (b : K) : ∀ (k : Nat) (e i : Int) (r : K), e - i = k → powUp b e i r = r * b ^ k := by
  intro k
  induction k with
  | zero => intro e i r h; rw [powUp]; simp; omega
  | succ k ih =>
    intro e i r h
    rw [powUp, dif_pos (by omega), ih e (i + 1) _ (by omega), pow_succ', mul_assoc]

theorem powUp_stop {K : Type} [Mul K] (b : K) (e i : Int) (r : K) (h : e ≤ i) : powUp b e i r = r := by
  rw [powUp, dif_neg (by omega)]

theorem powDown_stop {K : Type} [Div K] (b : K) (e i : Int) (r : K) (h : i ≤ e) : powDown b e i r = r := by
  rw [powDown, dif_neg (by omega)]

theorem powDown_eq {K : Type} [Field K] (b : K) : ∀ (k : Nat) (e i : Int) (r : K), i - e = k → powDown b e i r = r / b ^ k := by
  intro k
  induction k with
  | zero => intro e i r h; rw [powDown]; simp; omega
  | succ k ih =>
    intro e i r h
    rw [powDown, dif_pos (by omega), ih e (i - 1) _ (by omega), pow_succ', div_div]

/-- C21: over a field, `pow` is the power with an integer exponent of either sign. -/
theorem pow_field {K : Type} [Field K] (b : K) (n : Int) : pow b n = b ^ n := by
  unfold pow
  rcases le_total 0 n with h | h
  · obtain ⟨k, rfl⟩ := Int.eq_ofNat_of_zero_le h
    rw [powDown_stop _ _ _ _ h, powUp_eq b k _ _ _ (by simp)]; simp
  · obtain ⟨k, hk⟩ := Int.eq_ofNat_of_zero_le (a := -n) (by omega)
    rw [powUp_stop _ _ _ _ h, powDown_eq b k _ _ _ (by omega)]
    have : n = -(k : Int) := by omega
    rw [this]; simp

/-- C21: for a nonnegative exponent `pow` is the power in any number type, for instance in the integers. -/
theorem pow_nat {K : Type} [Monoid K] [Div K] (b : K) (n : Nat) : pow b (n : Int) = b ^ n := by
  unfold pow
  rw [powDown_stop _ _ _ _ (by omega), powUp_eq b n _ _ _ (by simp)]; simp

theorem powUpInt_eq (b : Int) : ∀ (k : Nat) (e i r : Int), e - i = k →
    (∀ j, j ≤ k → intMin ≤ r * b ^ j ∧ r * b ^ j ≤ intMax) → powUpInt b e i r = some (r * b ^ k) := by
  intro k
  induction k with
  | zero => intro e i r h _; rw [powUpInt]; simp; omega
  | succ k ih =>
    intro e i r h hj
    have h1 := hj 1 (by omega)
    rw [pow_one] at h1
    rw [powUpInt, dif_pos (by omega)]
    simp only [mulInt, if_pos h1]
    rw [ih e (i + 1) _ (by omega)]
    · rw [pow_succ', mul_assoc]
    · intro j hjk
      have := hj (j + 1) (by omega)
      rwa [pow_succ', ← mul_assoc] at this

theorem abs_bound {b : Int} {n : Nat} (hb : b ≠ 0) (h : intMin ≤ b ^ n ∧ b ^ n ≤ intMax) (j : Nat) (hj : j < n) :
    intMin ≤ b ^ j ∧ b ^ j ≤ intMax := by
  have h1 : |b ^ n| ≤ intMax + 1 := by
    rw [abs_le]; unfold intMin intMax at *; omega
  by_cases hb1 : |b| = 1
  · have : |b ^ j| = 1 := by rw [abs_pow, hb1, one_pow]
    have := abs_le.1 (le_of_eq this)
    unfold intMin intMax; omega
  · have hpos := abs_pos.2 hb
    have hb2 : 2 ≤ |b| := by omega
    have h2 : |b ^ j| * 2 ≤ |b ^ n| := by
      rw [abs_pow, abs_pow]
      obtain ⟨m, rfl⟩ : ∃ m, n = j + 1 + m := ⟨n - (j + 1), by omega⟩
      rw [pow_add, pow_succ, mul_assoc]
      refine mul_le_mul_of_nonneg_left ?_ (by positivity)
      have : 1 ≤ |b| ^ m := one_le_pow₀ (by omega)
      nlinarith
    have h3 := abs_nonneg (b ^ j)
    have h4 : |b ^ j| ≤ intMax := by unfold intMax at *; omega
    have := abs_le.1 h4
    unfold intMin intMax at *; omega

/-- C21: `pow` on `int` is exact, without overflow on the way, whenever the power is representable. -/
theorem pow_int (b : Int) (n : Nat) (h : intMin ≤ b ^ n ∧ b ^ n ≤ intMax) : powInt b n = some (b ^ n) := by
  unfold powInt
  rw [powUpInt_eq b n n 0 1 (by simp) ?_]
  · simp
  intro j hj
  rw [one_mul]
  by_cases hjn : j = n
  · subst hjn; exact h
  · by_cases hb : b = 0
    · subst hb
      rcases Nat.eq_zero_or_pos j with h0 | h0
      · subst h0; simp [intMin, intMax]
      · rw [zero_pow (by omega)]; simp [intMin, intMax]
    · exact abs_bound hb h j (by omega)

theorem logLoop_eq (b arg : Int) (hb : 2 ≤ b) : ∀ (k n : Nat), arg ≤ b ^ (n + k) → (∀ m, n ≤ m → m < n + k → b ^ m < arg) →
    b ^ (n + k) ≤ intMax → logLoop b arg (b ^ n) n = some ((n + k : Nat) : Int) := by
  intro k
  induction k with
  | zero =>
    intro n h1 _ _
    rw [logLoop, dif_neg (by simpa using h1)]; simp
  | succ k ih =>
    intro n h1 h2 h3
    have hpos : (1 : Int) ≤ b ^ n := one_le_pow₀ (by omega)
    rw [logLoop, dif_pos (h2 n (by omega) (by omega)), dif_pos ⟨hb, hpos⟩, ← pow_succ]
    have hmono : b ^ (n + 1) ≤ b ^ (n + (k + 1)) := pow_le_pow_right₀ (by omega) (by omega)
    rw [if_pos (by omega)]
    have := ih (n + 1) (by rwa [show n + 1 + k = n + (k + 1) by omega]) (fun m hm hm' => h2 m (by omega) (by omega))
      (by rwa [show n + 1 + k = n + (k + 1) by omega])
    rw [show n + 1 + k = n + (k + 1) by omega] at this
    rw [← this]; simp

/-- C21: for `base ≥ 2` and any argument, if `n` is the least exponent with `base^n ≥ arg` and that power is representable,
`log` returns `n`. (For `arg < 1` the least exponent is 0.) -/
theorem log_least (b arg : Int) (n : Nat) (hb : 2 ≤ b) (hn : arg ≤ b ^ n) (hleast : ∀ m, m < n → b ^ m < arg) (hr : b ^ n ≤ intMax) :
    log b arg = some (n : Int) := by
  unfold log
  rw [if_neg (by omega)]
  have := logLoop_eq b arg hb n 0 (by simpa using hn) (fun m _ hm => hleast m (by omega)) (by simpa using hr)
  simpa using this

/-- C21: a base below 2 gives -1, whatever the argument. -/
theorem log_bad_base (b arg : Int) (hb : b < 2) : log b arg = some (-1) := by
  unfold log; rw [if_pos (by omega)]

theorem logLoop_overflow (b arg : Int) (hb : 2 ≤ b) : ∀ (k n : Nat), (∀ m, n ≤ m → m < n + k → b ^ m < arg ∧ b ^ m ≤ intMax) →
    intMax < b ^ (n + k) → b ^ n ≤ intMax → logLoop b arg (b ^ n) n = none := by
  intro k
  induction k with
  | zero => intro n _ h h'; simp at h; omega
  | succ k ih =>
    intro n h1 h2 h3
    have hpos : (1 : Int) ≤ b ^ n := one_le_pow₀ (by omega)
    rw [logLoop, dif_pos (h1 n (by omega) (by omega)).1, dif_pos ⟨hb, hpos⟩, ← pow_succ]
    split
    · rename_i hle
      have := ih (n + 1) (fun m hm hm' => h1 m (by omega) (by omega)) (by rwa [show n + 1 + k = n + (k + 1) by omega]) hle
      rw [← this]; simp
    · rfl

/-- The other side of `log_least`: if the least power reaching `arg` is not representable, `log` multiplies past the range of
`int`, which is undefined, although its result is a small number. -/
theorem log_overflow (b arg : Int) (n : Nat) (hb : 2 ≤ b) (hleast : ∀ m, m < n → b ^ m < arg) (harg : arg ≤ intMax)
    (hr : intMax < b ^ n) : log b arg = none := by
  unfold log
  rw [if_neg (by omega)]
  have := logLoop_overflow b arg hb n 0 (fun m _ hm => ⟨hleast m (by omega), by have := hleast m (by omega); omega⟩)
    (by simpa using hr) (by simp [intMax])
  simpa using this

example : log 3 10 = some 3 ∧ log 2 8 = some 3 ∧ log 2 0 = some 0 ∧ log 1 8 = some (-1) :=
  ⟨log_least 3 10 3 (by norm_num) (by norm_num) (by intro m hm; interval_cases m <;> norm_num) (by norm_num [intMax]),
   log_least 2 8 3 (by norm_num) (by norm_num) (by intro m hm; interval_cases m <;> norm_num) (by norm_num [intMax]),
   log_least 2 0 0 (by norm_num) (by norm_num) (by simp) (by norm_num [intMax]), log_bad_base _ _ (by norm_num)⟩

/-- The overflow happens for representable arguments. -/
example : log 2 2147483647 = none :=
  log_overflow 2 _ 31 (by norm_num) (by
    intro m hm
    have : (2 : Int) ^ m ≤ 2 ^ 30 := pow_le_pow_right₀ (by norm_num) (by omega)
    have h30 : (2 : Int) ^ 30 = 1073741824 := by norm_num
    omega) (by norm_num [intMax]) (by norm_num [intMax])

example : powInt (-2) 31 = some (-2147483648) := by
  have := pow_int (-2) 31 (by norm_num [intMin, intMax])
  norm_num at this; exact this

end Hexed.MathFn
