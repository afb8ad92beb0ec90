import Verif.Output.Spec
import Mathlib.Data.Nat.Digits.Lemmas
import Mathlib.Data.List.TakeWhile
set_option autoImplicit false
set_option linter.unusedVariables false

/-!
# Lemmas about output files
-/

namespace Hexed.Output

variable {α : Type}

/-! ## Numbers -/

theorem digit_val {k : Nat} (h : k < 10) : (Char.ofNat (k + 48)).toNat - 48 = k := by
  interval_cases k <;> rfl

theorem digit_ne_slash {k : Nat} (h : k < 10) : Char.ofNat (k + 48) ≠ '/' := by
  interval_cases k <;> decide

/-- The number that decimal digits stand for. -/
def value (s : Str) : Nat := Nat.ofDigits 10 (s.reverse.map fun c => c.toNat - 48)

theorem value_decimal (w : Int) (n : Nat) : value (decimal w n) = n := by
  unfold value decimal
  simp only [List.reverse_append, List.map_append, List.reverse_replicate, List.map_replicate, List.map_reverse, List.reverse_reverse, List.map_map]
  have e : (Nat.digits 10 n).map ((fun c : Char => c.toNat - 48) ∘ fun k => Char.ofNat (k + 48)) = Nat.digits 10 n := by
    conv_rhs => rw [← List.map_id (Nat.digits 10 n)]
    apply List.map_congr_left
    intro k hk
    exact digit_val (Nat.digits_lt_base (by omega) hk)
  rw [e, Nat.ofDigits_append, Nat.ofDigits_digits, show (Char.toNat '0' - 48) = 0 from rfl, Nat.ofDigits_replicate_zero, mul_zero, add_zero]

/-! ## Paths -/

theorem dirOf_append {wd r : Str} (hwd : wd.getLast? = some '/') (hr : '/' ∉ r) : dirOf (wd ++ r) = wd := by
  unfold dirOf
  obtain ⟨u, rfl⟩ : ∃ u, wd = u ++ ['/'] := by
    rw [List.getLast?_eq_some_iff] at hwd
    exact hwd
  rw [List.reverse_append, List.dropWhile_append, if_pos]
  · simp
  · rw [List.isEmpty_iff, List.dropWhile_eq_nil_iff]
    intro x hx
    have : x ≠ '/' := fun e => hr (by rw [← e]; simpa using hx)
    simpa using this

theorem follow_plain {fs : FS α} {p : Str} (h : ∀ t, fs p ≠ some (.link t)) (k : Nat) : follow fs (k + 1) p = some p := by
  unfold follow
  split
  · rename_i t e; exact absurd e (h t)
  · rfl

theorem read_plain {fs : FS α} {p : Str} {c : Content α} (h : fs p = some (.file c)) : read fs p = some c := by
  unfold read
  rw [follow_plain (k := 39) (by intro t; rw [h]; intro e; cases e)]
  simp [h]

theorem read_none {fs : FS α} {p : Str} (h : fs p = none) : read fs p = none := by
  unfold read
  rw [follow_plain (k := 39) (by intro t; rw [h]; intro e; cases e)]
  simp [h]

theorem read_link {fs : FS α} {p t : Str} {c : Content α} (h : fs p = some (.link t)) (ht : t.head? ≠ some '/') (hc : fs (dirOf p ++ t) = some (.file c)) : read fs p = some c := by
  unfold read
  rw [show (40 : Nat) = 39 + 1 from rfl, follow, h]
  dsimp only
  rw [if_neg ht, follow_plain (k := 38) (by intro t; rw [hc]; intro e; cases e)]
  simp [hc]

theorem put_plain {fs : FS α} {p : Str} (h : ∀ t, fs p ≠ some (.link t)) (c : Content α) : put fs p c = some (set fs p (some (.file c))) := by
  unfold put; rw [follow_plain (k := 39) h]; rfl

theorem set_same (fs : FS α) (p : Str) (e : Option (Entry α)) : set fs p e p = e := if_pos rfl
theorem set_other (fs : FS α) {p q : Str} (h : q ≠ p) (e : Option (Entry α)) : set fs p e q = fs q := if_neg h

theorem run_append (l l' : List (Act α)) (fs : FS α) : run (l ++ l') fs = if (run l fs).2 then run l' (run l fs).1 else run l fs := by
  induction l generalizing fs with
  | nil => rfl
  | cons a l ih =>
    rw [List.cons_append, run, run]
    cases step fs a with
    | none => rfl
    | some fs' => exact ih fs'

theorem run_append_ok {l : List (Act α)} {fs fs' : FS α} (h : run l fs = (fs', true)) (l' : List (Act α)) : run (l ++ l') fs = run l' fs' := by
  rw [run_append, h]; rfl

theorem run_save {fs : FS α} {p : Str} (h : ∀ t, fs p ≠ some (.link t)) (c : α) : run (save p c) fs = (set fs p (some (.file (.data c))), true) := by
  unfold save
  rw [run, step, put_plain h]
  dsimp only
  rw [run, step, put_plain (by intro t; rw [set_same]; intro e; cases e)]
  dsimp only
  rw [run]
  congr 1
  funext q
  by_cases hq : q = p
  · rw [hq, set_same, set_same]
  · rw [set_other _ hq, set_other _ hq, set_other _ hq]

end Hexed.Output
