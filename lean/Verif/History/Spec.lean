import Verif.History.Model
set_option autoImplicit false
set_option linter.unusedVariables false

/-!
# What a history monitor should report
-/

namespace Hexed.History
noncomputable section

/-- The factor by which iterations at which samples are recorded are spaced: `max_samples` such factors make the window. -/
def ratio (win : ℝ) (N : Nat) : ℝ := (1 / (1 - win)) ^ (1 / (N : ℝ))

open Classical in
/-- The samples that are recorded (oldest first): the first one, and then each one that is separated from the last recorded one by a power of
the factor. -/
def recorded (r : ℝ) (h : List (Int × ℝ)) : List (Int × ℝ) :=
  h.foldl (fun acc s => if (∃ l ∈ acc.getLast?, ¬ ∃ k : Nat, (l.1 : ℝ) < r ^ k ∧ r ^ k ≤ s.1) then acc else acc ++ [s]) []

open Classical in
/-- Recorded samples in the window: the last `win` of the iterations. -/
def inWindow (win : ℝ) (rec : List (Int × ℝ)) : List (Int × ℝ) :=
  rec.filter fun s => ∀ l ∈ rec.getLast?, (l.1 : ℝ) * (1 - win) ≤ s.1

/-- The last `N` of them. -/
def lastN {α : Type} (N : Nat) (l : List α) : List α := l.drop (l.length - N)

end
end Hexed.History
