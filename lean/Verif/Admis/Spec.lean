import Verif.Admis.Model

set_option autoImplicit false
set_option linter.unusedVariables false

/-!
# What repairing a state means
-/

namespace Hexed.Admis

variable {S : Type} {ne nv nq : ℕ}

/-- The solution passes every check. -/
def Setting.Adm (P : Setting S ne nv nq) (s : S) : Prop :=
  (∀ e, P.elem s e = .good) ∧ P.refined s = .good

/-- Every value checked is a finite number. -/
def Setting.Finite (P : Setting S ne nv nq) (s : S) : Prop :=
  (∀ e, P.elem s e ≠ .abort) ∧ P.refined s ≠ .abort

/-- The solution after `i` smoothing passes. -/
def Setting.after (P : Setting S ne nv nq) (s : S) (i : ℕ) : S := P.smooth^[i] s

/-- The solution is found admissible after `k` passes and stays so until the number of passes
has doubled. -/
def Setting.Steady (P : Setting S ne nv nq) (s : S) (k : ℕ) : Prop :=
  1 ≤ k ∧ ∀ i, k ≤ i → i < 2 * k → P.Adm (P.after s i)

end Hexed.Admis
