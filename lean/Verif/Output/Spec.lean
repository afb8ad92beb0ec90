import Verif.Output.Model
set_option autoImplicit false
set_option linter.unusedVariables false

/-!
# What users expect of output files
-/

namespace Hexed.Output

variable {α : Type}

/-- A working directory as the program leaves it: names of output files are no links, and the two `latest` links, if there, lead to files of iterations. Everything else is arbitrary. -/
def Tidy (wd : Str) (fs : FS α) : Prop :=
  (∀ r t, fs (wd ++ 'i' :: r) ≠ some (.link t) ∧ fs (wd ++ 's' :: r) ≠ some (.link t) ∧ fs (wd ++ 'f' :: r) ≠ some (.link t)) ∧
  ∀ ext, ext = mesh ∨ ext = state → ∀ t, fs (wd ++ "latest".toList ++ ext) = some (.link t) → ∃ r c, t = 'i' :: r ∧ fs (wd ++ t) = some (.file c)

/-- What can happen in a working directory. -/
inductive Op (α : Type)
  | mesh (iteration : Nat) (c : α)
  | state (iteration : Nat) (c : α)
  | vis (iteration : Nat) (f : Flags) (content : Picture → α)

/-- The actions of an operation; nothing is done but throwing if the suffix of the iteration is too long. -/
def Op.acts (wd : Str) (w : Int) : Op α → List (Act α)
  | .mesh n c => ((suffix w n).map fun s => write Output.mesh wd s c).getD [.fail]
  | .state n c => ((suffix w n).map fun s => write Output.state wd s c).getD [.fail]
  | .vis n f content => ((suffix w n).map fun s => visualize wd s f content).getD [.fail]

/-- A history of operations. -/
def history (wd : Str) (w : Int) (ops : List (Op α)) : List (Act α) := ops.flatMap (Op.acts wd w)

/-- Contents of all meshes (states) written in a history, with their iterations. -/
def meshes (ops : List (Op α)) : List (Nat × α) := ops.filterMap fun | .mesh n c => some (n, c) | _ => none
def states (ops : List (Op α)) : List (Nat × α) := ops.filterMap fun | .state n c => some (n, c) | _ => none

/-- What the last command with an iteration wrote is in the file of that iteration, and `latest` leads to the last of all. -/
def Current (wd : Str) (w : Int) (ext : Str) (l : List (Nat × α)) (fs : FS α) : Prop :=
  (∀ n c, l.getLast? = some (n, c) → ∃ s, suffix w n = some s ∧ fs (wd ++ s ++ ext) = some (.file (.data c)) ∧ fs (wd ++ "latest".toList ++ ext) = some (.link (s ++ ext))) ∧
  ∀ n c, (l.filter (·.1 = n)).getLast? = some (n, c) → ∃ s, suffix w n = some s ∧ fs (wd ++ s ++ ext) = some (.file (.data c))

end Hexed.Output
