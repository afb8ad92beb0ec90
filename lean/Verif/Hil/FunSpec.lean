import Verif.Hil.Spec
import Mathlib.Algebra.Order.Group.Unbundled.Int
set_option autoImplicit false
set_option linter.unusedVariables false

/-!
# The functions of the HIL (doc/hil.dox, section "Operators", unary operators with names)
-/

namespace Hexed.Hil
open Hexed.Namespace

/-- The names of the functions of real numbers. -/
def realFunctions : List String := ["sqrt", "exp", "log", "sin", "cos", "tan", "asin", "acos", "atan"]

/-- The number that a value stands for. -/
def real {D : Type} (env : Env D) : DV D → Option D
  | .int i => some (env.dbl.ofInt i)
  | .dbl d => some d
  | _ => none

/-- How a value is printed; floating point numbers in the format `fd`. -/
def shown {D : Type} (env : Env D) (fd : String) : DV D → Option String
  | .int i => some (toString i)
  | .dbl d => env.dbl.fmt fd d
  | .str s => some s
  | .empty => some ""

/-- `Documented env fd name x v out`: applying `name` to `x` gives `v` and prints `out`. -/
inductive Documented {D : Type} (env : Env D) (fd : String) : String → DV D → Val D → List String → Prop
  | real {name : String} {x : DV D} {d : D} : name ∈ realFunctions → real env x = some d →
      Documented env fd name x (.dbl (env.dbl.fn name d)) []
  | nearest {name : String} {x : DV D} {d : D} {i : Int} : name ∈ ["round", "floor", "ceil"] → real env x = some d →
      env.dbl.lround (env.dbl.fn name d) = some i → Documented env fd name x (.int i) []
  | absInt {i : Int} : -2147483648 < i → i ≤ 2147483647 → Documented env fd "abs" (.int i) (.int |i|) []
  | absReal {d : D} : Documented env fd "abs" (.dbl d) (.dbl (env.dbl.abs d)) []
  | read {s t : String} : env.files s = some t → Documented env fd "read" (.str s) (.str t) []
  | print {x : DV D} {s : String} : shown env fd x = some s → Documented env fd "print" x (.str "") [s]
  | println {x : DV D} {s : String} : shown env fd x = some s → Documented env fd "println" x (.str "") [s ++ "\n"]
  | shell {s : String} : Documented env fd "shell" (.str s) (.int (env.shell s)) []

/-- Operands of a wrong type, for functions that do not accept every type, and files that do not exist. -/
inductive Rejected {D : Type} (env : Env D) : String → DV D → Prop
  | real {name s : String} : name ∈ realFunctions ++ ["round", "floor", "ceil"] → Rejected env name (.str s)
  | abs {s : String} : Rejected env "abs" (.str s)
  | missing {s : String} : env.files s = none → Rejected env "read" (.str s)
  | read {x : DV D} : (∀ s, x ≠ .str s) → Rejected env "read" x
  | shell {x : DV D} : (∀ s, x ≠ .str s) → Rejected env "shell" x

end Hexed.Hil
