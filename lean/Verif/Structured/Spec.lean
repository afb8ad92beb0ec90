import Verif.Structured.Model
import Verif.Hil.Props
set_option autoImplicit false
set_option linter.unusedVariables false

/-!
# What structured expressions are (C83)
-/

namespace Hexed.Structured
open Hexed.Namespace Hexed.Hil

/-- `ps` are the pieces of `code` between semicolons and line breaks. -/
inductive Pieces : List Char → List (List Char) → Prop
  | last {p : List Char} : NoSep p → Pieces p [p]
  | more {p code : List Char} {c : Char} {ps : List (List Char)} : NoSep p → isSep c → Pieces code ps → Pieces (p ++ c :: code) (p :: ps)

/-- White space of the C locale: space, tab, line feed, vertical tab, form feed, carriage return. -/
def isWhite (c : Char) : Bool := c.toNat == 32 || (9 ≤ c.toNat && c.toNat ≤ 13)
/-- Spaces, tabs and the like only. -/
def Blank (s : List Char) : Prop := ∀ c ∈ s, isWhite c = true
/-- Text that neither begins nor ends with a space, nor is empty. -/
def Trimmed (s : List Char) : Prop := ∃ c d, s.head? = some c ∧ s.getLast? = some d ∧ isWhite c = false ∧ isWhite d = false

/-- The statement `p` is an assignment of `x` to `n`, up to spaces: what stands on the left and right of its first equal sign. -/
def Assigns (p n x : List Char) : Prop :=
  ∃ a b c d, p = (a ++ (n ++ b)) ++ '=' :: (c ++ (x ++ d)) ∧ '=' ∉ n ∧ Blank a ∧ Blank b ∧ Blank c ∧ Blank d ∧ Trimmed n ∧ Trimmed x

/-- A structured expression as documented (Struct_expr.hpp:15-23): assignment statements, without separators within them. -/
def Structured (ss : List (Stmt × List Char)) (t : List Char) : Prop :=
  Prog true ss t ∧ ∀ p ∈ ss, (∃ n, p.1.targets = [n]) ∧ NoSep p.2

/-- Name assigned by each statement. -/
def target (p : Stmt × List Char) : List Char := p.1.targets.headD []

/-- Each right side evaluates to a number, in the state in which it is evaluated. -/
def Numbers {D : Type} (env : Env D) : List (Stmt × List Char) → Heap D → Prop
  | [], _ => True
  | s :: ss, h => (∀ v o, s.1.rhs.meaning env h = .ok (v, o) → Numeric v) ∧ ∀ o h', s.1.meaning env h = .ok (o, h') → Numbers env ss h'

/-- The statements `ss` are executed one after the other by the interpreter with namespace `env.me`, and the number that each assigns is copied to the variable of the same
name in namespace `me`: the texts of these numbers are `cols`, the variables in the end `h'` and what was printed `o'`. -/
inductive Reported {D : Type} (env : Env D) (me : Nat) (intText : Int → List Char) (dblText : D → List Char) :
    List (Stmt × List Char) → Heap D → List String → List (List Char) → Heap D → List String → Prop
  | done (h : Heap D) (o : List String) : Reported env me intText dblText [] h o [] h o
  | int {p : Stmt × List Char} {ss : List (Stmt × List Char)} {h h1 h2 h' : Heap D} {o o1 o' : List String} {cols : List (List Char)} (i : Int) :
      p.1.rhs.Plain env h → p.1.meaning env h = .ok (o1, h1) → cell h1 env.me (String.ofList (target p)) = some (.val (.int i)) →
      step env.dbl.ofInt h1 (.assign me (String.ofList (target p)) (.int i)) = .ok h2 → Reported env me intText dblText ss h2 (o ++ o1) cols h' o' →
      Reported env me intText dblText (p :: ss) h o (intText i :: cols) h' o'
  | dbl {p : Stmt × List Char} {ss : List (Stmt × List Char)} {h h1 h2 h' : Heap D} {o o1 o' : List String} {cols : List (List Char)} (d : D) :
      p.1.rhs.Plain env h → p.1.meaning env h = .ok (o1, h1) → cell h1 env.me (String.ofList (target p)) = some (.val (.dbl d)) →
      step env.dbl.ofInt h1 (.assign me (String.ofList (target p)) (.dbl d)) = .ok h2 → Reported env me intText dblText ss h2 (o ++ o1) cols h' o' →
      Reported env me intText dblText (p :: ss) h o (dblText d :: cols) h' o'

end Hexed.Structured
