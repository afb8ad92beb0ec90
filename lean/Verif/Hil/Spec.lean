import Verif.Hil.Model
set_option autoImplicit false
set_option linter.unusedVariables false

/-!
# Specification of the HIL: grammar and meaning, from doc/hil.dox

The grammar says how an expression may be written; the meaning is by structural recursion on the expression and knows
nothing about text, precedence climbing or recursion bounds.
-/

namespace Hexed.Hil
open Hexed.Namespace

/-! ## String literals (doc/hil.dox, section "Types and Literals") -/

/-- `Lit src v`: the characters `src` between the outer braces denote the string `v`.  Matched braces are included
literally, a backslash quotes the next character. -/
inductive Lit : List Char → List Char → Prop
  | nil : Lit [] []
  | plain {c : Char} {src v : List Char} : c ≠ '{' → c ≠ '}' → c ≠ '\\' → Lit src v → Lit (c :: src) (c :: v)
  | esc {c : Char} {src v : List Char} : Lit src v → Lit ('\\' :: c :: src) (c :: v)
  | nest {s1 v1 s2 v2 : List Char} : Lit s1 v1 → Lit s2 v2 →
      Lit ('{' :: s1 ++ '}' :: s2) ('{' :: v1 ++ '}' :: v2)

/-- A way to write any string: put a backslash in front of braces and backslashes. -/
def quote : List Char → List Char
  | [] => []
  | c :: cs => if c = '{' ∨ c = '}' ∨ c = '\\' then '\\' :: c :: quote cs else c :: quote cs

/-! ## Numeric literals -/

/-- A string of decimal digits. -/
def Digits (s : List Char) : Prop := ∀ c ∈ s, c.isDigit = true

/-- An optional exponent. -/
def IsExp (s : List Char) : Prop :=
  s = [] ∨ ∃ e sg d, (e = 'e' ∨ e = 'E') ∧ (sg = [] ∨ sg = ['+'] ∨ sg = ['-']) ∧ d ≠ [] ∧ Digits d ∧ s = e :: (sg ++ d)

/-- Numeric literals: digits with an optional fraction and exponent, starting with a digit or a point. -/
def IsNum (s : List Char) : Prop :=
  ∃ a fr ex, Digits a ∧ ((fr = [] ∧ a ≠ []) ∨ ∃ b, Digits b ∧ fr = '.' :: b) ∧ IsExp ex ∧ s = a ++ (fr ++ ex)

/-- The number a digit string denotes: each digit times its power of ten. -/
def decVal : List Char → Nat
  | [] => 0
  | c :: cs => digit c * 10 ^ cs.length + decVal cs

/-- Meaning of a numeric literal: an `int` if it consists of digits only and fits, otherwise whatever `stod` says. -/
def numMeaning {D : Type} (env : Env D) (s : List Char) : PRes (DV D) :=
  if s.all Char.isDigit then
    if decVal s ≤ 2147483647 then .ok (.int (decVal s)) else .hil "failed to parse numeric literal"
  else match env.dbl.stod s with
    | some d => .ok (.dbl d)
    | none => .hil "failed to parse numeric literal"

/-! ## Expressions -/

/-- Expressions (without assignments and macros). -/
inductive Expr
  | num (s : List Char)
  | str (v : List Char)
  | var (n : List Char)
  | un (op : String) (e : Expr)
  | bin (op : BinOp) (a b : Expr)
  | paren (e : Expr)

/-- The precedence table of the manual (doc/hil.dox, section "Operators"). -/
def docPrec : BinOp → Nat
  | .pow | .idx => 1
  | .mod | .div | .mul => 2
  | .sub | .add => 3
  | .eq | .ne | .ge | .le | .gt | .lt => 4
  | .and | .or => 5

/-- Precedence level of an expression: 0 for everything that is not a bare binary operation. -/
def Expr.level : Expr → Nat
  | .bin op _ _ => docPrec op
  | _ => 0

/-- Characters of words: letters, digits and the underscore. -/
def wordChar (c : Char) : Bool := c.isAlpha || c.isDigit || c == '_'

/-- The unary operators of the manual (doc/hil.dox, section "Operators") and `shell`. -/
def opWords : List String :=
  ["-", "!", "#", "sqrt", "exp", "log", "sin", "cos", "tan", "asin", "acos", "atan", "round", "floor", "ceil", "abs",
   "read", "print", "println", "shell"]

/-- How the manual spells the binary operators. -/
def symbol : BinOp → List Char
  | .pow => ['^']
  | .idx => ['#']
  | .mod => ['%']
  | .div => ['/']
  | .mul => ['*']
  | .sub => ['-']
  | .add => ['+']
  | .eq => ['=', '=']
  | .ne => ['!', '=']
  | .ge => ['>', '=']
  | .le => ['<', '=']
  | .gt => ['>']
  | .lt => ['<']
  | .and => ['&']
  | .or => ['|']

/-- A variable name: starts with a letter or underscore, continues with letters, digits, underscores, and is not one of
the operator words. -/
def IsName (n : List Char) : Prop :=
  (∃ c cs, n = c :: cs ∧ (c.isAlpha = true ∨ c = '_')) ∧ (∀ c ∈ n, wordChar c = true) ∧
    opWords.contains (String.ofList n) = false

/-- The tree is the reading the manual prescribes for its unparenthesised parts: operators of lower precedence number
bind tighter, equal precedence groups to the left, unary operators bind tightest. -/
def Expr.Canonical : Expr → Prop
  | .num s => IsNum s
  | .str _ => True
  | .var n => IsName n
  | .un op e => op ∈ opWords ∧ e.level = 0 ∧ e.Canonical
  | .bin op a b => a.level ≤ docPrec op ∧ b.level < docPrec op ∧ a.Canonical ∧ b.Canonical
  | .paren e => e.Canonical

/-- Any number of spaces. -/
def spaces (n : Nat) : List Char := List.replicate n ' '

/-- Operators spelled with letters. -/
def wordOp (op : String) : Bool := op.toList.all Char.isAlpha

/-- All ways of writing an expression: any number of spaces between tokens (a word operator must be separated from a
following name or digit). -/
inductive Render : Expr → List Char → Prop
  | num (s : List Char) : Render (.num s) s
  | str {src v : List Char} : Lit src v → Render (.str v) ('{' :: src ++ ['}'])
  | var (n : List Char) : Render (.var n) n
  | un {op : String} {e : Expr} {s : List Char} (i : Nat) : Render e s →
      (wordOp op = true → ∀ c, (spaces i ++ s).head? = some c → wordChar c = false) →
      Render (.un op e) (op.toList ++ (spaces i ++ s))
  | bin {op : BinOp} {a b : Expr} {s t : List Char} (i j : Nat) : Render a s → Render b t →
      Render (.bin op a b) (s ++ (spaces i ++ (symbol op ++ (spaces j ++ t))))
  | paren {e : Expr} {s : List Char} (i j : Nat) : Render e s →
      Render (.paren e) ('(' :: (spaces i ++ (s ++ (spaces j ++ [')']))))

/-- The meaning of a plain variable. -/
def cellMeaning {D : Type} : Read Int → Read D → Read String → Option (DV D)
  | .val i, _, _ => some (.int i)
  | .none, .val d, _ => some (.dbl d)
  | .none, .none, .val s => some (.str s)
  | _, _, _ => none

/-- The variable `n` is a plain value visible from the interpreter's namespace, namely `v`. -/
def HasValue {D : Type} (env : Env D) (h : Heap D) (n : String) (v : DV D) : Prop :=
  existsRec h env.me n = true ∧
    cellMeaning (lookupInt h env.me n) (lookupDbl env.dbl.ofInt h env.me n) (lookupStr h env.me n) = some v

/-- Meaning of a variable reference. -/
def varMeaning {D : Type} (env : Env D) (h : Heap D) (n : String) : PRes (DV D) :=
  if existsRec h env.me n then
    match cellMeaning (lookupInt h env.me n) (lookupDbl env.dbl.ofInt h env.me n) (lookupStr h env.me n) with
    | some v => .ok v
    | none => .ok .empty
  else .hil "undefined variable"

/-- Every variable mentioned is undefined or plain (not a Heisenberg variable). -/
def Expr.Plain {D : Type} (env : Env D) (h : Heap D) : Expr → Prop
  | .num _ | .str _ => True
  | .var n => existsRec h env.me (String.ofList n) = true → ∃ v, HasValue env h (String.ofList n) v
  | .un _ e => e.Plain env h
  | .bin _ a b => a.Plain env h ∧ b.Plain env h
  | .paren e => e.Plain env h

/-- Meaning of an expression: its value and what it prints; operands left to right, then the operator. -/
def Expr.meaning {D : Type} (env : Env D) (h : Heap D) : Expr → PRes (DV D × List String)
  | .num s => (numMeaning env s).bind fun v => .ok (v, [])
  | .str v => .ok (.str (String.ofList v), [])
  | .var n => (varMeaning env h (String.ofList n)).bind fun v => .ok (v, [])
  | .un op e => (e.meaning env h).bind fun x =>
      (applyUn env h op x.1).bind fun y => .ok (y.1, x.2 ++ y.2)
  | .bin op a b => (a.meaning env h).bind fun x => (b.meaning env h).bind fun y =>
      (applyBin env h op x.1 y.1).bind fun v => .ok (v, x.2 ++ y.2)
  | .paren e => e.meaning env h

/-! ## Statements and programs -/

/-- A statement `n1 = n2 = ... = rhs`; without targets it is an expression statement. -/
structure Stmt where
  targets : List (List Char)
  rhs : Expr

/-- Targets are variable names and the right-hand side is read as the manual says. -/
def Stmt.Canonical (s : Stmt) : Prop := (∀ n ∈ s.targets, IsName n) ∧ s.rhs.Canonical

/-- All ways of writing a statement. -/
inductive RenderStmt : Stmt → List Char → Prop
  | expr {e : Expr} {s : List Char} : Render e s → RenderStmt ⟨[], e⟩ s
  | assign {n : List Char} {ns : List (List Char)} {e : Expr} {s : List Char} (i j : Nat) : RenderStmt ⟨ns, e⟩ s →
      RenderStmt ⟨n :: ns, e⟩ (n ++ (spaces i ++ ('=' :: (spaces j ++ s))))

/-- Assign a value to a variable of the interpreter's namespace (`Namespace.assign_exact` says what that does); an
assignment rejected by the namespace is a C++ exception. -/
def store {D : Type} (env : Env D) (n : String) (v : DV D) (h : Heap D) : PRes (Heap D) :=
  let go (w : Val D) : PRes (Heap D) :=
    match step env.dbl.ofInt h (.assign env.me n w) with
    | .ok h' => .ok h'
    | .throws => .cpp
  match v with
  | .empty => .ok h
  | .int i => go (.int i)
  | .dbl d => go (.dbl d)
  | .str s => go (.str s)

/-- Assign to all targets, the rightmost first. -/
def storeAll {D : Type} (env : Env D) (v : DV D) : List (List Char) → Heap D → PRes (Heap D)
  | [], h => .ok h
  | n :: ns, h => (storeAll env v ns h).bind fun h' => store env (String.ofList n) v h'

/-- Meaning of a statement: printed text and new variables. -/
def Stmt.meaning {D : Type} (env : Env D) (h : Heap D) (s : Stmt) : PRes (List String × Heap D) :=
  (s.rhs.meaning env h).bind fun x => (storeAll env x.1 s.targets h).bind fun h' => .ok (x.2, h')

/-- Outcome of a list of statements: all done, or one raised an exception (with the variables at that point, the text of
the failing statement and the statements not reached), or a foreign C++ exception, or undefined behaviour. -/
inductive ProgRes (D : Type)
  | done (h : Heap D) (o : List String)
  | raised (w : String) (h : Heap D) (src : List Char) (rest : List (Stmt × List Char))
  | cpp
  | ub

/-- Statements in order.  Each comes with the text it is written as. -/
def run {D : Type} (env : Env D) : List (Stmt × List Char) → Heap D → List String → ProgRes D
  | [], h, o => .done h o
  | s :: ss, h, o =>
    match s.1.meaning env h with
    | .ok (o', h') => run env ss h' (o ++ o')
    | .hil w => .raised w h s.2 ss
    | .cpp => .cpp
    | .ub => .ub

/-- No Heisenberg variable is read. -/
def ProgPlain {D : Type} (env : Env D) : List (Stmt × List Char) → Heap D → Prop
  | [], _ => True
  | s :: ss, h => s.1.rhs.Plain env h ∧ ∀ o h', s.1.meaning env h = .ok (o, h') → ProgPlain env ss h'

/-- Statement separators. -/
def isSep (c : Char) : Prop := c = '\n' ∨ c = ';'

/-- Text of a list of statements: separated by at least one newline or semicolon, with any number of spaces and empty
statements.  A statement may not begin with `-` or `#`: after a separator the interpreter still takes those as binary
operators on the value of the previous statement (`stmt_minus_refuted`).  The flag says whether a statement may start
here. -/
inductive Prog : Bool → List (Stmt × List Char) → List Char → Prop
  | done (b : Bool) (k : Nat) : Prog b [] (spaces k)
  | sep (b : Bool) (k : Nat) {c : Char} {ss : List (Stmt × List Char)} {t : List Char} : isSep c → Prog true ss t →
      Prog b ss (spaces k ++ c :: t)
  | stmt (k : Nat) {s : Stmt} {src t : List Char} {ss : List (Stmt × List Char)} : s.Canonical → RenderStmt s src →
      src.head? ≠ some '-' → src.head? ≠ some '#' → Prog false ss t →
      Prog true ((s, src) :: ss) (spaces k ++ (src ++ t))

/-- A program: statement text which is not a non-empty sequence of spaces (which does not parse). -/
def Program (ss : List (Stmt × List Char)) (t : List Char) : Prop := Prog true ss t ∧ ∀ k, t ≠ spaces (k + 1)

end Hexed.Hil
