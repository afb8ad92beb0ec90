import Verif.Namespace.Model
set_option autoImplicit false
set_option linter.unusedVariables false

/-!
# Model of the HIL interpreter (include/Interpreter.hpp, src/Interpreter.cpp)

* `double` is a type `D` with uninterpreted operations (`Dbl`), so every theorem holds for whatever the C++
  floating-point operations compute.
* `int` is a mathematical integer together with an explicit 32-bit range check: leaving the range, dividing by zero,
  indexing out of a string, dereferencing an empty `std::optional` and `front()` of an empty list are the outcome `ub`.
* C++ exceptions are outcomes: `hil` (an `Hil_exception`) and `cpp` (any other exception).
* `_eval` may not terminate (macros can loop), so it takes a recursion bound; running out of it is the outcome `out`.
  `Lemmas.lean` proves that a result other than `out` does not depend on the bound.
* Simplifications: characters are Unicode scalars instead of bytes, and `isalpha`/`isdigit` are the ASCII ("C" locale)
  ones; `shell` is an uninterpreted function of the command; the effects of Heisenberg callbacks other than `ask`,
  `exit` and `throw` are an uninterpreted function of the interpreter state.
-/

namespace Hexed.Hil
open Hexed.Namespace

/-- The `double` operations the interpreter uses (Interpreter.hpp:37-49, Interpreter.cpp:79-93, 228-276).
`fmt` is `format_str(300, format_double, x)`, `none` if that throws; `lround` is `none` when the result
does not fit in `int` (unspecified in C++). -/
structure Dbl (D : Type) where
  ofInt : Int → D
  add : D → D → D
  sub : D → D → D
  mul : D → D → D
  div : D → D → D
  pow : D → D → D
  lt : D → D → Bool
  le : D → D → Bool
  eq : D → D → Bool
  nz : D → Bool
  neg : D → D
  abs : D → D
  fn : String → D → D
  lround : D → Option Int
  stod : List Char → Option D
  fmt : String → D → Option String

/-- `_Dynamic_value` (Interpreter.hpp:16-24).  Simplification: the three optionals are a sum; no code path sets
more than one of them (variables have one type: `Namespace.one_type`). -/
inductive DV (D : Type)
  | empty
  | int (i : Int)
  | dbl (d : D)
  | str (s : String)
  deriving DecidableEq, Repr

/-- Interpreter state: `_text` (Interpreter.hpp:68) including its terminating null character, the namespaces,
everything printed so far and the lines still to be read from standard input. -/
structure St (D : Type) where
  text : List Char
  heap : Heap D
  out : List String
  stdin : List String

/-- What the interpreter depends on besides its state: the double operations, which namespace is `variables`,
the file system (read only), the shell, the remaining Heisenberg callbacks (`none` = the callback threw) and the
formatting of exception messages (Interpreter.cpp:369 and `HEXED_ASSERT`). -/
structure Env (D : Type) where
  dbl : Dbl D
  me : Nat
  files : String → Option String
  shell : String → Int
  callback : Nat → St D → Option (Val D × St D)
  message : String → List Char → String

/-- Outcome of an evaluation step. -/
inductive Res (D α : Type)
  | ok (a : α) (st : St D)
  | hil (what : String) (st : St D)
  | cpp (st : St D)
  | ub
  | out

/-- Outcome of an operator, which does not touch the text or the variables. -/
inductive PRes (α : Type)
  | ok (a : α)
  | hil (what : String)
  | cpp
  | ub
  deriving DecidableEq, Repr

/-- An operator outcome in a state. -/
def PRes.at {D α : Type} (r : PRes α) (st : St D) : Res D α :=
  match r with
  | .ok a => .ok a st
  | .hil w => .hil w st
  | .cpp => .cpp st
  | .ub => .ub

/-- The range of `int`; leaving it is undefined behaviour. -/
def inRange (i : Int) : Prop := -2147483648 ≤ i ∧ i ≤ 2147483647
instance (i : Int) : Decidable (inRange i) := inferInstanceAs (Decidable (_ ∧ _))

def mkInt {D : Type} (i : Int) : PRes (DV D) := if inRange i then .ok (.int i) else .ub

/-- `math::pow<int>` for a non-negative exponent (math.hpp:29-33): overflow at any step is undefined behaviour. -/
def powLoop (base : Int) : Nat → Option Int
  | 0 => some 1
  | n + 1 =>
    match powLoop base n with
    | none => none
    | some r => if inRange (r * base) then some (r * base) else none

/-- `math::pow<int>` for a negative exponent (math.hpp:34): repeated truncating division. -/
def powLoopNeg (base : Int) : Nat → Option Int
  | 0 => some 1
  | n + 1 =>
    match powLoopNeg base n with
    | none => none
    | some r => if base = 0 then none else if inRange (r.tdiv base) then some (r.tdiv base) else none

/-- `_pow<int>` (Interpreter.cpp:160, math.hpp:29-36). -/
def powInt (base e : Int) : Option Int :=
  if 0 ≤ e then powLoop base e.toNat else powLoopNeg base (-e).toNat

/-- The binary operators (Interpreter.cpp:300-321). -/
inductive BinOp
  | pow | idx | mod | div | mul | sub | add | eq | ne | ge | le | lt | gt | and | or
  deriving DecidableEq, Repr

/-- Operator spelling (Interpreter.cpp:301-320). -/
def BinOp.name : BinOp → List Char
  | .pow => ['^'] | .idx => ['#'] | .mod => ['%'] | .div => ['/'] | .mul => ['*'] | .sub => ['-'] | .add => ['+']
  | .eq => ['=', '='] | .ne => ['!', '='] | .ge => ['>', '='] | .le => ['<', '='] | .lt => ['<'] | .gt => ['>']
  | .and => ['&'] | .or => ['|']

/-- Operator precedence (Interpreter.cpp:301-320). -/
def BinOp.prec : BinOp → Nat
  | .pow => 1 | .idx => 1 | .mod => 2 | .div => 2 | .mul => 2 | .sub => 3 | .add => 3
  | .eq => 4 | .ne => 4 | .ge => 4 | .le => 4 | .lt => 4 | .gt => 4 | .and => 5 | .or => 5

/-- The keys of `_bin_ops` (Interpreter.hpp:70), in the order a `std::map` iterates them. -/
def binOps : List BinOp := [.ne, .idx, .mod, .and, .mul, .add, .sub, .div, .lt, .le, .eq, .gt, .ge, .pow, .or]

/-- The keys of `_un_ops` (Interpreter.cpp:243-298). -/
def unOps : List String :=
  ["-", "!", "#", "sqrt", "exp", "log", "sin", "cos", "tan", "asin", "acos", "atan", "round", "floor", "ceil", "abs",
   "read", "print", "println", "shell"]

/-- `numeric_limits<int>::max()`: the precedence argument inside parentheses (Interpreter.cpp:75). -/
def pParen : Nat := 2147483647
/-- `max - 1`: statement level (Interpreter.cpp:366). -/
def pStmt : Nat := 2147483646
/-- `max - 2`: right-hand side of an assignment (Interpreter.cpp:119). -/
def pAssign : Nat := 2147483645

/-- C++ `bool` to `int`. -/
def b2i (b : Bool) : Int := if b then 1 else 0

/-- `_mod` (Interpreter.cpp:162-168). -/
def opMod {D : Type} : DV D → DV D → PRes (DV D)
  | .int a, .int b => if b = 0 then .ub else if a = -2147483648 ∧ b = -1 then .ub else .ok (.int (a.tmod b))
  | _, _ => .hil "binary operator `%` only accepts integers"

/-- Promotion in `_arithmetic_op`/`_comparison_op`: `o.i ? *o.i : *o.d` (Interpreter.cpp:177-178, 191-192);
`none` is the dereference of an empty optional. -/
def promote {D : Type} (dbl : Dbl D) : DV D → Option D
  | .int i => some (dbl.ofInt i)
  | .dbl d => some d
  | _ => none

/-- `_arithmetic_op` (Interpreter.cpp:170-182). -/
def opArith {D : Type} (dbl : Dbl D) (dop : D → D → D) (iop : Int → Int → Option Int) :
    DV D → DV D → PRes (DV D)
  | .str _, _ => .hil "numeric binary operator does not accept strings"
  | _, .str _ => .hil "numeric binary operator does not accept strings"
  | .int a, .int b => match iop a b with
    | some r => mkInt r
    | none => .ub
  | x, y => match promote dbl x, promote dbl y with
    | some a, some b => .ok (.dbl (dop a b))
    | _, _ => .ub

/-- `_comparison_op` (Interpreter.cpp:184-196). -/
def opCmp {D : Type} (dbl : Dbl D) (dop : D → D → Bool) (iop : Int → Int → Bool) :
    DV D → DV D → PRes (DV D)
  | .str _, _ => .hil "numeric binary operator does not accept strings"
  | _, .str _ => .hil "numeric binary operator does not accept strings"
  | .int a, .int b => .ok (.int (b2i (iop a b)))
  | x, y => match promote dbl x, promote dbl y with
    | some a, some b => .ok (.int (b2i (dop a b)))
    | _, _ => .ub

/-- `_general_eq` (Interpreter.cpp:198-208). -/
def opEq {D : Type} (dbl : Dbl D) : DV D → DV D → PRes (DV D)
  | .str a, .str b => .ok (.int (b2i (a == b)))
  | .str _, _ => .hil "operands to `==` must be either both numeric or both `string`"
  | _, .str _ => .hil "operands to `==` must be either both numeric or both `string`"
  | x, y => opCmp dbl dbl.eq (fun a b => a == b) x y

/-- `!=` (Interpreter.cpp:312-314). -/
def opNe {D : Type} (dbl : Dbl D) (x y : DV D) : PRes (DV D) :=
  match opEq dbl x y with
  | .ok (.int i) => .ok (.int (b2i (i == 0)))
  | .ok _ => .cpp
  | r => r

/-- The string form of an operand of string `+` (Interpreter.cpp:217-219, 222-223): an empty value adds nothing;
`none` means `format_str` threw. -/
def strOf {D : Type} (dbl : Dbl D) (fd : String) : DV D → Option String
  | .empty => some ""
  | .int i => some (toString i)
  | .dbl d => dbl.fmt fd d
  | .str s => some s

/-- `_general_add` (Interpreter.cpp:210-226).  `lookup<std::string>("format_double").value()` throws
`bad_optional_access` if there is no such string variable.  Simplification: if `format_double` is a Heisenberg
variable the callback is not called (the outcome is an exception). -/
def opAdd {D : Type} (env : Env D) (heap : Heap D) (x y : DV D) : PRes (DV D) :=
  let concat : PRes (DV D) :=
    match lookupStr heap env.me "format_double" with
    | .val fd =>
      match strOf env.dbl fd x, strOf env.dbl fd y with
      | some a, some b => .ok (.str (a ++ b))
      | _, _ => .cpp
    | _ => .cpp
  match x, y with
  | .str _, _ => concat
  | _, .str _ => concat
  | x, y => opArith env.dbl env.dbl.add (fun a b => some (a + b)) x y

/-- Binary `#` (Interpreter.cpp:302-305): `std::string::operator[]`, for which the index `size()` gives the null
character and anything else outside is undefined behaviour. -/
def opIdx {D : Type} : DV D → DV D → PRes (DV D)
  | .str s, .int i =>
    if i < 0 then .ub
    else match s.toList[i.toNat]? with
      | some c => .ok (.str (String.ofList [c]))
      | none => if i.toNat = s.toList.length then .ok (.str (String.ofList ['\x00'])) else .ub
  | _, _ => .hil "firt operand of binary `#` must be `string` and second must be `int`"

/-- Apply a binary operator (Interpreter.cpp:300-321). -/
def applyBin {D : Type} (env : Env D) (heap : Heap D) (op : BinOp) (x y : DV D) : PRes (DV D) :=
  match op with
  | .pow => opArith env.dbl env.dbl.pow powInt x y
  | .idx => opIdx x y
  | .mod => opMod x y
  | .div => opArith env.dbl env.dbl.div (fun a b => if b = 0 then none else some (a.tdiv b)) x y
  | .mul => opArith env.dbl env.dbl.mul (fun a b => some (a * b)) x y
  | .sub => opArith env.dbl env.dbl.sub (fun a b => some (a - b)) x y
  | .add => opAdd env heap x y
  | .eq => opEq env.dbl x y
  | .ne => opNe env.dbl x y
  | .ge => opCmp env.dbl (fun a b => env.dbl.le b a) (fun a b => decide (b ≤ a)) x y
  | .le => opCmp env.dbl env.dbl.le (fun a b => decide (a ≤ b)) x y
  | .lt => opCmp env.dbl env.dbl.lt (fun a b => decide (a < b)) x y
  | .gt => opCmp env.dbl (fun a b => env.dbl.lt b a) (fun a b => decide (b < a)) x y
  | .and => opCmp env.dbl (fun a b => env.dbl.nz a && env.dbl.nz b) (fun a b => a != 0 && b != 0) x y
  | .or => opCmp env.dbl (fun a b => env.dbl.nz a || env.dbl.nz b) (fun a b => a != 0 || b != 0) x y

/-- `_numeric_unary` (Interpreter.cpp:228-240). -/
def numericUnary {D : Type} (env : Env D) (name : String) (f : D → D) (x : DV D) : PRes D :=
  match promote env.dbl x with
  | some d => .ok (f d)
  | none => .hil ("unary operator `" ++ name ++ "` requires numeric argument")

/-- `(int)std::lround(d)` (Interpreter.cpp:268). -/
def toIntRes {D : Type} (env : Env D) (d : D) : PRes (DV D) :=
  match env.dbl.lround d with
  | some i => .ok (.int i)
  | none => .ub

/-- Sequencing of operator outcomes. -/
def PRes.bind {α β : Type} (r : PRes α) (f : α → PRes β) : PRes β :=
  match r with
  | .ok a => f a
  | .hil w => .hil w
  | .cpp => .cpp
  | .ub => .ub

/-- `print` (Interpreter.cpp:288-292): the value and the printed text. -/
def opPrint {D : Type} (env : Env D) (heap : Heap D) (x : DV D) : PRes (DV D × List String) :=
  (opAdd env heap (.str "") x).bind fun
    | .str s => .ok (.str "", [s])
    | _ => .cpp

/-- Apply a unary operator (Interpreter.cpp:243-298): the value and what was printed. -/
def applyUn {D : Type} (env : Env D) (heap : Heap D) (name : String) (x : DV D) : PRes (DV D × List String) :=
  let pure (r : PRes (DV D)) : PRes (DV D × List String) := r.bind fun v => .ok (v, [])
  if name = "-" then
    pure (match x with
      | .int i => mkInt (i * -1)
      | .dbl d => .ok (.dbl (env.dbl.neg d))
      | _ => .hil "unary operator `-` cannot be applied to type `string`.")
  else if name = "!" then
    pure (match x with
      | .int i => .ok (.int (b2i (i == 0)))
      | _ => .hil "unary operator `!` requires integer argument")
  else if name = "#" then
    pure (match x with
      | .str s => .ok (.int s.toList.length)
      | _ => .hil "unary operator `#` requires string argument")
  else if name = "round" then
    pure ((numericUnary env "round" (env.dbl.fn "round") x).bind fun d => toIntRes env d)
  else if name = "floor" then
    pure ((numericUnary env "floor" (env.dbl.fn "floor") x).bind fun d => toIntRes env (env.dbl.fn "round" d))
  else if name = "ceil" then
    pure ((numericUnary env "ceil" (env.dbl.fn "ceil") x).bind fun d => toIntRes env (env.dbl.fn "round" d))
  else if name = "abs" then
    pure (match x with
      | .int i => mkInt i.natAbs
      | .dbl d => .ok (.dbl (env.dbl.abs d))
      | _ => .cpp)
  else if name = "read" then
    pure (match x with
      | .str s => match env.files s with
        | some t => .ok (.str t)
        | none => .hil "failed to open file"
      | _ => .hil "operand of `read` must be `string`")
  else if name = "print" then opPrint env heap x
  else if name = "println" then (opAdd env heap x (.str "\n")).bind fun y => opPrint env heap y
  else if name = "shell" then
    pure (match x with
      | .str s => .ok (.int (env.shell s))
      | _ => .hil "operand of `shell` must be `string`")
  else
    -- the `<cmath>` functions
    pure ((numericUnary env name (env.dbl.fn name) x).bind fun d => .ok (.dbl d))

/-- Callback tokens of the builtin Heisenberg variables (Interpreter.cpp:326-338). -/
def tokAsk : Nat := 0
def tokExit : Nat := 1
def tokThrow : Nat := 2

/-- A value as a `_Dynamic_value`. -/
def DV.ofVal {D : Type} : Val D → DV D
  | .int i => .int i
  | .dbl d => .dbl d
  | .str s => .str s

/-- Call a Heisenberg callback: `ask`, `exit`, `throw` as in Interpreter.cpp:326-338, any other through `env`. -/
def callHeis {D : Type} (env : Env D) (tok : Nat) (st : St D) : Res D (DV D) :=
  if tok = tokAsk then
    match st.stdin with
    | l :: ls => .ok (.str l) { st with stdin := ls }
    | [] => .ok (.str "") st
  else if tok = tokExit then .ok (.str "") { st with text := [] }
  else if tok = tokThrow then .cpp st
  else
    match env.callback tok st with
    | some (v, st') => .ok (DV.ofVal v) st'
    | none => .cpp st

/-- Variable lookup (Interpreter.cpp:124-129).  After an `int` or `double` was found the C++ code also performs
`lookup<std::string>`, which finds nothing because the variable has one type. -/
def readVar {D : Type} (env : Env D) (n : String) (st : St D) : Res D (DV D) :=
  if existsRec st.heap env.me n then
    match lookupInt st.heap env.me n with
    | .val i => .ok (.int i) st
    | .fetch t => callHeis env t st
    | .fetchInt t => callHeis env t st
    | .none =>
      match lookupDbl env.dbl.ofInt st.heap env.me n with
      | .val d => .ok (.dbl d) st
      | .fetch t => callHeis env t st
      | .fetchInt t => callHeis env t st
      | .none =>
        match lookupStr st.heap env.me n with
        | .val s => .ok (.str s) st
        | .fetch t => callHeis env t st
        | .fetchInt t => callHeis env t st
        | .none => .ok .empty st
  else .hil "undefined variable" st

/-- Variable assignment (Interpreter.cpp:120-122).  A rejected assignment throws `std::runtime_error`
(assert.hpp:33-34, Namespace.hpp:44), which is not an `Hil_exception`. -/
def assignVar {D : Type} (env : Env D) (n : String) (v : DV D) (st : St D) : Res D Unit :=
  let go (w : Val D) : Res D Unit :=
    match step env.dbl.ofInt st.heap (.assign env.me n w) with
    | .ok h => .ok () { st with heap := h }
    | .throws => .cpp st
  match v with
  | .empty => .ok () st
  | .int i => go (.int i)
  | .dbl d => go (.dbl d)
  | .str s => go (.str s)

/-- `_skip_spaces` (Interpreter.cpp:23-25) on a non-empty text. -/
def dropSpaces : List Char → List Char
  | ' ' :: cs => dropSpaces cs
  | cs => cs

/-- `_skip_spaces`: `none` is `front()` of an empty list (only possible after `exit` cleared the text). -/
def skip {D : Type} (st : St D) : Option (St D) :=
  match st.text with
  | [] => none
  | _ => some { st with text := dropSpaces st.text }

/-- Name characters (Interpreter.cpp:40). -/
def isNameChar (c : Char) : Bool := c.isAlpha || c.isDigit || c == '_'

/-- `_read_name` (Interpreter.cpp:37-44): the name and the remaining text. -/
def readName : List Char → List Char × List Char
  | [] => ([], [])
  | c :: cs => if isNameChar c then let r := readName cs; (c :: r.1, r.2) else ([], c :: cs)

/-- The scanning loop of numeric literals (Interpreter.cpp:83-87); `last` is `value.back()`. -/
def scanNum (last : Option Char) : List Char → List Char × List Char
  | [] => ([], [])
  | c :: cs =>
    if c.isDigit || c == '.' || c == 'e' || c == 'E' ||
        ((c == '-' || c == '+') && (last == some 'e' || last == some 'E'))
    then let r := scanNum (some c) cs; (c :: r.1, r.2)
    else ([], c :: cs)

/-- The number a decimal digit stands for (48 is the code of `0`). -/
def digit (c : Char) : Nat := c.toNat - 48

/-- Value of a digit string (the successful case of `std::stoi`). -/
def digitsVal (s : List Char) : Nat := s.foldl (fun acc c => 10 * acc + digit c) 0

/-- Numeric literal (Interpreter.cpp:79-93): the value (`none`: parse failure) and the remaining text. -/
def numLit {D : Type} (env : Env D) (text : List Char) : Option (DV D) × List Char :=
  let r := scanNum none text
  if r.1.all Char.isDigit then
    (if digitsVal r.1 ≤ 2147483647 then some (.int (digitsVal r.1)) else none, r.2)
  else
    ((env.dbl.stod r.1).map .dbl, r.2)

/-- String literal loop (Interpreter.cpp:96-107), after the opening brace: contents and remaining text; `none` if only
the terminating null character is left. -/
def strLit (depth : Nat) (backslash : Bool) : List Char → Option (List Char × List Char)
  | [] => none
  | [_] => none
  | c :: c' :: cs =>
    let d1 := if c == '{' && !backslash then depth + 1 else depth
    let d2 := if c == '}' && !backslash then d1 - 1 else d1
    let b := if c == '\\' then !backslash else false
    if d2 = 0 then some ([], c' :: cs)
    else
      match strLit d2 b (c' :: cs) with
      | none => none
      | some r => some (if b then r.1 else c :: r.1, r.2)

/-- The longest operator name that starts the text (Interpreter.cpp:139-147). -/
def matchOp (text : List Char) : Option BinOp :=
  binOps.foldl (fun best op =>
    if op.name.length < text.length && op.name.isPrefixOf text then
      match best with
      | none => some op
      | some b => if b.name.length < op.name.length then some op else best
    else best) none

/-- The kind of token that starts with a given character: the `if`/`else if` chain of Interpreter.cpp:68-135. -/
inductive Kind
  | subst | sep | lparen | rparen | num | str | name | sym | bad
  deriving DecidableEq, Repr

/-- The conditions of the chain, in the order of the code (Interpreter.cpp:68, 71, 73, 76, 79, 94, 109, 132, 135). -/
def kind (p : Nat) (c : Char) : Kind :=
  if c = '$' then .subst
  else if c = '\n' ∨ c = ';' then .sep
  else if c = '(' then .lparen
  else if p = pParen ∧ c = ')' then .rparen
  else if c.isDigit || c == '.' then .num
  else if c = '{' then .str
  else if c.isAlpha || c == '_' then .name
  else if unOps.contains (String.ofList [c]) then .sym
  else .bad

/-- A recursive evaluation function: precedence, current value, state. -/
abbrev Ef (D : Type) := Nat → DV D → St D → Res D (DV D)

/-- A unary operator applied to the operand that follows (Interpreter.cpp:113, 134). -/
def tokUn {D : Type} (env : Env D) (E A : Ef D) (n : String) (p : Nat) (st : St D) : Res D (DV D) :=
  match E 0 .empty st with
  | .ok x st' =>
    match applyUn env st'.heap n x with
    | .ok (v, printed) => A p v { st' with out := st'.out ++ printed }
    | .hil w => .hil w st'
    | .cpp => .cpp st'
    | .ub => .ub
  | r => r

/-- `_substitute` and `continue` (Interpreter.cpp:53-59, 68-70); `st` is the state after popping `$`. -/
def tokSubst {D : Type} (E : Ef D) (p : Nat) (val : DV D) (st : St D) : Res D (DV D) :=
  match E 0 .empty st with
  | .ok (.str s) st' => E p val { st' with text := s.toList ++ st'.text }
  | .ok _ st' => .hil "only a string can be substituted as code" st'
  | r => r

/-- Assignment or lookup of variable `n` (Interpreter.cpp:115-130), after the name was read. -/
def tokVar {D : Type} (env : Env D) (E A : Ef D) (n : String) (p : Nat) (st : St D) : Res D (DV D) :=
  match skip st with
  | none => .ub
  | some st =>
    if st.text.head? = some '=' ∧ st.text.tail.head? ≠ some '=' then
      match E pAssign .empty { st with text := st.text.tail } with
      | .ok v st' =>
        match assignVar env n v st' with
        | .ok _ st'' => A p v st''
        | .hil w s => .hil w s | .cpp s => .cpp s | .ub => .ub | .out => .out
      | r => r
    else
      match readVar env n st with
      | .ok v st' => A p v st'
      | r => r

/-- An alphabetic name (Interpreter.cpp:109-131). -/
def tokName {D : Type} (env : Env D) (E A : Ef D) (p : Nat) (st : St D) : Res D (DV D) :=
  let n := String.ofList (readName st.text).1
  let st' : St D := { st with text := (readName st.text).2 }
  if unOps.contains n then tokUn env E A n p st' else tokVar env E A n p st'

/-- A parenthesised sub-program (Interpreter.cpp:73-75), after popping `(`. -/
def tokParen {D : Type} (E A : Ef D) (p : Nat) (st : St D) : Res D (DV D) :=
  match E pParen .empty st with
  | .ok v st' => A p v st'
  | r => r

/-- A numeric literal (Interpreter.cpp:79-93). -/
def tokNum {D : Type} (env : Env D) (A : Ef D) (p : Nat) (st : St D) : Res D (DV D) :=
  match numLit env st.text with
  | (some v, rest) => A p v { st with text := rest }
  | (none, rest) => .hil "failed to parse numeric literal" { st with text := rest }

/-- A string literal (Interpreter.cpp:94-108), after popping `{`. -/
def tokStr {D : Type} (A : Ef D) (p : Nat) (st : St D) : Res D (DV D) :=
  match strLit 1 false st.text with
  | some (s, rest) => A p (.str (String.ofList s)) { st with text := rest }
  | none => .hil "command input ended while parsing string literal" { st with text := ['\x00'] }

/-- One round of the `while (_more())` loop of `_eval` (Interpreter.cpp:64-135) with current value `val`; `E` is the
recursive call, `A` the rest of the loop body. -/
def evalBody {D : Type} (env : Env D) (E A : Ef D) (p : Nat) (val : DV D) (st : St D) : Res D (DV D) :=
  if st.text.length ≤ 1 then .ok val st
  else
    match skip st with
    | none => .ub
    | some st =>
      match st.text with
      | [] => .ub
      | c :: cs =>
        let popped : St D := { st with text := cs }
        match kind p c with
        | .subst => tokSubst E p val popped
        | .sep => A p val popped
        | .lparen => tokParen E A p popped
        | .rparen => .ok val popped
        | .num => tokNum env A p st
        | .str => tokStr A p popped
        | .name => tokName env E A p st
        | .sym => tokUn env E A (String.ofList [c]) p popped
        | .bad => .hil "failed to parse value" st

/-- The tail of the loop body after a token (Interpreter.cpp:136-155): spaces, the binary operator loop `B`, then either
leave the loop or go round again. -/
def afterBody {D : Type} (E B : Ef D) (p : Nat) (val : DV D) (st : St D) : Res D (DV D) :=
  match skip st with
  | none => .ub
  | some st =>
    match B p val st with
    | .ok v st' => if p < pStmt then .ok v st' else E p v st'
    | r => r

/-- One round of the binary operator loop (Interpreter.cpp:138-154). -/
def binBody {D : Type} (env : Env D) (E B : Ef D) (p : Nat) (val : DV D) (st : St D) : Res D (DV D) :=
  match matchOp st.text with
  | none => .ok val st
  | some op =>
    if op.prec < p then
      match E op.prec .empty { st with text := st.text.drop op.name.length } with
      | .ok r st' =>
        match applyBin env st'.heap op val r with
        | .ok v =>
          match skip st' with
          | none => .ub
          | some s => B p v s
        | .hil w => .hil w st'
        | .cpp => .cpp st'
        | .ub => .ub
      | r => r
    else .ok val st

mutual
/-- `_eval(precedence)` (Interpreter.cpp:61-158) with a recursion bound. -/
def eval {D : Type} (env : Env D) : Nat → Nat → DV D → St D → Res D (DV D)
  | 0, _, _, _ => .out
  | f + 1, p, val, st =>
    evalBody env (fun p v s => eval env f p v s) (fun p v s => after env f p v s) p val st
/-- Interpreter.cpp:136-155 with a recursion bound. -/
def after {D : Type} (env : Env D) : Nat → Nat → DV D → St D → Res D (DV D)
  | 0, _, _, _ => .out
  | f + 1, p, val, st =>
    afterBody (fun p v s => eval env f p v s) (fun p v s => binLoop env f p v s) p val st
/-- Interpreter.cpp:138-154 with a recursion bound. -/
def binLoop {D : Type} (env : Env D) : Nat → Nat → DV D → St D → Res D (DV D)
  | 0, _, _, _ => .out
  | f + 1, p, val, st =>
    binBody env (fun p v s => eval env f p v s) (fun p v s => binLoop env f p v s) p val st
end

/-- Outcome of `exec`. `unhandled` is `Hil_unhandled_exception`; `raw` is an `Hil_exception` that leaves `exec`. -/
inductive ExecRes (D : Type)
  | ok (st : St D)
  | unhandled (msg : String) (st : St D)
  | raw (what : String) (st : St D)
  | cpp (st : St D)
  | ub
  | out

/-- Discard the rest of the failing statement (Interpreter.cpp:373). -/
def dropStmt : List Char → List Char
  | [] => []
  | [c] => [c]
  | c :: c' :: cs => if c = '\n' ∨ c = ';' then c :: c' :: cs else dropStmt (c' :: cs)

/-- The text appended to the handler (Interpreter.cpp:374). -/
def resetText : List Char := "; exception = {}; except = {};".toList

/-- `exec` (Interpreter.cpp:360-380).  The lock is not modelled: calls are sequential. -/
def exec {D : Type} (env : Env D) (fuel : Nat) (comms : List Char) (st : St D) : ExecRes D :=
  match eval env fuel pStmt .empty { st with text := comms ++ ['\x00'] } with
  | .ok _ st' => .ok { st' with text := [] }
  | .cpp st' => .cpp st'
  | .ub => .ub
  | .out => .out
  | .hil what st' =>
    match lookupStr st'.heap env.me "except" with
    | .val h =>
      if h = "" then .unhandled (env.message what st'.text) st'
      else
        match assignVar env "exception" (.str (env.message what st'.text)) st' with
        | .ok _ st'' =>
          match skip st'' with
          | none => .ub
          | some s =>
            match eval env fuel pStmt .empty
                { s with text := h.toList ++ resetText ++ dropStmt s.text } with
            | .ok _ s' => .ok { s' with text := [] }
            | .hil what s' => .raw what s'
            | .cpp s' => .cpp s'
            | .ub => .ub
            | .out => .out
        | .hil w s => .raw w s
        | .cpp s => .cpp s
        | .ub => .ub
        | .out => .out
    | _ => .cpp st'

/-- Heap of a freshly constructed interpreter with no preload (Interpreter.cpp:322-353): one namespace with the
Heisenberg variables and `huge`, `exception`, `except`, `format_double`. `hugeVal` is `numeric_limits<double>::max()`. -/
def initHeap {D : Type} (dbl : Dbl D) (hugeVal : D) : Heap D :=
  Namespace.exec dbl.ofInt []
    [.new, .createHeis 0 "ask" .str tokAsk, .createHeis 0 "exit" .str tokExit, .createHeis 0 "throw" .str tokThrow,
     .createHeis 0 "system_time" .dbl 3, .createHeis 0 "steady_time" .dbl 4, .assign 0 "huge" (.dbl hugeVal),
     .assign 0 "exception" (.str ""), .assign 0 "except" (.str ""), .assign 0 "format_double" (.str "%g")]

end Hexed.Hil
