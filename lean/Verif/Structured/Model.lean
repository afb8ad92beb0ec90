import Verif.Hil.Model
set_option autoImplicit false
set_option linter.unusedVariables false

/-!
# Structured expressions (C83)

Lists of assignments in the interface language that say which quantities to print, visualize, integrate or initialize.
Simplification: text is ASCII (`std::isspace` of a negative `char` is undefined).
-/

namespace Hexed.Structured
open Hexed.Namespace Hexed.Hil

/-- `std::isspace`. -/
def isspace (c : Char) : Bool := c = ' ' ∨ c = '\t' ∨ c = '\n' ∨ c = '\x0b' ∨ c = '\x0c' ∨ c = '\r'

/-- The statements that the loop of `get_side` goes through, Struct_expr.cpp:10-13 and 21: text up to `;`, newline or the end.
Simplification: there is always one more statement after the last separator, if only an empty one, which the loop does not visit; it is ignored below. -/
def statements : List Char → List (List Char)
  | [] => [[]]
  | c :: cs =>
    if c = ';' ∨ c = '\n' then [] :: statements cs
    else match statements cs with
      | s :: ss => (c :: s) :: ss
      | [] => [[c]]

/-- `std::find(start, end, '=')`, Struct_expr.cpp:13-16: text on both sides of the first equal sign, if there is one. -/
def cutEqual : List Char → Option (List Char × List Char)
  | [] => none
  | c :: cs => if c = '=' then some ([], cs) else (cutEqual cs).map fun p => (c :: p.1, p.2)

/-- `while (std::isspace(s.front())) s.erase(0, 1)`, Struct_expr.cpp:17: `none` is `front()` of an empty string, which is undefined. -/
def trimFront : List Char → Option (List Char)
  | [] => none
  | c :: cs => if isspace c then trimFront cs else some (c :: cs)

/-- Struct_expr.cpp:17-18. -/
def trim (s : List Char) : Option (List Char) := (trimFront s).bind fun t => (trimFront t.reverse).map List.reverse

/-- The loop of `get_side`, Struct_expr.cpp:9-22. -/
def sides (right : Bool) : List (List Char) → Option (List (List Char))
  | [] => some []
  | s :: ss =>
    match cutEqual s with
    | none => sides right ss
    | some p => (trim (if right then p.2 else p.1)).bind fun x => (sides right ss).map fun xs => x :: xs

/-- `get_side`, Struct_expr.cpp:7-24. -/
def getSide (code : List Char) (right : Bool) : Option (List (List Char)) := sides right (statements code)

/-- Outcome of constructing a `Struct_expr`. -/
inductive Made
  | ok (names exprs : List (List Char))
  | throws
  | ub
  deriving DecidableEq, Repr

/-- `Struct_expr::Struct_expr`, Struct_expr.cpp:26-32. -/
def make (code : List Char) : Made :=
  match getSide code false, getSide code true with
  | some names, some exprs => if names.any (fun n => n.contains '$') then .throws else .ok names exprs
  | _, _ => .ub

/-- Outcome of `Struct_expr::eval`: values; a failed execution; a variable that has no numeric value (exception); or a value computed by a callback (not modelled). -/
inductive EvalRes (D : Type)
  | ok (vals : List D) (st : St D)
  | failed (r : ExecRes D)
  | missing (name : List Char) (st : St D)
  | callback

/-- `Struct_expr::eval`, Struct_expr.cpp:34-44. Both vectors have the same length (`same_length`). -/
def eval {D : Type} (env : Env D) (fuel : Nat) : List (List Char) → List (List Char) → St D → EvalRes D
  | n :: ns, e :: es, st =>
    match exec env fuel (n ++ '=' :: e) st with
    | .ok st' =>
      match lookupDbl env.dbl.ofInt st'.heap env.me (String.ofList n) with
      | .val d =>
        match eval env fuel ns es st' with
        | .ok ds st'' => .ok (d :: ds) st''
        | r => r
      | .none => .missing n st'
      | _ => .callback
    | r => .failed r
  | _, _, st => .ok [] st

/-- `Interpreter::make_sub`, Interpreter.cpp:382-388, with the constructor 322-353: variables of a new interpreter whose namespace, the last one, is a subspace of `me`. -/
def makeSub {D : Type} (dbl : Dbl D) (hugeVal : D) (h : Heap D) (me : Nat) : Heap D :=
  let id := h.length
  Namespace.exec dbl.ofInt h
    [.new, .createHeis id "ask" .str tokAsk, .createHeis id "exit" .str tokExit, .createHeis id "throw" .str tokThrow,
     .createHeis id "system_time" .dbl 3, .createHeis id "steady_time" .dbl 4, .assign id "huge" (.dbl hugeVal),
     .assign id "exception" (.str ""), .assign id "except" (.str ""), .assign id "format_double" (.str "%g"), .addSuper id me]

/-- The assignments of `Spacetime_expr::operator()`, Spacetime_func.cpp:24-26, for at most three dimensions. -/
def spacetimeOps {D : Type} (zero : D) (id : Nat) (pos : List D) (time : D) : List (Op D) :=
  pos.zipIdx.map (fun p => .assign id ("pos" ++ toString p.2) (.dbl p.1)) ++
    (List.range' pos.length (3 - pos.length)).map (fun i => .assign id ("pos" ++ toString i) (.dbl zero)) ++ [.assign id "time" (.dbl time)]

/-- `Spacetime_expr::operator()`, Spacetime_func.cpp:21-28. The new interpreter has its own text and the standard input and output of the process. -/
def spacetimeExpr {D : Type} (env : Env D) (hugeVal zero : D) (fuel : Nat) (names exprs : List (List Char)) (pos : List D) (time : D) (st : St D) : EvalRes D :=
  let id := st.heap.length
  let sub := makeSub env.dbl hugeVal st.heap env.me
  eval { env with me := id } fuel names exprs { st with text := [], heap := Namespace.exec env.dbl.ofInt sub (spacetimeOps zero id pos time) }

/-- `%*s` and the like: text aligned to the right in a field of the given width. -/
def padLeft (width : Nat) (s : List Char) : List Char := List.replicate (width - s.length) ' ' ++ s

/-- `format_str(1000, "%*s, ", width, s)`, Case.cpp:378-379 and utils.hpp:17-24: `none` is the exception if the text does not fit. -/
def column (name s : List Char) : Option (List Char) :=
  let t := padLeft (max 15 name.length) s ++ [',', ' ']
  if t.length ≥ 1000 then none else some t

/-- Outcome of `header` and `report`: a line; an exception; undefined behaviour; a failed execution; or a value computed by a callback (not modelled). -/
inductive Line (D : Type)
  | line (s : List Char) (st : St D)
  | throws
  | ub
  | failed (r : ExecRes D)
  | callback

/-- `s.erase(s.end() - 2, s.end())`, Case.cpp:381 and 418: undefined if the text is shorter. -/
def eraseTwo {D : Type} (s : List Char) (st : St D) : Line D := if s.length < 2 then .ub else .line (s.take (s.length - 2)) st

/-- `header`, Case.cpp:374-383, for the names of `print_vars`. -/
def header {D : Type} (names : List (List Char)) (st : St D) : Line D :=
  match names.mapM fun n => column n n with
  | none => .throws
  | some cs => eraseTwo cs.flatten st

/-- The loop of `report`, Case.cpp:403-417. `me` is the namespace of the case and `env.me` that of the sub-interpreter. `intText` and `dblText` are what `%i` and `%.8e` print.
A `std::string` that is passed to `snprintf` (415) is undefined behaviour. -/
def reportLoop {D : Type} (env : Env D) (me : Nat) (intText : Int → List Char) (dblText : D → List Char) (fuel : Nat) :
    List (List Char) → List (List Char) → List Char → St D → Line D
  | n :: ns, e :: es, report, st =>
    match exec env fuel (n ++ [' ', '=', ' '] ++ e) st with
    | .ok st' =>
      match lookupInt st'.heap env.me (String.ofList n), lookupDbl env.dbl.ofInt st'.heap env.me (String.ofList n), lookupStr st'.heap env.me (String.ofList n) with
      | .val i, _, _ =>
        match column n (intText i), step env.dbl.ofInt st'.heap (.assign me (String.ofList n) (.int i)) with
        | some c, .ok h => reportLoop env me intText dblText fuel ns es (report ++ c) { st' with heap := h }
        | _, _ => .throws
      | .none, .val d, _ =>
        match column n (dblText d), step env.dbl.ofInt st'.heap (.assign me (String.ofList n) (.dbl d)) with
        | some c, .ok h => reportLoop env me intText dblText fuel ns es (report ++ c) { st' with heap := h }
        | _, _ => .throws
      | .none, .none, .val _ => .ub
      | .none, .none, .none => reportLoop env me intText dblText fuel ns es report st'
      | _, _, _ => .callback
    | r => .failed r
  | _, _, report, st => eraseTwo report st

/-- `report`, Case.cpp:398-421, for the parsed `print_vars`, without `compute_residuals` and `reset_counters`, which concern no variables modelled here. -/
def report {D : Type} (env : Env D) (hugeVal : D) (intText : Int → List Char) (dblText : D → List Char) (fuel : Nat) (names exprs : List (List Char)) (st : St D) : Line D :=
  reportLoop { env with me := st.heap.length } env.me intText dblText fuel names exprs [] { st with text := [], heap := makeSub env.dbl hugeVal st.heap env.me }

end Hexed.Structured
