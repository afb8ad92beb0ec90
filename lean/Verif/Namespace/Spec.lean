import Verif.Namespace.Model
set_option autoImplicit false
set_option linter.unusedVariables false

/-!
# Specification: a namespace is one map from names to typed variables

Independent of the three-map representation.
-/

namespace Hexed.Namespace

/-- A variable as the HIL manual describes it: a value of one type, or a Heisenberg variable of one type. -/
inductive Cell (D : Type)
  | val (v : Val D)
  | heis (t : Ty) (tok : Nat)
  deriving DecidableEq, Repr

/-- The type of a variable. -/
def Cell.ty {D : Type} : Cell D → Ty
  | .val v => v.ty
  | .heis t _ => t

/-- What assigning `v` to a name bound to `c?` must do: `none` = rejected. -/
def specAssign {D : Type} (ofInt : Int → D) : Option (Cell D) → Val D → Option (Cell D)
  | none, v => some (.val v)
  | some (.val (.int _)), .int i => some (.val (.int i))
  | some (.val (.dbl _)), .dbl d => some (.val (.dbl d))
  | some (.val (.dbl _)), .int i => some (.val (.dbl (ofInt i)))
  | some (.val (.str _)), .str t => some (.val (.str t))
  | _, _ => none

/-- What reading a variable as an `int` / a `double` / a `string` must give. -/
def specInt {D : Type} : Cell D → Read Int
  | .val (.int i) => .val i
  | .heis .int t => .fetch t
  | _ => .none
def specDbl {D : Type} (ofInt : Int → D) : Cell D → Read D
  | .val (.dbl d) => .val d
  | .val (.int i) => .val (ofInt i)
  | .heis .dbl t => .fetch t
  | .heis .int t => .fetchInt t
  | _ => .none
def specStr {D : Type} : Cell D → Read String
  | .val (.str s) => .val s
  | .heis .str t => .fetch t
  | _ => .none

/-- Abstraction of one map's entry. -/
def cellOf {D α : Type} (mk : α → Val D) (t : Ty) : Var α → Cell D
  | .value a => .val (mk a)
  | .heis tok => .heis t tok

/-- The variable called `n` in namespace `id`, if any (read off the three maps). -/
def cell {D : Type} (h : Heap D) (id : Nat) (n : String) : Option (Cell D) :=
  match h[id]? with
  | none => none
  | some s =>
    match s.ints n, s.dbls n, s.strs n with
    | some v, _, _ => some (cellOf .int .int v)
    | _, some v, _ => some (cellOf .dbl .dbl v)
    | _, _, some v => some (cellOf .str .str v)
    | _, _, _ => none

/-- The heaps a program can reach: from no namespaces, any history of calls. -/
def Reachable {D : Type} (ofInt : Int → D) (h : Heap D) : Prop := ∃ ops, exec ofInt [] ops = h

/-- The namespaces `id` inherits from, in order. -/
def supersOf {D : Type} (h : Heap D) (id : Nat) : List Nat :=
  match h[id]? with
  | none => []
  | some s => s.supers

end Hexed.Namespace
