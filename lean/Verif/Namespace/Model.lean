set_option autoImplicit false
set_option linter.unusedVariables false

/-!
# Model of `hexed::Namespace` (include/Namespace.hpp)

`std::shared_ptr<Namespace>` is an index into a heap of spaces; a `std::map` is a partial function from
names.  `double` is a type parameter `D` with an arbitrary conversion `ofInt` from `int` (so the theorems hold
for IEEE doubles, whatever the conversion does).  A `Heisenberg` variable (Namespace.hpp:38-52) holds a
callback; the model stores a token naming the callback, and a lookup that would call it returns the token.
-/

namespace Hexed.Namespace

/-- The three types a variable can have (Namespace.hpp:55-57, 75-77). -/
inductive Ty | int | dbl | str
  deriving DecidableEq, Repr

/-- A C++ value passed to `create`/`assign` (the template argument `T` and the value). -/
inductive Val (D : Type)
  | int (i : Int)
  | dbl (d : D)
  | str (s : String)
  deriving DecidableEq, Repr

/-- The static type `T` of a value. -/
def Val.ty {D : Type} : Val D → Ty
  | .int _ => .int
  | .dbl _ => .dbl
  | .str _ => .str

/-- `Namespace::Variable<T>` (Namespace.hpp:19-52): a plain `Value` or a `Heisenberg` callback. -/
inductive Var (α : Type)
  | value (v : α)
  | heis (tok : Nat)
  deriving DecidableEq, Repr

/-- The data members of a `Namespace` (Namespace.hpp:55-61). -/
structure Space (D : Type) where
  ints : String → Option (Var Int)
  dbls : String → Option (Var D)
  strs : String → Option (Var String)
  supers : List Nat

/-- A default-constructed `Namespace`. -/
def Space.empty {D : Type} : Space D := ⟨fun _ => none, fun _ => none, fun _ => none, []⟩

/-- All `Namespace` objects alive, addressed by index. -/
abbrev Heap (D : Type) := List (Space D)

/-- `exists` (Namespace.hpp:79-82). -/
def Space.exists {D : Type} (s : Space D) (n : String) : Bool :=
  (s.ints n).isSome || (s.dbls n).isSome || (s.strs n).isSome

/-- `exists` through a pointer; an index outside the heap (a null pointer, undefined behaviour in C++)
is excluded by `Heap.Closed` in every theorem. -/
def existsAt {D : Type} (h : Heap D) (id : Nat) (n : String) : Bool :=
  match h[id]? with
  | none => false
  | some s => s.exists n

/-- `exists_recursive` (Namespace.hpp:84-92): note `all_of`, and the non-recursive `exists` on the supers. -/
def existsRec {D : Type} (h : Heap D) (id : Nat) (n : String) : Bool :=
  match h[id]? with
  | none => false
  | some s =>
    if s.exists n then true
    else if !s.supers.isEmpty then s.supers.all (fun j => existsAt h j n)
    else false

/-- `std::map::emplace`/`Value::set` at a key. -/
def upd {α : Type} (f : String → Option α) (n : String) (a : α) : String → Option α :=
  fun m => if m = n then some a else f m

/-- Outcome of a mutating call: completed with a new heap, or an exception was thrown. -/
inductive Outcome (D : Type)
  | ok (h : Heap D)
  | throws

/-- `_get_map<T>().emplace` (Namespace.hpp:99). -/
def Space.put {D : Type} (s : Space D) (n : String) : Val D → Space D
  | .int i => { s with ints := upd s.ints n (.value i) }
  | .dbl d => { s with dbls := upd s.dbls n (.value d) }
  | .str t => { s with strs := upd s.strs n (.value t) }

/-- `_get_map<T>().emplace` of a `Heisenberg` variable (Namespace.hpp:99). -/
def Space.putHeis {D : Type} (s : Space D) (n : String) (tok : Nat) : Ty → Space D
  | .int => { s with ints := upd s.ints n (.heis tok) }
  | .dbl => { s with dbls := upd s.dbls n (.heis tok) }
  | .str => { s with strs := upd s.strs n (.heis tok) }

/-- `create(name, new Value<T>(v))` (Namespace.hpp:94-100): `none` means the assertion threw. -/
def Space.create {D : Type} (s : Space D) (n : String) (v : Val D) : Option (Space D) :=
  if s.exists n then none else some (s.put n v)

/-- `create(name, new Heisenberg<T>(...))` (Namespace.hpp:94-100). -/
def Space.createHeis {D : Type} (s : Space D) (n : String) (tok : Nat) (t : Ty) : Option (Space D) :=
  if s.exists n then none else some (s.putHeis n tok t)

/-- `_get_map<T>().at(name)->set(value)` (Namespace.hpp:34, 44): `Heisenberg::set` throws. -/
def setVar {α : Type} (f : String → Option (Var α)) (n : String) (old : Var α) (a : α) :
    Option (String → Option (Var α)) :=
  match old with
  | .value _ => some (upd f n (.value a))
  | .heis _ => none

/-- `assign` (Namespace.hpp:102-112): same-type variable, then int-to-double, then `create`. -/
def Space.assign {D : Type} (ofInt : Int → D) (s : Space D) (n : String) (v : Val D) : Option (Space D) :=
  match v with
  | .int i =>
    match s.ints n with
    | some o => (setVar s.ints n o i).map fun f => { s with ints := f }
    | none =>
      match s.dbls n with
      | some o => (setVar s.dbls n o (ofInt i)).map fun f => { s with dbls := f }
      | none => s.create n (.int i)
  | .dbl d =>
    match s.dbls n with
    | some o => (setVar s.dbls n o d).map fun f => { s with dbls := f }
    | none => s.create n (.dbl d)
  | .str t =>
    match s.strs n with
    | some o => (setVar s.strs n o t).map fun f => { s with strs := f }
    | none => s.create n (.str t)

/-- The public operations. -/
inductive Op (D : Type)
  | new
  | addSuper (id sup : Nat)
  | create (id : Nat) (n : String) (v : Val D)
  | createHeis (id : Nat) (n : String) (t : Ty) (tok : Nat)
  | assign (id : Nat) (n : String) (v : Val D)
  | assignDefault (id : Nat) (n : String) (v : Val D)

/-- Run a space-level mutation on object `id`. -/
def onSpace {D : Type} (h : Heap D) (id : Nat) (f : Space D → Option (Space D)) : Outcome D :=
  match h[id]? with
  | none => .throws
  | some s =>
    match f s with
    | none => .throws
    | some s' => .ok (h.set id s')

/-- One call of a public mutating member function.  `supers.push_back` (Namespace.hpp:61, Interpreter.cpp:386);
`assign_default` (Namespace.hpp:114-118). -/
def step {D : Type} (ofInt : Int → D) (h : Heap D) : Op D → Outcome D
  | .new => .ok (h ++ [Space.empty])
  | .addSuper id sup =>
    if sup < h.length then onSpace h id (fun s => some { s with supers := s.supers ++ [sup] }) else .throws
  | .create id n v => onSpace h id (fun s => s.create n v)
  | .createHeis id n t tok => onSpace h id (fun s => s.createHeis n tok t)
  | .assign id n v => onSpace h id (fun s => s.assign ofInt n v)
  | .assignDefault id n v =>
    if existsRec h id n then .ok h else onSpace h id (fun s => s.assign ofInt n v)

/-- A history: calls that throw leave the heap as it was and the program goes on. -/
def exec {D : Type} (ofInt : Int → D) (h : Heap D) : List (Op D) → Heap D
  | [] => h
  | op :: ops =>
    match step ofInt h op with
    | .ok h' => exec ofInt h' ops
    | .throws => exec ofInt h ops

/-- Result of `lookup<T>`: no value, a value, a `T` callback to be called, or (for `T = double`) an `int`
callback whose result is converted (Namespace.hpp:129-133). -/
inductive Read (α : Type)
  | none
  | val (a : α)
  | fetch (tok : Nat)
  | fetchInt (tok : Nat)
  deriving DecidableEq, Repr

/-- `Variable::get` (Namespace.hpp:35, 45-51). -/
def Var.read {α : Type} : Var α → Read α
  | .value a => .val a
  | .heis t => .fetch t

/-- The part of `lookup<int>` that looks in this namespace's own maps (Namespace.hpp:123-128). -/
def Space.localInt {D : Type} (s : Space D) (n : String) : Option (Read Int) :=
  (s.ints n).map Var.read

/-- The part of `lookup<double>` that looks in this namespace's own maps (Namespace.hpp:123-133). -/
def Space.localDbl {D : Type} (ofInt : Int → D) (s : Space D) (n : String) : Option (Read D) :=
  match s.dbls n with
  | some v => some v.read
  | none =>
    match s.ints n with
    | some (.value i) => some (.val (ofInt i))
    | some (.heis t) => some (.fetchInt t)
    | none => none

/-- The part of `lookup<std::string>` that looks in this namespace's own maps (Namespace.hpp:123-128). -/
def Space.localStr {D : Type} (s : Space D) (n : String) : Option (Read String) :=
  (s.strs n).map Var.read

/-- `lookup<T>` (Namespace.hpp:120-140) with a recursion bound: outer `none` means the bound ran out.
`loc` is the type-specific lookup in the namespace's own maps.  `space->lookup` is only called for the first
super-namespace for which `exists_recursive` holds. -/
def lookup {D α : Type} (loc : Space D → String → Option (Read α)) (h : Heap D) :
    Nat → Nat → String → Option (Read α)
  | 0, _, _ => none
  | fuel + 1, id, n =>
    match h[id]? with
    | none => some .none
    | some s =>
      match loc s n with
      | some r => some r
      | none =>
        if !s.exists n then
          match s.supers.find? (fun j => existsRec h j n) with
          | some j => lookup loc h fuel j n
          | none => some .none
        else some .none

/-- The value of `lookup<T>`: `lookup_fuel` in `Lemmas.lean` shows that the recursion never goes deeper than
three levels, even if the super-namespace graph has cycles, so this is the value for every bound ≥ 3. -/
def lookupVal {D α : Type} (loc : Space D → String → Option (Read α)) (h : Heap D) (id : Nat) (n : String) :
    Read α :=
  match lookup loc h 3 id n with
  | some r => r
  | none => .none

/-- `lookup<int>`. -/
def lookupInt {D : Type} (h : Heap D) (id : Nat) (n : String) : Read Int := lookupVal Space.localInt h id n
/-- `lookup<double>`. -/
def lookupDbl {D : Type} (ofInt : Int → D) (h : Heap D) (id : Nat) (n : String) : Read D :=
  lookupVal (Space.localDbl ofInt) h id n
/-- `lookup<std::string>`. -/
def lookupStr {D : Type} (h : Heap D) (id : Nat) (n : String) : Read String := lookupVal Space.localStr h id n

end Hexed.Namespace
