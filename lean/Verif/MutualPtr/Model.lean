set_option autoImplicit false
set_option linter.unusedVariables false

/-!
# Model of `hexed::Mutual_ptr` (include/Mutual_ptr.hpp)

Objects live in a memory indexed by addresses. Reading or writing a member of an object that is not alive is undefined
behaviour (`none`). The template parameters are ignored: the model allows every history that is well typed for some `T`,
`U` (including `T = U`, where an object can be paired with itself), and more.
-/

namespace Hexed.MutualPtr

/-- The data members: Mutual_ptr.hpp:22-23. -/
structure Obj where
  mine : Nat
  partner : Option Nat
  deriving DecidableEq

/-- All memory: `none` = no object alive at that address. -/
abbrev Mem := Nat → Option Obj

/-- Write the member `_partner` of the object at `i`; undefined if there is no such object. -/
def setPartner (m : Mem) (i : Nat) (p : Option Nat) : Option Mem :=
  match m i with
  | none => none
  | some o => some fun k => if k = i then some { o with partner := p } else m k

/-- Write the member `_mine`. -/
def setMine (m : Mem) (i : Nat) (d : Nat) : Option Mem :=
  match m i with
  | none => none
  | some o => some fun k => if k = i then some { o with mine := d } else m k

/-- `unpair()`, Mutual_ptr.hpp:61-67: `_partner->_partner = nullptr; _partner = nullptr;` -/
def unpair (m : Mem) (i : Nat) : Option Mem :=
  match m i with
  | none => none
  | some o => match o.partner with
    | none => some m
    | some j => match setPartner m j none with
      | none => none
      | some m' => setPartner m' i none

/-- `pair(other)`, Mutual_ptr.hpp:52-58. -/
def pair (m : Mem) (i j : Nat) : Option Mem :=
  match unpair m i with
  | none => none
  | some m1 => match unpair m1 j with
    | none => none
    | some m2 => match setPartner m2 i (some j) with
      | none => none
      | some m3 => setPartner m3 j (some i)

/-- The constructor, Mutual_ptr.hpp:29-32, at a free address. -/
def construct (m : Mem) (i d : Nat) : Mem := fun k => if k = i then some ⟨d, none⟩ else m k

/-- The destructor, Mutual_ptr.hpp:33. -/
def destroy (m : Mem) (i : Nat) : Option Mem :=
  match unpair m i with
  | none => none
  | some m' => some fun k => if k = i then none else m' k

/-- `operator=(Mutual_ptr&& other)`, Mutual_ptr.hpp:43-49. -/
def moveAssign (m : Mem) (i j : Nat) : Option Mem :=
  match unpair m i with
  | none => none
  | some m1 => match m1 j with
    | none => none
    | some o => match setMine m1 i o.mine with
      | none => none
      | some m2 => match m2 j with
        | none => none
        | some o' => match o'.partner with
          | none => some m2
          | some p => pair m2 i p

/-- The move constructor, Mutual_ptr.hpp:39-42, at a free address. `_mine` is null until the assignment (here 0, never read). -/
def moveConstruct (m : Mem) (i j : Nat) : Option Mem := moveAssign (construct m i 0) i j

/-- `get()`, Mutual_ptr.hpp:72: the partner's data, or null. Outer `none` = undefined behaviour. -/
def get (m : Mem) (i : Nat) : Option (Option Nat) :=
  match m i with
  | none => none
  | some o => match o.partner with
    | none => some none
    | some j => match m j with
      | none => none
      | some o' => some (some o'.mine)

/-- The operations of a history. -/
inductive Op
  | construct (i d : Nat)
  | destroy (i : Nat)
  | pair (i j : Nat)
  | unpair (i : Nat)
  | moveAssign (i j : Nat)
  | moveConstruct (i j : Nat)

/-- What the C++ type system and object lifetimes demand of the caller: objects named are alive, addresses for new objects
are free. -/
def Legal (m : Mem) : Op → Prop
  | .construct i _ => m i = none
  | .destroy i => (m i).isSome
  | .pair i j => (m i).isSome ∧ (m j).isSome
  | .unpair i => (m i).isSome
  | .moveAssign i j => (m i).isSome ∧ (m j).isSome
  | .moveConstruct i j => m i = none ∧ (m j).isSome

/-- One operation; `none` = undefined behaviour. -/
def step (m : Mem) : Op → Option Mem
  | .construct i d => some (construct m i d)
  | .destroy i => destroy m i
  | .pair i j => pair m i j
  | .unpair i => unpair m i
  | .moveAssign i j => moveAssign m i j
  | .moveConstruct i j => moveConstruct m i j

/-- Memories that arise from the empty one by any history of legal operations. -/
inductive Reachable : Mem → Prop
  | empty : Reachable fun _ => none
  | step {m m' : Mem} (op : Op) : Reachable m → Legal m op → step m op = some m' → Reachable m'

end Hexed.MutualPtr
