set_option autoImplicit false
set_option linter.unusedVariables false

/-!
# Model of `hexed::Complete_element_container` (include/Element_container.hpp) and of the sequence views
(include/Sequences.hpp)
-/

namespace Hexed.Container

/-- Data members, Element_container.hpp:44-49. An element is its refinement level and whatever else it is (`α`). -/
structure Cont (α : Type) where
  next_sn : Nat
  vec : List (Nat × α)
  serial_ns : List Nat

variable {α : Type}

/-- The constructor, Element_container.hpp:53-55. -/
def Cont.new : Cont α := ⟨0, [], []⟩

/-- `emplace`, Element_container.hpp:57-62: the new container and the serial number returned. -/
def Cont.emplace (c : Cont α) (level : Nat) (a : α) : Cont α × Nat :=
  (⟨c.next_sn + 1, c.vec ++ [(level, a)], c.serial_ns ++ [c.next_sn]⟩, c.next_sn)

/-- `std::lower_bound` on `a[first, first+len)` as a binary search; `none` = access out of range. -/
def lowerBound (a : List Nat) (x first len : Nat) : Option Nat :=
  if h : len = 0 then some first
  else
    match a[first + len / 2]? with
    | none => none
    | some y => if y < x then lowerBound a x (first + len / 2 + 1) (len - len / 2 - 1) else lowerBound a x first (len / 2)
termination_by len
decreasing_by all_goals omega

/-- `std::upper_bound`, likewise. -/
def upperBound (a : List Nat) (x first len : Nat) : Option Nat :=
  if h : len = 0 then some first
  else
    match a[first + len / 2]? with
    | none => none
    | some y => if x < y then upperBound a x first (len / 2) else upperBound a x (first + len / 2 + 1) (len - len / 2 - 1)
termination_by len
decreasing_by all_goals omega

/-- Outcome of `at`. -/
inductive At (α : Type)
  | ok (a : α)
  | throws
  | ub
  deriving DecidableEq

/-- `at`, Element_container.hpp:64-71. `std::equal_range` is the pair of `lower_bound` and `upper_bound` (C++ standard,
[equal.range]). -/
def Cont.at (c : Cont α) (level serial_n : Nat) : At α :=
  match lowerBound c.serial_ns serial_n 0 c.serial_ns.length, upperBound c.serial_ns serial_n 0 c.serial_ns.length with
  | some lo, some hi =>
    if (hi : Int) - lo = 1 then
      match c.vec[lo]? with
      | none => .ub
      | some (l, a) => if l = level then .ok a else .throws
    else .throws
  | _, _ => .ub

/-- The loop of `purge`, Element_container.hpp:87-92, from index `i` for the remaining elements. `none` = access to
`serial_ns` out of range. -/
def purgeLoop (pred : Nat × α → Bool) (serial_ns : List Nat) : Nat → List (Nat × α) → List (Nat × α) → List Nat →
    Option (List (Nat × α) × List Nat)
  | _, [], nv, ns => some (nv, ns)
  | i, e :: es, nv, ns =>
    if !pred e then
      match serial_ns[i]? with
      | none => none
      | some s => purgeLoop pred serial_ns (i + 1) es (nv ++ [e]) (ns ++ [s])
    else purgeLoop pred serial_ns (i + 1) es nv ns

/-- `purge`, Element_container.hpp:82-96: the new container and the number of elements deleted. -/
def Cont.purge (c : Cont α) (pred : Nat × α → Bool) : Option (Cont α × Nat) :=
  match purgeLoop pred c.serial_ns 0 c.vec [] [] with
  | none => none
  | some (v, s) => some (⟨c.next_sn, v, s⟩, c.vec.length - v.length)

/-- `elem_handles`, Element_container.hpp:98-105. -/
def Cont.handles (c : Cont α) : List (Nat × Nat) := (c.vec.map (·.1)).zip c.serial_ns

/-- `elements()`, Element_container.hpp:75-78: the elements in storage order. -/
def Cont.elements (c : Cont α) : List α := c.vec.map (·.2)

/-- A history of calls. -/
inductive Op (α : Type)
  | emplace (level : Nat) (a : α)
  | purge (pred : Nat × α → Bool)

/-- Run a history; `none` = undefined behaviour. -/
def exec : Cont α → List (Op α) → Option (Cont α)
  | c, [] => some c
  | c, .emplace l a :: ops => exec (c.emplace l a).1 ops
  | c, .purge p :: ops => match c.purge p with
    | none => none
    | some (c', _) => exec c' ops

/-! ## Sequences -/

/-- Sequences built from vectors by the views of Sequences.hpp: `Vector_view` (31-49), `Concatenation` (56-76) and `Index`
(80-95). -/
inductive Seq (T : Type)
  | vec (l : List T)
  | cat (s0 s1 : Seq T)
  | index (s : Seq T) (inds : List Int)

/-- `size()`: lines 40-43, 66-69, 86-89. -/
def Seq.size {T : Type} : Seq T → Int
  | .vec l => l.length
  | .cat s0 s1 => s0.size + s1.size
  | .index _ i => i.length

/-- `std::vector::operator[]`; outside the vector it is undefined (`none`). -/
def vecAt {T : Type} (l : List T) (i : Int) : Option T := if i < 0 then none else l[i.toNat]?

/-- `operator[]`: lines 45-48, 71-75, 91-94. -/
def Seq.get {T : Type} : Seq T → Int → Option T
  | .vec l, i => vecAt l i
  | .cat s0 s1, i => let index1 := i - s0.size; if index1 < 0 then s0.get i else s1.get index1
  | .index s inds, i => match vecAt inds i with
    | none => none
    | some j => s.get j

end Hexed.Container
