import Mathlib.Data.Finset.Card
set_option autoImplicit false
set_option linter.unusedVariables false

/-!
# Model of the data passed from extruded elements to the elements they were extruded from

`Solver::synch_extruded_uncert` (src/Solver.cpp 812-831) under every schedule of its parallel loop, and the passing of refinement
requests at the beginning of `Accessible_mesh::update` (src/Accessible_mesh.cpp 1152-1160).

Elements are numbers. Values of the uncertainty are of any type `V`; `gt a b` is the comparison `a > b + 1e-14`.
-/

namespace Hexed.Synch

variable {V : Type}

/-- A connection of `Accessible_mesh::extruded_connections`: `outer` is `element(0)`, the extruded element, and `inner` is `element(1)`,
the one it was extruded from (Accessible_mesh.cpp 425-427). -/
structure Con where
  outer : Nat
  inner : Nat
deriving DecidableEq, Repr

/-- How far the iteration for one connection has come: not begun, first value read, both values read, done. Reading and writing an
uncertainty are atomic (Solver.cpp 821 and 825), everything else is private to the iteration. -/
inductive Pc (V : Type) where
  | start
  | one (a : V)
  | two (a b : V)
  | done

/-- What the threads see during one run of the parallel loop. `changed` is a reduction: whether any iteration has set its copy. -/
structure St (V : Type) where
  u : Nat → V
  pc : Nat → Pc V
  changed : Bool

/-- The next atomic action of iteration `i`, Solver.cpp 819-828. -/
def step (gt : V → V → Bool) (cons : List Con) (s : St V) (i : Nat) : St V :=
  match cons[i]? with
  | none => s
  | some c => match s.pc i with
    | .start => { s with pc := Function.update s.pc i (.one (s.u c.outer)) }
    | .one a => { s with pc := Function.update s.pc i (.two a (s.u c.inner)) }
    | .two a b =>
      if gt a b then { u := Function.update s.u c.inner a, pc := Function.update s.pc i .done, changed := true }
      else { s with pc := Function.update s.pc i .done }
    | .done => s

/-- The parallel loop, Solver.cpp 817-829: the actions of the iterations are executed in the order given by `sched`. -/
def pass (gt : V → V → Bool) (cons : List Con) (u : Nat → V) (sched : List Nat) : St V :=
  sched.foldl (step gt cons) ⟨u, fun _ => .start, false⟩

/-- The loop `while (changed)`, Solver.cpp 815-830: `sched k` is the schedule of pass `k`; `none` = the loop has not ended after `n`
passes. -/
def synch (gt : V → V → Bool) (cons : List Con) (sched : Nat → List Nat) : Nat → Nat → (Nat → V) → Option (Nat → V)
  | _, 0, _ => none
  | k, n + 1, u =>
    let s := pass gt cons u (sched k)
    if s.changed then synch gt cons sched (k + 1) n s.u else some s.u

/-! ## Refinement requests -/

/-- The members `record` and `unrefinement_locked` of an element. -/
structure Flags where
  record : Int
  locked : Bool
deriving DecidableEq, Repr

/-- Lines 1144-1148 of Accessible_mesh.cpp: the request of an element from the two criteria. -/
def request (ref unref : Bool) : Int := if ref && !unref then 1 else if unref && !ref then -1 else 0

/-- The body of the loop, Accessible_mesh.cpp 1155-1159. The element at the inside is locked meanwhile, so if no element is at the
outside of one connection and at the inside of another, iterations exclude each other wherever they touch the same data. -/
def inherit (f : Nat → Flags) (c : Con) : Nat → Flags :=
  Function.update f c.inner
    { record := if (f c.inner).record = 0 then (f c.outer).record else max (f c.inner).record (f c.outer).record
      locked := (f c.inner).locked || (f c.outer).locked }

/-- The loop, Accessible_mesh.cpp 1153-1160, with the iterations in the order `order`. -/
def inheritAll (f : Nat → Flags) (order : List Con) : Nat → Flags := order.foldl inherit f

end Hexed.Synch
