import Mathlib.Data.Nat.Basic
import Mathlib.Logic.Function.Basic
set_option autoImplicit false
set_option linter.unusedVariables false

/-!
# Measuring the time of tasks (Stopwatch.cpp, Stopwatch_tree.cpp, kernel_factory.hpp, the timed parts of Solver.cpp)

Times are whole nanoseconds (`double` seconds in the program, summed without rounding here). What a piece of work does is left out; how long it takes is arbitrary.
-/

namespace Hexed.Timing

/-- The members of `Stopwatch`, Stopwatch.hpp:15-18. -/
structure Watch where
  n : ℕ := 0
  t : ℕ := 0
  r : Bool := false
  started : ℕ := 0
deriving DecidableEq, Repr

/-- `Stopwatch::start`, Stopwatch.cpp:7-12, at the given time; `none` if it throws. -/
def Watch.start (w : Watch) (now : ℕ) : Option Watch := if w.r then none else some { w with r := true, started := now }

/-- `Stopwatch::pause`, Stopwatch.cpp:14-21. -/
def Watch.pause (w : Watch) (now : ℕ) : Option Watch := if w.r then some { w with r := false, n := w.n + 1, t := w.t + (now - w.started) } else none

/-- `Stopwatch::reset`, Stopwatch.cpp:23-27. -/
def Watch.reset (w : Watch) : Watch := { w with t := 0, n := 0 }

/-- `Stopwatch::operator+`, Stopwatch.cpp:44-51. -/
def Watch.plus (w v : Watch) : Option Watch := if !w.r && !v.r then some { t := w.t + v.t, n := w.n + v.n } else none

/-- `Stopwatch::operator+=`, Stopwatch.cpp:53-61. -/
def Watch.addTo (w v : Watch) : Option Watch := if !w.r && !v.r then some { w with t := w.t + v.t, n := w.n + v.n } else none

/-- One update of a member of a shared stopwatch, Stopwatch.cpp:56-59, each of them atomic. -/
inductive Atomic
  | time (t : ℕ)
  | calls (n : ℕ)
deriving DecidableEq, Repr

def Atomic.apply : Atomic → Watch → Watch
  | .time t, w => { w with t := w.t + t }
  | .calls n, w => { w with n := w.n + n }

/-- What a thread does to the shared stopwatch in `operator+=`, Stopwatch.cpp:53-61. -/
def addActs (v : Watch) : List Atomic := [.time v.t, .calls v.n]

/-- A program that measures times of tasks with names `P`. `timed` is a `start` before and a `pause` after; `guarded` is the object of Stopwatch.hpp:22-29, whose destructor pauses also if there is an exception; `fail` is an exception. -/
inductive Cmd (P : Type)
  | skip
  | work
  | fail
  | units (p : P) (k : ℕ)
  | seq (a b : Cmd P)
  | timed (p : P) (a : Cmd P)
  | guarded (p : P) (a : Cmd P)

namespace Cmd
variable {P : Type}

/-- A loop. -/
def rep (a : Cmd P) : ℕ → Cmd P
  | 0 => skip
  | n + 1 => seq a (rep a n)

/-- Statements one after the other. -/
def block : List (Cmd P) → Cmd P
  | [] => skip
  | a :: l => seq a (block l)

end Cmd

/-- The clock, the number of pieces of work done, the stopwatches and the numbers of work units (Stopwatch_tree.hpp:19-22). -/
structure State (P : Type) where
  clock : ℕ
  step : ℕ
  watch : P → Watch
  units : P → ℕ

variable {P : Type} [DecidableEq P]

/-- Running a program; `tree` tells which tasks there are (`children.at` throws for others), `lag` how long each piece of work takes. The result is the state and whether there was no exception. -/
def exec (tree : P → Bool) (lag : ℕ → ℕ) : Cmd P → State P → State P × Bool
  | .skip, s => (s, true)
  | .work, s => ({ s with clock := s.clock + lag s.step, step := s.step + 1 }, true)
  | .fail, s => (s, false)
  | .units p k, s => if tree p then ({ s with units := Function.update s.units p (s.units p + k) }, true) else (s, false)
  | .seq a b, s =>
    let r := exec tree lag a s
    if r.2 then exec tree lag b r.1 else r
  | .timed p a, s =>
    if tree p then
      match (s.watch p).start s.clock with
      | none => (s, false)
      | some w =>
        let r := exec tree lag a { s with watch := Function.update s.watch p w }
        if r.2 then
          match (r.1.watch p).pause r.1.clock with
          | none => (r.1, false)
          | some v => ({ r.1 with watch := Function.update r.1.watch p v }, true)
        else r
    else (s, false)
  | .guarded p a, s =>
    if tree p then
      match (s.watch p).start s.clock with
      | none => (s, false)
      | some w =>
        let r := exec tree lag a { s with watch := Function.update s.watch p w }
        match (r.1.watch p).pause r.1.clock with
        | none => (r.1, false)
        | some v => ({ r.1 with watch := Function.update r.1.watch p v }, r.2)
    else (s, false)

/-! ## The tasks of a solver -/

/-- Names in the tree of tasks, Solver.cpp:177-201. -/
inductive Name
  | pr | fix | check | av | ini | advection | update | setup | bcs | diffusion | cartesian | deformed | dt | neighbor | loc | ldg | bc
deriving DecidableEq, Repr

/-- A task: the names from the root. -/
abbrev Path := List Name

open Name

/-- The tree of tasks, Solver.cpp:177-201. -/
def tasks : List Path :=
  let top : List Path := [[], [pr], [fix], [check], [av], [av, ini], [av, advection], [av, advection, update], [av, advection, setup], [av, advection, bcs], [av, diffusion], [bc]]
  let typed : List Path := [cartesian, deformed].flatMap fun type =>
    ([[], [av, advection], [av, diffusion], [fix]] : List Path).flatMap (fun p => [p ++ [type], p ++ [type, dt], p ++ [type, neighbor], p ++ [type, loc]])
      ++ ([[], [fix], [av, diffusion]] : List Path).map (fun p => p ++ [type, ldg])
  top ++ typed

def tree (p : Path) : Bool := decide (p ∈ tasks)

/-- Numbers of elements, connections, ... that are counted as work units. -/
structure Sizes where
  elems : ℕ
  carElems : ℕ
  defElems : ℕ
  carCons : ℕ
  defCons : ℕ
  refFaces : ℕ
  bcCons : ℕ

open Cmd

/-- `Kernel::operator()(sequence, tree)`, kernel_factory.hpp:32-37. -/
def kernel (size : ℕ) (p : Path) : Cmd Path := seq (units p size) (guarded p work)

/-- `Kernel::operator()(sequence, category_tree, name)`, kernel_factory.hpp:38-45. Between the two starts there is time, too. -/
def kernel2 (size : ℕ) (p : Path) (name : Name) : Cmd Path := seq (units (p ++ [name]) size) (guarded p (seq work (seq (guarded (p ++ [name]) work) work)))

/-- `COMPUTE_MAX_DT`, kernels_max_dt.cpp:8-12; `p` is the task whose children are `sw_car` and `sw_def`. -/
def maxDt (z : Sizes) (p : Path) : Cmd Path := seq (kernel2 z.carElems (p ++ [cartesian]) dt) (kernel2 z.defElems (p ++ [deformed]) dt)

/-- `COMPUTE_CONVECTION`, kernels_convective.cpp:8-16. -/
def convection (z : Sizes) (p : Path) : Cmd Path :=
  block [kernel2 z.carCons (p ++ [cartesian]) neighbor, kernel2 z.defCons (p ++ [deformed]) neighbor, kernel z.refFaces [pr],
    kernel2 z.carElems (p ++ [cartesian]) loc, kernel2 z.defElems (p ++ [deformed]) loc, kernel z.refFaces [pr]]

/-- `COMPUTE_DIFFUSION`, kernels_diffusive.cpp:8-26, in the first stage, the only one it is used in (Solver.cpp:864). -/
def diffusive (z : Sizes) (p : Path) : Cmd Path :=
  block [kernel2 z.carCons (p ++ [cartesian]) neighbor, kernel2 z.defCons (p ++ [deformed]) neighbor, kernel z.refFaces [pr], kernel z.refFaces [pr],
    kernel2 z.carElems (p ++ [cartesian]) loc, kernel2 z.defElems (p ++ [deformed]) loc,
    kernel z.refFaces [pr], work, kernel2 z.carCons (p ++ [cartesian]) neighbor, kernel2 z.defCons (p ++ [deformed]) neighbor, kernel z.refFaces [pr],
    kernel2 z.carElems (p ++ [cartesian]) ldg, kernel2 z.defElems (p ++ [deformed]) ldg, kernel z.refFaces [pr]]

/-- `Solver::apply_state_bcs`, Solver.cpp:56-67. -/
def applyStateBcs (z : Sizes) : Cmd Path := seq (timed [bc] work) (units [bc] z.bcCons)

/-- `Solver::is_admissible`, Solver.cpp:921-959. -/
def isAdmissible (z : Sizes) : Cmd Path := timed [check] (seq work (units [check] z.elems))

/-- What `fix_admissibility` finds: nothing to do; a number of repairs after which it is done; a failure after a number of repairs (the assertion of Solver.cpp:974). -/
inductive Fix
  | off
  | fine
  | repaired (passes : ℕ)
  | failed (passes : ℕ)

/-- One pass of the loop, Solver.cpp:973-1089. -/
def pass (z : Sizes) : Cmd Path :=
  block [isAdmissible z, work, maxDt z [fix], work, diffusive z [fix], work, diffusive z [fix], work, maxDt z [], work]

/-- `Solver::fix_admissibility`, Solver.cpp:961-1095. -/
def fixAdmissibility (z : Sizes) : Fix → Cmd Path
  | .off => skip
  | .fine => timed [fix] (block [work, isAdmissible z, work, units [fix] 0])
  | .repaired k => timed [fix] (block [work, rep (pass z) k, work, units [fix] (z.elems * (k - 1))])
  | .failed k => timed [fix] (block [work, rep (pass z) k, fail])

/-- One stage of `Solver::update`, Solver.cpp:853-868: whether viscous, and the repair. -/
def stage (z : Sizes) (s : Bool × Fix) : Cmd Path := block [applyStateBcs z, if s.1 then diffusive z [] else convection z [], fixAdmissibility z s.2]

/-- `Solver::update`, Solver.cpp:834-886: a list of the steps it does. -/
def updateFlow (z : Sizes) (steps : List ((Bool × Fix) × (Bool × Fix))) : Cmd Path :=
  timed [] (block [block (steps.map fun s => block [work, maxDt z [], stage z s.1, stage z s.2, work]), work, units [] z.elems, units [cartesian] z.carElems, units [deformed] z.defElems])

/-- `Solver::update_art_visc_smoothness`, Solver.cpp:457-582, with `diffuse_art_visc`, 428-455. -/
def smoothness (z : Sizes) (adv diff : ℕ) : Cmd Path :=
  timed [] (seq (timed [av] (block [
    work, timed [av, ini] work, units [av, ini] z.elems,
    timed [av, advection] (block [work, maxDt z [av, advection],
      rep (block [timed [av, advection, setup] work,
        rep (block [timed [av, advection, bcs] work, units [av, advection, bcs] z.elems, convection z [av, advection]]) 2,
        units [av, advection, cartesian] z.carElems, units [av, advection, deformed] z.defElems]) adv,
      units [av, advection, setup] z.elems, units [av, advection, update] z.elems]),
    units [av, advection] z.elems, work,
    timed [av, diffusion] (block [work, maxDt z [av, diffusion], work, rep (seq work (diffusive z [av, diffusion])) diff]),
    units [av, diffusion] z.elems, work])) (units [av] z.elems))

/-- `Solver::set_art_visc_admis`, Solver.cpp:636-658. -/
def artViscAdmis (z : Sizes) : Cmd Path := seq (timed [av] work) (units [av] z.elems)

/-- `Solver::compute_residual`, Solver.cpp:899-912. -/
def computeResidual (z : Sizes) (viscous : Bool) : Cmd Path := seq (applyStateBcs z) (if viscous then diffusive z [] else convection z [])

/-- `Solver::update_implicit`, Solver.cpp:888-897; the iteration of the linear equation evaluates the residual any number of times. -/
def updateImplicit (z : Sizes) (viscous : Bool) (products : ℕ) (f : Fix) : Cmd Path :=
  block [rep (seq work (computeResidual z viscous)) products, work, fixAdmissibility z f]

/-- A call of the solver that measures time. `ltsConstraints` is `vis_lts_constraints`, Solver.cpp:1329. -/
inductive Call
  | update (steps : List ((Bool × Fix) × (Bool × Fix)))
  | smoothness (adv diff : ℕ)
  | artViscAdmis
  | isAdmissible
  | computeResidual (viscous : Bool)
  | updateImplicit (viscous : Bool) (products : ℕ) (f : Fix)
  | ltsConstraints

def Call.prog (z : Sizes) : Call → Cmd Path
  | .update steps => Timing.updateFlow z steps
  | .smoothness a d => Timing.smoothness z a d
  | .artViscAdmis => Timing.artViscAdmis z
  | .isAdmissible => Timing.isAdmissible z
  | .computeResidual v => Timing.computeResidual z v
  | .updateImplicit v k f => Timing.updateImplicit z v k f
  | .ltsConstraints => rep (seq (maxDt z []) work) 2

/-- A new solver: all stopwatches are new. -/
def fresh : State Path := ⟨0, 0, fun _ => {}, fun _ => 0⟩

/-- A history of calls on meshes of any sizes; an exception ends only the call it happens in. -/
def history (lag : ℕ → ℕ) : List (Sizes × Call) → State Path → State Path
  | [], s => s
  | c :: l, s => history lag l (exec tree lag (c.2.prog c.1) s).1

/-! ## The report -/

/-- A tree of tasks with a line of text for each (Stopwatch_tree.hpp:17-22, Stopwatch_tree.cpp:9-17); children are in the order of their names (`std::map`). -/
inductive Report
  | node (line : String) (children : List (String × Report))

mutual
/-- `Stopwatch_tree::indented_report`, Stopwatch_tree.cpp:7-25: lines with the text before and after the name of the task, without line ends. -/
def Report.lines (indent : String) : Report → List String
  | .node line children => line :: childLines (indent ++ "    ") children
/-- The loop over children, Stopwatch_tree.cpp:18-23. -/
def childLines (indent : String) : List (String × Report) → List String
  | [] => []
  | c :: l => (match Report.lines indent c.2 with
    | [] => []
    | first :: rest => (indent ++ c.1 ++ ": " ++ first) :: rest) ++ childLines indent l
end

end Hexed.Timing
