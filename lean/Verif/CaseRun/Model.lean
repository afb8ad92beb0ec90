import Mathlib.Data.Int.GCD
import Mathlib.Tactic.Linarith
import Mathlib.Tactic.Push
import Mathlib.Tactic.Ring
import Mathlib.Tactic.Positivity
import Mathlib.Tactic.NormNum
set_option autoImplicit false
set_option linter.unusedVariables false

/-!
# The iteration schedule of a case: `update` and the `iterate` macro

src/Case.cpp:425-450 (`update`), include/Case.hil:241-283 (`write_iter`, `vis_iter`, `print_iter`, `iterate`), 104-115 (`set_ramping`),
src/Solver.cpp:879 (each solver update adds one to `iteration`).

Simplifications: the flow state is not modelled, only the iteration counter and what is printed, written, visualized and sampled at which
iteration. The integers are unbounded. A division by zero is undefined behaviour and gives `none`. The user's run-time command file may
change the frequencies between iterations: each iteration has its own `Params`.
-/

namespace Hexed.CaseRun

/-- The HIL variables `print_freq`, `write_freq`, `vis_freq`, `ramping_initial_iters` (include/Case.hil:104, 168-171). -/
structure Params where
  print_freq : Int
  write_freq : Int
  vis_freq : Int
  ramping_initial_iters : Int
deriving DecidableEq

/-- What is observed of a run: the variable `iteration`, the calls of `add_sample` (the iteration argument, and the iteration at which the value
was evaluated), and the iterations at which the report was printed, the mesh and state were written and the flow visualized. `ramped`: the
code of `set_ramping` that increases `max_safety` was executed. -/
structure Run where
  iteration : Int
  samples : List (Int × Int)
  printed : List Int
  written : List Int
  visualized : List Int
  ramped : Bool
deriving DecidableEq

/-- src/Solver.cpp:171: `iteration` starts from 0. -/
def Run.start : Run := ⟨0, [], [], [], [], false⟩

/-- src/Case.cpp:430: `int n = iter ? print_freq - iter%print_freq : 1;` (C++ `%` truncates; by zero undefined). -/
def nUpdates (iter print_freq : Int) : Option Int :=
  if iter ≠ 0 then (if print_freq = 0 then none else some (print_freq - Int.tmod iter print_freq)) else some 1

/-- src/Case.cpp:431-441 and src/Solver.cpp:879: the loop `for (int i = 0; i < n; ++i)` of solver updates. -/
def solverUpdates : Nat → Int → Int
  | 0, it => it
  | n + 1, it => solverUpdates n (it + 1)

/-- src/Case.cpp:425-450: `update`. The monitors receive the iteration read before the loop (line 428) with the values evaluated after it
(line 443). -/
def update (p : Params) (r : Run) : Option Run :=
  (nUpdates r.iteration p.print_freq).bind fun n =>
    let it := solverUpdates n.toNat r.iteration
    some { r with iteration := it, samples := r.samples ++ [(r.iteration, it)] }

/-- `iteration % freq == 0` in HIL: remainder by zero is undefined. -/
def hits (it freq : Int) : Option Bool := if freq = 0 then none else some (decide (Int.tmod it freq = 0))

/-- include/Case.hil:262-266: `print_iter`. -/
def printIter (r : Run) : Run := if r.iteration ≠ 1 then { r with printed := r.printed ++ [r.iteration] } else r

/-- include/Case.hil:241-250: `write_iter`. -/
def writeIter (p : Params) (r : Run) : Option Run :=
  (hits r.iteration p.write_freq).bind fun b => some (if b then { r with written := r.written ++ [r.iteration] } else r)

/-- include/Case.hil:252-260: `vis_iter`. -/
def visIter (p : Params) (r : Run) : Option Run :=
  (hits r.iteration p.vis_freq).bind fun b => some (if b then { r with visualized := r.visualized ++ [r.iteration] } else r)

/-- include/Case.hil:107-114: the code which `set_ramping` appends to `iterate`. -/
def ramp (p : Params) (r : Run) : Run := if r.iteration = p.ramping_initial_iters then { r with ramped := true } else r

/-- include/Case.hil:268-283: `iterate` (with `set_ramping`); the residual normalization and the run-time command are not modelled. -/
def iterate (p : Params) (r : Run) : Option Run :=
  (update p r).bind fun r => (writeIter p (printIter r)).bind fun r => (visIter p r).bind fun r => some (ramp p r)

/-- include/Case.hil:343-345: the loop of `run`, `iterate` executed once for each element of the list. -/
def run : List Params → Run → Option Run
  | [], r => some r
  | p :: ps, r => (iterate p r).bind (run ps)

end Hexed.CaseRun
