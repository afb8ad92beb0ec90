import Verif.Timing.Model
import Mathlib.Algebra.BigOperators.Group.Finset.Basic
set_option autoImplicit false
set_option linter.unusedVariables false

/-!
# What users expect of measured times
-/

namespace Hexed.Timing

open Finset

variable {P : Type} [DecidableEq P]

namespace Cmd

/-- The number of pieces of work of a program that runs without exceptions. -/
def steps : Cmd P → ℕ
  | work => 1
  | seq a b => steps a + steps b
  | timed _ a => steps a
  | guarded _ a => steps a
  | _ => 0

/-- How long it takes, if `k` pieces of work have been done before. -/
def dur (lag : ℕ → ℕ) (k : ℕ) (c : Cmd P) : ℕ := ∑ i ∈ range c.steps, lag (k + i)

/-- How long it takes in the blocks of task `p`. -/
def spent (lag : ℕ → ℕ) (p : P) : ℕ → Cmd P → ℕ
  | k, seq a b => spent lag p k a + spent lag p (k + a.steps) b
  | k, timed q a => (if q = p then dur lag k a else 0) + spent lag p k a
  | k, guarded q a => (if q = p then dur lag k a else 0) + spent lag p k a
  | _, _ => 0

/-- How often task `p` is done. -/
def calls (p : P) : Cmd P → ℕ
  | seq a b => calls p a + calls p b
  | timed q a => (if q = p then 1 else 0) + calls p a
  | guarded q a => (if q = p then 1 else 0) + calls p a
  | _ => 0

/-- The number of work units of task `p`. -/
def count (p : P) : Cmd P → ℕ
  | seq a b => count p a + count p b
  | timed q a => count p a
  | guarded q a => count p a
  | units q k => if q = p then k else 0
  | _ => 0

end Cmd

/-- No stopwatch is running. -/
def Idle (s : State P) : Prop := ∀ p, (s.watch p).r = false

/-- No repair fails in this call. -/
def Fix.ok : Fix → Prop
  | .failed _ => False
  | _ => True

def Call.ok : Call → Prop
  | .update steps => ∀ s ∈ steps, s.1.2.ok ∧ s.2.2.ok
  | .updateImplicit _ _ f => f.ok
  | _ => True

/-- The children of a task. -/
def kids (p : Path) : List Path := tasks.filter fun q => decide (q ≠ [] ∧ q.dropLast = p)

/-- What happens to a stopwatch. -/
inductive Event
  | start | pause | reset
deriving DecidableEq

/-- The program does these things at these times; `none` if there is an exception. -/
def watchRun : List (ℕ × Event) → Watch → Option Watch
  | [], w => some w
  | (τ, .start) :: l, w => (w.start τ).bind (watchRun l)
  | (τ, .pause) :: l, w => (w.pause τ).bind (watchRun l)
  | (τ, .reset) :: l, w => watchRun l w.reset

/-- The time a stopwatch should show at the end of these events: the time between events while it runs, since the last reset. The arguments are whether it runs, the time of the last event and what it shows. -/
def measured : List (ℕ × Event) → Bool → ℕ → ℕ → ℕ
  | [], _, _, sum => sum
  | (τ, e) :: l, run, last, sum =>
    let sum' := if run then sum + (τ - last) else sum
    match e with
    | .start => measured l true τ sum'
    | .pause => measured l false τ sum'
    | .reset => measured l run τ 0

/-- The pauses since the last reset. -/
def pauses : List (ℕ × Event) → ℕ → ℕ
  | [], k => k
  | (_, .start) :: l, k => pauses l k
  | (_, .pause) :: l, k => pauses l (k + 1)
  | (_, .reset) :: l, k => pauses l 0

/-- Events are in order, and resets only happen while the stopwatch does not run. -/
def Proper : List (ℕ × Event) → Bool → ℕ → Prop
  | [], run, _ => run = false
  | (τ, e) :: l, run, last => last ≤ τ ∧ match e with
    | .start => Proper l true τ
    | .pause => Proper l false τ
    | .reset => run = false ∧ Proper l run τ

mutual
/-- A task of a report and those below it with their depths, names and texts. -/
def Report.entries (depth : ℕ) (name : String) : Report → List (ℕ × String × String)
  | .node line children => (depth, name, line) :: childEntries (depth + 1) children
/-- The same for the children of a task. -/
def childEntries (depth : ℕ) : List (String × Report) → List (ℕ × String × String)
  | [] => []
  | c :: l => Report.entries depth c.1 c.2 ++ childEntries depth l
end

/-- Four spaces for each level. -/
def pad : ℕ → String
  | 0 => ""
  | d + 1 => pad d ++ "    "

/-- The line of a task. -/
def entryLine (e : ℕ × String × String) : String := pad e.1 ++ e.2.1 ++ ": " ++ e.2.2

end Hexed.Timing
