import Verif.Timing.Props
set_option autoImplicit false
set_option linter.unusedVariables false

/-!
# Concrete cases for C95
-/

namespace Hexed.Timing.Example

open Name

def mesh : Sizes := ⟨5, 3, 2, 4, 3, 1, 6⟩

/-- Pieces of work take 0, 1, 2, 0, 1, 2, ... -/
def lag (k : ℕ) : ℕ := k % 3

def calls : List (Sizes × Call) := [(mesh, .smoothness 2 3), (mesh, .update [((true, .fine), (false, .repaired 2))]), (mesh, .computeResidual false)]

example : ∀ c ∈ calls, c.2.ok := by
  intro c hc
  simp only [calls, List.mem_cons, List.not_mem_nil, or_false] at hc
  rcases hc with rfl | rfl | rfl
  · trivial
  · intro s hs; rw [List.mem_singleton] at hs; subst hs; exact ⟨trivial, trivial⟩
  · trivial

example : Idle fresh := fun _ => rfl

/-- Two updates of 5 elements (one of the artificial viscosity), three checks. -/
example : ((history lag calls fresh).watch []).n = 2 ∧ ((history lag calls fresh).watch [check]).n = 3 ∧ (history lag calls fresh).units [check] = 15 ∧ (history lag calls fresh).units [fix] = 5 := by decide +kernel

/-- The parts of the diffusion took some time, less than all of it. -/
example : 0 < ((kids [av, diffusion]).map fun q => ((history lag calls fresh).watch q).t).sum ∧ ((kids [av, diffusion]).map fun q => ((history lag calls fresh).watch q).t).sum < ((history lag calls fresh).watch [av, diffusion]).t := by decide +kernel

example : Proper [(1, .start), (4, .pause), (6, .start), (7, .pause)] false 0 := by simp [Proper]
example : (watchRun [(1, .start), (4, .pause), (6, .start), (7, .pause)] {}).map (fun w => (w.t, w.n)) = some (4, 2) := by decide

/-- Two threads, interleaved. -/
example : [Atomic.time 3, Atomic.time 4, Atomic.calls 1, Atomic.calls 1].Perm ([⟨1, 3, false, 0⟩, ⟨1, 4, false, 9⟩].flatMap addActs) := by decide

example : Report.lines "" (.node "all" [("a", .node "1 s" [("b", .node "2 s" [])]), ("c", .node "3 s" [])]) = ["all", "    a: 1 s", "        b: 2 s", "    c: 3 s"] := by
  rw [report_lines]
  simp [childEntries, Report.entries, entryLine, pad]

end Hexed.Timing.Example
