import Verif.Output.Hist
set_option autoImplicit false
set_option linter.unusedVariables false

/-!
# Concrete cases for C93
-/

namespace Hexed.Output.Example

def wd : Str := "run/".toList
/-- an empty directory -/
def empty : FS Nat := fun _ => none

theorem empty_tidy : Tidy wd empty := ⟨fun r t => ⟨nofun, nofun, nofun⟩, fun ext he t h => nomatch h⟩

example : suffix 5 42 = some "iter00042".toList := by decide
example : workingDir "run".toList = wd := by decide

def flags : Flags := { n_dim := 2, surface := true, field := true, xdmf := true, tecplot := false, skew := true, edges := true, lts_constraints := false }
def picture (p : Picture) : Nat := if p.edges then 1 else 0

def ops : List (Op Nat) := [.mesh 0 10, .vis 0 flags picture, .mesh 7 11, .state 7 12, .vis 7 flags picture, .mesh 7 13, .state 7 14]

/-- A run with a mesh at the start, output at iteration 7 and the same again at its end. -/
example : ∃ fs', run (history wd 5 ops) empty = (fs', true) ∧ read fs' "run/latest.mesh.h5".toList = some (.data 13) ∧ read fs' "run/latest.state.h5".toList = some (.data 14) := by
  obtain ⟨fs', h, hT, hm, hs⟩ := history_current (by decide) empty_tidy 5 ops (by
    intro op hop
    have h7 : (suffix 5 7).isSome = true := by decide
    have h0 : (suffix 5 0).isSome = true := by decide
    simp only [ops, List.mem_cons, List.not_mem_nil, or_false] at hop
    rcases hop with rfl | rfl | rfl | rfl | rfl | rfl | rfl
    · exact h0
    · exact ⟨h0, by decide⟩
    · exact h7
    · exact h7
    · exact ⟨h7, by decide⟩
    · exact h7
    · exact h7)
  exact ⟨fs', h, restart_reads_last (by decide) hT (Or.inl rfl) hm (n := 7) rfl, restart_reads_last (by decide) hT (Or.inr rfl) hs (n := 7) rfl⟩

/-- `latest.mesh.h5` whose file has been removed -/
def dangling : FS Nat := set empty "run/latest.mesh.h5".toList (some (.link "iter00003.mesh.h5".toList))

example : (run (write mesh wd "iter00004".toList 5) dangling).2 = false := by
  refine dangling_refuted (r := "ter00004".toList) (s := "ter00003.mesh.h5".toList) ?_ 5 ?_ (by decide) ?_ (by decide)
  · intro t r h
    unfold dangling at h
    rw [set_other _ (by simp [wd])] at h
    cases h
  · exact set_same _ _ _
  · unfold dangling
    rw [set_other _ (by decide)]
    rfl

example : ∃ fs', run (visualize wd "iter00004".toList flags picture) empty = (fs', true) ∧ read fs' "run/skew_iter00004.h5".toList = some (.data 1) := by
  obtain ⟨fs', h, hr⟩ := skew_refuted (s := "ter00004".toList) (f := flags) (by decide) rfl rfl rfl rfl picture empty_tidy
  exact ⟨fs', h, hr⟩

example : run (visualize wd "iter00004".toList { flags with n_dim := 1 } picture) empty = (empty, false) := vis_line (by decide) (by decide) _ _

end Hexed.Output.Example
