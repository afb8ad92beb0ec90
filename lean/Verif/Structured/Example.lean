import Verif.Structured.Report
set_option autoImplicit false
set_option linter.unusedVariables false

/-!
# Examples and disagreements for structured expressions (C83)
-/

namespace Hexed.Structured
open Hexed.Namespace Hexed.Hil

example : make "pressure = 2*x + 1; \n speed=x".toList = .ok ["pressure".toList, "speed".toList] ["2*x + 1".toList, "x".toList] := by decide +kernel
example : make "  \n ; just text; y = {a=b}".toList = .ok ["y".toList] ["{a=b}".toList] := by decide +kernel
example : make "$x = 1".toList = .throws := by decide +kernel
example : make "x = ; y = 1".toList = .ub := by decide +kernel

/-- `a = 1 + 2; b = a*2` -/
def demoProg : List (Stmt × List Char) :=
  [(⟨["a".toList], .bin .add (.num "1".toList) (.num "2".toList)⟩, "a = 1 + 2".toList), (⟨["b".toList], .bin .mul (.var "a".toList) (.num "2".toList)⟩, "b = a*2".toList)]

theorem digit_num (c : Char) (h : c.isDigit = true) : IsNum [c] := ⟨[c], [], [], by intro d hd; rw [List.mem_singleton.1 hd]; exact h, Or.inl ⟨rfl, by simp⟩, Or.inl rfl, by simp⟩

theorem name_a : IsName "a".toList := ⟨⟨'a', [], rfl, by decide⟩, by decide, by decide⟩
theorem name_b : IsName "b".toList := ⟨⟨'b', [], rfl, by decide⟩, by decide, by decide⟩

theorem demo_structured : Structured demoProg "a = 1 + 2; b = a*2".toList := by
  refine ⟨?_, ?_⟩
  · have h2 : Prog true [(⟨["b".toList], .bin .mul (.var "a".toList) (.num "2".toList)⟩, "b = a*2".toList)] " b = a*2".toList := by
      have := Prog.stmt (s := ⟨["b".toList], .bin .mul (.var "a".toList) (.num "2".toList)⟩) (src := "b = a*2".toList) (ss := []) (t := []) 1 ⟨by simpa using name_b, by decide, by decide, name_a, digit_num '2' (by decide)⟩ (by
        exact RenderStmt.assign (n := "b".toList) 1 1 (.expr (Render.bin (op := .mul) 0 0 (.var "a".toList) (.num "2".toList)))) (by decide) (by decide) (Prog.done false 0)
      exact this
    have h1 := Prog.stmt (s := ⟨["a".toList], .bin .add (.num "1".toList) (.num "2".toList)⟩) (src := "a = 1 + 2".toList) 0 ⟨by simpa using name_a, by decide, by decide, digit_num '1' (by decide), digit_num '2' (by decide)⟩ (by
        exact RenderStmt.assign (n := "a".toList) 1 1 (.expr (Render.bin (op := .add) 1 1 (.num "1".toList) (.num "2".toList)))) (by decide) (by decide)
        (Prog.sep false 0 (c := ';') (Or.inr rfl) h2)
    exact h1
  · intro p hp
    simp only [demoProg, List.mem_cons, List.not_mem_nil, or_false] at hp
    rcases hp with rfl | rfl
    · exact ⟨⟨_, rfl⟩, by unfold NoSep isSep; decide⟩
    · exact ⟨⟨_, rfl⟩, by unfold NoSep isSep; decide⟩

/-- The variables after a statement. -/
def heapOf (r : PRes (List String × Heap Int)) : Heap Int := match r with | .ok x => x.2 | _ => []

/-- A freshly constructed interpreter as a sub-interpreter of another one, evaluated at the point (3, 4) and time 2. -/
def subEnv : Env Int := { demoEnv with me := demoSt.heap.length }
def subHeap : Heap Int := pointHeap demoEnv 100 0 demoSt.heap [3, 4] 2

theorem demo_plain (env : Env Int) (h : Heap Int) (he : existsRec (heapOf ((demoProg[0]'(by decide)).1.meaning env h)) env.me "a" = true)
    (hv : cellMeaning (lookupInt (heapOf ((demoProg[0]'(by decide)).1.meaning env h)) env.me "a") (lookupDbl env.dbl.ofInt (heapOf ((demoProg[0]'(by decide)).1.meaning env h)) env.me "a")
      (lookupStr (heapOf ((demoProg[0]'(by decide)).1.meaning env h)) env.me "a") = some (.int 3)) : ProgPlain env demoProg h := by
  refine ⟨⟨trivial, trivial⟩, fun o h' hm => ⟨⟨fun _ => ⟨.int 3, ?_⟩, trivial⟩, fun _ _ _ => trivial⟩⟩
  have : h' = heapOf ((demoProg[0]'(by decide)).1.meaning env h) := by simp only [demoProg, List.getElem_cons_zero, hm, heapOf]
  subst this
  exact ⟨he, hv⟩

def isDone (r : ProgRes Int) : Bool := match r with | .done _ _ => true | _ => false
def isNumber (r : PRes (DV Int × List String)) : Bool := match r with | .ok (.int _, _) => true | .ok (.dbl _, _) => true | _ => false

theorem demo_numbers (env : Env Int) (h : Heap Int) (h1 : isNumber ((demoProg[0]'(by decide)).1.rhs.meaning env h) = true)
    (h2 : isNumber ((demoProg[1]'(by decide)).1.rhs.meaning env (heapOf ((demoProg[0]'(by decide)).1.meaning env h))) = true) : Numbers env demoProg h := by
  have key : ∀ (r : PRes (DV Int × List String)), isNumber r = true → ∀ v o, r = .ok (v, o) → Numeric v := by
    intro r hr v o e
    subst e
    cases v <;> simp_all [isNumber, Numeric]
  refine ⟨key _ h1, fun o h' hm => ⟨?_, fun _ _ _ => trivial⟩⟩
  have : h' = heapOf ((demoProg[0]'(by decide)).1.meaning env h) := by simp only [demoProg, List.getElem_cons_zero, hm, heapOf]
  subst this
  exact key _ h2

theorem done_ex {r : ProgRes Int} (h : isDone r = true) : ∃ h o, r = .done h o := by
  cases r with
  | done h' o => exact ⟨h', o, rfl⟩
  | raised _ _ _ _ => simp [isDone] at h
  | cpp => simp [isDone] at h
  | ub => simp [isDone] at h

/-- Hypotheses of `eval_exact`, `eval_final` are met. -/
example : ∃ names exprs h o, make "a = 1 + 2; b = a*2".toList = .ok names exprs ∧ Structured demoProg "a = 1 + 2; b = a*2".toList ∧ Reachable demoEnv.dbl.ofInt demoSt.heap ∧
    demoEnv.me < demoSt.heap.length ∧ ProgPlain demoEnv demoProg demoSt.heap ∧ Numbers demoEnv demoProg demoSt.heap ∧ run demoEnv demoProg demoSt.heap demoSt.out = .done h o ∧
    (names.map String.ofList).Nodup := by
  obtain ⟨h, o, e⟩ := done_ex (r := run demoEnv demoProg demoSt.heap demoSt.out) (by decide +kernel)
  exact ⟨["a".toList, "b".toList], ["1 + 2".toList, "a*2".toList], h, o, by decide +kernel, demo_structured, demo_reachable, demo_me,
    demo_plain _ _ (by decide +kernel) (by decide +kernel), demo_numbers _ _ (by decide +kernel) (by decide +kernel), e, by decide +kernel⟩

/-- Hypotheses of `spacetime_exact` are met. -/
example : ∃ h o, ProgPlain subEnv demoProg subHeap ∧ Numbers subEnv demoProg subHeap ∧ run subEnv demoProg subHeap demoSt.out = .done h o := by
  obtain ⟨h, o, e⟩ := done_ex (r := run subEnv demoProg subHeap demoSt.out) (by decide +kernel)
  exact ⟨h, o, demo_plain _ _ (by decide +kernel) (by decide +kernel), demo_numbers _ _ (by decide +kernel) (by decide +kernel), e⟩

def evalVals (r : EvalRes Int) : Option (List Int) := match r with | .ok v _ => some v | _ => none
def evalMissing (r : EvalRes Int) : Option (List Char) := match r with | .missing n _ => some n | _ => none

example : evalVals (eval demoEnv 200 ["a".toList, "b".toList] ["1 + 2".toList, "a*2".toList] demoSt) = some [3, 6] := by decide +kernel
example : evalVals (spacetimeExpr demoEnv 100 0 200 ["q".toList, "r".toList, "s".toList] ["pos0 + time".toList, "pos1*q".toList, "pos2".toList] [3, 4] 2 demoSt) = some [5, 20, 0] := by
  decide +kernel
example : evalMissing (eval demoEnv 200 ["a".toList, "b".toList] ["1".toList, "{text}".toList] demoSt) = some "b".toList := by decide +kernel

/-- A name that is assigned twice gives two values although there is one variable: hypothesis of `eval_final`. -/
example : evalVals (eval demoEnv 200 ["a".toList, "a".toList] ["1".toList, "a + 1".toList] demoSt) = some [1, 2] := by decide +kernel

/-- Outcome of `report` in a state. -/
inductive Told
  | line (s : List Char) | throws | ub | other
  deriving DecidableEq

def told (r : Line Int) : Told := match r with | .line s _ => .line s | .throws => .throws | .ub => .ub | _ => .other

/-- Hypothesis of `report_exact` is met: both statements assign integers. -/
example : told (report demoEnv 100 (fun i => (toString i).toList) (fun _ => []) 200 ["a".toList, "b".toList] ["1 + 2".toList, "a*2".toList] demoSt) =
    .line (table [("a".toList, "3".toList), ("b".toList, "6".toList)]) := by decide +kernel
example : table [("a".toList, "3".toList), ("quite_a_long_name".toList, "6".toList)] = "              3,                 6".toList := by decide +kernel

def outOf (r : PRes (List String × Heap Int)) : List String := match r with | .ok x => x.1 | _ => []
def isOk (r : PRes (List String × Heap Int)) : Bool := match r with | .ok _ => true | _ => false
theorem ok_eq {r : PRes (List String × Heap Int)} (h : isOk r = true) : r = .ok (outOf r, heapOf r) := by cases r <;> simp_all [isOk, outOf, heapOf]
def stepHeap (r : Outcome Int) : Heap Int := match r with | .ok h => h | .throws => []
def stepOk (r : Outcome Int) : Bool := match r with | .ok _ => true | .throws => false
theorem step_eq {r : Outcome Int} (h : stepOk r = true) : r = .ok (stepHeap r) := by cases r <;> simp_all [stepOk, stepHeap]

/-- Hypothesis of `report_exact` is met. -/
example : ∃ h o, Reported subEnv demoEnv.me (fun i => (toString i).toList) (fun _ => []) demoProg (makeSub demoEnv.dbl 100 demoSt.heap demoEnv.me) demoSt.out [['3'], ['6']] h o := by
  have p0 : demoProg = [demoProg[0]'(by decide), demoProg[1]'(by decide)] := rfl
  rw [p0]
  have e3 : (toString (3 : Int)).toList = ['3'] := by decide +kernel
  have e6 : (toString (6 : Int)).toList = ['6'] := by decide +kernel
  rw [← e3, ← e6]
  refine ⟨_, _, Reported.int 3 ⟨trivial, trivial⟩ (ok_eq (by decide +kernel)) (by decide +kernel) (step_eq (by decide +kernel))
    (Reported.int 6 ⟨fun _ => ⟨.int 3, by decide +kernel, by decide +kernel⟩, trivial⟩ (ok_eq (by decide +kernel)) (by decide +kernel) (step_eq (by decide +kernel)) (Reported.done _ _))⟩

/-- Disagreement: a text in `print_vars` is handled by the code (Case.cpp:414-417) but in a way that is undefined. -/
theorem report_text_refuted : told (report demoEnv 100 (fun i => (toString i).toList) (fun _ => []) 200 ["a".toList] ["{text}".toList] demoSt) = .ub := by decide +kernel
/-- Disagreement: a variable computed on demand cannot be printed under its own name, since the report is also assigned to the variables of the case. -/
theorem report_heisenberg_refuted :
    told (report { demoEnv with callback := fun _ st => some (.int 5, st) } 100 (fun i => (toString i).toList) (fun _ => []) 200 ["n_elements".toList] ["n_elements".toList]
      { demoSt with heap := Namespace.exec id demoSt.heap [.createHeis 0 "n_elements" .int 9] }) = .throws := by decide +kernel
/-- A variable that is an integer once and another number later is an exception, too. -/
example : told (report demoEnv 100 (fun i => (toString i).toList) (fun _ => ['d']) 200 ["x".toList] ["1.5".toList] { demoSt with heap := Namespace.exec id demoSt.heap [.assign 0 "x" (.int 1)] }) =
    .throws := by decide +kernel

end Hexed.Structured
