import Verif.Hil.Props
import Verif.Hil.FunSpec
set_option autoImplicit false
set_option linter.unusedVariables false

/-!
# C99: the functions of the HIL
-/

namespace Hexed.Hil
open Hexed.Namespace
variable {D : Type}

/-- Every function does what the manual says. `lround` of a rounded number is that of the number, as in C++. -/
theorem function_value (env : Env D) (hl : ∀ d, env.dbl.lround (env.dbl.fn "round" d) = env.dbl.lround d) (h : Heap D) {fd : String}
    (hfd : lookupStr h env.me "format_double" = .val fd) {name : String} {x : DV D} {v : Val D} {o : List String}
    (hd : Documented env fd name x v o) : applyUn env h name x = .ok (DV.ofVal v, o) := by
  have hp : ∀ (x : DV D) d, real env x = some d → promote env.dbl x = some d := by
    intro x d hx; cases x <;> simp_all [real, promote]
  have hs : ∀ (x : DV D) s, shown env fd x = some s → strOf env.dbl fd x = some s := by
    intro x s hx; cases x <;> simp_all [shown, strOf]
  cases hd with
  | real hn hx =>
    have := hp _ _ hx
    simp only [realFunctions, List.mem_cons, List.not_mem_nil, or_false] at hn
    rcases hn with rfl | rfl | rfl | rfl | rfl | rfl | rfl | rfl | rfl <;> simp [applyUn, numericUnary, this, PRes.bind, DV.ofVal]
  | nearest hn hx hi =>
    have := hp _ _ hx
    simp only [List.mem_cons, List.not_mem_nil, or_false] at hn
    rcases hn with rfl | rfl | rfl
    · simp only [applyUn, numericUnary, this, PRes.bind, DV.ofVal, toIntRes, hi, String.reduceEq, if_false, if_true]
    · simp [applyUn, numericUnary, this, PRes.bind, DV.ofVal, toIntRes, hl, hi]
    · simp [applyUn, numericUnary, this, PRes.bind, DV.ofVal, toIntRes, hl, hi]
  | @absInt i h1 h2 =>
    have h3 : (i.natAbs : Int) = |i| := (Int.abs_eq_natAbs i).symm
    have : inRange (i.natAbs : Int) := by unfold inRange; omega
    simp [applyUn, mkInt, this, PRes.bind, DV.ofVal, h3]
    have := this
    rw [h3] at this
    rw [if_pos this]
  | absReal => simp [applyUn, PRes.bind, DV.ofVal]
  | read hf => simp [applyUn, hf, PRes.bind, DV.ofVal]
  | @print x s hx =>
    have := hs _ _ hx
    cases x <;> simp_all [applyUn, opPrint, opAdd, PRes.bind, DV.ofVal, strOf]
  | @println x s hx =>
    have := hs _ _ hx
    cases x <;> simp_all [applyUn, opPrint, opAdd, PRes.bind, DV.ofVal, strOf]
  | shell => simp [applyUn, PRes.bind, DV.ofVal]

/-- Operands of a wrong type and files that do not exist raise an exception of the language, except for `abs`. -/
theorem function_wrong_type_partial (env : Env D) (h : Heap D) {name : String} {x : DV D} (hw : Rejected env name x) (hn : name ≠ "abs") :
    ∃ w, applyUn env h name x = .hil w := by
  cases hw with
  | real hn' =>
    simp only [realFunctions, List.cons_append, List.nil_append, List.mem_cons, List.not_mem_nil, or_false] at hn'
    rcases hn' with rfl | rfl | rfl | rfl | rfl | rfl | rfl | rfl | rfl | rfl | rfl | rfl <;>
      simp [applyUn, numericUnary, promote, PRes.bind]
  | abs => exact absurd rfl hn
  | missing hf => simp [applyUn, hf, PRes.bind]
  | read hx => cases x <;> simp_all [applyUn, PRes.bind]
  | shell hx => cases x <;> simp_all [applyUn, PRes.bind]

/-- `abs` of a string raises a C++ exception that is not one of the language, so that a program cannot handle it. -/
theorem function_wrong_type_refuted (env : Env D) (h : Heap D) (s : String) :
    Rejected env "abs" (.str s) ∧ applyUn env h "abs" (.str s) = .cpp ∧ ¬ ∃ w, applyUn env h "abs" (.str s) = .hil w := by
  have e : applyUn env h "abs" (.str s) = .cpp := by simp [applyUn, PRes.bind]
  exact ⟨.abs, e, by rw [e]; rintro ⟨w, hw⟩; cases hw⟩

/-- Executing `x = <function> <operand>` for an operand with any number of spaces, where the function gives a value that can be assigned to
`x`: the variable gets that value, no other variable is changed, and the operand and the function have printed what they print. -/
theorem function_program (env : Env D) (hl : ∀ d, env.dbl.lround (env.dbl.fn "round" d) = env.dbl.lround d) (st : St D)
    (r : Reachable env.dbl.ofInt st.heap) (hme : env.me < st.heap.length) {fd : String}
    (hfd : lookupStr st.heap env.me "format_double" = .val fd)
    {x : List Char} (hx : IsName x) {e : Expr} {s : List Char} (hc : e.Canonical) (hlev : e.level = 0) (hr : Render e s)
    (hpl : e.Plain env st.heap) {a : DV D} {o o' : List String} (hm : e.meaning env st.heap = .ok (a, o))
    {name : String} {v : Val D} (hd : Documented env fd name a v o')
    {c : Cell D} (hs : specAssign env.dbl.ofInt (cell st.heap env.me (String.ofList x)) v = some c) (i j k l : Nat) :
    ∃ h, Ev (fun f => exec env f (x ++ (spaces i ++ ('=' :: (spaces j ++ (name.toList ++ (spaces (l + 1) ++ s))))) ++ spaces k) st)
        (.ok { st with text := [], heap := h, out := st.out ++ (o ++ o') }) ∧
      cell h env.me (String.ofList x) = some c ∧
      (∀ id m, ¬ (id = env.me ∧ m = String.ofList x) → cell h id m = cell st.heap id m) := by
  have hmem : name ∈ opWords := by
    cases hd with
    | real hn hx => simp only [realFunctions, List.mem_cons, List.not_mem_nil, or_false] at hn; rcases hn with rfl | rfl | rfl | rfl | rfl | rfl | rfl | rfl | rfl <;> simp [opWords]
    | nearest hn hx hi => simp only [List.mem_cons, List.not_mem_nil, or_false] at hn; rcases hn with rfl | rfl | rfl <;> simp [opWords]
    | _ => simp [opWords]
  have hren : Render (.un name e) (name.toList ++ (spaces (l + 1) ++ s)) := by
    refine .un (l + 1) hr ?_
    intro _ c hc
    simp [spaces, List.replicate_succ] at hc
    subst hc
    decide
  have hmean : (Expr.un name e).meaning env st.heap = .ok (DV.ofVal v, o ++ o') := by
    simp only [Expr.meaning, hm, PRes.bind, function_value env hl st.heap hfd hd]
  obtain ⟨h, h1, _, h2, h3⟩ := assign_program env st r hme hx (e := .un name e) ⟨hmem, hlev, hc⟩ hren hpl hmean hs i j k
  exact ⟨h, h1, h2, h3⟩

/-- Numbers for the example: quotients by 10 of integers, rounded towards minus infinity. -/
def tenths : Dbl Int where
  ofInt i := 10 * i
  add := (· + ·)
  sub := (· - ·)
  mul a b := a * b / 10
  div a b := 10 * a / b
  pow a _ := a
  lt a b := decide (a < b)
  le a b := decide (a ≤ b)
  eq a b := a == b
  nz a := a != 0
  neg a := -a
  abs a := a.natAbs
  fn name d := if name = "floor" then d / 10 * 10 else if name = "ceil" then (d + 9) / 10 * 10 else if name = "round" then (d + 5) / 10 * 10 else d
  lround d := some ((d + 5) / 10)
  stod s := if s = ['2', '.', '7'] then some 27 else none
  fmt _ d := some (toString d)

/-- An interpreter with these numbers. -/
def tenthsEnv : Env Int := { demoEnv with dbl := tenths }

/-- The hypotheses of `function_program` are met by `y = floor 2.7`. -/
example : ∃ h, Ev (fun f => exec tenthsEnv f "y = floor 2.7".toList ⟨[], initHeap tenths 100, [], []⟩)
      (.ok ⟨[], h, [], []⟩) ∧ cell h 0 "y" = some (.val (.int 2)) := by
  have hl : ∀ d : Int, tenths.lround (tenths.fn "round" d) = tenths.lround d := by
    intro d
    simp only [tenths, String.reduceEq, if_false, if_true, Option.some.injEq]
    omega
  obtain ⟨h, h1, h2, _⟩ := function_program tenthsEnv hl ⟨[], initHeap tenths 100, [], []⟩ ⟨_, rfl⟩ (by decide +kernel) (fd := "%g") (by decide +kernel)
    (x := ['y']) ⟨⟨'y', [], rfl, by decide⟩, by decide, by decide⟩ (e := .num ['2', '.', '7'])
    ⟨['2'], ['.', '7'], [], by simp [Digits], .inr ⟨['7'], by simp [Digits], rfl⟩, .inl rfl, rfl⟩ rfl (.num _) trivial
    (a := .dbl 27) (o := []) (by decide +kernel) (name := "floor") (v := .int 2) (o' := [])
    (.nearest (d := 27) (by simp) rfl (by decide +kernel)) (c := .val (.int 2)) (by decide +kernel) 1 1 0 0
  exact ⟨h, h1, h2⟩

/-- Wrong types and printing. -/
example : Rejected tenthsEnv "sqrt" (.str "a") := .real (by simp [realFunctions])
example : Documented tenthsEnv "%g" "println" (.int 3) (.str "") ["3" ++ "\n"] := .println rfl

end Hexed.Hil
