set_option autoImplicit false
set_option linter.unusedVariables false

/-!
# The table of the progress of an iteration

Strings are lists of characters. Numbers enter as what `printf` has to show of them: the sign, the decimal digits and the exponent after rounding. Rounding itself is not modelled.
-/

namespace Hexed.Status

/-- A double after rounding to nine significant decimal digits. -/
inductive Num where
  | fin (neg : Bool) (lead : Fin 10) (frac : Fin 8 → Fin 10) (expNeg : Bool) (exp : Fin 400)
  | inf (neg : Bool)
  | nan (neg : Bool)

def minus (neg : Bool) : List Char := if neg then ['-'] else []

/-- `%.8e` without padding, Iteration_status.hpp:41 (`double_format`): the exponent has two digits, or three if two are not enough. -/
def Num.text : Num → List Char
  | .fin neg lead frac expNeg exp =>
    minus neg ++ lead.val.digitChar :: '.' :: (List.ofFn fun i => (frac i).val.digitChar) ++ ['e', if expNeg then '-' else '+'] ++
      (if exp.val < 100 then [] else [(exp.val / 100).digitChar]) ++ [(exp.val / 10 % 10).digitChar, (exp.val % 10).digitChar]
  | .inf neg => minus neg ++ ['i', 'n', 'f']
  | .nan neg => minus neg ++ ['n', 'a', 'n']

/-- `%i` without padding. -/
def intText (i : Int) : List Char := minus (i < 0) ++ Nat.toDigits 10 i.natAbs

/-- The overrideable members, Iteration_status.hpp:35-46, with their default values. -/
structure Format where
  sep : List Char := [',', ' ']
  numberWidth : Nat := 15
  labels : List (List Char) := ["iteration".toList, "momtm resid".toList, "mass resid".toList, "energy resid".toList, "av adv resid".toList, "av diff resid".toList, "flow time".toList, "time step".toList, "fix adm iters".toList]

/-- The data, Iteration_status.hpp:52-60. -/
structure Data where
  flowTime : Num
  mmtmRes : Num
  massRes : Num
  enerRes : Num
  advRes : Num
  diffRes : Num
  timeStep : Num
  iteration : Int
  fixAdmisIters : Int

/-- `width`, Iteration_status.cpp:6-11. -/
def Format.width (f : Format) : Nat := f.labels.foldl (fun w label => max w label.length) f.numberWidth

/-- `format`, Iteration_status.hpp:24-33: `snprintf` pads on the left to the width and writes at most 99 characters. -/
def Format.format (f : Format) (s : List Char) : List Char :=
  (List.replicate (f.width - s.length) ' ' ++ s).take 99 ++ f.sep

/-- `value_string`, Iteration_status.cpp:13-26. -/
def Format.valueString (f : Format) (d : Data) : List Char :=
  [] ++ f.format (intText d.iteration) ++ f.format d.mmtmRes.text ++ f.format d.massRes.text ++ f.format d.enerRes.text ++ f.format d.advRes.text ++
    f.format d.diffRes.text ++ f.format d.flowTime.text ++ f.format d.timeStep.text ++ f.format (intText d.fixAdmisIters)

/-- `n` times `pop_back`; `none` is the undefined behaviour of `pop_back` of an empty string. -/
def popBacks : Nat → List Char → Option (List Char)
  | 0, s => some s
  | n + 1, s => if s = [] then none else popBacks n s.dropLast

/-- `header`, Iteration_status.cpp:28-36. -/
def Format.header (f : Format) : Option (List Char) :=
  popBacks f.sep.length (f.labels.foldl (fun h label => h ++ f.format label) [])

/-- `report`, Iteration_status.cpp:38-43. -/
def Format.report (f : Format) (d : Data) : Option (List Char) := popBacks f.sep.length (f.valueString d)

end Hexed.Status
