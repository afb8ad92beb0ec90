import Verif.Status.Model
set_option autoImplicit false
set_option linter.unusedVariables false

/-!
# How a reader sees the table
-/

namespace Hexed.Status

/-- A text without the spaces around it. -/
def strip (s : List Char) : List Char := ((s.dropWhile (· == ' ')).reverse.dropWhile (· == ' ')).reverse

/-- The cells of a line, as a CSV parser reads them. -/
def cells (line : List Char) : List (List Char) := (line.splitOn ',').map strip

/-- Where the commas of a line are. -/
def commas (line : List Char) : List Bool := line.map (· == ',')

/-- A text that can be the content of a cell. -/
structure IsCell (s : List Char) : Prop where
  comma : ',' ∉ s
  first : ∃ c t, s = c :: t ∧ c ≠ ' '
  last : ∃ c t, s = t ++ [c] ∧ c ≠ ' '

/-- The values that a line of data shows, in the order of the default labels. -/
def Data.shown (d : Data) : List (List Char) :=
  [intText d.iteration, d.mmtmRes.text, d.massRes.text, d.enerRes.text, d.advRes.text, d.diffRes.text, d.flowTime.text, d.timeStep.text, intText d.fixAdmisIters]

/-- The range of `int`. -/
def IsInt (i : Int) : Prop := -2147483648 ≤ i ∧ i ≤ 2147483647

/-- The number is not both negative and with an exponent of three digits. -/
def Num.Fits : Num → Prop
  | .fin neg _ _ _ exp => neg = false ∨ exp.val < 100
  | _ => True

/-- The number that a sequence of digits shows. -/
def readNat (s : List Char) : Nat := s.foldl (fun n c => 10 * n + (c.toNat - '0'.toNat)) 0

/-- The integer that a text shows. -/
def readInt : List Char → Int
  | '-' :: s => -(readNat s : Int)
  | s => readNat s

/-- The sign, the nine digits and the exponent that a text in scientific notation shows. -/
def readSci (s : List Char) : Option (Bool × Nat × Int) :=
  let neg := s.head? == some '-'
  match (if neg then s.drop 1 else s) with
  | c :: '.' :: t => some (neg, readNat (c :: t.take 8), (if t[9]? = some '-' then -1 else 1) * (readNat (t.drop 10) : Int))
  | _ => none

end Hexed.Status
