import Verif.Csv.Model
set_option autoImplicit false
set_option linter.unusedVariables false

/-!
# What a comma-separated file means, independently of the reader
-/

namespace Hexed.Csv
variable {K : Type}

/-- The text of a row: the printed entries separated by commas. -/
def rowText (pr : K → List Char) : List K → List Char
  | [] => []
  | [x] => pr x
  | x :: y :: l => pr x ++ ',' :: rowText pr (y :: l)

/-- The text of a table: the rows, each followed by a newline. -/
def tableText (pr : K → List Char) (rows : List (List K)) : List Char := (rows.map fun r => rowText pr r ++ ['\n']).flatten

/-- The entries of a line: the pieces between the commas. -/
def fields : List Char → List (List Char)
  | [] => [[]]
  | c :: l => if c = ',' then [] :: fields l else (c :: (fields l).head!) :: (fields l).tail

/-- A way of printing numbers that can be read back: no commas or newlines in it, not empty, and `stod` restores the number. -/
structure Printer (stod : List Char → Option K) (pr : K → List Char) : Prop where
  reads : ∀ x, stod (pr x) = some x
  comma : ∀ x, ',' ∉ pr x
  newline : ∀ x, '\n' ∉ pr x
  ne : ∀ x, pr x ≠ []

end Hexed.Csv
