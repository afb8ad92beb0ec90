import Mathlib.Data.List.Basic
import Mathlib.Algebra.BigOperators.Group.List.Basic
set_option autoImplicit false
set_option linter.unusedVariables false

/-!
# `read_csv`

src/read_csv.cpp:7-36.

Simplifications: the numbers are an arbitrary type `K`, and `std::stod` an arbitrary partial function on character strings (`none`: it throws).
Opening the file is not modelled. Forming the iterator `end + 1` behind the end of the line (line 28) is counted as harmless, using it
(line 22) as undefined behaviour.
-/

namespace Hexed.Csv

/-- An `std::ifstream`: what is left to read, and whether the state is `good`. -/
structure Stream where
  rest : List Char
  good : Bool
deriving DecidableEq

/-- `std::getline(file, line)` with the standard library's semantics: on a stream that is not good the sentry fails and `line` is left as it was;
otherwise `line` is replaced by the characters up to the newline, which is removed; reaching the end of the file clears `good`.
Used in src/read_csv.cpp:13,30. -/
def getline (s : Stream) (line : List Char) : Stream × List Char :=
  if s.good then
    match s.rest.span (· ≠ '\n') with
    | (l, []) => (⟨[], false⟩, l)
    | (l, _ :: r) => (⟨r, true⟩, l)
  else (s, line)

/-- How reading a row can end: the values, the entry that is not a number, or undefined behaviour. -/
inductive Row (K : Type)
  | ok (vals : List K)
  | bad (entry : List Char)
  | ub

variable {K : Type}

/-- src/read_csv.cpp:19-29: the loop over columns. `begin` is what is left of the line, `none` behind its end. -/
def readRow (stod : List Char → Option K) : Nat → Option (List Char) → List K → Row K
  | 0, _, acc => .ok acc
  | n + 1, none, acc => .ub
  | n + 1, some begin, acc =>
    match begin.span (· ≠ ',') with
    | (entry, rest) =>
      match stod entry with
      | none => .bad entry
      | some x => readRow stod n (match rest with | [] => none | _ :: r => some r) (acc ++ [x])

/-- The result: a table of `rows` by `cols` with its entries row by row, an exception with the offending entry, or undefined behaviour. -/
inductive Result (K : Type)
  | table (rows cols : Nat) (data : List K)
  | bad (entry : List Char)
  | ub

/-- src/read_csv.cpp:17-31: the loop over lines. `none`: it has not ended within the given number of passes. -/
def loop (stod : List Char → Option K) (cols : Nat) : Nat → Stream → List Char → Nat → List K → Option (Result K)
  | 0, _, _, _, _ => none
  | fuel + 1, s, line, rows, data =>
    if line ≠ [] then
      match readRow stod cols (some line) data with
      | .bad e => some (.bad e)
      | .ub => some .ub
      | .ok data =>
        match getline s line with
        | (s, line) => loop stod cols fuel s line (rows + 1) data
    else some (.table rows cols data)

/-- src/read_csv.cpp:7-36: `read_csv` of a file with the given contents. -/
def readCsv (stod : List Char → Option K) (fuel : Nat) (text : List Char) : Option (Result K) :=
  match getline ⟨text, true⟩ [] with
  | (s, line) => loop stod (line.count ',' + 1) fuel s line 0 []

end Hexed.Csv
