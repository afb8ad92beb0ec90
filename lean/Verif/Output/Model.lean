import Mathlib.Data.Nat.Digits.Defs
set_option autoImplicit false
set_option linter.unusedVariables false

/-!
# Model of the output files of a case

The commands `write_mesh`, `write_state` and `visualize` (src/Case.cpp) as sequences of actions on a file system. Paths are lists of characters. The file system knows files and symbolic links; directories are not modelled
(the working directory exists, Case.hil:291). A file that has been opened for writing and not been closed is `broken`. What is in the files is abstract.
-/

namespace Hexed.Output

abbrev Str := List Char

/-- What a file holds: nothing useful while it is written (`H5F_ACC_TRUNC`, Accessible_mesh.cpp:1502), or data. -/
inductive Content (α : Type)
  | broken
  | data (a : α)
deriving DecidableEq

inductive Entry (α : Type)
  | file (c : Content α)
  | link (target : Str)
deriving DecidableEq

abbrev FS (α : Type) := Str → Option (Entry α)

variable {α : Type}

/-- The directory part of a path, including the final slash. -/
def dirOf (p : Str) : Str := (p.reverse.dropWhile (· ≠ '/')).reverse

/-- Following symbolic links as the operating system does (POSIX path resolution): relative targets start from the directory of the link. At most `fuel` links. -/
def follow (fs : FS α) : Nat → Str → Option Str
  | 0, _ => none
  | fuel + 1, p => match fs p with
    | some (.link t) => follow fs fuel (if t.head? = some '/' then t else dirOf p ++ t)
    | _ => some p

/-- Reading the file that a path leads to. Linux follows 40 links. -/
def read (fs : FS α) (p : Str) : Option (Content α) :=
  (follow fs 40 p).bind fun q => match fs q with
    | some (.file c) => some c
    | _ => none

def set (fs : FS α) (p : Str) (e : Option (Entry α)) : FS α := fun q => if q = p then e else fs q

inductive Act (α : Type)
  /-- open for writing -/
  | trunc (p : Str)
  /-- write and close -/
  | fill (p : Str) (c : α)
  /-- `if (std::filesystem::exists(link)) std::filesystem::remove(link)`, Case.cpp:82 -/
  | removeIf (p : Str)
  /-- `std::filesystem::create_symlink`, Case.cpp:83 -/
  | symlink (target link : Str)
  /-- `if (std::filesystem::exists(latest)) std::filesystem::copy_file(latest, …, overwrite_existing)`, Case.cpp:362-364 -/
  | copyIf (src dst : Str)
  /-- `std::filesystem::copy_file(…, overwrite_existing)`, Case.cpp:365 -/
  | copy (src dst : Str)
  /-- an exception that has nothing to do with files -/
  | fail

/-- Writing through a path. -/
def put (fs : FS α) (p : Str) (c : Content α) : Option (FS α) := (follow fs 40 p).map fun q => set fs q (some (.file c))

/-- `std::filesystem::copy_file` with `overwrite_existing`, for files: the source must exist and be another file. Copying is not divided further. -/
def copyFile (fs : FS α) (src dst : Str) : Option (FS α) := (read fs src).bind fun c => if follow fs 40 src = follow fs 40 dst then none else put fs dst c

/-- The effect of one action; `none` if it throws, which leaves the file system as it was. -/
def step (fs : FS α) : Act α → Option (FS α)
  | .trunc p => put fs p .broken
  | .fill p c => put fs p (.data c)
  | .removeIf p => some (if (read fs p).isSome then set fs p none else fs)
  | .symlink t p => if (fs p).isSome then none else some (set fs p (some (.link t)))
  | .copyIf a b => if (read fs a).isSome then copyFile fs a b else some fs
  | .copy a b => copyFile fs a b
  | .fail => none

/-- Actions one after the other until one throws. A program that is killed has performed a part `l.take k` of its actions. -/
def run : List (Act α) → FS α → FS α × Bool
  | [], fs => (fs, true)
  | a :: l, fs => match step fs a with
    | none => (fs, false)
    | some fs' => run l fs'

/-- `"%.*i"` for a number that is not negative: at least `width` digits; a negative width counts as none given, and zero with width zero is nothing at all (C standard, `fprintf`). -/
def decimal (width : Int) (n : Nat) : Str :=
  let w := if width < 0 then 1 else width.toNat
  let d := (Nat.digits 10 n).reverse.map fun k => Char.ofNat (k + 48)
  List.replicate (w - d.length) '0' ++ d

/-- `Case::_iteration_suffix`, Case.cpp:75-78. `format_str` throws (`none`) if there are 100 characters or more (utils.hpp:17-24). -/
def suffix (iter_width : Int) (iteration : Nat) : Option Str :=
  let s := "iter".toList ++ decimal iter_width iteration
  if s.length < 100 then some s else none

/-- `working_dir` as `start` leaves it, Case.hil:288-290 (`none`: the index -1 of an empty text). -/
def workingDir (working_dir : Str) : Option Str :=
  if working_dir = [] then none else some (if working_dir.getLast? ≠ some '/' then working_dir ++ ['/'] else working_dir)

/-- `force_symlink`, Case.cpp:80-84. -/
def forceSymlink (target link : Str) : List (Act α) := [.removeIf link, .symlink target link]

def save (p : Str) (c : α) : List (Act α) := [.trunc p, .fill p c]

/-- `write_mesh` and `write_state`, Case.cpp:325-336: `ext` is `.mesh.h5` or `.state.h5`, `suff` the suffix of the iteration. -/
def write (ext wd suff : Str) (c : α) : List (Act α) :=
  save (wd ++ suff ++ ext) c ++ forceSymlink (suff ++ ext) (wd ++ "latest".toList ++ ext)

def mesh : Str := ".mesh.h5".toList
def state : Str := ".state.h5".toList

/-- `write_iter` when it is time, and `write_final`: Case.hil:228, 245-246. -/
def writeBoth (wd suff : Str) (m s : α) : List (Act α) := write mesh wd suff m ++ write state wd suff s

/-- The switches of `visualize`. -/
structure Flags where
  n_dim : Nat
  surface : Bool
  field : Bool
  xdmf : Bool
  tecplot : Bool
  skew : Bool
  edges : Bool
  lts_constraints : Bool

/-- Which picture a file holds: of what, and whether as a wireframe. -/
inductive What
  | surface
  | field
  | skew
deriving DecidableEq

/-- One file of one picture: `part` is 0 for the data and 1 for the description (XDMF has both). -/
structure Picture where
  what : What
  tecplot : Bool
  edges : Bool
  part : Nat
deriving DecidableEq

/-- The files of a visualizer: Xdmf_wrapper.cpp:87-101 when it is destroyed, Tecplot_file.cpp:22 (TECIO adds the extension). In one dimension there are no surfaces (Solver.cpp:1241) and no XDMF files (Xdmf_wrapper.cpp:50-52). -/
def visualizer (n_dim : Nat) (what : What) (tecplot edges : Bool) (name : Str) (content : Picture → α) : List (Act α) :=
  if n_dim ≤ 1 ∧ (what = .surface ∨ tecplot = false) then [.fail]
  else if tecplot then save (name ++ ".szplt".toList) (content ⟨what, true, edges, 0⟩)
  else save (name ++ ".h5".toList) (content ⟨what, false, edges, 0⟩) ++ save (name ++ ".xmf".toList) (content ⟨what, false, edges, 1⟩)

/-- `name`, Case.cpp:350-351. `isField` tells `"field"` from `"surface"`. -/
def visName (isField edges : Bool) : Str := (if isField then "field".toList else "surface".toList) ++ if edges then "_edges".toList else []

/-- The body of the loops of `visualize`, Case.cpp:352-367. -/
def visBody (wd suff : Str) (f : Flags) (content : Picture → α) (isField tecplot edges : Bool) : List (Act α) :=
  let name := visName isField edges
  let file_name := wd ++ name ++ ('_' :: suff)
  visualizer f.n_dim (if isField then .field else .surface) tecplot edges file_name content
    ++ (if isField && f.skew then visualizer f.n_dim .skew tecplot edges (wd ++ "skew".toList ++ ('_' :: suff)) content else [])
    ++ (if tecplot then [] else
      [.copyIf (wd ++ name ++ "_latest1.xmf".toList) (wd ++ name ++ "_latest0.xmf".toList), .copy (file_name ++ ".xmf".toList) (wd ++ name ++ "_latest1.xmf".toList)])

/-- Which pictures are made, Case.cpp:346-352. -/
def wanted (f : Flags) (isField tecplot edges : Bool) : Bool :=
  (if isField then f.field else f.surface) && (if tecplot then f.tecplot else f.xdmf) && (!edges || (f.edges && decide (f.n_dim + (if isField then 1 else 0) > 2)))

/-- The order of the loops. -/
def visOrder : List (Bool × Bool × Bool) := [false, true].flatMap fun v => [false, true].flatMap fun t => [false, true].map fun e => (v, t, e)

/-- `visualize`, Case.cpp:341-369. -/
def visualize (wd suff : Str) (f : Flags) (content : Picture → α) : List (Act α) :=
  visOrder.flatMap fun x => if wanted f x.1 x.2.1 x.2.2 then visBody wd suff f content x.1 x.2.1 x.2.2 else []

end Hexed.Output
