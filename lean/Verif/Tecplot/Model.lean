set_option autoImplicit false
set_option linter.unusedVariables false

/-!
The wrapper of the Tecplot library (src/Tecplot_file.cpp, include/Tecplot_file.hpp) and the picture of a triangulated geometry (src/Simplex_geom.cpp). The library itself is external: it is modelled as a file that gets a variable list, zones, values that are appended to the variables of a zone and node maps. Numbers are any type. Reads and writes outside of an array are the outcome `none`.
-/

namespace Hexed.Tecplot

variable {α : Type}

/-- What `tecZoneCreateIJK` and `tecZoneCreateFE` declare about a zone (Tecplot_file.cpp:79-81, 90-91, 124-125): the sizes of an ordered grid, or the numbers of nodes and cells. -/
inductive Shape where
  | ordered (i j k : Nat)
  | lines (nodes cells : Nat)
  | triangles (nodes cells : Nat)
deriving DecidableEq, Repr

/-- A zone in the file. `data v` are the values of variable `v`, counted from 1 as the library does; `map` the node map, counted from 0; `time` is set when the zone is finished. -/
structure Zone (α : Type) where
  name : List Char
  shape : Shape
  data : Nat → List α
  map : List Nat
  time : Option α
  strand : Nat

/-- The wrapper with its file: Tecplot_file.hpp:22-29. `names` is the variable list that the library gets, `aux` the auxiliary data that are numbers of variables. -/
structure File (α : Type) where
  nDim : Nat
  nDimTopo : Nat
  nVar : Nat
  time : α
  strandId : Nat
  iZone : Nat
  names : List Char
  aux : List (List Char × Nat)
  zones : List (Zone α)

/-- The variable list, Tecplot_file.cpp:14-21. -/
def varList (nDim : Nat) (names : List (List Char)) : List Char :=
  (((List.range nDim).flatMap fun i => " position".toList ++ (toString i).toList) ++ names.flatMap fun n => ' ' :: n).drop 1

/-- `xyz` and `uvw`, Tecplot_file.cpp:28-29. -/
def axisName : Nat → List Char
  | 0 => ['X']
  | 1 => ['Y']
  | _ => ['Z']

def velName : Nat → List Char
  | 0 => ['U']
  | 1 => ['V']
  | _ => ['W']

/-- The auxiliary data that are numbers of variables, Tecplot_file.cpp:30-36. The others (`Common.Incompressible`, gas constants) are left out. -/
def auxVars (nDim : Nat) : List (List Char × Nat) :=
  ((List.range nDim).flatMap fun i => [(axisName i, i + 1), (velName i, nDim + i + 1)])
    ++ [(['C'], 2*nDim + 1), ("Density".toList, 2*nDim + 1), ("StagnationEnergy".toList, 2*nDim + 2)]

/-- The constructor, Tecplot_file.cpp:11-37. -/
def create (nDim nDimTopo : Nat) (names : List (List Char)) (time : α) : File α :=
  ⟨nDim, nDimTopo, names.length, time, 1, 0, varList nDim names, auxVars nDim, []⟩

/-- The constructor of a zone, Tecplot_file.cpp:50-57, with the declaration of its shape. The zone is returned; it is put into the file when it is finished (at most one zone exists at a time, Tecplot_file.hpp:18). -/
def openZone (f : File α) (name : List Char) (shape : Shape) : File α × Zone α :=
  ({f with iZone := f.iZone + 1, strandId := f.strandId + 1},
   ⟨name ++ (toString f.iZone).toList, shape, fun _ => [], [], none, f.strandId⟩)

/-- The destructor of a zone, Tecplot_file.cpp:59-62. -/
def closeZone (f : File α) (z : Zone α) : File α :=
  {f with zones := f.zones ++ [{z with time := some f.time}]}

/-- The call `tecZoneVarWriteDoubleValues` for variable `v`: the values follow those that were written before. -/
def Zone.append (z : Zone α) (v : Nat) (xs : List α) : Zone α :=
  {z with data := fun w => if w = v then z.data w ++ xs else z.data w}

/-- The `n` numbers from `start`; `none` is a read outside of the array. -/
def slice (a : List α) (start n : Nat) : Option (List α) :=
  if start + n ≤ a.length then some ((a.drop start).take n) else none

/-- One of the loops of `Zone::write`, Tecplot_file.cpp:66-71: `k` variables after the first `first`. -/
def writeVars (n first : Nat) (a : List α) : Nat → Zone α → Option (Zone α)
  | 0, z => some z
  | k + 1, z => do
    let z' ← writeVars n first a k z
    let xs ← slice a (k*n) n
    some (z'.append (first + k + 1) xs)

/-- `Zone::write`, Tecplot_file.cpp:64-72, for a zone that writes `n` nodes at a time. -/
def writeZone (f : File α) (n : Nat) (pos vars : List α) (z : Zone α) : Option (Zone α) := do
  let z' ← writeVars n 0 pos f.nDim z
  writeVars n f.nDim vars f.nVar z'

/-- A structured block that is written once, Tecplot_file.cpp:74-82. The dimension 0 stands for that of the space. -/
def structured (f : File α) (row : Nat) (name : List Char) (dim : Nat) (pos vars : List α) : Option (File α) := do
  let n := if dim ≠ 0 then dim else f.nDim
  let (f', z) := openZone f name (.ordered row (if 2 ≤ n then row else 1) (if 3 ≤ n then row else 1))
  let z' ← writeZone f' (row^n) pos vars z
  some (closeZone f' z')

/-- `write_block`, Tecplot_file.cpp:39-43. -/
def writeBlock (f : File α) (row : Nat) (pos vars : List α) : Option (File α) :=
  structured f row "block".toList f.nDimTopo pos vars

/-- The calls of `write_block` in the life of a file. -/
def writeBlocks : List (Nat × List α × List α) → File α → Option (File α)
  | [], f => some f
  | b :: bs, f => do writeBlocks bs (← writeBlock f b.1 b.2.1 b.2.2)

/-- The calls of `write` on a zone of triangles. -/
def writeEach (f : File α) : List (List α × List α) → Zone α → Option (Zone α)
  | [], z => some z
  | c :: cs, z => do writeEach f cs (← writeZone f 3 c.1 c.2 z)

/-- A zone of triangles, Tecplot_file.cpp:121-133: the constructor, the calls of `write` and the destructor. -/
def triangles (f : File α) (nTri : Nat) (calls : List (List α × List α)) : Option (File α) := do
  let (f', z) := openZone f "triangles".toList (.triangles (3*nTri) nTri)
  let z' ← writeEach f' calls z
  some (closeZone f' {z' with map := List.range (3*nTri)})

/-- The innermost loops of `Line_segments::write`, Tecplot_file.cpp:97-102, for one node: `k` variables. The storage has `size` numbers. -/
def storeVars (size nSegs row iSeg i : Nat) (a : List α) : Nat → (Nat → α) → Option (Nat → α)
  | 0, s => some s
  | k + 1, s => do
    let s' ← storeVars size nSegs row iSeg i a k s
    let x ← a[k*row + i]?
    let j := (nSegs*k + iSeg)*row + i
    if j < size then some (fun m => if m = j then x else s' m) else none

/-- The loop over the nodes of `Line_segments::write`, Tecplot_file.cpp:96-103, for the positions or the variables (the loops for both are interleaved in the code; they use different storage). -/
def storeNodes (size nSegs row iSeg nv : Nat) (a : List α) : Nat → (Nat → α) → Option (Nat → α)
  | 0, s => some s
  | i + 1, s => do
    let s' ← storeNodes size nSegs row iSeg nv a i s
    storeVars size nSegs row iSeg i a nv s'

/-- The calls of `Line_segments::write`, Tecplot_file.cpp:94-105; `iSeg` counts them. -/
def storeSegs (size nSegs row nv : Nat) : List (List α) → Nat → (Nat → α) → Option (Nat → α)
  | [], _, s => some s
  | a :: as, iSeg, s => do
    storeSegs size nSegs row nv as (iSeg + 1) (← storeNodes size nSegs row iSeg nv a row s)

/-- The node map of the segments, Tecplot_file.cpp:110-116. -/
def lineMap (nSegs row : Nat) : List Nat :=
  (List.range nSegs).flatMap fun s => (List.range (row - 1)).flatMap fun e => [row*s + e, row*s + e + 1]

/-- A zone of line segments, Tecplot_file.cpp:84-118: the constructor (storage of zeros), the calls of `write` and the destructor. -/
def lineSegments (zero : α) (f : File α) (nSegs row : Nat) (calls : List (List α × List α)) : Option (File α) := do
  let n := row*nSegs
  let (f', z) := openZone f "line_segments".toList (.lines n nSegs)
  let p ← storeSegs (f.nDim*n) nSegs row f.nDim (calls.map (·.1)) 0 (fun _ => zero)
  let v ← storeSegs (f.nVar*n) nSegs row f.nVar (calls.map (·.2)) 0 (fun _ => zero)
  let z' ← writeZone f' n ((List.range (f.nDim*n)).map p) ((List.range (f.nVar*n)).map v) z
  some (closeZone f' {z' with map := lineMap nSegs row})

/-- The array of a matrix of 3 columns (corners) that is transposed and stored by columns, Simplex_geom.cpp:39: number `3 d + c` is coordinate `d` of corner `c`. -/
def transposed (sim : Fin 3 → Fin 3 → α) : List α :=
  (List.finRange 3).flatMap fun d => (List.finRange 3).map fun c => sim c d

/-- `Simplex_geom<3>::visualize`, Simplex_geom.cpp:33-46. A triangle is a function from corners to coordinates. -/
def visualizeSimplices (zero : α) (sims : List (Fin 3 → Fin 3 → α)) : Option (File α) :=
  triangles (create 3 2 [] zero) sims.length (sims.map fun s => (transposed s, []))

end Hexed.Tecplot
