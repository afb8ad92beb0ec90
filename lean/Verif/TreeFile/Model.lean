import Verif.Tree.Model

set_option autoImplicit false
set_option linter.unusedVariables false

/-!
Model of the tree section of the mesh file: `write_tree` in `Accessible_mesh::write` (/repo/src/Accessible_mesh.cpp:1618-1639)
and `read_tree` in `Accessible_mesh::read_file` (1686-1704).

The dataset `/tree/children` is a list of rows, `none` = not written yet. `elem p` is the index (`Element::record`) of the
element paired with the tree element at path `p`, if there is one. HDF5 itself is trusted: a row that was written is read back
unchanged, and accesses outside the extent throw (here `none`).
-/

namespace Hexed.TreeFile
open Hexed Hexed.Tree
variable {nd : Nat}

/-- The dataset `/tree/children`: Accessible_mesh.cpp:1626-1628. -/
abbrev File := List (Option (List Int))

/-- `h5_write_row`, outside the extent it throws (`none`). -/
def writeRow (F : File) (i : Nat) (data : List Int) : Option File :=
  if i < F.length then some (F.set i (some data)) else none

/-- `data[0]`: Accessible_mesh.cpp:1631-1632. -/
def elemEntry : Option Nat → Int
  | some e => e
  | none => -1

mutual
/-- `write_tree(t)`, Accessible_mesh.cpp:1630-1637: returns the element's own row, the next free row (`row`) and the file.
`p` is the path of `t`, `nv` is `n_vert`. -/
def writeTree (nv : Nat) (elem : Path → Option Nat) (p : Path) (row : Nat) (F : File) :
    Tree nd → Option (Nat × Nat × File)
  | mk _ _ s k =>
    match writeChildren nv elem p (row + 1) F (elemEntry (elem p) :: s :: List.replicate nv (-1)) 0 k with
    | none => none
    | some (data, row', F') =>
      match writeRow F' row data with
      | none => none
      | some F'' => some (row, row', F'')
/-- The loop over the children, Accessible_mesh.cpp:1635. `none` also stands for writing outside `data`. -/
def writeChildren (nv : Nat) (elem : Path → Option Nat) (p : Path) (row : Nat) (F : File) (data : List Int) (i : Nat) :
    List (Tree nd) → Option (List Int × Nat × File)
  | [] => some (data, row, F)
  | t :: ts =>
    match writeTree nv elem (p ++ [i]) row F t with
    | none => none
    | some (r, row', F') =>
      if 2 + i < data.length then writeChildren nv elem p row' F' (data.set (2 + i) r) (i + 1) ts else none
end

/-- Write the whole tree: the dataset has `tree->count()` rows (Accessible_mesh.cpp:1626-1639). -/
def writeFile (elem : Path → Option Nat) (t : Tree nd) : Option File :=
  (writeTree (2 ^ nd) elem [] 0 (List.replicate t.count none) t).map fun r => r.2.2

/-- `h5_read_row`. A negative or too large row throws; a row that was never written has unspecified contents: both `none`. -/
def readRow (F : File) (row : Int) : Option (List Int) :=
  if row < 0 then none else (F[row.toNat]?).join

/-- The loop over the children, Accessible_mesh.cpp:1700: `rd` is the recursive call, `i` the index of the first child in
the list. The result lists the children and the pairs (path, element index) formed. -/
def readChildren (rd : Tree nd → Int → Option (Tree nd × List (Path × Nat))) :
    Nat → List (Tree nd) → List Int → Option (List (Tree nd) × List (Path × Nat))
  | _, [], _ => some ([], [])
  | _, _ :: _, [] => none
  | i, t :: ts, r :: rs =>
    match rd t r with
    | none => none
    | some (t', a) =>
      match readChildren rd (i + 1) ts rs with
      | none => none
      | some (ts', b) => some (t' :: ts', a.map (fun x => (i :: x.1, x.2)) ++ b)

/-- `read_tree(t, row)`, Accessible_mesh.cpp:1688-1702, with a recursion bound (a corrupted file can be cyclic).
The result is the element after the call and the pairs (path, element index) formed by line 1693. `refine()` throws if `t` is
not a leaf (`none`). -/
def readTree (F : File) : Nat → Tree nd → Int → Option (Tree nd × List (Path × Nat))
  | 0, _, _ => none
  | fuel + 1, t, row =>
    match readRow F row with
    | some (e :: s :: c0 :: cs) =>
      let a : List (Path × Nat) := if e ≥ 0 then [([], e.toNat)] else []
      if c0 ≥ 0 then
        if t.isLeaf then
          match readChildren (readTree F fuel) 0 (refineNode (setStatusNode s t)).children (c0 :: cs) with
          | none => none
          | some (ts, b) => some (mk t.rl t.coords s ts, a ++ b)
        else none
      else some (setStatusNode s t, a)
    | _ => none

/-- Read the file into a new tree (Accessible_mesh.cpp:1703, `create_tree`). -/
def readFile (nd : Nat) (F : File) (fuel : Nat) : Option (Tree nd × List (Path × Nat)) :=
  readTree F fuel (Tree.new nd) 0

end Hexed.TreeFile
