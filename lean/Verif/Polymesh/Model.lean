import Verif.Mesh.Model
import Mathlib.Logic.Function.Basic

set_option autoImplicit false
set_option linter.unusedVariables false

/-!
# Model of `Accessible_mesh::export_polymesh` (src/Accessible_mesh.cpp:1829-1908)

Simplified: the files are the lists of their entries (no text, names or types of patches); `none` is undefined behaviour, here always an access outside a vector. Addresses of
elements and vertices are numbers.
-/

namespace Hexed.Polymesh
open Hexed.MeshConn
open Hexed.Connection (Dir)

/-- The mesh: its connectivity (`Verif.Mesh`), `refinement_level()` of elements, `vertices()` and `vertex(i_vert)` of elements. -/
structure Data where
  mesh : Mesh
  level : Elem → Nat
  verts : List Nat
  vert : Elem → Nat → Nat

/-- The files: points (the vertices in the order written), number of cells, `faces`, `owner`, `neighbour` and, for each patch in `boundary`, `nFaces` and `startFace`. -/
structure Files where
  points : List Nat
  nCells : Nat
  faces : List (List Nat)
  owner : List Nat
  neighbour : List Nat
  patches : List (Nat × Nat)

/-- `elem_cons.size()`, Accessible_mesh.cpp:135. -/
def elemConSize (m : Mesh) : Int := connViewSize m.car + connViewSize m.dfm

/-- `elem_cons[i]`, Accessible_mesh.cpp:135. -/
def elemConGet (m : Mesh) : Int → Option View := catGet (connViewSize m.car) (connViewGet m.car) (connViewGet m.dfm)

/-- `Element_connection::element(i_side)`, connection.hpp:134, 189. -/
def viewElement : View → Bool → Option Elem
  | .conf c, s => some (c.el s)
  | .fine c i, s => c.element i s
  | .bound _, _ => none

/-- `get_direction()`, connection.hpp:133, 188. -/
def viewDir : View → Option Dir
  | .conf c => some c.dir.toDir
  | .fine c _ => some c.dir.toDir
  | .bound _ => none

/-- The loops that write the position of each element and of each vertex into its record, Accessible_mesh.cpp:1842-1848. `none` = not written. -/
def numbering (l : List Nat) : Nat → Option Nat := l.zipIdx.foldl (fun r x => Function.update r x.1 (some x.2)) fun _ => none

/-- `std::swap(verts[i], verts[j])`. -/
def swapAt (l : List Nat) (i j : Nat) : Option (List Nat) := (l[i]?).bind fun a => (l[j]?).map fun b => (l.set i b).set j a

/-- `add_verts`, Accessible_mesh.cpp:1853-1862. -/
def addVerts (D : Data) (e : Elem) (i_dim face_sign : Nat) (flip : Bool) : Option (List Nat) :=
  (((List.range (2 ^ D.mesh.nd)).filter fun i_vert => i_vert / 2 ^ (D.mesh.nd - i_dim - 1) % 2 = face_sign).mapM fun i_vert => numbering D.verts (D.vert e i_vert)).bind fun verts =>
    if (decide (face_sign ≠ i_dim % 2)) != flip then swapAt verts 0 1 else swapAt verts 2 3

/-- The body of the loop over connections of elements, Accessible_mesh.cpp:1864-1870: owner, neighbour and vertices. -/
def interiorFace (D : Data) (v : View) : Option (Nat × Nat × List Nat) :=
  (viewElement v false).bind fun e0 => (viewElement v true).bind fun e1 => (viewDir v).bind fun dir =>
    (numbering D.mesh.elements e0).bind fun r0 => (numbering D.mesh.elements e1).bind fun r1 =>
      let element (s : Bool) := if s then e1 else e0
      let record (s : Bool) := if s then r1 else r0
      let owner_side := decide (r1 < r0)
      let finer_side := decide (D.level e1 > D.level e0)
      (addVerts D (element finer_side) (dir.iDim finer_side).val (dir.faceSign finer_side).toNat (finer_side != owner_side)).map fun verts =>
        (record owner_side, record !owner_side, verts)

/-- The body of the loop over boundary connections, Accessible_mesh.cpp:1881-1882. -/
def boundaryFace (D : Data) (c : BCon) : Option (Nat × List Nat) :=
  (numbering D.mesh.elements c.el).bind fun r => (addVerts D c.el c.i_dim c.sign.toNat false).map fun verts => (r, verts)

/-- The faces of patch `i_bc`, Accessible_mesh.cpp:1877-1884. -/
def patchFaces (D : Data) (i_bc : Nat) : Option (List (Nat × List Nat)) :=
  ((D.mesh.car.bounds ++ D.mesh.dfm.bounds).filter fun c => c.bc = i_bc).mapM (boundaryFace D)

/-- `n_bound_cons` and `bc_starts`, Accessible_mesh.cpp:1872-1873, 1880, 1885: from the number of faces of each patch, where the first begins at `start`. -/
def patchStarts : Nat → List Nat → List (Nat × Nat)
  | _, [] => []
  | start, n :: l => (n, start) :: patchStarts (start + n) l

/-- `export_polymesh`, Accessible_mesh.cpp:1829-1908. If boundary connections have a boundary condition that does not exist then `faces` has empty entries, of which entries 0
to 3 are written. -/
def exportPolymesh (D : Data) : Option Files :=
  let n_internal := (elemConSize D.mesh).toNat
  let n_faces := n_internal + (D.mesh.car.bounds ++ D.mesh.dfm.bounds).length
  ((List.range n_internal).mapM fun (i_con : Nat) => (elemConGet D.mesh i_con).bind (interiorFace D)).bind fun interior =>
    ((List.range D.mesh.n_bc).mapM (patchFaces D)).bind fun patches =>
      let boundary := patches.flatten
      let faces := interior.map (·.2.2) ++ boundary.map (·.2)
      if faces.length = n_faces ∧ ∀ f ∈ faces, 4 ≤ f.length then
        some { points := D.verts
               nCells := D.mesh.elements.length
               faces := faces.map (·.take 4)
               owner := interior.map (·.1) ++ boundary.map (·.1)
               neighbour := interior.map (·.2.1)
               patches := patchStarts n_internal (patches.map List.length) }
      else none

end Hexed.Polymesh
