import Verif.Adapt.Model2

set_option autoImplicit false
set_option linter.unusedVariables false

/-!
# Model of the connection of tree elements

`Accessible_mesh::connect_new` and what it is combined with in `update` and `set_surface`, as far as the faces of elements with a tree cell are
concerned.

Simplified: an element is given by its cell; a connection is reduced to the faces it attaches to (`Element::set_face` in the constructors of
connection.hpp) and whether it is of the Cartesian or the deformed kind. `Tree::def_elem` is the element of the cell if that is deformed:
`add_elem` (Accessible_mesh.cpp:648-658) sets it whenever a deformed element is paired with the cell.
-/

namespace Hexed.Adapt
open Hexed.Tree (Path get findNeighbors findNeighbor)

variable {nd : Nat}

/-- A face of an element: its cell and the number of the face. -/
abbrev Face := Path × Nat

/-- Connections that involve an element with a cell. `d`: in the deformed container. -/
inductive Link where
  /-- `Element_face_connection`: the faces of side 0 and side 1. -/
  | conf (d : Bool) (a b : Face)
  /-- `Refined_connection`: the coarse face and the fine faces in order. -/
  | hang (d : Bool) (coarse : Face) (fine : List Face)
  /-- `Typed_bound_connection` with the index of the boundary condition in `tree_bcs`. -/
  | bound (d : Bool) (f : Face) (bc : Nat)
  /-- Connection with an extruded element. -/
  | extr (f : Face)

/-- The faces whose pointers the connection sets. -/
def Link.faces : Link → List Face
  | .conf _ a b => [a, b]
  | .hang _ c f => c :: f
  | .bound _ f _ => [f]
  | .extr f => [f]

/-- `is_connected`, Element.cpp:186. -/
def linked (links : List Link) (f : Face) : Bool := links.any fun l => l.faces.contains f

/-- Lines 783-792: a conformal connection of the elements of cells `p` and `q` through face `2*k + s` of the first. For Cartesian elements the
face of side 0 is `2*k + 1` and that of side 1 is `2*k` (connection.hpp:34). -/
def confLink (st : St nd) (p q : Path) (k s : Nat) : Link :=
  if isDefAt st p && isDefAt st q then .conf true (p, 2 * k + s) (q, 2 * k + (1 - s))
  else if s = 1 then .conf false (p, 2 * k + 1) (q, 2 * k) else .conf false (q, 2 * k + 1) (p, 2 * k)

/-- `connect_refined`, Accessible_mesh.cpp:750-766; `none` = failed assertion. Cartesian: side `s` is coarse (`reverse_order`), with face
`2*k + 1 - s`. Deformed: side 0 is coarse, with face `2*k + !s`. -/
def connectRefined (st : St nd) (c : Path) (k s : Nat) (l : List Path) : Option Link :=
  if l.length = 2 ^ (nd - 1) ∧ l.all (hasElem st) then
    some (if isDefAt st c && l.all (isDefAt st) then .hang true (c, 2 * k + (1 - s)) (l.map fun q => (q, 2 * k + s))
      else .hang false (c, 2 * k + 1 - s) (l.map fun q => (q, 2 * k + 1 - (1 - s))))
  else none

/-- `is_min_corner`, Accessible_mesh.cpp:796-799. -/
def isMinCorner (root : Tree nd) (p : Path) (k : Nat) : Bool :=
  (get p root).any fun a => (List.finRange nd).all fun j => j.val == k || (a.coords j).tmod 2 == 0

/-- The body for one face, Accessible_mesh.cpp:772-806, of the element of kind `d` at cell `p`. -/
def connectFace (st : St nd) (d : Bool) (p : Path) (links : List Link) (i : Nat) : Option (List Link) :=
  let k := i / 2
  let s := i % 2
  if linked links (p, i) then some links
  else (findNeighbors st.root p (direction nd i)).bind fun l => match l with
    | [] => some (links ++ [.bound d (p, i) i])
    | [q] =>
      if hasElem st q then
        (level st p).bind fun lp => (level st q).bind fun lq =>
          if lq = lp then some (links ++ [confLink st p q k s])
          else if isMinCorner st.root p k then
            (findNeighbors st.root q (fun e => -direction nd i e)).bind fun m => (connectRefined st q k s m).map fun x => links ++ [x]
          else some links
      else some links
    | q :: _ => if hasElem st q then (connectRefined st p k (1 - s) l).map fun x => links ++ [x] else some links

/-- The loops over the faces of one element. -/
def connectElem (st : St nd) (d : Bool) (links : List Link) (e : El) : Option (List Link) := match e.tree with
  | none => some links
  | some p => (List.range (2 * nd)).foldlM (connectFace st d p) links

/-- `connect_new<Element>(0)` (`d = false`) or `connect_new<Deformed_element>(0)`, Accessible_mesh.cpp:743-812. -/
def connectNew (st : St nd) (d : Bool) (links : List Link) : Option (List Link) := (st.els d).foldlM (connectElem st d) links

/-- The faces `extrude` extrudes from, Accessible_mesh.cpp:390-405: those of deformed elements with a cell that are not connected. Each
extruded element is connected to the face (lines 424-426). -/
def extrudeFaces (st : St nd) (links : List Link) : List Face :=
  (st.els true).flatMap fun e => match e.tree with
    | none => []
    | some p => ((List.range (2 * nd)).map fun i => (p, i)).filter fun f => !linked links f

/-- Connecting the elements after `purge`: Accessible_mesh.cpp:1317-1319 and 720-722. -/
def connectAll (st : St nd) (links : List Link) : Option (List Link) :=
  (connectNew st false links).bind fun links => (connectNew st true links).map fun links => links ++ (extrudeFaces st links).map .extr

/-- The boundary connections made by `add_tree`, Accessible_mesh.cpp:674-683. -/
def newLinks (nd : Nat) : List Link := (List.range (2 * nd)).map fun i => .bound false ([], i) i

end Hexed.Adapt
