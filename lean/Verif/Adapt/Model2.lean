import Verif.Adapt.Model

set_option autoImplicit false
set_option linter.unusedVariables false

/-!
# Model of tree-based mesh adaptation, continued

The choice of the deformed elements (`Accessible_mesh::deform`), the removal of deleted elements (`purge`), and `set_surface` and `update` as a
whole as far as elements with a tree cell are concerned. Connections, extrusion and vertices are not modelled here; extrusion adds and
deletes only elements without a cell.
-/

namespace Hexed.Adapt
open Hexed.Tree (Path get modify refineNode unrefineNode setStatusNode findNeighbors findNeighbor)

variable {nd : Nat}

/-! ## Deformed elements -/

/-- `is_def` of an element of container `d`, Accessible_mesh.cpp:883-887. -/
def isDef (d : Bool) (e : El) : Bool := if d then e.record == 0 else e.record == 3

/-- `elem.record = 3*!elem.get_is_deformed()`. -/
def toDef (d : Bool) (e : El) : El := { e with record := if d then 0 else 3 }

/-- `tree->elem->record = 3*!tree->elem->get_is_deformed()`. -/
def setDefAt (st : St nd) (p : Path) : St nd :=
  { st with els := fun d => (st.els d).map fun e => if e.tree == some p then toDef d e else e }

/-- The same for an element given by its container and index. -/
def setDef (st : St nd) (h : Bool × Nat) : St nd :=
  { st with els := fun d => if d = h.1 then (st.els d).modify h.2 (toDef d) else st.els d }

/-- `is_def(*tree->elem)`. -/
def defAt (st : St nd) (p : Path) : Bool := [false, true].any fun d => (st.els d).any fun e => e.tree == some p && isDef d e

/-- "start with all elements as cartesian", Accessible_mesh.cpp:1013-1018. -/
def deformStart (st : St nd) : St nd :=
  { st with els := fun d => (st.els d).map fun e => if e.record ≠ 2 ∧ d = true ∧ e.tree ≠ none then { e with record := 3 } else e }

/-- `surface[i_face]` from `neighbors[i_face]`, Accessible_mesh.cpp:1030-1033. -/
def surfaceFace (st : St nd) (l : List Path) : Bool := l.head?.any fun q => !exists_ st q

/-- Lines 1046-1049: deform the neighbours that exist. -/
def deformNeighbors (st : St nd) (l : List Path) : St nd := l.foldl (fun st q => if exists_ st q then setDefAt st q else st) st

/-- The body of the parallel loop, Accessible_mesh.cpp:1021-1054, for one element. -/
def deformOne (st : St nd) (h : Bool × Nat) : Option (St nd) :=
  ((st.els h.1)[h.2]?).bind fun e => match e.tree with
    | none => some st
    | some p =>
      if e.record ≠ 2 then
        ((List.range (2 * nd)).mapM fun i => findNeighbors st.root p (direction nd i)).map fun ls =>
          let surface := ls.map (surfaceFace st)
          if surface.any id then
            (List.range (2 * nd)).foldl (fun s i =>
              if (List.range (2 * nd)).any (fun j => j / 2 != i / 2 && isExp surface j) then deformNeighbors s (ls[i]?.getD []) else s) (setDef st h)
          else st
      else some st

/-- The body for one face, Accessible_mesh.cpp:1064-1082. -/
def spreadFace (p : Path) (s : St nd × Bool) (i : Nat) : Option (St nd × Bool) :=
  (findNeighbors s.1.root p (direction nd i)).map fun l =>
    let l := l.filter (hasElem s.1)
    if l.any (defAt s.1) && !l.all (defAt s.1) then (l.foldl setDefAt s.1, true) else s

/-- The body of the parallel loop, Accessible_mesh.cpp:1061-1084, for one element. -/
def spreadOne (s : St nd × Bool) (h : Bool × Nat) : Option (St nd × Bool) :=
  ((s.1.els h.1)[h.2]?).bind fun e => match e.tree with
    | none => some s
    | some p => if isDef h.1 e then (List.range (2 * nd)).foldlM (spreadFace p) s else some s

/-- One pass of the loop, Accessible_mesh.cpp:1058-1085. -/
def spreadPass (order : List (Bool × Nat)) (st : St nd) : Option (St nd × Bool) := order.foldlM spreadOne (st, false)

/-- The body of the last loop, Accessible_mesh.cpp:1092-1097; `none` = null pointer. -/
def swapOne (d : Bool) (st : St nd) (i : Nat) : Option (St nd) :=
  ((st.els d)[i]?).bind fun e =>
    if e.record = 3 then e.tree.map fun p =>
      let st := addElem st (!d) p
      { st with els := fun d' => if d' = d then (st.els d').modify i fun e => { e with tree := none, record := 2 } else st.els d' }
    else some st

/-- Lines 1088-1098 for one container. -/
def swap (d : Bool) (st : St nd) : Option (St nd) := (List.range (st.els d).length).foldlM (swapOne d) st

/-- `deform`, Accessible_mesh.cpp:1009-1100. `fuel` bounds the number of passes: `some none` = the loop has not ended. -/
def deform (o1 o2 : Nat → St nd → List (Bool × Nat)) (fuel : Nat) (st : St nd) : Option (Option (St nd)) :=
  ((o1 0 st).foldlM deformOne (deformStart st)).bind fun st =>
    (repeatPass spreadPass o2 0 fuel st).bind fun r => match r with
      | none => some none
      | some st => (swap false st).bind fun st => (swap true st).map some

/-- The elements left by `purge`, Accessible_mesh.cpp:1111-1112 (Element_container.hpp:82-96: those with record 0 stay). -/
def purge (st : St nd) : St nd := { st with els := fun d => (st.els d).filter fun e => e.record == 0 }

/-! ## `update` and `set_surface` -/

/-- The orders in which the parallel loops treat the elements: in the smoothing of levels, `delete_bad_extrusions` and the two loops of
`deform`. -/
structure Orders (nd : Nat) where
  smooth : Nat → St nd → List (Bool × Nat)
  delete : Nat → St nd → List (Bool × Nat)
  deform : Nat → St nd → List (Bool × Nat)
  spread : Nat → St nd → List (Bool × Nat)

/-- `update` from line 1161 on, started with the requests in the records. -/
def update (surf : Tree nd → Bool) (away : Tree nd → (Fin nd → Int) → Bool) (o : Orders nd) (fuel : Nat) (st : St nd) : Option (Option (St nd)) :=
  (adapt surf away o.smooth o.delete fuel st).bind fun r => match r with
    | none => some none
    | some st => (deform o.deform o.spread fuel st).map fun r => r.map purge

/-- "identify surface elements", Accessible_mesh.cpp:703-709. -/
def markSurface (surf : Tree nd → Bool) (st : St nd) : Tree nd :=
  (st.all.filterMap (·.tree)).foldl (fun t p => modify (fun n => if surf n then setStatusNode 0 n else n) p t) st.root

/-- "delete stuff", Accessible_mesh.cpp:714-719. -/
def recordInside (st : St nd) : St nd :=
  { st with els := fun d => (st.els d).map fun e =>
      { e with record := if e.tree.any (fun p => !(get p st.root).any fun c => c.status == 1) then 2 else 0 } }

/-- `set_surface`, Accessible_mesh.cpp:697-722, on a mesh with a tree. `start` is the leaf at `flood_fill_start` (`Tree::find_leaf`), or the
root if there is none. -/
def setSurface (surf : Tree nd → Bool) (away : Tree nd → (Fin nd → Int) → Bool) (o : Orders nd) (fuel : Nat) (start : Path) (st : St nd) :
    Option (Option (St nd)) :=
  match Tree.floodFill 1 start (markSurface surf st) with
  | .ok root =>
    (deleteBad away o.delete fuel (recordInside { st with root := root })).bind fun r => match r with
      | none => some none
      | some st => (deform o.deform o.spread fuel st).map fun r => r.map purge
  | _ => none

end Hexed.Adapt
