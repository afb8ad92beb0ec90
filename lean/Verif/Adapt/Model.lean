import Verif.Tree.Model

set_option autoImplicit false
set_option linter.unusedVariables false

/-!
# Model of tree-based mesh adaptation

The phases of `Accessible_mesh::update` and `set_surface` (src/Accessible_mesh.cpp) that decide which tree cells have elements:
refinement, unrefinement, incremental flood fill, refinement level smoothing and removal of bad extrusion sites.

Simplified:
* An element is reduced to its record and its tree cell. `Element::tree` and `Tree::elem` are two ends of a `Mutual_ptr`
  (modelled in `Verif.Mutual`): "the element of cell `p`" is the one whose `tree` is `p`.
* `intersects_surface` depends only on the cell and is a parameter; so is the test of lines 979-982 whether the surface is behind an
  element as seen in some direction.
* A parallel loop over elements is run in an arbitrary order of whole iterations (the parameter `order`).
* `none` = failed assertion, null or dangling pointer, or invalid index.
-/

namespace Hexed.Adapt
open Hexed.Tree (Path get modify refineNode unrefineNode setStatusNode findNeighbors findNeighbor)

variable {nd : Nat}

/-- An element: its cell in the tree (`none` for extruded elements and elements whose cell has been deleted), its record and
`unrefinement_locked`. -/
structure El where
  tree : Option Path
  record : Int
  locked : Bool

/-- The tree and the Cartesian (`false`) and deformed (`true`) elements. -/
structure St (nd : Nat) where
  root : Tree nd
  els : Bool → List El

/-- `elements()`, Accessible_mesh.cpp:131. -/
def St.all (st : St nd) : List El := st.els false ++ st.els true

/-- `tree->elem->record`; `none` = `tree->elem` is null. -/
def recordAt (st : St nd) (p : Path) : Option Int := (st.all.find? fun e => e.tree == some p).map (·.record)

/-- `exists`, Accessible_mesh.cpp:840-849. -/
def exists_ (st : St nd) (p : Path) : Bool := (recordAt st p).any fun r => r != 2

/-- Is `tree->elem` not null? -/
def hasElem (st : St nd) (p : Path) : Bool := (recordAt st p).isSome

/-- `tree->elem->record = v`. -/
def setAt (st : St nd) (p : Path) (v : Int) : St nd :=
  { st with els := fun d => (st.els d).map fun e => if e.tree == some p then { e with record := v } else e }

/-- `elems[i].record = v` for an element given by its container and index. -/
def setRec (st : St nd) (h : Bool × Nat) (v : Int) : St nd :=
  { st with els := fun d => if d = h.1 then (st.els d).modify h.2 fun e => { e with record := v } else st.els d }

/-- `math::sign`, math.hpp:52-55. -/
def sign (b : Bool) : Int := if b then 1 else -1

/-- `math::direction(n_dim, i_face)`, math.cpp:6-17. -/
def direction (nd i_face : Nat) : Fin nd → Int := fun d => if d.val = i_face / 2 then sign (i_face % 2 == 1) else 0

/-- `dir(j_face/2) = math::sign(j_face%2)`, Accessible_mesh.cpp:866. -/
def withFace (dir : Fin nd → Int) (j_face : Nat) : Fin nd → Int := fun d => if d.val = j_face / 2 then sign (j_face % 2 == 1) else dir d

/-- `refinement_level()` of the cell at `p`. -/
def level (st : St nd) (p : Path) : Option Nat := (get p st.root).map (·.rl)

/-- `too_fine`, Accessible_mesh.cpp:859. -/
def tooFine (st : St nd) (rl : Nat) (q : Path) : Bool := exists_ st q && (level st q).any fun l => l > rl + 1

/-- The loops of `needs_refine` over a list of directions, Accessible_mesh.cpp:854-871. -/
def anyTooFine (st : St nd) (p : Path) (rl : Nat) : List (Fin nd → Int) → Option Bool
  | [] => some false
  | dir :: ds => (findNeighbors st.root p dir).bind fun l => if l.any (tooFine st rl) then some true else anyTooFine st p rl ds

/-- The directions tried by `needs_refine` in order, Accessible_mesh.cpp:854-866. -/
def refineDirs (nd : Nat) (has_elem : Bool) : List (Fin nd → Int) :=
  (List.range (2 * nd)).flatMap fun i => direction nd i ::
    if has_elem then (List.range (2 * (i / 2))).map fun j => withFace (direction nd i) j else []

/-- `needs_refine`, Accessible_mesh.cpp:852-874. -/
def needsRefine (st : St nd) (p : Path) : Option Bool :=
  (level st p).bind fun rl => anyTooFine st p rl (refineDirs nd (hasElem st p))

/-- The children of a cell that has been refined. -/
def kids (nd : Nat) (p : Path) : List Path := (List.range (2 ^ nd)).map fun i => p ++ [i]

/-- `refine_set_status`, Accessible_mesh.cpp:814-820; `none` = the cell is not a leaf. -/
def refineSetStatus (surf : Tree nd → Bool) (root : Tree nd) (p : Path) : Option (Tree nd) :=
  (get p root).bind fun s => if s.isLeaf then
    some ((kids nd p).foldl (fun t c => modify (fun n => setStatusNode ((if surf n then 1 else 0) - 1) n) c t) (modify refineNode p root))
  else none

/-- `add_elem` (Accessible_mesh.cpp:648-659) followed by `.record = 0`. Pairing with the new element unpairs a previous one. -/
def addElem (st : St nd) (d : Bool) (p : Path) : St nd :=
  { st with els := fun d' =>
      let l := (st.els d').map fun e => if e.tree == some p then { e with tree := none } else e
      if d' = d then l ++ [⟨some p, 0, false⟩] else l }

/-- The body of the loop of `refine_by_record`, Accessible_mesh.cpp:827-836. -/
def refineOne (surf : Tree nd → Bool) (d : Bool) (st : St nd) (i : Nat) : Option (St nd) :=
  ((st.els d)[i]?).bind fun e => match e.tree with
    | none => some st
    | some p =>
      if e.record = 1 then
        (refineSetStatus surf st.root p).map fun root =>
          (kids nd p).foldl (fun st c => addElem st d c) { setRec st (d, i) 2 with root := root }
      else some st

/-- `refine_by_record(is_deformed, 0, end)`, Accessible_mesh.cpp:823-838. -/
def refineByRecord (surf : Tree nd → Bool) (d : Bool) (n : Nat) (st : St nd) : Option (St nd) :=
  (List.range n).foldlM (refineOne surf d) st

/-! ## Refinement level smoothing -/

/-- The body of the parallel loop, Accessible_mesh.cpp:1289-1295, for one element. -/
def smoothOne (s : St nd × Bool) (h : Bool × Nat) : Option (St nd × Bool) :=
  ((s.1.els h.1)[h.2]?).bind fun e => match e.tree with
    | none => some s
    | some p => if e.record ≠ 2 then (needsRefine s.1 p).map fun b => if b then (setRec s.1 h 1, true) else s else some s

/-- One pass of the loop, Accessible_mesh.cpp:1286-1297; also returns `changed`. -/
def smoothPass (surf : Tree nd → Bool) (order : List (Bool × Nat)) (st : St nd) : Option (St nd × Bool) :=
  (order.foldlM smoothOne (st, false)).bind fun s =>
    (refineByRecord surf false (s.1.els false).length s.1).bind fun st =>
      (refineByRecord surf true (st.els true).length st).map fun st => (st, s.2)

/-- A `do ... while (changed)` loop: `none` = a pass failed, `some none` = the loop has not ended after `n` passes. `order k st` is the
order in which pass `k`, started in state `st`, treats the elements. -/
def repeatPass (pass : List (Bool × Nat) → St nd → Option (St nd × Bool)) (order : Nat → St nd → List (Bool × Nat)) :
    Nat → Nat → St nd → Option (Option (St nd))
  | _, 0, _ => some none
  | k, n + 1, st => (pass (order k st) st).bind fun s => if s.2 then repeatPass pass order (k + 1) n s.1 else some (some s.1)

/-- Refinement level smoothing, Accessible_mesh.cpp:1285-1298. -/
def smooth (surf : Tree nd → Bool) (order : Nat → St nd → List (Bool × Nat)) (n : Nat) (st : St nd) : Option (Option (St nd)) :=
  repeatPass (smoothPass surf) order 0 n st

/-! ## Removal of bad extrusion sites -/

/-- `for (Tree* n : neighbors) if (n->elem) n->elem->record = 2`, Accessible_mesh.cpp:913-916. -/
def killAll (st : St nd) (l : List Path) : St nd := l.foldl (fun st q => setAt st q 2) st

/-- Some but not all of the neighbours exist, Accessible_mesh.cpp:911 and 958-959. -/
def partly (st : St nd) (l : List Path) : Bool := l.any (exists_ st) && !l.all (exists_ st)

/-- Lines 927-939 (also 944-954): delete diagonal neighbours that are not coarser, and the element itself if they have the same level. -/
def killDiag (p : Path) (rl : Nat) (s : St nd × Bool) (l : List Path) : Option (St nd × Bool) :=
  l.foldlM (fun s n => if exists_ s.1 n then (level s.1 n).map fun ln =>
      if ln ≥ rl then
        let st := setAt s.1 n 2
        (if ln = rl then setAt st p 2 else st, true)
      else s
    else some s) s

/-- `exposed[i]`. -/
def isExp (ex : List Bool) (i : Nat) : Bool := ex[i]?.getD false

/-- The loop over `k_face`, Accessible_mesh.cpp:940-955. -/
def faceK (p : Path) (rl : Nat) (dir : Fin nd → Int) (ex : List Bool) (s : St nd × Bool) (ks : List Nat) : Option (St nd × Bool) :=
  ks.foldlM (fun s k => if isExp ex k then
    (findNeighbors s.1.root p (withFace dir k)).bind fun l => killDiag p rl s l else some s) s

/-- The loop over `j_face`, Accessible_mesh.cpp:920-970. `ex` lists `exposed[0 .. i_face]`. -/
def faceJ (p : Path) (rl : Nat) (i : Nat) (ex : List Bool) (s : St nd × Bool) (js : List Nat) : Option (St nd × Bool) :=
  js.foldlM (fun s j =>
    if isExp ex i || isExp ex j then
      let dir := withFace (direction nd i) j
      (findNeighbors s.1.root p dir).bind fun l =>
        if isExp ex i && isExp ex j then
          (killDiag p rl s l).bind fun s => faceK p rl dir ex s (List.range (2 * (j / 2)))
        else if nd = 3 then
          some (if partly s.1 l then (killAll s.1 l, true) else s)
        else some s
    else some s) s

/-- The body for one face, Accessible_mesh.cpp:905-971. -/
def faceI (p : Path) (rl : Nat) (s : (St nd × Bool) × List Bool) (i : Nat) : Option ((St nd × Bool) × List Bool) :=
  (findNeighbors s.1.1.root p (direction nd i)).bind fun l =>
    let ex := s.2 ++ [!l.all (exists_ s.1.1)]
    let s' := if l.length > 1 && partly s.1.1 l then (killAll s.1.1 l, true) else s.1
    (faceJ p rl i ex s' (List.range (2 * (i / 2)))).map fun s' => (s', ex)

/-- The directions in which `eval` is called, Accessible_mesh.cpp:984-996. -/
def evalDirs (nd : Nat) (ex : List Bool) : List (Fin nd → Int) :=
  ((List.range (2 * nd)).filter (isExp ex)).flatMap fun i => direction nd i ::
    ((List.range (2 * (i / 2))).filter (isExp ex)).flatMap fun j => withFace (direction nd i) j ::
      ((List.range (2 * (j / 2))).filter (isExp ex)).map fun k => withFace (withFace (direction nd i) j) k

/-- The body of the parallel loop, Accessible_mesh.cpp:899-1004, for one element. `away c dir` is the test of lines 979-982 for an
element at cell `c` (false if there is no geometry). -/
def deleteOne (away : Tree nd → (Fin nd → Int) → Bool) (s : St nd × Bool) (h : Bool × Nat) : Option (St nd × Bool) :=
  ((s.1.els h.1)[h.2]?).bind fun e => match e.tree with
    | none => some s
    | some p =>
      if e.record ≠ 2 then
        (get p s.1.root).bind fun c =>
          ((List.range (2 * nd)).foldlM (faceI p c.rl) (s, [])).map fun r =>
            if (evalDirs nd r.2).any (away c) then (setRec r.1.1 h 2, true) else r.1
      else some s

/-- One sweep, Accessible_mesh.cpp:896-1005. -/
def deletePass (away : Tree nd → (Fin nd → Int) → Bool) (order : List (Bool × Nat)) (st : St nd) : Option (St nd × Bool) :=
  order.foldlM (deleteOne away) (st, false)

/-- `delete_bad_extrusions`, Accessible_mesh.cpp:890-1007. -/
def deleteBad (away : Tree nd → (Fin nd → Int) → Bool) (order : Nat → St nd → List (Bool × Nat)) (n : Nat) (st : St nd) : Option (Option (St nd)) :=
  repeatPass (deletePass away) order 0 n st

/-! ## Unrefinement -/

/-- The children of the cell at `p`. -/
def childPaths (root : Tree nd) (p : Path) : Option (List Path) :=
  (get p root).map fun s => (List.range s.children.length).map fun i => p ++ [i]

/-- `has_existent_children`, Accessible_mesh.cpp:876-881: the cell or some cell below it has an element. -/
def hasExistentChildren (st : St nd) (p : Path) : Bool := st.all.any fun e => e.tree.any fun q => p.isPrefixOf q

/-- Is the element of cell `p` deformed? -/
def isDefAt (st : St nd) (p : Path) : Bool := (st.els true).any fun e => e.tree == some p

/-- `child->elem->record = 2` for all children that have an element, then `parent->unrefine()`: Accessible_mesh.cpp:1194-1199 and
1237-1242. The cells below `parent` are deleted, which unpairs their elements (`~Mutual_ptr`). -/
def collapse (st : St nd) (parent : Path) (children : List Path) : St nd :=
  let st := killAll st children
  { root := modify unrefineNode parent st.root
    els := fun d => (st.els d).map fun e => if e.tree.any (fun q => parent.isPrefixOf q && parent != q) then { e with tree := none } else e }

/-- The loop over the siblings, Accessible_mesh.cpp:1181-1187: `unref` and `is_def`. -/
def siblings (st : St nd) (s : Bool × Bool) : List Path → Option (Bool × Bool)
  | [] => some s
  | c :: cs => (get c st.root).bind fun n =>
    siblings st (if !n.isLeaf && hasExistentChildren st c then (false, s.2)
      else match recordAt st c with
        | some r => if r ≠ 2 then (s.1 && r == -1, s.2 || isDefAt st c) else s
        | none => s) cs

/-- The body of the loop, Accessible_mesh.cpp:1172-1202. -/
def unrefOne (d : Bool) (s : St nd × Bool) (i : Nat) : Option (St nd × Bool) :=
  ((s.1.els d)[i]?).bind fun e => match e.tree with
    | none => some s
    | some p =>
      if e.record = -1 ∧ p ≠ [] then
        let parent := p.dropLast
        (childPaths s.1.root parent).bind fun cs =>
          (siblings s.1 (!e.locked, false) cs).bind fun u =>
            if u.1 then (needsRefine s.1 parent).map fun nr =>
              if nr then s else (addElem (collapse s.1 parent cs) u.2 parent, true)
            else some (setRec s.1 (d, i) 0, s.2)
      else some s

/-- One pass of the unrefinement loop, Accessible_mesh.cpp:1168-1204. `n` are the numbers of elements before refinement (`n_orig`). -/
def unrefPass (n : Bool → Nat) (st : St nd) : Option (St nd × Bool) :=
  ((List.range (n false)).foldlM (unrefOne false) (st, false)).bind fun s => (List.range (n true)).foldlM (unrefOne true) s

/-! ## Incremental flood fill -/

/-- The smallest level of the existing neighbours found in each direction, Accessible_mesh.cpp:1248-1252; `none` = there is none
(`min_rl` is the largest integer). -/
def minLevel (st : St nd) (q : Path) : Option Nat :=
  (List.range (2 * nd)).foldl (fun m j => match findNeighbor st.root q (direction nd j) with
    | none => m
    | some n => if exists_ st n then (match m, level st n with
      | some m, some l => some (min m l)
      | none, l => l
      | m, none => m) else m) none

/-- The body for one face, Accessible_mesh.cpp:1228-1259, of an element at cell `p` of level `rl`. -/
def syncFace (surf : Tree nd → Bool) (p : Path) (rl : Nat) (s : St nd × Bool) (i : Nat) : Option (St nd × Bool) :=
  (get p s.1.root).bind fun _ => match findNeighbor s.1.root p (direction nd i) with
    | none => some s
    | some q =>
      if exists_ s.1 q then some s
      else (level s.1 q).bind fun ql =>
        if ql > rl then
          let parent := q.dropLast
          (childPaths s.1.root parent).bind fun cs =>
            if cs.all (fun c => !exists_ s.1 c) then (needsRefine s.1 parent).map fun nr =>
              if nr then s else (collapse s.1 parent cs, true)
            else some s
        else if ql + 1 < rl then (refineSetStatus surf s.1.root q).map fun root => ({ s.1 with root := root }, true)
        else if ql < rl then
          if (minLevel s.1 q).all (fun m => ql < m) then (refineSetStatus surf s.1.root q).map fun root => ({ s.1 with root := root }, true)
          else some s
        else some s

/-- Lines 1224-1262 for one element. -/
def syncOne (surf : Tree nd → Bool) (s : St nd × Bool) (h : Bool × Nat) : Option (St nd × Bool) :=
  ((s.1.els h.1)[h.2]?).bind fun e => match e.tree with
    | none => some s
    | some p => if e.record ≠ 2 then (level s.1 p).bind fun rl => (List.range (2 * nd)).foldlM (syncFace surf p rl) s else some s

/-- The innermost body, Accessible_mesh.cpp:1273-1277. `is_surface` is status 0 (692-695). -/
def fillOne (d : Bool) (s : St nd × Bool) (q : Path) : Option (St nd × Bool) :=
  if exists_ s.1 q then some s
  else (get q s.1.root).map fun n =>
    if n.status = 0 then s
    else (let st := addElem s.1 d q; { st with root := modify (setStatusNode 1) q st.root }, true)

/-- The body for one face, Accessible_mesh.cpp:1272-1278. -/
def fillFace (d : Bool) (p : Path) (s : St nd × Bool) (i : Nat) : Option (St nd × Bool) :=
  (findNeighbors s.1.root p (direction nd i)).bind fun l => l.foldlM (fillOne d) s

/-- Lines 1269-1280 for one element. -/
def fillElem (d : Bool) (s : St nd × Bool) (i : Nat) : Option (St nd × Bool) :=
  ((s.1.els d)[i]?).bind fun e => match e.tree with
    | none => some s
    | some p => if e.record ≠ 2 then (List.range (2 * nd)).foldlM (fillFace d p) s else some s

/-- The handles of all elements in the order of `elements()`. -/
def handles (st : St nd) : List (Bool × Nat) :=
  (List.range (st.els false).length).map (fun i => (false, i)) ++ (List.range (st.els true).length).map fun i => (true, i)

/-- One pass of the flood fill, Accessible_mesh.cpp:1222-1282. -/
def fillPass (surf : Tree nd → Bool) (st : St nd) : Option (St nd × Bool) :=
  ((handles st).foldlM (syncOne surf) (st, false)).bind fun s =>
    ((List.range (s.1.els false).length).foldlM (fillElem false) s).bind fun s =>
      (List.range (s.1.els true).length).foldlM (fillElem true) s

/-! ## The whole sequence -/

/-- Lines 1207-1210: unrefinement requests that were not granted are dropped. -/
def dropRequests (st : St nd) : St nd :=
  { st with els := fun d => (st.els d).map fun e => if e.record = -1 then { e with record := 0 } else e }

/-- Lines 1212-1219: new elements that intersect the surface are deleted. -/
def unflood (n : Bool → Nat) (st : St nd) : St nd :=
  { st with els := fun d => (st.els d).mapIdx fun i e =>
      if i ≥ n d ∧ e.record ≠ 2 ∧ (e.tree.any fun p => (get p st.root).any fun c => c.status == 0) = true then { e with record := 2 } else e }

/-- Lines 1161-1299 of `update`, started with the refinement (1) and unrefinement (-1) requests in the records. `fuel` bounds the number of
passes of each loop: `none` = failure, `some none` = a loop has not ended. -/
def adapt (surf : Tree nd → Bool) (away : Tree nd → (Fin nd → Int) → Bool) (o1 o2 : Nat → St nd → List (Bool × Nat)) (fuel : Nat) (st : St nd) :
    Option (Option (St nd)) :=
  let n : Bool → Nat := fun d => (st.els d).length
  (refineByRecord surf false (n false) st).bind fun st =>
  (refineByRecord surf true (n true) st).bind fun st =>
  (repeatPass (fun _ => unrefPass n) (fun _ _ => []) 0 fuel st).bind fun r => match r with
    | none => some none
    | some st =>
      (repeatPass (fun _ => fillPass surf) (fun _ _ => []) 0 fuel (unflood n (dropRequests st))).bind fun r => match r with
        | none => some none
        | some st =>
          (smooth surf o1 fuel st).bind fun r => match r with
            | none => some none
            | some st => deleteBad away o2 fuel st

end Hexed.Adapt
