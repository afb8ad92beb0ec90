import Verif.Mesh.Model
import Verif.Polymesh.Model
import Mathlib.Algebra.Field.Defs
import Mathlib.Data.Nat.Cast.Basic

set_option autoImplicit false
set_option linter.unusedVariables false

/-!
# Model of writing a mesh to a file and reading it

`Accessible_mesh::write` (src/Accessible_mesh.cpp:1500-1651) and `Accessible_mesh::read_file` (1653-1771). The constructors of connections are those of `Verif.Mesh` and
`Verif.Connection`.

Simplified: the data sets of the file are lists of rows (HDF5 is left out); attributes are left out; the tree is known by the set of elements which its cells own (its structure is
modelled in `Verif.TreeFile`); identification of vertices for smoothing and on boundaries, at the end of `cleanup`, is left out. `K` is exact.
-/

namespace Hexed.MeshFile
open Hexed.MeshConn
open Hexed.Connection (Dir vertexInds refinedVerts)
open Hexed.Polymesh (numbering)

variable {K A : Type}

/-- A mesh: its connectivity, and `refinement_level()`, `nominal_position()`, `vertex(i_vert)` and `node_adjustments()` of elements, whether they have a cell (`tree`), `vertices()`
and their positions, `stretch()` of hanging-node connections (known by their addresses), and `extrude_cons`. -/
structure Data (K A : Type) where
  mesh : Mesh
  level : Elem → Nat
  nom : Elem → List Int
  vert : Elem → Nat → Nat
  adj : Elem → A
  tree : Elem → Bool
  verts : List Nat
  pos : Nat → Fin 3 → K
  str : Nat → Bool × Bool
  extruded : List Nat

/-- A row for an element: `is_deformed`, `refinement_level`, `nominal_position`, `vertices`. -/
structure ElemRow where
  is_def : Bool
  level : Nat
  nom : List Int
  vert : List Nat

/-- The data sets of a file. -/
structure File (K A : Type) where
  pos : List (Fin 3 → K)
  elems : List ElemRow
  conformal : List (List Int)
  refined : List (List Int)
  boundary : List (List Int)
  owned : List Nat
  warping : List (Nat × A)

/-! ## Writing -/

/-- Lines 1537-1550. -/
def elemRow (D : Data K A) (e : Elem) : Option ElemRow :=
  ((List.range (2 ^ D.mesh.nd)).mapM fun i_vert => numbering D.verts (D.vert e i_vert)).map fun v => ⟨decide (e ∈ D.mesh.dfm.elems.elements), D.level e, D.nom e, v⟩

/-- Lines 1557-1568; `rec` is `Element::record`. -/
def conRow (rec : Elem → Option Nat) (c : Conn) : Option (List Int) :=
  (rec (c.el false)).bind fun (r0 : Nat) => (rec (c.el true)).map fun (r1 : Nat) =>
    let dir := c.dir.toDir
    [(r0 : Int), r1, dir.i0.val, dir.i1.val, dir.s0.toNat, dir.s1.toNat]

/-- Lines 1579-1600. The fine elements are listed in the order of `connection(i_fine)`. -/
def refRow (rec : Elem → Option Nat) (str : Nat → Bool × Bool) (r : RefConn) : Option (List Int) :=
  (rec r.coarse).bind fun c => ((List.range r.fine.length).mapM fun i_fine => (r.element i_fine !r.rev).bind rec).map fun fine =>
    let dir := r.dir.toDir
    [(c : Int)] ++ (fine.map Int.ofNat ++ List.replicate (4 - r.fine.length) (-1)) ++ [((str r.id).1.toNat : Int), (str r.id).2.toNat] ++
      (if r.rev then [(dir.i1.val : Int), dir.i0.val, dir.s1.toNat, dir.s0.toNat] else [(dir.i0.val : Int), dir.i1.val, dir.s0.toNat, dir.s1.toNat])

/-- Lines 1610-1616. -/
def boundRow (rec : Elem → Option Nat) (c : BCon) : Option (List Int) := (rec c.el).map fun (r : Nat) => [(r : Int), c.bc, c.i_dim, c.sign.toNat]

/-- All hanging-node connections of one kind, Mesh_by_type.hpp:101. -/
def allRefs (b : ByType) : List RefConn := b.refs 0 ++ b.refs 1 ++ b.refs 2

/-- `write`, lines 1500-1651. `none` = access to an empty record. -/
def write (D : Data K A) : Option (File K A) :=
  let rec_ := numbering D.mesh.elements
  (D.mesh.elements.mapM (elemRow D)).bind fun elems =>
    ((D.mesh.car.cons ++ D.mesh.dfm.cons).mapM (conRow rec_)).bind fun conformal =>
      ((allRefs D.mesh.car ++ allRefs D.mesh.dfm).mapM (refRow rec_ D.str)).bind fun refined =>
        ((D.mesh.car.bounds ++ D.mesh.dfm.bounds).mapM (boundRow rec_)).bind fun boundary =>
          (((D.mesh.elements.filter D.tree)).mapM rec_).bind fun owned =>
            (D.mesh.dfm.elems.elements.mapM fun e => (rec_ e).map fun r => (r, D.adj e)).map fun warping =>
              ⟨D.verts.map D.pos, elems, conformal, refined, boundary, owned, warping⟩

/-! ## Vertices -/

/-- Vertices while a mesh is built: `Element::vertex` of each corner of an element, positions and masses (the number of corners, Vertex.cpp:55-58). A vertex is known by the corner
it was made for. -/
structure Glue (K : Type) where
  vert : Elem × Nat → Elem × Nat
  pos : Elem × Nat → Fin 3 → K
  mass : Elem × Nat → Nat

/-- `Vertex::eat`, Vertex.cpp:31-53, of the vertices of two corners. Modelled in full in `Verif.Vertex`. -/
def Glue.eat [Field K] (g : Glue K) (x : (Elem × Nat) × (Elem × Nat)) : Glue K :=
  let a := g.vert x.1
  let b := g.vert x.2
  if a = b then g
  else
    let m : K := g.mass a
    let om : K := g.mass b
    { vert := fun c => if g.vert c = b then a else g.vert c
      pos := Function.update g.pos a fun i => (m * g.pos a i + om * g.pos b i) / (m + om)
      mass := Function.update g.mass a (g.mass a + g.mass b) }

/-! ## Reading -/

/-- How reading ends. -/
inductive Res (α : Type)
  | ok (a : α)
  | throws
  | ub

/-- Go on unless there was an exception or undefined behaviour. -/
def Res.bind {α β : Type} : Res α → (α → Res β) → Res β
  | .ok a, f => f a
  | .throws, _ => .throws
  | .ub, _ => .ub

/-- Access to an entry; `ub` = outside the vector. -/
def Res.of {α : Type} : Option α → Res α
  | some a => .ok a
  | none => .ub

/-- A loop over rows. -/
def Res.loop {α σ : Type} (f : σ → α → Res σ) : σ → List α → Res σ
  | s, [] => .ok s
  | s, a :: l => (f s a).bind fun s => Res.loop f s l

/-- The mesh being read: connectivity, `elem_ptrs`, properties of elements, positions given to their vertices, `extrude_cons`, the stretching of hanging-node connections and the
pairs of corners whose vertices were merged. -/
structure State (K A : Type) where
  mesh : Mesh
  ptrs : List Elem
  is_def : Elem → Bool
  level : Elem → Nat
  nom : Elem → List Int
  corner : Elem → Nat → Fin 3 → K
  adj : Elem → Option A
  extruded : List Nat
  str : Nat → Bool × Bool
  merges : List ((Elem × Nat) × (Elem × Nat))

/-- An entry of an integer row used as an index; negative ones are outside any vector. -/
def entry (row : List Int) (i : Nat) : Res Nat := (Res.of row[i]?).bind fun x => if 0 ≤ x then .ok x.toNat else .ub

/-- A dimension. -/
def entryDim (row : List Int) (i : Nat) : Res (Fin 3) := (entry row i).bind fun n => if h : n < 3 then .ok ⟨n, h⟩ else .ub

/-- `bool(data[i])`. -/
def entryBool (row : List Int) (i : Nat) : Res Bool := (Res.of row[i]?).bind fun x => .ok (decide (x ≠ 0))

/-- The element of a row, `elem_ptrs[data[i]]`. -/
def entryElem (s : State K A) (row : List Int) (i : Nat) : Res Elem := (entry row i).bind fun n => .of s.ptrs[n]?

/-- Lines 1668-1682. Only `n_dim` coordinates are read; the others of a new vertex are 0 (Element.cpp:26-46). -/
def readElem [Zero K] (pos : List (Fin 3 → K)) (s : State K A) (row : ElemRow) : Res (State K A) :=
  (Res.of (row.vert.mapM fun i => pos[i]?)).bind fun xs =>
    match addElement s.mesh row.level row.is_def with
    | .ok m =>
      let e := s.mesh.next_el
      .ok { s with mesh := m, ptrs := s.ptrs ++ [e], is_def := Function.update s.is_def e row.is_def, level := Function.update s.level e row.level,
                   nom := Function.update s.nom e row.nom, corner := Function.update s.corner e fun i_vert i => if i.val < s.mesh.nd then (xs[i_vert]?).getD (fun _ => 0) i else 0 }
    | _ => .ub

/-- Lines 1708-1718. `tree` tells which elements have a cell. -/
def readConf (tree : Elem → Bool) (s : State K A) (row : List Int) : Res (State K A) :=
  (entryElem s row 0).bind fun e0 => (entryElem s row 1).bind fun e1 =>
    (entryDim row 2).bind fun i0 => (entryDim row 3).bind fun i1 => (entryBool row 4).bind fun s0 => (entryBool row 5).bind fun s1 =>
      let is_def := s.is_def e0 && s.is_def e1
      let dir := if is_def then ConDir.dfm ⟨i0, i1, s0, s1⟩ else .cart i0
      (Res.of (vertexInds s.mesh.nd dir.toDir)).bind fun vi =>
        .ok { s with mesh := addConn s.mesh is_def e0 e1 dir
                     extruded := if is_def && (tree e0 != tree e1) then s.extruded ++ [s.mesh.next_id] else s.extruded
                     merges := s.merges ++ (vi.1.zip vi.2).map fun p => ((e0, p.1), (e1, p.2)) }

/-- Lines 1724-1748. -/
def readRef (s : State K A) (row : List Int) : Res (State K A) :=
  (entryBool row 5).bind fun str0 => (entryBool row 6).bind fun str1 =>
    let nd := s.mesh.nd
    if nd < 1 + str0.toNat + str1.toNat then .ub
    else
      let b := nd - 1 - str0.toNat - str1.toNat
      (entryElem s row 0).bind fun coarse =>
        ((List.range (2 ^ b)).foldr (fun i (r : Res (List Elem)) => (entryElem s row (1 + i)).bind fun e => r.bind fun l => .ok (e :: l)) (.ok [])).bind fun fine =>
          (entryDim row 7).bind fun i0 => (entryDim row 8).bind fun i1 => (entryBool row 9).bind fun s0 => (entryBool row 10).bind fun s1 =>
            let is_def := fine.foldl (fun d e => d && s.is_def e) (s.is_def coarse)
            let dir := if is_def then ConDir.dfm ⟨i0, i1, s0, s1⟩ else .cart i0
            let rev := if is_def then false else !s0 && s1
            let str := if is_def then (str0, str1) else (false, false)
            let bucket := if is_def then b else nd - 1
            match addRef s.mesh is_def bucket coarse fine dir rev str with
            | .throws _ => .throws
            | .ub => .ub
            | .ok m =>
              (Res.of ((refinedVerts nd dir.toDir rev str).bind fun l => l.mapM fun x => (fine[x.2.1]?).map fun e => ((coarse, x.1), (e, x.2.2)))).bind fun vs =>
                .ok { s with mesh := m, str := Function.update s.str s.mesh.next_id str, merges := s.merges ++ vs }

/-- Lines 1755-1762. -/
def readBound (s : State K A) (row : List Int) : Res (State K A) :=
  (entryElem s row 0).bind fun e => (entry row 1).bind fun bc => (entry row 2).bind fun i_dim => (entryBool row 3).bind fun sign =>
    if bc < s.mesh.n_bc then .ok { s with mesh := addBound s.mesh (s.is_def e) e i_dim sign bc } else .throws

/-- Lines 1765-1769. -/
def readWarp (s : State K A) (row : Nat × A) : Res (State K A) :=
  (Res.of s.ptrs[row.1]?).bind fun e => if s.is_def e then .ok { s with adj := Function.update s.adj e (some row.2) } else .throws

/-- `read_file`, lines 1653-1771, with the constructor before (1773-1806) which adds `n_bc` boundary conditions. In the end `cleanup` deletes boundary connections where the tree has
an element on the other side (`covered`). -/
def read [Zero K] (nd n_bc : Nat) (covered : BCon → Bool) (F : File K A) : Res (State K A) :=
  (Res.loop (readElem F.pos) ⟨Mesh.new nd n_bc, [], fun _ => false, fun _ => 0, fun _ => [], fun _ _ => 0, fun _ => none, [], fun _ => (false, false), []⟩ F.elems).bind fun s =>
    (Res.loop (readConf fun e => F.owned.any fun i => s.ptrs[i]? == some e) s F.conformal).bind fun s =>
      (Res.loop readRef s F.refined).bind fun s =>
        (Res.loop readBound s F.boundary).bind fun s =>
          (Res.loop readWarp s F.warping).bind fun s =>
            match purge s.mesh (fun _ => false) covered with
            | .ok m => .ok { s with mesh := m }
            | _ => .ub

/-- The vertices of a mesh that was read: each corner has its own vertex until they are merged. -/
def State.glue [Field K] (s : State K A) : Glue K := s.merges.foldl Glue.eat ⟨fun c => c, fun v => s.corner v.1 v.2, fun _ => 1⟩

/-! ## Writing and then cleaning up -/

/-- `cleanup` (246-251) after `write`, in a mesh with a tree: `write` leaves the number of each element in its `record` (1546), and `purge` (1102-1118) deletes the elements whose
record is not 0 (Element_container.hpp:82). -/
def writeCleanup (D : Data K A) (covered : BCon → Bool) : Out := purge D.mesh (fun e => numbering D.mesh.elements e != some 0) covered

end Hexed.MeshFile
