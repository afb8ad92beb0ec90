import Verif.MeshFile.Model
import Verif.Mesh.Spec
import Mathlib.Logic.Relation

set_option autoImplicit false
set_option linter.unusedVariables false

/-!
# Specification of a mesh that is written and read

Elements of the mesh that was read are known by their number, which is the position of the original in `elements()`.
-/

namespace Hexed.MeshFile
open Hexed.MeshConn
open Hexed.Connection (Dir vertexInds refinedVerts)

variable {K A : Type}

/-- The number of an element. -/
def Data.index (D : Data K A) (e : Elem) : Elem := D.mesh.elements.idxOf e

/-- A corner of an element. -/
abbrev Corner := Elem × Nat

/-- The corners which a conformal connection joins. -/
def connJoins (nd : Nat) (c : Conn) : List (Corner × Corner) :=
  ((vertexInds nd c.dir.toDir).map fun vi => (vi.1.zip vi.2).map fun p => ((c.el false, p.1), (c.el true, p.2))).getD []

/-- The corners which a hanging-node connection joins, if neither side is flipped or transposed. -/
def refJoins (nd : Nat) (str : Bool × Bool) (r : RefConn) : List (Corner × Corner) :=
  (((refinedVerts nd r.dir.toDir r.rev str).bind fun l => l.mapM fun x => (r.fine[x.2.1]?).map fun e => ((r.coarse, x.1), (e, x.2.2)))).getD []

/-- All corners joined by connections. -/
def Data.joins (D : Data K A) : List (Corner × Corner) :=
  (D.mesh.car.cons ++ D.mesh.dfm.cons).flatMap (connJoins D.mesh.nd) ++ (allRefs D.mesh.car ++ allRefs D.mesh.dfm).flatMap fun r => refJoins D.mesh.nd (D.str r.id) r

/-- Neither flipped nor transposed: the fine elements have the same order seen from both sides. -/
def Straight (r : RefConn) : Prop := r.dir.toDir.flipTangential = false ∧ r.dir.toDir.transpose = false

/-- What the mesh must satisfy besides having been made by calls of the API: the faces of conformal connections exist, hanging-node connections of the Cartesian kind join a Cartesian
element and are not stretched, the stretching of others is that of dimensions which exist and fits the number of elements, boundary conditions exist, and the vertices of elements are in
the list of vertices. -/
structure Good (D : Data K A) (n_bc : Nat) : Prop where
  dims : ∀ c ∈ D.mesh.car.cons ++ D.mesh.dfm.cons, c.dir.toDir.i0.val < D.mesh.nd ∧ c.dir.toDir.i1.val < D.mesh.nd
  mixed : ∀ r ∈ allRefs D.mesh.car, ∃ e ∈ r.coarse :: r.fine, e ∈ D.mesh.car.elems.elements
  str_car : ∀ r ∈ allRefs D.mesh.car, D.str r.id = (false, false)
  str_dfm : ∀ r ∈ allRefs D.mesh.dfm, r.fine.length = Connection.nFine D.mesh.nd (D.str r.id) ∧ ((D.str r.id).1 = true → 2 ≤ D.mesh.nd) ∧ ((D.str r.id).2 = true → 3 ≤ D.mesh.nd)
  bcs : ∀ c ∈ D.mesh.car.bounds ++ D.mesh.dfm.bounds, c.bc < n_bc
  verts : D.verts.Nodup ∧ ∀ e ∈ D.mesh.elements, ∀ i < 2 ^ D.mesh.nd, D.vert e i ∈ D.verts

/-- The same conformal connection, between the corresponding elements. -/
def SameConn (φ : Elem → Elem) (c c' : Conn) : Prop := (∀ s, c'.el s = φ (c.el s)) ∧ c'.dir.toDir = c.dir.toDir

/-- The same hanging-node connection, as far as the order of fine elements is left out. -/
structure SameFaces (φ : Elem → Elem) (D : Data K A) (s : State K A) (r r' : RefConn) : Prop where
  coarse : r'.coarse = φ r.coarse
  fine : r'.fine.Perm (r.fine.map φ)
  dir : r'.dir.toDir = r.dir.toDir
  rev : r'.rev = r.rev
  str : s.str r'.id = D.str r.id
  straight : Straight r → r'.fine = r.fine.map φ

/-- The same boundary connection. -/
def SameBound (φ : Elem → Elem) (c c' : BCon) : Prop := c'.el = φ c.el ∧ c'.i_dim = c.i_dim ∧ c'.sign = c.sign ∧ c'.bc = c.bc

/-- A conformal connection of two deformed elements. -/
def bothDeformed (D : Data K A) (c : Conn) : Bool := decide (c.el false ∈ D.mesh.dfm.elems.elements) && decide (c.el true ∈ D.mesh.dfm.elems.elements)

/-- The mesh that was read is the one that was written, as far as elements and the faces joined by connections are concerned. Connections of two deformed elements become deformed
connections. -/
structure Restored (D : Data K A) (s : State K A) : Prop where
  nd : s.mesh.nd = D.mesh.nd
  car_elems : s.mesh.car.elems.elements = D.mesh.car.elems.elements.map D.index
  dfm_elems : s.mesh.dfm.elems.elements = D.mesh.dfm.elems.elements.map D.index
  level : ∀ e ∈ D.mesh.elements, s.level (D.index e) = D.level e
  nom : ∀ e ∈ D.mesh.elements, s.nom (D.index e) = D.nom e
  adj : ∀ e ∈ D.mesh.dfm.elems.elements, s.adj (D.index e) = some (D.adj e)
  car_cons : List.Forall₂ (SameConn D.index) (D.mesh.car.cons.filter fun c => !bothDeformed D c) s.mesh.car.cons
  dfm_cons : List.Forall₂ (SameConn D.index) (D.mesh.car.cons.filter (bothDeformed D) ++ D.mesh.dfm.cons) s.mesh.dfm.cons
  car_refs : ∀ b, List.Forall₂ (SameFaces D.index D s) (D.mesh.car.refs b) (s.mesh.car.refs b)
  dfm_refs : ∀ b, List.Forall₂ (SameFaces D.index D s) (D.mesh.dfm.refs b) (s.mesh.dfm.refs b)
  car_bounds : List.Forall₂ (SameBound D.index) D.mesh.car.bounds s.mesh.car.bounds
  dfm_bounds : List.Forall₂ (SameBound D.index) D.mesh.dfm.bounds s.mesh.dfm.bounds

/-- Vertices are shared because connections join corners: two corners have the same vertex exactly if a chain of connections leads from one to the other. Coordinates beyond the
dimension are 0. -/
structure Glued [Zero K] (D : Data K A) : Prop where
  shared : ∀ e ∈ D.mesh.elements, ∀ f ∈ D.mesh.elements, ∀ i < 2 ^ D.mesh.nd, ∀ j < 2 ^ D.mesh.nd,
    D.vert e i = D.vert f j ↔ Relation.EqvGen (fun a b => (a, b) ∈ D.joins) (e, i) (f, j)
  flat : ∀ v (i : Fin 3), D.mesh.nd ≤ i.val → D.pos v i = 0

/-- The vertices of the mesh that was read are those that were written: every corner has its position, and corners share a vertex exactly if they did. -/
structure SameVerts [Field K] (D : Data K A) (s : State K A) : Prop where
  pos : ∀ e ∈ D.mesh.elements, ∀ i < 2 ^ D.mesh.nd, s.glue.pos (s.glue.vert (D.index e, i)) = D.pos (D.vert e i)
  shared : ∀ e ∈ D.mesh.elements, ∀ f ∈ D.mesh.elements, ∀ i < 2 ^ D.mesh.nd, ∀ j < 2 ^ D.mesh.nd,
    s.glue.vert (D.index e, i) = s.glue.vert (D.index f, j) ↔ D.vert e i = D.vert f j

end Hexed.MeshFile
