import Verif.Mesh.Model
import Mathlib.Data.List.Perm.Basic

set_option autoImplicit false
set_option linter.unusedVariables false

/-!
# Specification for the connectivity of a mesh

Which element faces each connection joins, and how often each face is connected.
-/

namespace Hexed.MeshConn

/-- A face joined by a connection (element and face number) together with the storage the connection provides for it. -/
abbrev End := (Elem × Nat) × Slot

/-- A conformal connection joins one face of each of two elements. -/
def Conn.ends (c : Conn) : List End :=
  [((c.el false, c.dir.iFace false), (c.id, .side false)), ((c.el true, c.dir.iFace true), (c.id, .side true))]

/-- The faces of fine elements, numbered from `i`. -/
def fineEnds (id face : Nat) : Nat → List Elem → List End
  | _, [] => []
  | i, e :: es => ((e, face), (id, .fine i)) :: fineEnds id face (i + 1) es

/-- A hanging-node connection joins a face of the coarse element and a face of each fine element. -/
def RefConn.ends (c : RefConn) : List End :=
  ((c.coarse, c.dir.iFace c.rev), (c.id, .coarse)) :: fineEnds c.id (c.dir.iFace !c.rev) 0 c.fine

/-- A boundary connection joins a face to a boundary condition. -/
def BCon.ends (c : BCon) : List End := [((c.el, 2 * c.i_dim + c.sign.toNat), (c.id, .side false))]

/-- All ends of one kind of connections. -/
def ByType.ends (b : ByType) : List End :=
  b.cons.flatMap Conn.ends ++ (b.bounds.flatMap BCon.ends ++
    ((b.refs 0).flatMap RefConn.ends ++ ((b.refs 1).flatMap RefConn.ends ++ (b.refs 2).flatMap RefConn.ends)))

/-- All ends of all connections of a mesh. -/
def Mesh.ends (m : Mesh) : List End := m.car.ends ++ m.dfm.ends

/-- The number of connections (counting each side) of a face. -/
def Mesh.degree (m : Mesh) (e : Elem) (f : Nat) : Nat := (m.ends.map (·.1)).count (e, f)

/-- The faces of the elements of a mesh. -/
def Mesh.faces (m : Mesh) : List (Elem × Nat) := m.elements.flatMap fun e => (List.range (2 * m.nd)).map fun f => (e, f)

/-- Arguments that do not make `connect_hanging` read outside its arguments or form a connection with more than 4 fine
elements: dimensions below `nd` and enough fine elements. -/
def OpOk (nd : Nat) : Op → Prop
  | .connectHanging _ _ fine_sn dir coarse_def fine_def _ => dir.i0.val < nd ∧ dir.i1.val < nd ∧ fine_sn.length ≤ 4 ∧
      ((coarse_def = false ∨ false ∈ fine_def) → 2 ^ nd / 2 ≤ fine_def.length ∧ 2 ^ nd / 2 ≤ fine_sn.length)
  | _ => True

/-- Histories from an empty mesh. A call that throws leaves its mesh to the next call. -/
inductive Reach (nd n_bc : Nat) : Mesh → Prop
  | new : Reach nd n_bc (Mesh.new nd n_bc)
  | ok {m m' : Mesh} {op : Op} : Reach nd n_bc m → OpOk nd op → step m op = .ok m' → Reach nd n_bc m'
  | throws {m m' : Mesh} {op : Op} : Reach nd n_bc m → OpOk nd op → step m op = .throws m' → Reach nd n_bc m'

/-- Histories in which no call throws and no face is ever connected twice. -/
inductive Clean (nd n_bc : Nat) : Mesh → Prop
  | new : Clean nd n_bc (Mesh.new nd n_bc)
  | ok {m m' : Mesh} {op : Op} : Clean nd n_bc m → OpOk nd op → step m op = .ok m' → (∀ e f, m'.degree e f ≤ 1) → Clean nd n_bc m'

end Hexed.MeshConn
