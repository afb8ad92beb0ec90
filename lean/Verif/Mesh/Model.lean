import Verif.Connection.Model
import Verif.Container.Model
import Verif.MathFn.Int

set_option autoImplicit false
set_option linter.unusedVariables false

/-!
# Model of the connectivity of a mesh

The element and connection containers of `Mesh_by_type` (include/Mesh_by_type.hpp), the connection objects
(include/connection.hpp) as far as they record which faces they join and set the face pointers of the elements, and the
functions of `Accessible_mesh` (src/Accessible_mesh.cpp) that create, delete and check connections.

Simplified: an element is known by a number (its address); vertices, normals and numerical data are left out (the vertices
merged by a connection are modelled in `Verif.Connection`). A connection object is known by a number (its address).
-/

namespace Hexed.MeshConn
open Hexed.Connection (Dir)
open Hexed.Container (Cont At Seq)

/-- Address of an element. -/
abbrev Elem := Nat

/-- `Con_dir<Element>` and `Con_dir<Deformed_element>`, connection.hpp:21-36. -/
inductive ConDir
  | cart (i_dim : Fin 3)
  | dfm (d : Dir)

/-- `i_face`, connection.hpp:34 and Kernel_connection.hpp:12. Side 1 is `true`. -/
def ConDir.iFace : ConDir → Bool → Nat
  | .cart i, s => 2 * i.val + 1 - s.toNat
  | .dfm d, s => 2 * (d.iDim s).val + (d.faceSign s).toNat

/-- `operator Con_dir<Deformed_element>()`, connection.hpp:35. -/
def ConDir.toDir : ConDir → Dir
  | .cart i => ⟨i, i, true, false⟩
  | .dfm d => d

/-- `Element_face_connection`, connection.hpp:104-108. -/
structure Conn where
  id : Nat
  el : Bool → Elem
  dir : ConDir

/-- `Refined_connection`, connection.hpp:192-203. `fine` lists the elements of `fine_cons`. -/
structure RefConn where
  id : Nat
  coarse : Elem
  fine : List Elem
  dir : ConDir
  rev : Bool

/-- `connection(i_fine).element(i_side)`, connection.hpp:280 and 189; `none` = access outside `fine_cons`. -/
def RefConn.element (r : RefConn) (i_fine : Nat) (side : Bool) : Option Elem :=
  r.fine[i_fine]?.map fun f => if side != r.rev then f else r.coarse

/-- `Typed_bound_connection`, connection.hpp:334-341. -/
structure BCon where
  id : Nat
  el : Elem
  i_dim : Nat
  sign : Bool
  bc : Nat

/-- `direction().i_face(0)`, connection.hpp:379 and Kernel_connection.hpp:12. -/
def BCon.iFace (c : BCon) : Nat := 2 * c.i_dim + c.sign.toNat

/-- The containers of `Mesh_by_type`, Mesh_by_type.hpp:55-60. `refs i` holds the hanging-node connections with `n_fine[i]` =
1, 2 or 4 fine elements. -/
structure ByType where
  elems : Cont Elem
  cons : List Conn
  refs : Fin 3 → List RefConn
  bounds : List BCon

/-- `n_fine`, Mesh_by_type.hpp:57. -/
def nFine : Fin 3 → Nat
  | 0 => 1
  | 1 => 2
  | 2 => 4

/-- Which piece of the storage of a connection a face pointer points to. -/
inductive Sub
  | side (s : Bool)
  | coarse
  | fine (i : Nat)
  deriving DecidableEq

/-- A face pointer that is not null: the connection and the part of its storage. -/
abbrev Slot := Nat × Sub

/-- `Element::faces` of all elements, Element.cpp:185. -/
abbrev Ptrs := Elem → Nat → Option Slot

/-- `Element::set_face`, Element.cpp:185. -/
def setFace (p : Ptrs) (e : Elem) (f : Nat) (v : Option Slot) : Ptrs := fun e' f' => if e' = e ∧ f' = f then v else p e' f'

/-- `Accessible_mesh`, Accessible_mesh.hpp:16-40, as far as connectivity is concerned. `next_id` and `next_el` are addresses not yet
in use. -/
structure Mesh where
  nd : Nat
  car : ByType
  dfm : ByType
  n_bc : Nat
  ptr : Ptrs
  next_id : Nat
  next_el : Nat

/-- The constructor, Accessible_mesh.cpp:126-148, with `n_bc` boundary conditions added afterwards. -/
def Mesh.new (nd n_bc : Nat) : Mesh :=
  ⟨nd, ⟨Cont.new, [], fun _ => [], []⟩, ⟨Cont.new, [], fun _ => [], []⟩, n_bc, fun _ _ => none, 0, 0⟩

/-- `mbt`/`container`. -/
def Mesh.byType (m : Mesh) (is_deformed : Bool) : ByType := if is_deformed then m.dfm else m.car
/-- Replace one of the containers. -/
def Mesh.setType (m : Mesh) (is_deformed : Bool) (b : ByType) : Mesh := if is_deformed then { m with dfm := b } else { m with car := b }

/-- `elements()`: first the Cartesian and then the deformed ones, Accessible_mesh.cpp:131-132. -/
def Mesh.elements (m : Mesh) : List Elem := m.car.elems.elements ++ m.dfm.elems.elements

/-- How a call ends: normally or by an exception, leaving a mesh, or with undefined behaviour. -/
inductive Out
  | ok (m : Mesh)
  | throws (m : Mesh)
  | ub

/-- `add_element`, Accessible_mesh.cpp:156-162: a new element with null face pointers. -/
def addElement (m : Mesh) (level : Nat) (is_deformed : Bool) : Out :=
  let b := m.byType is_deformed
  .ok { m.setType is_deformed { b with elems := (b.elems.emplace level m.next_el).1 } with
    next_el := m.next_el + 1, ptr := fun e f => if e = m.next_el then none else m.ptr e f }

/-- Continue with the element returned by `element(level, is_deformed, serial)`, Accessible_mesh.cpp:169-172. -/
def withElem (m : Mesh) (level : Nat) (is_deformed : Bool) (sn : Nat) (k : Elem → Out) : Out :=
  match (m.byType is_deformed).elems.at level sn with
  | .ok e => k e
  | .throws => .throws m
  | .ub => .ub

/-- The constructor of `Element_face_connection` (connection.hpp:111-123) and `cons.emplace_back`. -/
def addConn (m : Mesh) (is_deformed : Bool) (e0 e1 : Elem) (dir : ConDir) : Mesh :=
  let b := m.byType is_deformed
  let c : Conn := ⟨m.next_id, fun s => if s then e1 else e0, dir⟩
  let p := setFace m.ptr e0 (dir.iFace false) (some (m.next_id, .side false))
  let p := setFace p e1 (dir.iFace true) (some (m.next_id, .side true))
  { m.setType is_deformed { b with cons := b.cons ++ [c] } with ptr := p, next_id := m.next_id + 1 }

/-- `connect_cartesian`, Accessible_mesh.cpp:174-179. -/
def connectCartesian (m : Mesh) (level sn0 sn1 : Nat) (i_dim : Fin 3) (def0 def1 : Bool) : Out :=
  withElem m level def0 sn0 fun e0 => withElem m level def1 sn1 fun e1 => .ok (addConn m false e0 e1 (.cart i_dim))

/-- `connect_deformed`, Accessible_mesh.cpp:181-191. -/
def connectDeformed (m : Mesh) (level sn0 sn1 : Nat) (d : Dir) : Out :=
  if d.i0 = d.i1 ∧ d.s0 = d.s1 then .throws m
  else withElem m level true sn0 fun e0 => withElem m level true sn1 fun e1 => .ok (addConn m true e0 e1 (.dfm d))

/-- The loop connecting the fine faces, connection.hpp:259-267, over the fine elements in the order of `fine_cons`. -/
def connectFine (id : Nat) (face : Nat) : Ptrs → Nat → List Elem → Ptrs
  | p, _, [] => p
  | p, i, e :: es => connectFine id face (setFace p e face (some (id, .fine i))) (i + 1) es

/-- The constructor of `Refined_connection` (connection.hpp:226-270) and `ref_face_cons[bucket].emplace_back`. The pointer to the
coarse face is set (238) before the number of elements is checked (248). -/
def addRef (m : Mesh) (is_deformed : Bool) (bucket : Nat) (coarse : Elem) (fine : List Elem) (dir : ConDir) (rev : Bool)
    (str : Bool × Bool) : Out :=
  let p := setFace m.ptr coarse (dir.iFace rev) (some (m.next_id, .coarse))
  if fine.length ≠ Connection.nFine m.nd str then .throws { m with ptr := p, next_id := m.next_id + 1 }
  else
    match (Connection.refinedFaces m.nd dir.toDir rev str).bind fun l => l.mapM fun x => fine[x.1]? with
    | none => .ub
    | some order =>
      let p := connectFine m.next_id (dir.iFace !rev) p 0 order
      let r : RefConn := ⟨m.next_id, coarse, order, dir, rev⟩
      let b := m.byType is_deformed
      if h : bucket < 3 then
        .ok { m.setType is_deformed { b with refs := Function.update b.refs ⟨bucket, h⟩ (b.refs ⟨bucket, h⟩ ++ [r]) } with
          ptr := p, next_id := m.next_id + 1 }
      else .ub

/-- Collect the elements with the given serial numbers, Accessible_mesh.cpp:202-204 and 213-215. -/
def withElems (m : Mesh) (level : Nat) : List (Bool × Nat) → (List Elem → Out) → Out
  | [], k => k []
  | (d, sn) :: l, k => withElem m level d sn fun e => withElems m level l fun es => k (e :: es)

/-- The first `n` entries of a vector; `none` = access outside the vector. -/
def firstN {α : Type} (l : List α) (n : Nat) : Option (List α) := if n ≤ l.length then some (l.take n) else none

/-- `connect_hanging`, Accessible_mesh.cpp:193-219. -/
def connectHanging (m : Mesh) (level coarse_sn : Nat) (fine_sn : List Nat) (dir : Dir) (coarse_def : Bool) (fine_def : List Bool)
    (str : Bool × Bool) : Out :=
  let is_car := fine_def.foldl (fun is_car fd => is_car || !fd) (!coarse_def)
  if is_car then
    withElem m level coarse_def coarse_sn fun coarse =>
      match firstN fine_def (2 ^ m.nd / 2), firstN fine_sn (2 ^ m.nd / 2) with
      | some fd, some fs =>
        withElems m (level + 1) (fd.zip fs) fun fine =>
          if dir.i0 ≠ dir.i1 ∨ dir.s0 = dir.s1 then .throws m
          else addRef m false (m.nd - 1) coarse fine (.cart dir.i0) dir.s1 (false, false)
      | _, _ => .ub
  else
    withElem m level true coarse_sn fun coarse =>
      withElems m (level + 1) (fine_sn.map fun s => (true, s)) fun fine =>
        match MathFn.log 2 fine_sn.length with
        | none => .ub
        | some b => if b < 0 ∨ 3 ≤ b then .ub else addRef m true b.toNat coarse fine (.dfm dir) false str

/-- The constructor of `Typed_bound_connection` (connection.hpp:346-360) and `bound_cons.emplace_back`. -/
def addBound (m : Mesh) (is_deformed : Bool) (e : Elem) (i_dim : Nat) (sign : Bool) (bc : Nat) : Mesh :=
  let b := m.byType is_deformed
  let c : BCon := ⟨m.next_id, e, i_dim, sign, bc⟩
  { m.setType is_deformed { b with bounds := b.bounds ++ [c] } with
    ptr := setFace m.ptr e c.iFace (some (m.next_id, .side false)), next_id := m.next_id + 1 }

/-- `connect_boundary`, Accessible_mesh.cpp:229-238. -/
def connectBoundary (m : Mesh) (level : Nat) (is_deformed : Bool) (sn i_dim : Nat) (sign : Bool) (bc : Nat) : Out :=
  if bc < m.n_bc then withElem m level is_deformed sn fun e => .ok (addBound m is_deformed e i_dim sign bc)
  else .throws m

/-! ## Deleting connections: the destructors set the face pointers to null -/

/-- `~Element_face_connection`, connection.hpp:126-132. -/
def destroyConn (p : Ptrs) (c : Conn) : Ptrs :=
  setFace (setFace p (c.el false) (c.dir.iFace false) none) (c.el true) (c.dir.iFace true) none

/-- `~Refined_connection` (connection.hpp:274-278) and `~Fine_connection` (183-186) for each fine connection. -/
def destroyRef (p : Ptrs) (c : RefConn) : Ptrs :=
  c.fine.foldl (fun p e => setFace p e (c.dir.iFace !c.rev) none) (setFace p c.coarse (c.dir.iFace c.rev) none)

/-- `~Typed_bound_connection`, connection.hpp:363-367. -/
def destroyBound (p : Ptrs) (c : BCon) : Ptrs := setFace p c.el c.iFace none

/-- `erase_if`, erase_if.hpp:14-22, for a vector of owning pointers. -/
def eraseIf {α : Type} (p : Ptrs) (destroy : Ptrs → α → Ptrs) (l : List α) (cond : α → Bool) : Ptrs × List α :=
  ((l.filter cond).foldl destroy p, l.filter fun x => !cond x)

/-- `disconnect_boundary`, Accessible_mesh.cpp:240-244. -/
def disconnectBoundary (m : Mesh) (bc : Nat) : Out :=
  let c := eraseIf m.ptr destroyBound m.car.bounds fun c => c.bc == bc
  let d := eraseIf c.1 destroyBound m.dfm.bounds fun c => c.bc == bc
  .ok { m with ptr := d.1, car := { m.car with bounds := c.2 }, dfm := { m.dfm with bounds := d.2 } }

/-- `purge_connections`, Mesh_by_type.hpp:192-219. `covered` tells whether the tree has an element across the face
(195-198). -/
def purgeConnections (p : Ptrs) (b : ByType) (predicate : Elem → Bool) (covered : BCon → Bool) : Ptrs × ByType :=
  let bo := eraseIf p destroyBound b.bounds fun c => covered c || predicate c.el
  let co := eraseIf bo.1 destroyConn b.cons fun c => predicate (c.el false) || predicate (c.el true)
  let pr := fun (c : RefConn) => predicate c.coarse || c.fine.any predicate
  let r0 := eraseIf co.1 destroyRef (b.refs 0) pr
  let r1 := eraseIf r0.1 destroyRef (b.refs 1) pr
  let r2 := eraseIf r1.1 destroyRef (b.refs 2) pr
  (r2.1, { b with bounds := bo.2, cons := co.2, refs := fun i => match i with | 0 => r0.2 | 1 => r1.2 | 2 => r2.2 })

/-- `purge` of a mesh with a tree, Accessible_mesh.cpp:1104-1113; `predicate` is `record != 0`. -/
def purge (m : Mesh) (predicate : Elem → Bool) (covered : BCon → Bool) : Out :=
  let c := purgeConnections m.ptr m.car predicate covered
  let d := purgeConnections c.1 m.dfm predicate covered
  match c.2.elems.purge (fun x => predicate x.2), d.2.elems.purge (fun x => predicate x.2) with
  | some (ce, _), some (de, _) => .ok { m with ptr := d.1, car := { c.2 with elems := ce }, dfm := { d.2 with elems := de } }
  | _, _ => .ub

/-! ## Counting connections -/

/-- `Element::face_record` of all elements. -/
abbrev Rec := Elem → Nat → Nat

/-- Write an entry. -/
def setRec (r : Rec) (e : Elem) (f v : Nat) : Rec := fun e' f' => if e' = e ∧ f' = f then v else r e' f'

/-- `++face_record[f]`. -/
def bump (r : Rec) (e : Elem) (f : Nat) : Rec := setRec r e f (r e f + 1)

/-- `record_connections`, Mesh_by_type.hpp:149-172; `none` = access outside a vector. -/
def recordConnections (b : ByType) (r : Rec) : Option Rec :=
  let r := b.cons.foldl (fun r c => [false, true].foldl (fun r s => bump r (c.el s) (c.dir.iFace s)) r) r
  let r := b.bounds.foldl (fun r c => bump r c.el c.iFace) r
  [(0 : Fin 3), 1, 2].foldlM (fun r i => (b.refs i).foldlM (fun r c =>
    (c.element 0 c.rev).bind fun e =>
      (List.range (nFine i)).foldlM (fun r j => (c.element j !c.rev).map fun e => bump r e (c.dir.iFace !c.rev))
        (bump r e (c.dir.iFace c.rev))) r) r

/-- The loop that initialises the records, Accessible_mesh.cpp:258-262. -/
def zeroRec (nd : Nat) (els : List Elem) (r : Rec) : Rec :=
  els.foldl (fun r e => (List.range (2 * nd)).foldl (fun r f => setRec r e f 0) r) r

/-- Lines 258-265 (same as 622-630): the records counted from scratch. -/
def countRec (m : Mesh) (r : Rec) : Option Rec :=
  (recordConnections m.car (zeroRec m.nd m.elements r)).bind fun r => recordConnections m.dfm r

/-- `Connection_validity`, Mesh.hpp:182-187. -/
structure Validity where
  n_redundant : Nat
  n_missing : Nat

/-- `operator bool`, Mesh.hpp:188. -/
def Validity.ok (v : Validity) : Bool := v.n_redundant == 0 && v.n_missing == 0

/-- `valid`, Accessible_mesh.cpp:253-277, started with any content of the records. -/
def valid (m : Mesh) (r : Rec) : Option Validity :=
  (countRec m r).map fun r =>
    m.elements.foldl (fun v e => (List.range (2 * m.nd)).foldl (fun v f =>
      let rec_ := r e f
      let v : Validity := if rec_ = 0 then ⟨v.n_redundant, v.n_missing + 1⟩ else v
      if rec_ > 1 then ⟨v.n_redundant + (rec_ - 1), v.n_missing⟩ else v) v) ⟨0, 0⟩

/-- `connect_empty`, Mesh_by_type.hpp:175-188. -/
def connectEmpty (m : Mesh) (is_deformed : Bool) (bc : Nat) (r : Rec) : Mesh :=
  (m.byType is_deformed).elems.elements.foldl (fun m e => (List.range m.nd).foldl (fun m i_dim =>
    [false, true].foldl (fun m sign =>
      if r e (2 * i_dim + sign.toNat) = 0 then addBound m is_deformed e i_dim sign bc else m) m) m) m

/-- `connect_rest`, Accessible_mesh.cpp:617-634, started with any content of the records. -/
def connectRest (m : Mesh) (bc : Nat) (r : Rec) : Out :=
  match countRec m r with
  | none => .ub
  | some r => .ok (connectEmpty (connectEmpty m false bc r) true bc r)

/-! ## Histories -/

/-- The calls that change the connectivity. -/
inductive Op
  | addElement (level : Nat) (is_deformed : Bool)
  | connectCartesian (level sn0 sn1 : Nat) (i_dim : Fin 3) (def0 def1 : Bool)
  | connectDeformed (level sn0 sn1 : Nat) (d : Dir)
  | connectHanging (level coarse_sn : Nat) (fine_sn : List Nat) (dir : Dir) (coarse_def : Bool) (fine_def : List Bool)
      (str : Bool × Bool)
  | connectBoundary (level : Nat) (is_deformed : Bool) (sn i_dim : Nat) (sign : Bool) (bc : Nat)
  | disconnectBoundary (bc : Nat)
  | purge (predicate : Elem → Bool) (covered : BCon → Bool)
  | connectRest (bc : Nat) (r : Rec)

/-- One call. -/
def step (m : Mesh) : Op → Out
  | .addElement l d => addElement m l d
  | .connectCartesian l s0 s1 i d0 d1 => connectCartesian m l s0 s1 i d0 d1
  | .connectDeformed l s0 s1 d => connectDeformed m l s0 s1 d
  | .connectHanging l c f d cd fd str => connectHanging m l c f d cd fd str
  | .connectBoundary l d sn i s bc => connectBoundary m l d sn i s bc
  | .disconnectBoundary bc => disconnectBoundary m bc
  | .purge p c => purge m p c
  | .connectRest bc r => connectRest m bc r

/-! ## Views of connections -/

/-- The connection objects a view can return: a conformal connection, one fine part of a hanging-node connection, or a boundary
connection. -/
inductive View
  | conf (c : Conn)
  | fine (c : RefConn) (i : Nat)
  | bound (c : BCon)

/-- `Connection_view::size`, Mesh_by_type.hpp:74-79. -/
def connViewSize (b : ByType) : Int :=
  [(0 : Fin 3), 1, 2].foldl (fun sz i => sz + nFine i * (b.refs i).length) (b.cons.length : Int)

/-- The loop of `Connection_view::operator[]`, Mesh_by_type.hpp:84-90. `none` = out of bounds (exception or undefined). -/
def connViewLoop (b : ByType) : List (Fin 3) → Int → Option View
  | [], _ => none
  | i :: l, i_start =>
    let n_total : Int := nFine i * (b.refs i).length
    if i_start < n_total then
      (Container.vecAt (b.refs i) (i_start / nFine i)).bind fun c =>
        let j := (i_start % nFine i).toNat
        if j < c.fine.length then some (.fine c j) else none
    else connViewLoop b l (i_start - n_total)

/-- `Connection_view::operator[]`, Mesh_by_type.hpp:80-92. -/
def connViewGet (b : ByType) (index : Int) : Option View :=
  let i_start := index - b.cons.length
  if i_start < 0 then (Container.vecAt b.cons index).map .conf else connViewLoop b [0, 1, 2] i_start

/-- `Concatenation::size` and `operator[]` (Sequences.hpp:66-75) for sequences given by size and access. -/
def catGet {T : Type} (size0 : Int) (get0 get1 : Int → Option T) (index : Int) : Option T :=
  let index1 := index - size0
  if index1 < 0 then get0 index else get1 index1

/-- `car.kernel_connections()`: `face_con_v` = `elem_face_con_v` and the empty view (Mesh_by_type.hpp:100, 138). -/
def carKernelSize (m : Mesh) : Int := connViewSize m.car + 0
/-- `operator[]` of it. -/
def carKernelGet (m : Mesh) : Int → Option View := catGet (connViewSize m.car) (connViewGet m.car) fun i => (Container.vecAt ([] : List Conn) i).map .conf

/-- `def.kernel_connections()`: `face_con_v` = `def_face_cons` = `elem_face_con_v` of the deformed part, then the boundary connections of
both parts (Accessible_mesh.cpp:136-139, 147). -/
def defKernelSize (m : Mesh) : Int := connViewSize m.dfm + (m.car.bounds.length + m.dfm.bounds.length : Int)
/-- `operator[]` of it. -/
def defKernelGet (m : Mesh) : Int → Option View :=
  catGet (connViewSize m.dfm) (connViewGet m.dfm)
    (catGet m.car.bounds.length (fun i => (Container.vecAt m.car.bounds i).map .bound) (fun i => (Container.vecAt m.dfm.bounds i).map .bound))

end Hexed.MeshConn
