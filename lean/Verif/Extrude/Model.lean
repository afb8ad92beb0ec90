import Mathlib.Data.List.Basic
import Mathlib.Logic.Function.Basic
set_option autoImplicit false
set_option linter.unusedVariables false

/-!
# Model of the connections among extruded elements

The part of `Accessible_mesh::extrude` (src/Accessible_mesh.cpp) that decides which elements of a new layer are connected to each other: the requests left at vertices (318-332, 360-377, 428-439) and the
search for pairs (504-616). The creation of the elements, their geometry and data are in `Verif.Split`, `connect_deformed` and `connect_hanging` in `Verif.Mesh`.

`V` is the type of vertices. The four integers that a request appends to `Vertex::record` are one `Rec`.
-/

namespace Hexed.Extrude

/-- One request: the element (refinement level and serial number), the face that needs to be connected and the face of the parent that was extruded, both as `2*dim + sign`.
Accessible_mesh.cpp:325-331. -/
structure Rec where
  level : Nat
  sn : Nat
  face : Nat
  extr : Nat
  deriving DecidableEq, Repr, Inhabited

/-- An extruded element: the face of the parent it was extruded from, which of its lateral faces get (or have) a connection without a request, and its vertices.
For elements of a new layer (428-439) `skip f` says that face `f` of the parent has a boundary condition (`face_rec >= 2`), for older ones (360-377) that face `f` of the element is connected. -/
structure Site (V : Type) where
  level : Nat
  sn : Nat
  dim : Nat
  sign : Nat
  skip : Nat → Bool
  vertex : Nat → V

/-- The loop `for (int j_dim = i_dim + 1; j_dim%nd != i_dim; ++j_dim) {j_dim = j_dim%nd; ...}`, Accessible_mesh.cpp:367-368, 429-430: the values of `j_dim` in the body, in at most `fuel` turns. -/
def dimLoop (nd i_dim : Nat) : Nat → Nat → List Nat
  | 0, _ => []
  | fuel + 1, j_dim => if j_dim % nd ≠ i_dim then j_dim % nd :: dimLoop nd i_dim fuel (j_dim % nd + 1) else []

def otherDims (nd i_dim : Nat) : List Nat := dimLoop nd i_dim (nd + 1) (i_dim + 1)

/-- `i_vert` in `request_connection`, Accessible_mesh.cpp:322-323. -/
def requestVertex (nd i_dim i_sign j_dim j_sign : Nat) : Nat := j_sign * 2 ^ (nd - 1 - j_dim) + (1 - i_sign) * 2 ^ (nd - 1 - i_dim)

/-- `request_connection`, Accessible_mesh.cpp:318-332: the vertex and what is recorded there. -/
def request {V : Type} (nd : Nat) (x : Site V) (j_dim j_sign : Nat) : V × Rec :=
  (x.vertex (requestVertex nd x.dim x.sign j_dim j_sign), ⟨x.level, x.sn, 2 * j_dim + j_sign, 2 * x.dim + x.sign⟩)

/-- All requests of an element, Accessible_mesh.cpp:367-374, 429-439. -/
def siteRequests {V : Type} (nd : Nat) (x : Site V) : List (V × Rec) :=
  (otherDims nd x.dim).flatMap fun j_dim => [0, 1].flatMap fun face_sign => if x.skip (2 * j_dim + face_sign) then [] else [request nd x j_dim face_sign]

/-- All requests in the order in which they are made. -/
def requests {V : Type} (nd : Nat) (sites : List (Site V)) : List (V × Rec) := sites.flatMap (siteRequests nd)

/-- The boundary connections of a new element, Accessible_mesh.cpp:433-436, as faces. -/
def siteBounds {V : Type} (nd : Nat) (x : Site V) : List Nat :=
  (otherDims nd x.dim).flatMap fun j_dim => [0, 1].flatMap fun face_sign => if x.skip (2 * j_dim + face_sign) then [2 * j_dim + face_sign] else []

/-- `aligned_same_dim`, Accessible_mesh.cpp:307-311. -/
def alignedSame (r s : Rec) : Bool := r.face / 2 == s.face / 2 && r.face % 2 != s.face % 2 && r.extr / 2 == s.extr / 2

/-- `aligned_different_dim`, Accessible_mesh.cpp:312-315. -/
def alignedDifferent (r s : Rec) : Bool := r.face / 2 == s.extr / 2 && s.face / 2 == r.extr / 2

/-- The loop over `j_record`, Accessible_mesh.cpp:519: the first one for which `code` runs, if any. -/
def firstMatch (ok : Rec → Rec → Bool) (l : List Rec) (i : Nat) : Option Nat :=
  (List.range l.length).find? fun j => decide (i < j) && ok (l.getD i default) (l.getD j default)

/-- The loop over `i_record` with `CONNECT_SAME_CONFORMING` (Accessible_mesh.cpp:518-543) at one vertex, where `ok` is the condition for `code` to connect: both entries are erased, the later one first, and `i_record` stays. -/
def scan (ok : Rec → Rec → Bool) : Nat → List Rec → Nat → List Rec × List (Rec × Rec)
  | 0, l, i => (l, [])
  | fuel + 1, l, i =>
    if i < l.length then
      match firstMatch ok l i with
      | none => scan ok fuel l (i + 1)
      | some j =>
        let x := scan ok fuel ((l.eraseIdx j).eraseIdx i) i
        (x.1, (l.getD i default, l.getD j default) :: x.2)
    else (l, [])

/-- `vert.record[j_record] == ref_level` together with `aligned`, Accessible_mesh.cpp:525, 534. -/
def conforms (aligned : Rec → Rec → Bool) (r s : Rec) : Bool := aligned r s && s.level == r.level

/-- `VERTEX_LOOP(CONNECT_SAME_CONFORMING)` for one vertex: first with `aligned_same_dim`, then with `aligned_different_dim`. -/
def conformVertex (l : List Rec) : List Rec × List (Rec × Rec) :=
  let a := scan (conforms alignedSame) l.length l 0
  let b := scan (conforms alignedDifferent) a.1.length a.1 0
  (b.1, a.2 ++ b.2)

variable {V : Type} [DecidableEq V]

/-- `VERTEX_LOOP(CONNECT_SAME_CONFORMING)`. -/
def conformAll : List V → (V → List Rec) → (V → List Rec) × List (Rec × Rec)
  | [], verts => (verts, [])
  | v :: order, verts =>
    let a := conformVertex (verts v)
    let b := conformAll order (Function.update verts v a.1)
    (b.1, a.2 ++ b.2)

/-- What a hanging connection is made of: the coarse request, the fine one at the same vertex and, in three dimensions, the one at the vertex in the middle. -/
structure Hang (V : Type) where
  coarse : Rec
  fine : Rec
  second : Option (V × Rec)

/-- How the planning can fail: refinement levels differ by more than one (550-552), the vertex in the middle does not have one record (573-576), requests are left (606-609). -/
inductive Err
  | levels
  | middle
  | leftover
  deriving DecidableEq, Repr

/-- `iv`, Accessible_mesh.cpp:567-570: the vertex of the fine element in the middle of the coarse edge. -/
def middleVertex (nd : Nat) (f : Rec) : Nat :=
  f.face % 2 * 2 ^ (nd - 1 - f.face / 2) + (1 - f.extr % 2) * 2 ^ (nd - 1 - f.extr / 2) + 2 ^ (nd - 1 - (3 - f.face / 2 - f.extr / 2))

/-- `CONNECT_HANGING` for one pair, Accessible_mesh.cpp:548-592; `vertexOf level sn i` is vertex `i` of a deformed element. The vertex in the middle loses its record. -/
def hangPair (nd : Nat) (vertexOf : Nat → Nat → Nat → V) (verts : V → List Rec) (r s : Rec) : Except Err ((V → List Rec) × Hang V) :=
  if s.level ≠ r.level + 1 ∧ r.level ≠ s.level + 1 then .error .levels
  else
    let fine := if r.level < s.level then s else r
    let coarse := if r.level < s.level then r else s
    if nd = 3 then
      let fv := vertexOf fine.level fine.sn (middleVertex nd fine)
      match verts fv with
      | [x] => .ok (Function.update verts fv [], ⟨coarse, fine, some (fv, x)⟩)
      | _ => .error .middle
    else .ok (verts, ⟨coarse, fine, none⟩)

/-- The condition for `CONNECT_HANGING` to act, Accessible_mesh.cpp:525, 549. -/
def hangs (aligned : Rec → Rec → Bool) (r s : Rec) : Bool := aligned r s && s.level != r.level

/-- The loop over `i_record` with `CONNECT_HANGING` at vertex `v`. -/
def hangScan (nd : Nat) (vertexOf : Nat → Nat → Nat → V) (ok : Rec → Rec → Bool) (v : V) : Nat → (V → List Rec) → Nat → Except Err ((V → List Rec) × List (Hang V))
  | 0, verts, i => .ok (verts, [])
  | fuel + 1, verts, i =>
    let l := verts v
    if i < l.length then
      match firstMatch ok l i with
      | none => hangScan nd vertexOf ok v fuel verts (i + 1)
      | some j =>
        (hangPair nd vertexOf verts (l.getD i default) (l.getD j default)).bind fun a =>
        (hangScan nd vertexOf ok v fuel (Function.update a.1 v (((a.1 v).eraseIdx j).eraseIdx i)) i).bind fun b => .ok (b.1, a.2 :: b.2)
    else .ok (verts, [])

/-- `VERTEX_LOOP(CONNECT_HANGING)` for one vertex. -/
def hangVertex (nd : Nat) (vertexOf : Nat → Nat → Nat → V) (v : V) (verts : V → List Rec) : Except Err ((V → List Rec) × List (Hang V)) :=
  (hangScan nd vertexOf (hangs alignedSame) v (verts v).length verts 0).bind fun a =>
  (hangScan nd vertexOf (hangs alignedDifferent) v (a.1 v).length a.1 0).bind fun b => .ok (b.1, a.2 ++ b.2)

/-- `VERTEX_LOOP(CONNECT_HANGING)`. -/
def hangAll (nd : Nat) (vertexOf : Nat → Nat → Nat → V) : List V → (V → List Rec) → Except Err ((V → List Rec) × List (Hang V))
  | [], verts => .ok (verts, [])
  | v :: order, verts =>
    (hangVertex nd vertexOf v verts).bind fun a => (hangAll nd vertexOf order a.1).bind fun b => .ok (b.1, a.2 ++ b.2)

/-- `Connection_plan`, Accessible_mesh.cpp:293-298, 535-536. Faces are `2*dim + sign`. -/
structure ConPlan where
  level : Nat
  sn : Nat × Nat
  face : Nat × Nat
  deriving DecidableEq, Repr

def conPlan (p : Rec × Rec) : ConPlan := ⟨p.1.level, (p.1.sn, p.2.sn), (p.1.face, p.2.face)⟩

/-- `Refined_connection_plan`, Accessible_mesh.cpp:299-306, 555-587. -/
structure RefPlan where
  level : Nat
  coarse : Nat
  fine : List Nat
  face : Nat × Nat
  stretch : Bool × Bool
  deriving DecidableEq, Repr

def refPlan (h : Hang V) : RefPlan :=
  let stretch_dim := if h.second.isSome ∧ 3 - h.fine.face / 2 - h.fine.extr / 2 < h.fine.extr / 2 then 1 else 0
  ⟨h.coarse.level, h.coarse.sn, h.fine.sn :: h.second.toList.map (·.2.sn), (h.coarse.face, h.fine.face), (stretch_dim == 0, stretch_dim == 1)⟩

/-- What is recorded at the vertices after all requests have been made. -/
def recorded (nd : Nat) (sites : List (Site V)) (v : V) : List Rec := ((requests nd sites).filter fun x => x.1 == v).map (·.2)

/-- The result of the planning. -/
structure Plan (V : Type) where
  first : List (Rec × Rec)
  hanging : List (Hang V)
  last : List (Rec × Rec)

/-- Accessible_mesh.cpp:594-616. `order` are the vertices, `merge` is what the connections made after the first two loops do to the records (`Vertex::eat` appends them), `order'` the vertices that are left. -/
def plan (nd : Nat) (vertexOf : Nat → Nat → Nat → V) (order : List V) (merge : (V → List Rec) → V → List Rec) (order' : List V) (verts : V → List Rec) : Except Err (Plan V) :=
  let a := conformAll order verts
  (hangAll nd vertexOf order a.1).bind fun b =>
  let c := conformAll order' (merge b.1)
  if order'.all fun v => (c.1 v).isEmpty then .ok ⟨a.2, b.2, c.2⟩ else .error .leftover

end Hexed.Extrude
