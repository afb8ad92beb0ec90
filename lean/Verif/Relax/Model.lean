import Verif.Connection.Hanging
import Mathlib.Algebra.Order.Field.Basic
import Mathlib.Algebra.BigOperators.Group.List.Basic
set_option autoImplicit false
set_option linter.unusedVariables false

/-!
# Model of the smoothing and snapping of vertices (src/Accessible_mesh.cpp, include/Mesh.hpp) (C85)

`double` is an ordered field `K`. The vertices are the elements of a type `V`; two pointers to one vertex are equal elements of `V`. Null pointers in the lists of vertices are not
represented: `vertices`, `id_boundary_verts` and `purge` erase them first. What the code does not determine (the order of the iterations of a parallel loop, their distribution to the
threads, what a read sees that races with a write, memory that is not initialised) is a parameter of type `Run`.
-/

namespace Hexed.Relax
open Hexed.Connection Hexed.Tensor

/-- Outcome of a call: a mesh, an exception, undefined behaviour, or a position that is not a number. -/
inductive Out (A : Type)
  | ok (a : A)
  | exn
  | ub
  | nan

def Out.bind {A B : Type} : Out A → (A → Out B) → Out B
  | .ok a, f => f a
  | .exn, _ => .exn
  | .ub, _ => .ub
  | .nan, _ => .nan

/-- `Vertex::Transferable_ptr::mobile` and `needs_smooth`, Vertex.hpp:84-88. -/
structure Ptr where
  mobile : Bool
  smooth : Bool

/-- What is read of an element: its vertices, `nominal_size()`, `nominal_position()`, `origin`, and, if it has a `tree`, the `nominal_position()` and `nominal_size()` of that. -/
structure Elem (V K : Type) where
  vert : Nat → V
  size : K
  nomPos : Nat → ℤ
  origin : Nat → K
  tree : Option ((Nat → K) × K)

/-- A boundary connection: `bound_cond_serial_n()`, `i_dim()`, `inside_face_sign()`, `element()`. -/
structure Con (V K : Type) where
  bc : Nat
  dim : Nat
  sign : Nat
  elem : Elem V K

/-- A member of `extrude_cons`: `element(0)`, `direction().i_dim[0]` and `direction().face_sign`. -/
structure Extr (V : Type) where
  vert : Nat → V
  dim : Nat
  sign0 : Nat
  sign1 : Nat

/-- A `Hanging_vertex_matcher`: its constructor's arguments; `vert e v` is vertex `v` of fine element `e`. -/
structure Matcher (V : Type) where
  dim : Fin 3
  isp : Bool
  str : Bool × Bool
  nf : Nat
  vert : Nat → Nat → V

/-- `Surface_geom::nearest_point(point, max_distance, distance_guess).point()`; `none` is the exception for an empty point. Only the first `n_dim` components are read. -/
abbrev Geom (K : Type) := (Nat → K) → K → K → Option (Nat → K)

/-- The implementations of `Mesh_bc`, Boundary_condition.hpp:227-254. -/
inductive Mbc (K : Type)
  | null
  | nominal
  | geom (g : Geom K)

/-- `Accessible_mesh`, as far as it concerns the vertices. `pos`, `temp` and `record` are the members `pos`, `temp_vector` and `record` of the vertices, `ptrs` the `Transferable_ptr`s to
them. `verts` is `vert_ptrs`, `cons` the deformed boundary connections, `allCons` all, `carts` the Cartesian elements, `elems` all. `tree` is the origin and the size of the root. -/
structure Mesh (V K : Type) where
  nd : Nat
  verts : List V
  ptrs : V → List Ptr
  neigh : V → List V
  pos : V → Nat → K
  temp : V → Nat → K
  record : V → List Nat
  isReset : Bool
  smooth : List V
  nBc : Nat
  bverts : Nat → List V
  cons : List (Con V K)
  allCons : List (Con V K)
  carts : List (Elem V K)
  elems : List (Elem V K)
  tree : Option ((Nat → K) × K)
  treeBcs : Nat → Nat
  surf : Option (Geom K)
  surfSn : Nat
  mbc : Nat → Mbc K
  matchers : List (Matcher V)
  extr : List (Extr V)

/-- What the code does not determine: the order `ord k` of the iterations of a parallel loop, their distribution `chunk` to the threads, what vertex `v` sees as the position of its
neighbour `n` in the loop that moves both (`seen v n`), and the memory `junk`. -/
structure Run (V K : Type) where
  ord : Nat → {A : Type} → List A → List A
  ord_perm : ∀ k {A : Type} (l : List A), (ord k l).Perm l
  chunk : {A : Type} → List A → List (List A)
  chunk_perm : ∀ {A : Type} (l : List A), (chunk l).flatten.Perm l
  seen : V → V → Nat → K
  junk : Nat → K

variable {V K : Type} [DecidableEq V]

def upd {A : Type} (f : V → A) (v : V) (a : A) : V → A := fun w => if w = v then a else f w

/-- `Vertex::is_mobile`, Vertex.cpp:60-63. -/
def isMobile (m : Mesh V K) (v : V) : Bool := (m.ptrs v).all Ptr.mobile

/-- `Vertex::needs_smooth`, Vertex.cpp:65-68. -/
def needsSmooth (m : Mesh V K) (v : V) : Bool := (m.ptrs v).any Ptr.smooth

/-- `id_smooth_verts`, Accessible_mesh.cpp:1119-1127, and `vertices`, Accessible_mesh.cpp:279-284. -/
def idSmooth (m : Mesh V K) : Out (Mesh V K) :=
  if m.isReset then .exn else .ok { m with smooth := m.verts.filter fun v => isMobile m v && needsSmooth m v }

/-- The vertices that the loop of Accessible_mesh.cpp:43-46 visits: those of the inside face, in the order of their numbers. -/
def conVerts (m : Mesh V K) (c : Con V K) : List V :=
  ((List.range (2 ^ m.nd)).filter fun i => i / 2 ^ (m.nd - 1 - c.dim) % 2 = c.sign).map c.elem.vert

/-- The body of the loop, Accessible_mesh.cpp:48-52. -/
def visit (m : Mesh V K) (bc : Nat) (s : (V → List Nat) × List V) (v : V) : (V → List Nat) × List V :=
  if bc ∈ s.1 v then s
  else (upd s.1 v (s.1 v ++ [bc]), if needsSmooth m v then s.2 ++ [v] else s.2)

/-- One iteration of the loop over the boundary conditions, Accessible_mesh.cpp:35-56. -/
def idBc (m : Mesh V K) (s : (V → List Nat) × (Nat → List V)) (bc : Nat) : (V → List Nat) × (Nat → List V) :=
  let record := (s.2 bc).foldl (fun r v => upd r v (r v ++ [bc])) s.1
  let r := ((m.cons.filter fun c => c.bc = bc).flatMap (conVerts m)).foldl (visit m bc) (record, s.2 bc)
  (r.1, fun b => if b = bc then r.2 else s.2 b)

/-- `id_boundary_verts`, Accessible_mesh.cpp:23-57. -/
def idBoundary (m : Mesh V K) : Out (Mesh V K) :=
  if m.isReset then .exn
  else
    let record := fun v => if v ∈ m.verts then [] else m.record v
    let bverts := fun b => (m.bverts b).filter fun v => needsSmooth m v
    let r := (List.range m.nBc).foldl (idBc m) (record, bverts)
    .ok { m with record := r.1, bverts := r.2 }

variable [Field K] [LinearOrder K]

/-- One coordinate of one vertex is written. -/
def setCoord (p : V → Nat → K) (v : V) (d : Nat) (x : K) : V → Nat → K := fun w e => if w = v ∧ e = d then x else p w e

/-- The first loop of `relax`, Accessible_mesh.cpp:1358-1364. Without neighbours the average is 0/0. -/
def averages (m : Mesh V K) : List V → (V → Nat → K) → Out (V → Nat → K)
  | [], temp => .ok temp
  | v :: l, temp =>
    if m.neigh v = [] then .nan
    else averages m l (upd temp v fun d => ((m.neigh v).map fun n => m.pos n d).sum / ((m.neigh v).length : K))

/-- The second loop of `relax`, Accessible_mesh.cpp:1366-1369. -/
def moves (m : Mesh V K) (factor : K) (l : List V) : V → Nat → K :=
  l.foldl (fun p v => if isMobile m v then upd p v fun d => factor * m.temp v d + (1 - factor) * p v d else p) m.pos

/-- `min_sz`, Accessible_mesh.cpp:62-66: every thread starts from the largest number, and the results of the threads are reduced to their minimum. -/
def minSz (huge : K) (chunks : List (List (Elem V K))) : K :=
  (chunks.map fun l => l.foldl (fun a e => max a e.size) huge).foldl min huge

/-- `snap_extremes`, Accessible_mesh.cpp:68-78. `k` numbers the call. -/
def snapExtremes (r : Run V K) (k : Nat) (m : Mesh V K) (tree : (Nat → K) × K) (p : V → Nat → K) : V → Nat → K :=
  (List.range (2 * m.nd)).foldl (fun p i =>
    (r.ord (k + i) (m.bverts (m.treeBcs i))).foldl (fun p v => setCoord p v (i / 2) (tree.1 (i / 2) + (i % 2 : Nat) * tree.2)) p) p

/-- `dist_guess`, Accessible_mesh.cpp:91-99; `dist` is the distance of two points. -/
def distGuess (dist : (Nat → K) → (Nat → K) → K) (r : Run V K) (m : Mesh V K) (min_sz : K) (v : V) (p : Nat → K) : K :=
  (m.neigh v).foldl (fun g n => max g (dist (r.seen v n) p)) min_sz

/-- The first `nd` components of a position are replaced. -/
def first (nd : Nat) (x p : Nat → K) : Nat → K := fun d => if d < nd then x d else p d

/-- The loop over the vertices at the surface, Accessible_mesh.cpp:84-105. -/
def snapSurf (huge : K) (dist : (Nat → K) → (Nat → K) → K) (r : Run V K) (m : Mesh V K) (g : Geom K) (min_sz : K) : List V → (V → Nat → K) → Out (V → Nat → K)
  | [], p => .ok p
  | v :: l, p =>
    match g (first m.nd (p v) fun _ => 0) huge (distGuess dist r m min_sz v (p v)) with
    | none => .exn
    | some x => snapSurf huge dist r m g min_sz l (upd p v (first m.nd x (p v)))

/-- `Nominal_pos::snap_vertices` and `Geom_mbc::snap_vertices`, Boundary_condition.cpp:480-508, for one vertex. -/
def snapCon (huge : K) (m : Mesh V K) (c : Con V K) : List V → (V → Nat → K) → Out (V → Nat → K)
  | [], p => .ok p
  | v :: l, p =>
    match m.mbc c.bc with
    | .null => snapCon huge m c l p
    | .nominal => snapCon huge m c l (setCoord p v c.dim (((c.elem.nomPos c.dim : K) + c.sign) * c.elem.size + c.elem.origin c.dim))
    | .geom g =>
      match g (first m.nd (p v) fun _ => 0) huge huge with
      | none => .exn
      | some x => snapCon huge m c l (upd p v (first m.nd x (p v)))

/-- The loop over the boundary connections of a mesh without a tree, Accessible_mesh.cpp:108-113. -/
def snapCons (huge : K) (m : Mesh V K) : List (Con V K) → (V → Nat → K) → Out (V → Nat → K)
  | [], p => .ok p
  | c :: l, p => (snapCon huge m c (conVerts m c) p).bind fun p => snapCons huge m l p

/-- `Hanging_vertex_matcher::match` for one coordinate, Hanging_vertex_matcher.cpp:13-41. It differs from `Connection.hangingMatch` in that the vertices may coincide. -/
def matchCoord (nd : Nat) (junk : Nat → K) (t : Matcher V) (c : V → K) : Out (V → K) :=
  let n_vert := 2 ^ nd / 2
  if ∀ i ∈ List.range n_vert, stretchedInd nd i t.str < t.nf then
    match hypercube interpMat junk 3 ⟨n_vert, fun i => c (t.vert (stretchedInd nd i t.str) (faceInd nd t.dim t.isp i))⟩ with
    | none => .ub
    | some x =>
      let l := (List.range t.nf).flatMap fun e => (List.range n_vert).map fun i => (e, i)
      if ∀ q ∈ l, interpInd nd t.str q.1 q.2 < x.size then
        .ok (l.foldl (fun c q => upd c (t.vert q.1 (faceInd nd t.dim t.isp q.2)) (x.val (interpInd nd t.str q.1 q.2))) c)
      else .ub
  else .ub

/-- The calls of `match` for the three coordinates, Accessible_mesh.cpp:120-122. -/
def matchPos (nd : Nat) (junk : Nat → K) (t : Matcher V) : List Nat → (V → Nat → K) → Out (V → Nat → K)
  | [], p => .ok p
  | d :: l, p => (matchCoord nd junk t fun v => p v d).bind fun c => matchPos nd junk t l fun v e => if e = d then c v else p v e

/-- The loop over the matchers, Accessible_mesh.cpp:116-123. An iteration is atomic here, which it is not in the code. -/
def matchAll (nd : Nat) (junk : Nat → K) : List (Matcher V) → (V → Nat → K) → Out (V → Nat → K)
  | [], p => .ok p
  | t :: l, p => (matchPos nd junk t [0, 1, 2] p).bind fun p => matchAll nd junk l p

/-- The positions that `snap_vertices` has computed when it comes to the hanging vertices, Accessible_mesh.cpp:59-114. -/
def snapBoundary (huge : K) (dist : (Nat → K) → (Nat → K) → K) (r : Run V K) (m : Mesh V K) : Out (V → Nat → K) :=
  match m.tree with
  | some t =>
    Out.bind (match m.surf with
      | none => .ok (snapExtremes r 100 m t m.pos)
      | some g => snapSurf huge dist r m g (minSz huge (r.chunk m.elems)) (r.ord 1 (m.bverts m.surfSn)) (snapExtremes r 100 m t m.pos)) fun p =>
    .ok (snapExtremes r 200 m t p)
  | none => snapCons huge m (r.ord 2 m.allCons) m.pos

/-- `snap_vertices`, Accessible_mesh.cpp:59-125. -/
def snap (huge : K) (dist : (Nat → K) → (Nat → K) → K) (r : Run V K) (m : Mesh V K) : Out (Mesh V K) :=
  (snapBoundary huge dist r m).bind fun p => (matchAll m.nd r.junk (r.ord 3 m.matchers) p).bind fun p => .ok { m with pos := p }

/-- The two loops of `relax`, Accessible_mesh.cpp:1357-1369. -/
def relaxLoops (r : Run V K) (factor : K) (m : Mesh V K) : Out (Mesh V K) :=
  (averages m (r.ord 4 m.smooth) m.temp).bind fun temp =>
    let m := { m with temp := temp }
    .ok { m with pos := moves m factor (r.ord 5 m.smooth) }

/-- `relax`, Accessible_mesh.cpp:1354-1371. -/
def relax (huge : K) (dist : (Nat → K) → (Nat → K) → K) (r : Run V K) (factor : K) (m : Mesh V K) : Out (Mesh V K) :=
  (idBoundary m).bind fun m => (relaxLoops r factor m).bind fun m => snap huge dist r m

/-- `set_all_smooth`, Accessible_mesh.cpp:1343-1352. All `Transferable_ptr`s belong to the elements of the mesh. -/
def setAllSmooth (m : Mesh V K) : Out (Mesh V K) :=
  (idSmooth { m with ptrs := fun v => (m.ptrs v).map fun q => { q with smooth := true } }).bind idBoundary

/-- The body of the loop over the vertices of a Cartesian element, Accessible_mesh.cpp:1326-1332. -/
def cartPos (nd : Nat) (e : Elem V K) (i d : Nat) : K := e.size * ((e.nomPos d : K) + (i / 2 ^ (nd - 1 - d) % 2 : Nat)) + e.origin d

/-- The loop over the Cartesian elements, Accessible_mesh.cpp:1320-1334. -/
def snapCart (m : Mesh V K) (l : List (Elem V K)) (p : V → Nat → K) : V → Nat → K :=
  l.foldl (fun p e => (List.range (2 ^ m.nd)).foldl (fun p i => upd p (e.vert i) (first m.nd (cartPos m.nd e i) (p (e.vert i)))) p) p

/-- The end of `update`, Accessible_mesh.cpp:1318-1339. -/
def updateEnd (huge : K) (dist : (Nat → K) → (Nat → K) → K) (r : Run V K) (m : Mesh V K) : Out (Mesh V K) :=
  (idBoundary { m with pos := snapCart m (r.ord 6 m.carts) m.pos }).bind fun m => (snap huge dist r m).bind idSmooth

/-- The second loop of `reset_verts`, Accessible_mesh.cpp:1382-1394, over the vertices of the elements that have a `tree`. The right hand side of line 1388 has `n_dim` components, the left
hand side three. -/
def resetElems (nd : Nat) : List (Elem V K) → (V → Nat → K) → Out (V → Nat → K)
  | [], p => .ok p
  | e :: l, p =>
    match e.tree with
    | none => resetElems nd l p
    | some t =>
      if nd = 3 then
        resetElems nd l ((List.range (2 ^ nd)).foldl (fun p i => upd p (e.vert i) fun d => t.1 d + if d < nd then t.2 * (i / 2 ^ (nd - 1 - d) % 2 : Nat) else 0) p)
      else .ub

/-- The third loop of `reset_verts`, Accessible_mesh.cpp:1395-1409. -/
def resetExtr (nd : Nat) (l : List (Extr V)) (p : V → Nat → K) : V → Nat → K :=
  l.foldl (fun p c => (List.range (2 ^ nd)).foldl (fun p i =>
    let stride := 2 ^ (nd - 1 - c.dim)
    let face_sign := i / stride % 2
    if face_sign = c.sign1 then upd p (c.vert i) (p (c.vert ((i + stride * c.sign0) - stride * face_sign))) else p) p) p

/-- `reset_verts`, Accessible_mesh.cpp:1373-1411. -/
def reset (r : Run V K) (m : Mesh V K) : Out (Mesh V K) :=
  if m.isReset then .exn
  else
    (resetElems m.nd (r.ord 7 m.elems) m.pos).bind fun p =>
      .ok { m with temp := fun v => if v ∈ m.verts then m.pos v else m.temp v, pos := resetExtr m.nd (r.ord 8 m.extr) p, isReset := true }

/-- `restore_verts`, Accessible_mesh.cpp:1413-1421. -/
def restore (m : Mesh V K) : Out (Mesh V K) :=
  .ok { m with isReset := false, pos := fun v => if v ∈ m.verts then m.temp v else m.pos v }

end Hexed.Relax
