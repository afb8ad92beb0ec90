import Verif.Connection.Hanging
import Mathlib.Algebra.Order.Field.Basic
set_option autoImplicit false
set_option linter.unusedVariables false

/-!
# Model of `Solver::share_vertex_data` (src/Solver.cpp), `Vertex::shared_value` (src/Vertex.cpp), `Element::push_shareable_value`, `fetch_shareable_value` (src/Element.cpp)

`double` is an ordered field `K`. Elements and vertices are numbers; `vid e i` is the vertex that `vertices[i]` of element `e` points to. The iterations of the parallel loops are
whole; `matchers` are given in the order in which they are executed. `match` is `Connection.hangingMatch` (C43).
-/

namespace Hexed.Share
open Hexed.Connection

/-- A `Hanging_vertex_matcher`, Hanging_vertex_matcher.hpp:15-20: the numbers of the fine elements, `id`, `isp`, `str`. -/
structure Matcher where
  fine : List Nat
  id : Fin 3
  isp : Bool
  str : Bool × Bool

/-- The elements (numbers below `ne`), their vertices and the hanging-node connections. -/
structure Mesh where
  nd : Nat
  ne : Nat
  vid : Nat → Nat → Nat
  matchers : List Matcher

/-- `trbl_ptrs` of vertex `p`, Vertex.hpp: the pointers of elements to it. It is a `std::set` of addresses, whose order is arbitrary. -/
def Mesh.ptrs (m : Mesh) (p : Nat) : List (Nat × Nat) :=
  (List.range m.ne).flatMap fun e => ((List.range (2 ^ m.nd)).filter fun v => m.vid e v = p).map fun v => (e, v)

section
variable {K : Type} [Field K] [LinearOrder K]

/-- `Vertex::vector_max`, Vertex.cpp:6-9: `maxCoeff` of Eigen, which requires at least one entry. -/
def vectorMax : List K → Option K
  | [] => none
  | x :: l => some (l.foldl max x)

/-- `Vertex::vector_min`, Vertex.cpp:11-14. -/
def vectorMin : List K → Option K
  | [] => none
  | x :: l => some (l.foldl min x)

/-- `push_shareable_value` for all elements, then `shared_value(reduction)` of the vertex of `(e, v)`: Element.cpp:149-161, Vertex.cpp:83-91. `order p` is `trbl_ptrs` of vertex `p` in the
order of the addresses. -/
def shared (m : Mesh) (order : Nat → List (Nat × Nat)) (reduce : List K → Option K) (get : Nat → Nat → K) (e v : Nat) : Option K :=
  reduce ((order (m.vid e v)).map fun s => get s.1 s.2)

/-- `fetch_shareable_value` for all elements, Element.cpp:156-161: fails if the reduction of any vertex fails. -/
def fetch (m : Mesh) (order : Nat → List (Nat × Nat)) (reduce : List K → Option K) (get set : Nat → Nat → K) : Option (Nat → Nat → K) :=
  if ∀ e < m.ne, ∀ v < 2 ^ m.nd, (shared m order reduce get e v).isSome then
    some fun e v => if e < m.ne ∧ v < 2 ^ m.nd then (shared m order reduce get e v).getD 0 else set e v
  else none

/-- `matchers[i_match].match(set)`: `match` reads and writes the values of the fine elements. The fine elements are distinct. -/
def matchOn (nd : Nat) (u : Nat → K) (val : Nat → Nat → K) (h : Matcher) : Option (Nat → Nat → K) :=
  (hangingMatch nd h.id h.isp h.str h.fine.length nd u fun i v => val (h.fine.getD i 0) v).bind fun val' =>
    some fun e v => if e ∈ h.fine then val' (h.fine.idxOf e) v else val e v

/-- `share_vertex_data(get, set, reduce)`, Solver.cpp:40-54. `u` is what new arrays contain before they are written. -/
def shareVertexData (m : Mesh) (order : Nat → List (Nat × Nat)) (u : Nat → K) (reduce : List K → Option K) (get set : Nat → Nat → K) : Option (Nat → Nat → K) :=
  (fetch m order reduce get set).bind fun val => m.matchers.foldlM (matchOn m.nd u) val

end
end Hexed.Share
