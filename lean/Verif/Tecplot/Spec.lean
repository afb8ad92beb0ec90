import Verif.Tecplot.Model
set_option autoImplicit false
set_option linter.unusedVariables false

/-!
What a reader of a Tecplot file relies on. A reader sees the variable list and the zones; variables are counted from 1, nodes from 0.
-/

namespace Hexed.Tecplot

variable {α : Type}

/-- The number of nodes that a zone declares. -/
def Shape.nodes : Shape → Nat
  | .ordered i j k => i*j*k
  | .lines n _ => n
  | .triangles n _ => n

/-- The number of entries of the node map that a zone declares: two for each segment and three for each triangle. -/
def Shape.entries : Shape → Nat
  | .ordered _ _ _ => 0
  | .lines _ c => 2*c
  | .triangles _ c => 3*c

/-- A zone with `n` variables holds what it declares: a value of each variable at each node, and a complete node map that names existing nodes. -/
structure Zone.Complete (z : Zone α) (n : Nat) : Prop where
  values : ∀ v, 1 ≤ v → v ≤ n → (z.data v).length = z.shape.nodes
  others : ∀ v, (v = 0 ∨ n < v) → z.data v = []
  map : z.map.length = z.shape.entries
  nodes : ∀ i ∈ z.map, i < z.shape.nodes
  finished : z.time.isSome

/-- The grid of a block with `row` points along each of 1, 2 or 3 axes. -/
def gridOf (row : Nat) : Nat → Shape
  | 1 => .ordered row 1 1
  | 2 => .ordered row row 1
  | _ => .ordered row row row

/-- The zone shows the block: the grid of `row` points along each of `dim` axes; the first variables are the coordinates and the rest the output variables. The arrays are in the order [variable][node]. -/
structure ShowsBlock (nDim nVar dim : Nat) (time : α) (number : Nat) (block : Nat × List α × List α) (z : Zone α) : Prop where
  complete : z.Complete (nDim + nVar)
  grid : z.shape = gridOf block.1 dim
  coords : ∀ d < nDim, ∀ i < block.1^dim, (z.data (d + 1))[i]? = block.2.1[d*block.1^dim + i]?
  vars : ∀ v < nVar, ∀ i < block.1^dim, (z.data (nDim + v + 1))[i]? = block.2.2[v*block.1^dim + i]?
  at_time : z.time = some time
  strand : z.strand = number + 1
  name : z.name = "block".toList ++ (toString number).toList

/-- The names of the variables that a reader finds: the list is separated by spaces or commas. -/
def readNames (s : List Char) : List (List Char) := s.splitOnP fun c => c == ' ' || c == ','

/-- Corner `c` of cell `t` of a zone of triangles is the node with this number. -/
def corner (z : Zone α) (t c : Nat) : Option Nat := z.map[3*t + c]?

/-- The value of variable `v` at a node. -/
def valueAt (z : Zone α) (v : Nat) (node : Nat) : Option α := (z.data v)[node]?

/-- The number that the auxiliary data give for a role. -/
def roleNumber (f : File α) (role : List Char) : Option Nat := (f.aux.find? fun e => e.1 == role).map (·.2)

end Hexed.Tecplot
