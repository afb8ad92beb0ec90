import Verif.Adapt.Model
import Verif.Tree.Spec
import Mathlib.Data.Finset.Card
import Mathlib.Data.Fintype.Basic

set_option autoImplicit false
set_option linter.unusedVariables false

/-!
# What mesh adaptation is meant to achieve

In terms of the geometry of cells (`Verif.Tree.Spec`) and of which cells have an element that is going to stay.
-/

namespace Hexed.Adapt
open Hexed.Tree (Path get IsDir Borders IsLeafAt Reachable)

variable {nd : Nat}

/-- Cell `p` has an element that is not going to be deleted. -/
def Exists (st : St nd) (p : Path) : Prop := ∃ d, ∃ e ∈ st.els d, e.tree = some p ∧ e.record ≠ 2

/-- The tree has a history; elements refer to cells of the tree, no two of them to the same; and elements that are going to stay are at
leaves. -/
structure Consistent (st : St nd) : Prop where
  reach : Reachable st.root
  valid : ∀ d, ∀ e ∈ st.els d, ∀ p, e.tree = some p → ∃ c, get p st.root = some c
  uniq : (st.all.filterMap (·.tree)).Nodup
  leaf : ∀ d, ∀ e ∈ st.els d, ∀ p, e.tree = some p → e.record ≠ 2 → IsLeafAt st.root p

/-- `dir` points to a face, or to an edge (the corner in 2D): at most two of its components are not 0, and at least one. -/
def FaceOrEdge (dir : Fin nd → Int) : Prop := IsDir dir ∧ ∃ d e, dir d ≠ 0 ∧ ∀ x, x ≠ d → x ≠ e → dir x = 0

/-- No existing element borders on the face or edge of another one that is more than one level coarser. -/
def Balanced (st : St nd) : Prop := ∀ p q a b dir, Exists st p → Exists st q → get p st.root = some a → get q st.root = some b →
  FaceOrEdge dir → Borders a b dir → b.rl ≤ a.rl + 1

/-- No element of a cell has a pending request: it is going to stay as it is, or to be deleted. -/
def NoRequests (st : St nd) : Prop := ∀ d, ∀ e ∈ st.els d, e.tree ≠ none → e.record = 0 ∨ e.record = 2

/-- The existing cells of `st'` are those of `st`, or cells into which they have been divided: every existing cell of `st` is in the tree
of `st'` and the leaves below it all exist, and there are no others. -/
def Refines (st st' : St nd) : Prop :=
  (∀ p, Exists st p → (∃ c, get p st'.root = some c) ∧ ∀ q, IsLeafAt st'.root q → p <+: q → Exists st' q) ∧
  ∀ q, Exists st' q → ∃ p, Exists st p ∧ p <+: q

/-- The loop order of a parallel loop: every pass treats every element once. -/
def Schedule (order : Nat → St nd → List (Bool × Nat)) : Prop := ∀ k st, (order k st).Perm (handles st)

/-- Face `dir` of the element at cell `a` is exposed: it borders on a leaf without existing element. -/
def Exposed (st : St nd) (a : Tree nd) (dir : Fin nd → Int) : Prop := ∃ q b, get q st.root = some b ∧ b.children = [] ∧
  Borders a b dir ∧ ¬Exists st q

/-- The number of dimensions in which `dir` leads away: 1 for a face, 2 for an edge (a corner in 2D), 3 for a corner in 3D. -/
def order (dir : Fin nd → Int) : Nat := (Finset.univ.filter fun d => dir d ≠ 0).card

/-- The face in dimension `d` on the way of `dir`. -/
def faceOf (dir : Fin nd → Int) (d : Fin nd) : Fin nd → Int := fun x => if x = d then dir x else 0

/-- The leaves that border on cell `a` in direction `dir` have existing elements either all or none. -/
def AllOrNone (st : St nd) (a : Tree nd) (dir : Fin nd → Int) : Prop :=
  (∀ q b, get q st.root = some b → b.children = [] → Borders a b dir → Exists st q) ∨
  (∀ q b, get q st.root = some b → b.children = [] → Borders a b dir → ¬Exists st q)

/-- Layers can be extruded from the exposed faces of the existing elements: no face (in 3D: nor an edge of an exposed face) is covered in part;
elements that touch only at an edge or a corner have a neighbour in common through a face towards each other; and no exposed face, edge or
corner looks away from the surface. -/
structure Ready (away : Tree nd → (Fin nd → Int) → Bool) (st : St nd) : Prop where
  faces : ∀ p a dir, Exists st p → get p st.root = some a → IsDir dir → order dir = 1 → AllOrNone st a dir
  edges : nd = 3 → ∀ p a dir, Exists st p → get p st.root = some a → IsDir dir → order dir = 2 →
    (∃ d, dir d ≠ 0 ∧ Exposed st a (faceOf dir d)) → AllOrNone st a dir
  diagonals : ∀ p a q b dir, Exists st p → get p st.root = some a → Exists st q → get q st.root = some b → IsDir dir →
    (order dir = 2 ∨ order dir = 3) → Borders a b dir → ∃ d, dir d ≠ 0 ∧ ¬Exposed st a (faceOf dir d)
  facing : ∀ p a dir, Exists st p → get p st.root = some a → IsDir dir → (order dir = 1 ∨ order dir = 2 ∨ order dir = 3) →
    (∀ d, dir d ≠ 0 → Exposed st a (faceOf dir d)) → away a dir = false

/-! ### Unrefinement -/

/-- The element of cell `p` is `e`. -/
def At (st : St nd) (p : Path) (e : El) : Prop := e.tree = some p ∧ ∃ d, e ∈ st.els d

/-- Some existing element borders on the face or edge of the cell at `p` and is more than one level finer. -/
def TooCoarse (st : St nd) (p : Path) : Prop := ∃ dir a q b, get p st.root = some a ∧ FaceOrEdge dir ∧ Exists st q ∧ get q st.root = some b ∧
  Borders a b dir ∧ b.rl > a.rl + 1

/-- `q` is a child of `m`. -/
def Child (m q : Path) : Prop := ∃ i, q = m ++ [i]

/-- Nothing below `m` but children at leaves, and those that stay ask to be unrefined. -/
def Agreed (st : St nd) (m : Path) : Prop := ∀ q x, At st q x → m <+: q → q ≠ m → Child m q ∧ IsLeafAt st.root q ∧ (x.record = 2 ∨ x.record = -1)

/-- The elements below cell `m` have been asked to merge: they are all at children of `m`, all that stay ask for it, and at least one of those
is not locked. -/
def Mergeable (st : St nd) (m : Path) : Prop := Agreed st m ∧ ∃ i e, At st (m ++ [i]) e ∧ e.record = -1 ∧ e.locked = false

end Hexed.Adapt
