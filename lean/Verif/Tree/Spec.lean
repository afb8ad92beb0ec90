import Verif.Tree.Model

set_option autoImplicit false
set_option linter.unusedVariables false

/-!
Specification vocabulary for the tree properties: purely geometric notions about cells, in units in which the root
cell is the unit box. Nothing here refers to the search or fill algorithms.
-/

namespace Hexed.Tree
variable {nd : Nat}

/-- lower end of the cell of `t` in dimension `d` -/
def lo (t : Tree nd) (d : Fin nd) : ℚ := (t.coords d : ℚ) / 2 ^ t.rl
/-- upper end of the cell of `t` in dimension `d` -/
def hi (t : Tree nd) (d : Fin nd) : ℚ := ((t.coords d : ℚ) + 1) / 2 ^ t.rl

/-- The point `x` belongs to the cell of `t`, where in dimension `d` the cell owns its lower but not its upper
face if `bias d = 0` and its upper but not its lower face otherwise (Tree.hpp documentation of `find_leaf`). -/
def Owns (t : Tree nd) (bias : Fin nd → Int) (x : Fin nd → ℚ) : Prop :=
  ∀ d, if bias d = 0 then t.lo d ≤ x d ∧ x d < t.hi d else t.lo d < x d ∧ x d ≤ t.hi d

/-- The integer point `(level, c)` as a point of the unit box. -/
def gridPoint (level : Nat) (c : Fin nd → Int) : Fin nd → ℚ := fun d => (c d : ℚ) / 2 ^ level

/-- `p` points to a leaf of the tree with root `t`. -/
def IsLeafAt (t : Tree nd) (p : Path) : Prop := ∃ s, get p t = some s ∧ s.children = []

/-- Cell `b` borders on cell `a` in direction `dir`: in every dimension with `dir = 0` their intervals overlap,
where `dir > 0` the interval of `b` continues just above the top of `a`, where `dir < 0` just below the bottom. -/
def Borders (a b : Tree nd) (dir : Fin nd → Int) : Prop :=
  ∀ d, if dir d = 0 then b.lo d < a.hi d ∧ a.lo d < b.hi d
    else if dir d > 0 then b.lo d ≤ a.hi d ∧ a.hi d < b.hi d
    else b.lo d < a.lo d ∧ a.lo d ≤ b.hi d

/-- Cells `a` and `b` share (part of) a face with normal direction `d`: they abut in dimension `d` and overlap in
all the others. -/
def ShareFace (a b : Tree nd) (d : Fin nd) : Prop :=
  (a.hi d = b.lo d ∨ b.hi d = a.lo d) ∧ ∀ e, e ≠ d → b.lo e < a.hi e ∧ a.lo e < b.hi e

/-- `q` points to a leaf of `t` that shares a face with the element at `p`. -/
def FaceAdjacent (t : Tree nd) (p q : Path) : Prop :=
  ∃ a b, get p t = some a ∧ get q t = some b ∧ b.children = [] ∧ ∃ d, ShareFace a b d

/-- `q` can be reached from `p` through face-adjacent leaves all of which (including `p` and `q`) have status
`unprocessed` in `t`. (Only the start `p` may be a non-leaf.) -/
inductive FloodReach (t : Tree nd) (p : Path) : Path → Prop
  | start {s} : get p t = some s → s.status = unprocessed → FloodReach t p p
  | step {q r s} : FloodReach t p q → FaceAdjacent t q r → get r t = some s → s.status = unprocessed →
      FloodReach t p r

/-- `d` is a legal `direction` argument. -/
def IsDir (dir : Fin nd → Int) : Prop := ∀ d, dir d = -1 ∨ dir d = 0 ∨ dir d = 1

end Hexed.Tree
