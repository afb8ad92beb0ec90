import Verif.Extrude.Model
import Mathlib.Data.List.Perm.Basic
import Mathlib.Data.Int.Basic
set_option autoImplicit false
set_option linter.unusedVariables false

/-!
# What the connections of a new layer should be
-/

namespace Hexed.Extrude

/-- The requests that are served by pairs. -/
def served (l : List (Rec × Rec)) : List Rec := l.flatMap fun p => [p.1, p.2]

/-- The requests that are served by hanging connections. -/
def servedHanging {V : Type} (l : List (Hang V)) : List Rec := l.flatMap fun h => h.coarse :: h.fine :: h.second.toList.map (·.2)

/-- Both faces are across the same direction, looking at each other, and both elements were extruded along the same axis. -/
def Straight (r s : Rec) : Prop := r.face / 2 = s.face / 2 ∧ r.face % 2 ≠ s.face % 2 ∧ r.extr / 2 = s.extr / 2

/-- The elements meet at an edge of the surface: each was extruded along the axis across which the other is to be connected. -/
def Corner (r s : Rec) : Prop := r.face / 2 = s.extr / 2 ∧ s.face / 2 = r.extr / 2

/-- Two requests that fit together. -/
def Mates (r s : Rec) : Prop := r.level = s.level ∧ (Straight r s ∨ Corner r s)

/-- Each of the requests has exactly one other that fits. -/
def Paired (l : List Rec) : Prop := ∀ r ∈ l, ∃ s ∈ l, s ≠ r ∧ Mates r s ∧ ∀ t ∈ l, Mates r t → t = s

/-- A vertex that is eaten leaves its requests to another one: `root v` is the one that has those of `v` in the end. -/
def eaten {V : Type} [DecidableEq V] (order : List V) (root : V → V) (verts : V → List Rec) (v : V) : List Rec := (order.filter fun w => root w == v).flatMap verts

/-! ## Layers on cells of a grid -/

/-- Cells and vertices of a grid; the vertices of cell `c` are `c` plus 0 or 1 in each direction. -/
abbrev Pos := Nat → Int

/-- The unit step in direction `k`, `n` times. -/
def shift (c : Pos) (k : Nat) (n : Int) : Pos := fun i => if i = k then c i + n else c i

/-- The cell across face `2*k + s` of `c`. -/
def across (c : Pos) (k s : Nat) : Pos := shift c k (2 * s - 1)

/-- A region of a box of cells: which cells are in the box (a product of intervals) and which of them have elements. -/
structure Region where
  lo : Pos
  hi : Pos
  occ : Pos → Prop

def Region.inBox (R : Region) (nd : Nat) (c : Pos) : Prop := (∀ k < nd, R.lo k ≤ c k ∧ c k < R.hi k) ∧ ∀ k, nd ≤ k → c k = 0

/-- A face is exposed: it has an element on one side, and on the other side a cell of the box without. -/
def Region.Exposed (R : Region) (nd : Nat) (c : Pos) (k s : Nat) : Prop := k < nd ∧ s < 2 ∧ R.inBox nd c ∧ R.occ c ∧ R.inBox nd (across c k s) ∧ ¬R.occ (across c k s)

/-- No two elements meet at an edge of the grid only: of the four cells around it, if one and the one diagonally opposite have elements, so has one of the others. -/
def Region.Manifold (R : Region) (nd : Nat) : Prop :=
  ∀ c i j s t, i < nd → j < nd → i ≠ j → s < 2 → t < 2 → R.occ c → R.occ (across (across c i s) j t) → R.inBox nd c → R.inBox nd (across (across c i s) j t) → R.occ (across c i s) ∨ R.occ (across c j t)

/-- How the element on face `2*i + s` of `c` should be connected across its face `2*j + t` to the element on face `2*i' + s'` of `c'` across its face `2*j' + t'`: either both are on the same cell, which is a convex edge of the surface, or on neighbors, where the surface is flat, or both faces are around the same empty cell, which is a concave edge. -/
def Meet (c : Pos) (i s j t : Nat) (c' : Pos) (i' s' j' t' : Nat) : Prop :=
  (c' = c ∧ i' = j ∧ s' = t ∧ j' = i ∧ t' = s) ∨ (c' = across c j t ∧ i' = i ∧ s' = s ∧ j' = j ∧ t' = 1 - t) ∨ (across c' i' s' = across c i s ∧ i' = j ∧ j' = i)

/-- The vertex of cell `c` with number `n`: bit `nd - 1 - k` of `n` is the offset in direction `k`. -/
def corner (nd : Nat) (c : Pos) (n : Nat) : Pos := fun k => if k < nd then c k + (n / 2 ^ (nd - 1 - k) % 2 : Nat) else c k

/-- The vertices of an element extruded from face `2*k + s` of `c`: those on its inner face are those of `c` on that face, and the others are its own. -/
def siteVertex (nd : Nat) (c : Pos) (k s : Nat) (n : Nat) : Pos ⊕ (Pos × Nat × Nat × Nat) :=
  if n / 2 ^ (nd - 1 - k) % 2 = 1 - s then .inl (shift (corner nd c n) k (2 * s - 1)) else .inr (c, k, s, n)

open Classical in
/-- The element extruded from face `2*k + s` of cell `c`, with serial number `sn` and refinement level `level`: the parent has boundary conditions where it is at the end of the box. -/
noncomputable def gridSite (R : Region) (nd level : Nat) (sn : Pos × Nat × Nat → Nat) (f : Pos × Nat × Nat) : Site (Pos ⊕ (Pos × Nat × Nat × Nat)) :=
  ⟨level, sn f, f.2.1, f.2.2, fun n => decide (¬R.inBox nd (across f.1 (n / 2) (n % 2))), siteVertex nd f.1 f.2.1 f.2.2⟩

end Hexed.Extrude
