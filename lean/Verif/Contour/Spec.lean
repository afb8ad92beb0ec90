import Verif.Contour.Model
set_option autoImplicit false
set_option linter.unusedVariables false

/-!
# What users expect of a contour
-/

namespace Hexed.Contour

variable {R : Type} [Field R] [LinearOrder R]

/-- The elements of a contour, each by its vertices (`none` if an index is out of range). -/
def St.elements (st : St) : List (List (Option ℤ)) := st.faces.map (List.map fun k => st.verts[k]?)

/-- Two samples are neighbours in direction `i`: `s` is a sample that is not in the last row. -/
def Neighbours (d n i s : ℕ) : Prop := i < d ∧ s < (n + 1) ^ d ∧ row d n s i < n

/-- Wherever two neighbours are on different sides of the value, they differ by more than the tolerance. -/
def Resolved (d n : ℕ) (sample : ℕ → R) (value tol : R) : Prop :=
  ∀ i s, Neighbours d n i s → ((sample s > value) ↔ ¬(sample (s + strideS d n i) > value)) → tol < |sample s - sample (s + strideS d n i)|

/-- A vertex is on the boundary of the element. -/
def OnBoundary (d n : ℕ) (v : ℤ) : Prop := ∃ j < d, coord d n v j = 0 ∨ coord d n v j = 2 * n

/-- Two vertices on the same side of the block. -/
def SameSide (d n : ℕ) (u v : ℤ) : Prop := ∃ j < d, coord d n u j = coord d n v j ∧ (coord d n u j = 0 ∨ coord d n u j = 2 * n)

/-- How many segments start (end) at a vertex. -/
def starts (st : St) (v : ℤ) : ℕ := st.elements.countP fun f => decide (f[0]? = some (some v))
def ends (st : St) (v : ℤ) : ℕ := st.elements.countP fun f => decide (f[1]? = some (some v))

/-- The directed edges of a quadrilateral, whose vertices are in the order 00, 01, 10, 11. -/
def around {α : Type} : List α → List (α × α)
  | [a, b, c, d] => [(a, b), (b, d), (d, c), (c, a)]
  | _ => []

/-- How often an edge is passed in one direction. -/
def passes (st : St) (u v : ℤ) : ℕ := (st.elements.flatMap around).count (some u, some v)

end Hexed.Contour
