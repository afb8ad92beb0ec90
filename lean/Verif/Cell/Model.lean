import Mathlib.Data.Real.Basic
set_option autoImplicit false
set_option linter.unusedVariables false

/-!
# New elements

The vertices and edges which the constructor of an element makes, and the criteria for refinement which a user makes from a function. Arithmetic is exact.
-/

namespace Hexed.Cell
noncomputable section

/-- Arguments of the constructor, Element.cpp:7. `origin` stands for its first `n_dim` entries. -/
structure Args where
  nDim : Nat
  pos : List Int
  meshSize : ℝ
  refLevel : Nat
  origin : Nat → ℝ

/-- `nom_sz`, Element.cpp:11; the power is that of integers, which is not bounded here. -/
def Args.nomSz (a : Args) : ℝ := a.meshSize / 2 ^ a.refLevel

/-- `first_pos`, Element.cpp:26-33. -/
def Args.firstPos (a : Args) (d : Nat) : ℝ :=
  (if d < min a.pos.length a.nDim then (a.pos[d]?.getD 0 : ℝ) * a.nomSz else 0) + if d < a.nDim then a.origin d else 0

/-- `stride[i_dim]`, Element.cpp:42. -/
def stride (nDim d : Nat) : Nat := 2 ^ (nDim - d - 1)

/-- `i_row[i_dim]`, Element.cpp:43. -/
def iRow (nDim v d : Nat) : Nat := v / stride nDim d % 2

/-- `vertex_pos`, Element.cpp:38-45. -/
def Args.vertexPos (a : Args) (v d : Nat) : ℝ := if d < a.nDim then a.firstPos d + iRow a.nDim v d * a.nomSz else a.firstPos d

/-- The calls of `Vertex::connect` for vertex `v` if there are `n` vertices, Element.cpp:48-50, as pairs of indices; `none` if an index is out of bounds. -/
def connects (nDim n v : Nat) (es : List (Nat × Nat)) : Option (List (Nat × Nat)) :=
  (List.range nDim).foldlM (fun es d =>
    if iRow nDim v d ≠ 0 then
      if stride nDim d ≤ v ∧ v - stride nDim d < n then some (es ++ [(n - 1, v - stride nDim d)]) else none
    else some es) es

/-- The loop over vertices, Element.cpp:35-51: how many vertices there are, and the edges. The position of vertex `v` is `vertexPos v`. -/
def construct (nDim : Nat) : Option (Nat × List (Nat × Nat)) :=
  (List.range (2 ^ nDim)).foldlM (fun (s : Nat × List (Nat × Nat)) v => (connects nDim (s.1 + 1) v s.2).map fun es => (s.1 + 1, es)) (0, [])

/-- What criteria use of an element. -/
structure Elem where
  nDim : Nat
  hasTree : Bool
  refLevel : Nat
  nomSz : ℝ
  vertex : Nat → Nat → ℝ
  uncertainty : ℝ

/-- `center` in `criterion`, criteria.cpp:13-18. -/
def Elem.center (e : Elem) (d : Nat) : ℝ := ((List.range (2 ^ e.nDim)).foldl (fun c v => c + e.vertex v d) 0) / (2 ^ e.nDim : ℕ)

/-- `criterion`, criteria.cpp:9-21. -/
def criterion (f : Bool → Nat → ℝ → (Nat → ℝ) → ℝ → Bool) (e : Elem) : Bool := f (!e.hasTree) e.refLevel e.nomSz e.center e.uncertainty

/-- `if_extruded`, criteria.cpp:7. -/
def ifExtruded (e : Elem) : Bool := !e.hasTree

/-- `logical_not`, criteria.cpp:23-26. -/
def logicalNot (f : Elem → Bool) (e : Elem) : Bool := !f e

/-- The element with the vertices of the constructor. -/
def Args.elem (a : Args) (hasTree : Bool) (uncertainty : ℝ) : Elem := ⟨a.nDim, hasTree, a.refLevel, a.nomSz, a.vertexPos, uncertainty⟩

end
end Hexed.Cell
