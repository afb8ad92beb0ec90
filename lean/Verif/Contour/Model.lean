import Mathlib.Algebra.BigOperators.Group.Finset.Basic
import Mathlib.Algebra.BigOperators.Intervals
import Mathlib.Algebra.Order.Field.Basic
import Mathlib.Algebra.Order.Group.Unbundled.Abs
import Mathlib.Logic.Function.Basic
set_option autoImplicit false
set_option linter.unusedVariables false

/-!
# Contour lines and surfaces in an element (Vis_data.cpp:112-262)

`Vis_data::compute_contour` samples a function in a block of `n_div + 1` points per direction, finds the neighbours with the contour in between, and makes a mesh of segments (2D) or quadrilaterals (3D) whose vertices are in a block of `2*n_div + 1` points per direction, before it moves the vertices onto the contour. The part that decides about vertices, elements and search directions is modelled, with the flat indices of the program. `d` is `n_dim`, `n` is `n_div`, samples are elements of an ordered field.
-/

open Finset

namespace Hexed.Contour

/-- `strides_sample`, Vis_data.cpp:135 (also `stride`, 140). -/
def strideS (d n j : ℕ) : ℕ := (n + 1) ^ (d - 1 - j)

/-- `strides_block`, Vis_data.cpp:136. -/
def strideB (d n j : ℕ) : ℕ := (2 * n + 1) ^ (d - 1 - j)

/-- `row`, Vis_data.cpp:155. -/
def row (d n s j : ℕ) : ℕ := s / strideS d n j % (n + 1)

/-- `block`, Vis_data.cpp:151-159. -/
def block (d n i s : ℕ) : ℤ := strideB d n i + ∑ j ∈ range d, (row d n s j * 2 * strideB d n j : ℤ)

/-- `k_dim` for a `j_dim` other than `i_dim`, Vis_data.cpp:167-171: the number of dimensions before it, `i_dim` left out. -/
def kdim (i j : ℕ) : ℕ := if j < i then j else j - 1

/-- `row_incr`, Vis_data.cpp:168. -/
def incr (d i_vert k : ℕ) : ℤ := (i_vert / 3 ^ (d - 2 - k) % 3 : ℕ) - 1

/-- `!boundary[j_dim][row_incr > 0]`, Vis_data.cpp:156-157, 169. -/
def inside (d n s j : ℕ) (row_incr : ℤ) : Bool := !(if 0 < row_incr then decide (row d n s j = n) else decide (row d n s j = 0))

/-- `vert`, Vis_data.cpp:166-171. -/
def vert (d n i s i_vert : ℕ) : ℤ :=
  block d n i s + ∑ j ∈ range d, if j = i then 0 else (if inside d n s j (incr d i_vert (kdim i j)) then 1 else 0) * incr d i_vert (kdim i j) * strideB d n j

/-- What is built: `i_block`, `i_contour` (`none` for -1), `directions` and `faces`, Vis_data.cpp:122-130. The program puts the vertices of all elements into one list and divides it at the end (255-260); here it is a list of lists. -/
structure St where
  verts : List ℤ
  index : ℤ → Option ℕ
  dirs : List (ℕ → ℤ)
  faces : List (List ℕ)

/-- Vis_data.cpp:122-130. -/
def init : St := ⟨[], fun _ => none, [], []⟩

/-- Vis_data.cpp:172-180: the index of a vertex, which is added if it isn't there. -/
def addVert (st : St) (v : ℤ) : St × ℕ :=
  match st.index v with
  | some k => (st, k)
  | none => ({ st with verts := st.verts ++ [v], index := Function.update st.index v (some st.verts.length), dirs := st.dirs ++ [fun _ => 0] }, st.verts.length)

/-- Vis_data.cpp:181-182. -/
def addDir (st : St) (k i : ℕ) (sgn : ℤ) : St := { st with dirs := st.dirs.modify k fun f => Function.update f i (f i + sgn) }

/-- Vis_data.cpp:164-183: the loop over `i_vert`. -/
def addVerts (i : ℕ) (sgn : ℤ) : List ℤ → St → St × List ℕ
  | [], st => (st, [])
  | v :: l, st =>
    let r := addVert st v
    let r' := addVerts i sgn l (addDir r.1 r.2 i sgn)
    (r'.1, r.2 :: r'.2)

/-- `i_vert` of a corner of an element, Vis_data.cpp:190-194. -/
def ivert (d i_elem i_corner : ℕ) : ℕ := ∑ j ∈ range (d - 1), (i_elem / 2 ^ (d - 2 - j) % 2 + i_corner / 2 ^ (d - 2 - j) % 2) * 3 ^ (d - 2 - j)

/-- Swapping the entries two by two, Vis_data.cpp:197-203. -/
def flipElem {α : Type} : List α → List α
  | a :: b :: l => b :: a :: flipElem l
  | l => l

/-- The elements for given vertices, Vis_data.cpp:186-204. -/
def elems {α : Type} [Inhabited α] (d : ℕ) (flip : Bool) (verts : List α) : List (List α) :=
  (List.range (2 ^ (d - 1))).map fun e =>
    let l := (List.range (2 ^ (d - 1))).map fun c => verts.getD (ivert d e c) default
    if flip then flipElem l else l

variable {R : Type} [Field R] [LinearOrder R]

/-- The condition of Vis_data.cpp:148-150. -/
def crossing (sample : ℕ → R) (value tol : R) (s0 s1 : ℕ) : Bool :=
  (decide (sample s0 > value) != decide (sample s1 > value)) && decide (|sample s0 - sample s1| > tol)

/-- `flip`, Vis_data.cpp:184-185. -/
def flip (sample : ℕ → R) (value : R) (i s0 : ℕ) : Bool := decide (sample s0 > value) != decide (i = 1)

/-- The body of the loops, Vis_data.cpp:145-205. -/
def process (d n : ℕ) (sample : ℕ → R) (value tol : R) (st : St) (e : ℕ × ℕ) : St :=
  if crossing sample value tol e.2 (e.2 + strideS d n e.1) then
    let r := addVerts e.1 (1 - 2 * if sample e.2 > value then 1 else 0) ((List.range (3 ^ (d - 1))).map (vert d n e.1 e.2)) st
    { r.1 with faces := r.1.faces ++ elems d (flip sample value e.1 e.2) r.2 }
  else st

/-- The loops, Vis_data.cpp:138-147: pairs of `i_dim` and `sample0`. -/
def edges (d n : ℕ) : List (ℕ × ℕ) :=
  (List.range d).flatMap fun i => (List.range ((n + 1) ^ d / strideS d n i / (n + 1))).flatMap fun o => (List.range (strideS d n i)).flatMap fun inn => (List.range n).map fun r => (i, (o * (n + 1) + r) * strideS d n i + inn)

/-- `Vis_data::compute_contour` before the projection, Vis_data.cpp:112-209. -/
def contour (d n : ℕ) (sample : ℕ → R) (value tol : R) : St := (edges d n).foldl (process d n sample value tol) init

/-- A coordinate of a vertex in the block, Vis_data.cpp:210-217; the reference coordinate is this number divided by `2*n_div`. -/
def coord (d n : ℕ) (v : ℤ) (j : ℕ) : ℤ := v / strideB d n j % (2 * n + 1)

/-- `diff`, limited, Vis_data.cpp:231-232. The small term is 1e-4 times the length of the gradient. -/
def moveBy (n : ℕ) (value curr dirGrad small : R) : R := max (-(1 / 2) / n) (min ((1 / 2) / n) ((value - curr) / (dirGrad + small)))

end Hexed.Contour
