import Mathlib.Algebra.Field.Defs
import Mathlib.Data.List.Basic
set_option autoImplicit false
set_option linter.unusedVariables false

/-!
# Model of the polynomial bases

`Basis` (src/Basis.cpp), `Equidistant` (src/Equidistant.cpp), `Gauss_legendre` and `Gauss_lobatto`, whose C++ source is written at build
time by script/auto_generate.py from the numbers computed by script/Basis.py, and `Derivative` (include/Derivative.hpp). All numbers are
elements of a field `K`; rounding to 20 digits and to `double` is not modelled. Indices that the code keeps below `row_size` are natural
numbers.
-/

namespace Hexed.Basis

variable {K : Type} [Field K]

/-- The data members used here, script/Basis.py:35-40: `row_size`, `nodes`, `weights`. -/
structure Nodes (K : Type) where
  n : Nat
  node : Nat → K
  weight : Nat → K

/-- `Basis.derivative(i_result, i_operand)`, script/Basis.py:70-87. -/
def derivative (b : Nodes K) (i_result i_operand : Nat) : K :=
  if i_result = i_operand then
    (List.range b.n).foldl (fun dp k => if k ≠ i_result then dp + 1 / (b.node i_result - b.node k) else dp) 0
  else
    (List.range b.n).foldl (fun dp k =>
      if k ≠ i_operand then
        let dp := dp / (b.node i_operand - b.node k)
        if k ≠ i_result then dp * (b.node i_result - b.node k) else dp
      else dp) 1

/-- `Basis.interpolate(i, position)`, script/Basis.py:89-102. -/
def interpolate (b : Nodes K) (i : Nat) (pos : K) : K :=
  let nodes := (List.range b.n).map b.node
  let main_node := b.node i
  (nodes.eraseIdx i).foldl (fun result node => result * ((pos - node) / (main_node - node))) 1

/-- `Basis.prolong(i_result, i_operand, i_half)`, script/Basis.py:128-139. -/
def prolong (b : Nodes K) (i_result i_operand : Nat) (i_half : Nat) : K :=
  interpolate b i_operand ((b.node i_result + i_half) / 2)

/-- `Basis.restrict(i_result, i_operand, i_half)`, script/Basis.py:141-150. -/
def restrict (b : Nodes K) (i_result i_operand : Nat) (i_half : Nat) : K :=
  b.weight i_operand / 2 * prolong b i_operand i_result i_half / b.weight i_result

/-! ## The generated C++ -/

/-- The array `diff_mat{row_size}`, script/auto_generate.py:88-95. -/
def diffTable (b : Nodes K) : List K := (List.range b.n).flatMap fun j => (List.range b.n).map fun i => derivative b i j
/-- The array `boundary{row_size}`, script/auto_generate.py:97-104. -/
def boundaryTable (b : Nodes K) : List K := (List.range 2).flatMap fun (pos : Nat) => (List.range b.n).map fun j => interpolate b j pos
/-- The array `prolong{row_size}`, script/auto_generate.py:130-138. -/
def prolongTable (b : Nodes K) : List K :=
  (List.range 2).flatMap fun h => (List.range b.n).flatMap fun j => (List.range b.n).map fun i => prolong b i j h
/-- The array `restrict{row_size}`, script/auto_generate.py:140-148. -/
def restrictTable (b : Nodes K) : List K :=
  (List.range 2).flatMap fun h => (List.range b.n).flatMap fun j => (List.range b.n).map fun i => restrict b i j h

/-- Row `i`, column `j` of a matrix filled by `m(i_entry) = table[i_entry + offset]`: Eigen's single index is column major.
auto_generate.py:186-189, 249-265. `none` = outside the array. -/
def colMajor (b : Nodes K) (table : List K) (offset i j : Nat) : Option K := table[offset + (j * b.n + i)]?

/-- `diff_mat()(i, j)`, auto_generate.py:183-191. -/
def diffMat (b : Nodes K) (i j : Nat) : Option K := colMajor b (diffTable b) 0 i j
/-- `boundary()(is_positive, i_node)`, auto_generate.py:193-204. -/
def boundary (b : Nodes K) (is_positive i_node : Nat) : Option K := (boundaryTable b)[is_positive * b.n + i_node]?
/-- `prolong(i_half)(i, j)`, auto_generate.py:244-254. -/
def prolongMat (b : Nodes K) (i_half i j : Nat) : Option K := colMajor b (prolongTable b) (i_half * b.n * b.n) i j
/-- `restrict(i_half)(i, j)`, auto_generate.py:258-268. -/
def restrictMat (b : Nodes K) (i_half i j : Nat) : Option K := colMajor b (restrictTable b) (i_half * b.n * b.n) i j

/-- `Basis::interpolate(sample)(i, j)` for one sample, Basis.cpp:19-30. -/
def interpolateCpp (b : Nodes K) (sample : K) (i_node : Nat) : K :=
  (List.range b.n).foldl (fun acc j_node => if i_node ≠ j_node then acc * ((sample - b.node j_node) / (b.node i_node - b.node j_node)) else acc) 1

/-! ## Equidistant -/

/-- `Equidistant::node`, Equidistant.cpp:21-24. It has no weights. -/
def equidistant (K : Type) [Field K] (row_size : Nat) : Nodes K := ⟨row_size, fun i => (i : K) / ((row_size : K) - 1), fun _ => 0⟩

/-- `Equidistant::diff_mat()(i_result, i_operand)`, Equidistant.cpp:33-70. -/
def equiDiff (b : Nodes K) (i_result i_operand : Nat) : K :=
  if i_result = i_operand then
    (List.range b.n).foldl (fun deriv i_node => if i_node ≠ i_operand then deriv + 1 / (b.node i_result - b.node i_node) else deriv) 0
  else
    (List.range b.n).foldl (fun deriv i_node =>
      if i_node ≠ i_operand then
        let deriv := deriv / (b.node i_operand - b.node i_node)
        if i_node ≠ i_result then deriv * (b.node i_result - b.node i_node) else deriv
      else deriv) 1

/-- `Equidistant::boundary()(is_positive, j)`, Equidistant.cpp:72-78. -/
def equiBoundary (b : Nodes K) (is_positive j : Nat) : K :=
  if is_positive = 1 ∧ j = b.n - 1 then 1 else if is_positive = 0 ∧ j = 0 then 1 else 0

/-! ## Derivative -/

/-- `lift(i, side)`, Derivative.hpp:20, 27-28: `inv_weights.asDiagonal()*boundary.transpose()*sign`. `bd side j` is `boundary()(side, j)`. -/
def lift (weight : Nat → K) (bd : Nat → Nat → K) (i side : Nat) : K := 1 / weight i * bd side i * (if side = 0 then -1 else 1)

/-- `operator()(qpoint_vals, boundary_vals)` for one variable, Derivative.hpp:50-55, at row `i`:
`diff_mat*qpoint_vals + lift*(boundary_vals - boundary*qpoint_vals)`. -/
def deriv (n : Nat) (weight : Nat → K) (dm bd : Nat → Nat → K) (q : Nat → K) (bv : Nat → K) (i : Nat) : K :=
  ((List.range n).map fun j => dm i j * q j).sum +
    ((List.range 2).map fun s => lift weight bd i s * (bv s - ((List.range n).map fun j => bd s j * q j).sum)).sum

/-- `operator()(qpoint_vals)`, Derivative.hpp:56-60. -/
def derivInterior (n : Nat) (dm : Nat → Nat → K) (q : Nat → K) (i : Nat) : K := ((List.range n).map fun j => dm i j * q j).sum

/-- `interior_term`, Derivative.hpp:38-44: the derivative and the boundary values written back. -/
def interiorTerm (n : Nat) (weight : Nat → K) (dm bd : Nat → Nat → K) (q : Nat → K) : (Nat → K) × (Nat → K) :=
  let bv := fun s => ((List.range n).map fun j => bd s j * q j).sum
  (fun i => ((List.range n).map fun j => dm i j * q j).sum - ((List.range 2).map fun s => lift weight bd i s * bv s).sum, bv)

/-- `boundary_term`, Derivative.hpp:45-49. -/
def boundaryTerm (weight : Nat → K) (bd : Nat → Nat → K) (bv : Nat → K) (i : Nat) : K :=
  ((List.range 2).map fun s => lift weight bd i s * bv s).sum

end Hexed.Basis
