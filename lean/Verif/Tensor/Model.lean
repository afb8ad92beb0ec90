import Verif.MathFn.Int
import Mathlib.Algebra.BigOperators.Group.Finset.Basic
import Mathlib.Algebra.Ring.Defs
set_option autoImplicit false
set_option linter.unusedVariables false

/-!
# Model of `hypercube_matvec`, `dimension_matvec` and `pow_outer` (src/math.cpp)

`double` is a commutative ring `K` (exact arithmetic). A dynamically sized Eigen vector is its size and its entries; entries at
positions beyond the size are meaningless. Eigen leaves new vectors uninitialised: their initial entries are a parameter `u`.
Every violated size requirement of Eigen, division by zero and infinite recursion is the outcome `none`.
-/

namespace Hexed.Tensor
open Finset
variable {K : Type} [CommRing K]

/-- `Eigen::VectorXd`. -/
structure Vec (K : Type) where
  size : Nat
  val : Nat → K

/-- `Eigen::MatrixXd`. -/
structure Mat (K : Type) where
  rows : Nat
  cols : Nat
  val : Nat → Nat → K

/-- `mat*vec`. -/
def mulVec (m : Mat K) (v : Vec K) : Option (Vec K) :=
  if v.size = m.cols then some ⟨m.rows, fun i => ∑ k ∈ range m.cols, m.val i k * v.val k⟩ else none

/-- `vec(Eigen::seqN(start, n, stride))` as a value. -/
def readSeq (v : Vec K) (start n stride : Nat) : Option (Vec K) :=
  if n = 0 ∨ start + (n - 1) * stride < v.size then some ⟨n, fun i => v.val (start + i * stride)⟩ else none

/-- `dst(Eigen::seqN(start, n, stride)) = src`. -/
def writeSeq (dst : Vec K) (start n stride : Nat) (src : Vec K) : Option (Vec K) :=
  if src.size = n ∧ (n = 0 ∨ start + (n - 1) * stride < dst.size) then
    some ⟨dst.size, fun j =>
      if start ≤ j ∧ (j - start) % stride = 0 ∧ (j - start) / stride < n then src.val ((j - start) / stride) else dst.val j⟩
  else none

/-- `for (int i = 0; i < n; ++i) x = body(i, x)` where the body may fail. -/
def forLoop {A : Type} (n : Nat) (body : Nat → A → Option A) (x : A) : Option A :=
  (List.range n).foldlM (fun a i => body i a) x

/-- The loop computing `prod_size`, math.cpp:37-41. It does not end if `cols ≤ 1` (`none`). -/
def prodSize (rows cols : Nat) (vec_size prod_size : Nat) : Option Nat :=
  if h : vec_size > 1 then
    if hc : 2 ≤ cols then prodSize rows cols (vec_size / cols) (prod_size * rows) else none
  else some prod_size
termination_by vec_size
decreasing_by exact Nat.div_lt_self (by omega) (by omega)

/-- `hypercube_matvec`, math.cpp:19-56 (without the DEBUG check), with recursion depth limited by `fuel`. -/
def hypercube (m : Mat K) (u : Nat → K) : Nat → Vec K → Option (Vec K)
  | 0, _ => none
  | fuel + 1, v =>
    if m.cols = 0 then none
    else
      let vec_row_size := v.size / m.cols
      if vec_row_size = 1 then mulVec m v
      else
        (prodSize m.rows m.cols v.size 1).bind fun prod_size =>
          if m.rows = 0 then none
          else
            let row_size := prod_size / m.rows
            (forLoop m.cols (fun i_row (fact : Vec K) =>
                (readSeq v (i_row * vec_row_size) vec_row_size 1).bind fun sub =>
                  (hypercube m u fuel sub).bind fun r => writeSeq fact (i_row * row_size) row_size 1 r)
                ⟨m.cols * row_size, u⟩).bind fun fact =>
              forLoop row_size (fun i_col (prod : Vec K) =>
                (readSeq fact i_col m.cols row_size).bind fun col =>
                  (mulVec m col).bind fun r => writeSeq prod i_col m.rows row_size r) ⟨prod_size, u⟩

/-- The body of the loop of `dimension_matvec`, math.cpp:74-78: the block of `rows` x `n_cols` entries (row major) of `prod` from
`i_outer*n_cols*rows` is the product of the matrix and the block of `cols` x `n_cols` entries of `vec` from
`i_outer*n_cols*cols`. -/
def blockProduct (m : Mat K) (v : Vec K) (n_cols i_outer : Nat) (prod : Vec K) : Option (Vec K) :=
  let w := i_outer * n_cols * m.rows
  let r := i_outer * n_cols * m.cols
  if w + m.rows * n_cols ≤ prod.size ∧ r + m.cols * n_cols ≤ v.size then
    some ⟨prod.size, fun j =>
      if w ≤ j ∧ j - w < m.rows * n_cols then
        ∑ k ∈ range m.cols, m.val ((j - w) / n_cols) k * v.val (r + k * n_cols + (j - w) % n_cols)
      else prod.val j⟩
  else none

/-- `dimension_matvec`, math.cpp:58-81 (without the DEBUG check). -/
def dimension (m : Mat K) (u : Nat → K) (v : Vec K) (i_dim : Nat) : Option (Vec K) :=
  let n_rows : Nat := MathFn.pow (K := Nat) m.cols ((i_dim : Int) + 1)
  if n_rows = 0 then none
  else
    let n_cols := v.size / n_rows
    forLoop (n_rows / m.cols) (blockProduct m v n_cols) ⟨v.size * m.rows / m.cols, u⟩

/-- `pow_outer`, math.cpp:83-92. -/
def powOuter (u : Nat → K) (fuel : Nat) (v : Vec K) (n_dim : Int) : Option (Vec K) :=
  if n_dim ≤ 0 then some ⟨1, fun _ => 1⟩
  else
    let padded : Mat K := ⟨v.size, 2, fun i j => if j = 0 then v.val i else 0⟩
    hypercube padded u fuel ⟨MathFn.pow (K := Nat) 2 n_dim, fun i => if i = 0 then 1 else 0⟩

end Hexed.Tensor
