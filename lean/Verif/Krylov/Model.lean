import Mathlib.Analysis.InnerProductSpace.Basic

set_option autoImplicit false
set_option linter.unusedVariables false

/-!
# Model of the iterative solvers for linear equations

`iterative::gmres` and `iterative::bicgstab` (src/iterative.cpp), acting on the vector storage of a
`Linear_equation` (include/Linear_equation.hpp).

Vectors live in an arbitrary real inner product space, numbers are real, and arithmetic is exact.
What exact arithmetic cannot do is kept: a number or a vector that is not finite (infinite or "not a
number", as a division by zero produces) is `none`, and anything computed from it is `none` too.
Access to a vector outside the storage is a fault.
-/

noncomputable section

open Classical

namespace Hexed.Krylov

variable {V : Type} [NormedAddCommGroup V] [InnerProductSpace ℝ V]

/-- The vectors a `Linear_equation` gives access to: `n` is `n_vecs()`, `v i` the contents of vector
`i`, `none` if they are not all finite.  include/Linear_equation.hpp 25-37. -/
structure Mem (V : Type) where
  n : ℕ
  v : ℕ → Option V

/-- Product of a number and a vector. -/
def smul? (c : Option ℝ) (x : Option V) : Option V := c.bind fun c => x.map fun x => c • x

/-- Quotient of two numbers: dividing by zero gives an infinite number or none at all. -/
def div? (a b : Option ℝ) : Option ℝ := a.bind fun a => b.bind fun b => if b = 0 then none else some (a / b)

/-- Product of two numbers. -/
def mul? (a b : Option ℝ) : Option ℝ := a.bind fun a => b.map fun b => a * b

/-- Sum of two vectors. -/
def add? (x y : Option V) : Option V := x.bind fun x => y.map fun y => x + y

/-- `Linear_equation::scale`, src/Linear_equation.cpp 25-28. -/
def scale (m : Mem V) (output input : ℕ) (scalar : Option ℝ) : Option (Mem V) :=
  if output < m.n ∧ input < m.n then
    some { m with v := Function.update m.v output (smul? scalar (m.v input)) }
  else none

/-- `Linear_equation::add`, src/Linear_equation.cpp 30-33. -/
def add (m : Mem V) (output : ℕ) (coef0 : Option ℝ) (vec0 : ℕ) (coef1 : Option ℝ) (vec1 : ℕ) :
    Option (Mem V) :=
  if output < m.n ∧ vec0 < m.n ∧ vec1 < m.n then
    let sum := add? (smul? coef0 (m.v vec0)) (smul? coef1 (m.v vec1))
    some { m with v := Function.update m.v output sum }
  else none

/-- `Linear_equation::inner`, src/Linear_equation.cpp 35-38.  The outer `Option` is the fault, the
inner one the number. -/
def inner (m : Mem V) (i j : ℕ) : Option (Option ℝ) :=
  if i < m.n ∧ j < m.n then
    some ((m.v i).bind fun x => (m.v j).map fun y => @Inner.inner ℝ V _ x y)
  else none

/-- `Linear_equation::norm`, src/Linear_equation.cpp 6. -/
def norm (m : Mem V) (i : ℕ) : Option (Option ℝ) :=
  (inner m i i).map fun x => x.map Real.sqrt

/-- `Linear_equation::matvec`, src/Linear_equation.cpp 40-43, with an arbitrary operator `A`. -/
def matvec (A : V →ₗ[ℝ] V) (m : Mem V) (output input : ℕ) : Option (Mem V) :=
  if output < m.n ∧ input < m.n then
    some { m with v := Function.update m.v output ((m.v input).map A) }
  else none

/-- A loop `for (int i = 0; i < n; ++i)` whose body may fault. -/
def forN {σ : Type} : ℕ → (ℕ → σ → Option σ) → σ → Option σ
  | 0, _, s => some s
  | n + 1, f, s => (forN n f s).bind (f n)

/-- How a call ends. -/
inductive Outcome (V : Type)
  /-- The assertion about the amount of storage throws. -/
  | rejected
  /-- A vector outside the storage is accessed. -/
  | fault
  /-- The call returns. -/
  | done (m : Mem V)

/-- Outcome of a body that may fault. -/
def Outcome.ofOption : Option (Mem V) → Outcome V
  | none => .fault
  | some m => .done m

/-! ## GMRES -/

/-- Entries of the Hessenberg matrix, `none` where not finite. -/
abbrev Hess := ℕ → ℕ → Option ℝ

/-- Assignment to one entry. -/
def Hess.set (h : Hess) (row col : ℕ) (x : Option ℝ) : Hess :=
  Function.update h row (Function.update (h row) col x)

/-- Body of the loop over `col`, src/iterative.cpp 19-22. -/
def orthogStep (iter : ℕ) (col : ℕ) (s : Mem V × Hess) : Option (Mem V × Hess) :=
  (inner s.1 (3 + iter + 1) (3 + col)).bind fun h =>
    (add s.1 (3 + iter + 1) (some 1) (3 + iter + 1) (h.map (-·)) (3 + col)).map fun m =>
      (m, s.2.set col iter h)

/-- Body of the loop over `iter`, src/iterative.cpp 16-25. -/
def arnoldiStep (A : V →ₗ[ℝ] V) (iter : ℕ) (s : Mem V × Hess) : Option (Mem V × Hess) :=
  (matvec A s.1 (3 + iter + 1) (3 + iter)).bind fun m =>
    (forN (iter + 1) (orthogStep iter) (m, s.2)).bind fun t =>
      (norm t.1 (3 + iter + 1)).bind fun h =>
        (scale t.1 (3 + iter + 1) (3 + iter + 1) (div? (some 1) h)).map fun m =>
          (m, t.2.set (iter + 1) iter h)

/-- A routine that solves least squares problems: given the number `k` of unknowns, a matrix with
`k + 1` rows and the first entry of a right-hand side whose other entries are zero. -/
abbrev Solve := (k : ℕ) → (ℕ → ℕ → ℝ) → ℝ → ℕ → ℝ

/-- `hessenberg.fullPivHouseholderQr().solve(res_norm*Unit(n_restart + 1, 0))`, src/iterative.cpp 26:
if any of the data is not finite, no coefficient is. -/
def coefs (solve : Solve) (k : ℕ) (h : Hess) (res : Option ℝ) (i : ℕ) : Option ℝ :=
  if (∀ a < k + 1, ∀ b < k, (h a b).isSome) ∧ res.isSome then
    some (solve k (fun a b => (h a b).getD 0) (res.getD 0) i)
  else none

/-- Body of the loop over `restart`, src/iterative.cpp 11-30. -/
def restart (A : V →ₗ[ℝ] V) (solve : Solve) (k : ℕ) (m : Mem V) : Option (Mem V) :=
  (matvec A m 2 0).bind fun m =>
    (add m 2 (some (-1)) 2 (some 1) 1).bind fun m =>
      (norm m 2).bind fun res =>
        (scale m 3 2 (div? (some 1) res)).bind fun m =>
          (forN k (arnoldiStep A) (m, fun _ _ => some 0)).bind fun s =>
            forN k (fun i m => add m 0 (some 1) 0 (coefs solve k s.2 res i) (3 + i)) s.1

/-- `iterative::gmres`, src/iterative.cpp 6-31. -/
def gmres (A : V →ₗ[ℝ] V) (solve : Solve) (n_restart n_iters : ℕ) (m : Mem V) : Outcome V :=
  if m.n < 3 + n_restart then .rejected
  else .ofOption (forN n_iters (fun _ m => restart A solve n_restart m) m)

/-! ## BiCGStab -/

/-- Body of the loop, src/iterative.cpp 46-59. -/
def bicgStep (A : V →ₗ[ℝ] V) (m : Mem V) : Option (Mem V) :=
  (inner m 2 5).bind fun r_dot_ref =>
  (matvec A m 6 3).bind fun m =>
  (inner m 6 5).bind fun ap_dot_ref =>
  let alpha := div? r_dot_ref ap_dot_ref
  (add m 4 (some 1) 2 (alpha.map (-·)) 6).bind fun m =>
  (matvec A m 7 4).bind fun m =>
  (inner m 7 4).bind fun as_dot_s =>
  (inner m 7 7).bind fun as_dot_as =>
  let omega := div? as_dot_s as_dot_as
  (add m 0 (some 1) 0 alpha 3).bind fun m =>
  (add m 0 (some 1) 0 omega 4).bind fun m =>
  (add m 2 (some 1) 4 (omega.map (-·)) 7).bind fun m =>
  (inner m 2 5).bind fun new_dot_ref =>
  let beta := div? (mul? (div? new_dot_ref r_dot_ref) alpha) omega
  (add m 3 (some 1) 2 beta 3).bind fun m =>
  add m 3 (some 1) 3 (mul? (beta.map (-·)) omega) 6

/-- `iterative::bicgstab`, src/iterative.cpp 33-60. -/
def bicgstab (A : V →ₗ[ℝ] V) (n_iters : ℕ) (m : Mem V) : Outcome V :=
  if m.n < 8 then .rejected
  else .ofOption
    ((matvec A m 2 0).bind fun m =>
      (add m 2 (some (-1)) 2 (some 1) 1).bind fun m =>
        (scale m 5 2 (some 1)).bind fun m =>
          (scale m 3 2 (some 1)).bind fun m =>
            forN n_iters (fun _ m => bicgStep A m) m)

end Hexed.Krylov

end
