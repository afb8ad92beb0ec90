set_option autoImplicit false
set_option linter.unusedVariables false

/-!
The lookup of kernels (include/kernel_factory.hpp) and the checks of a case (src/Case.cpp) that come before it. Dimension and row size are template arguments of kernels, but known only at run time; the lookup is a chain of template instances.
-/

namespace Hexed.Lookup

/-- `Kernel_lookup<kernel, d, r>::get(n, s)`, kernel_factory.hpp:63-103: the template arguments of the kernel that is made. `M` is `config::max_row_size`. The instances with `r = 1` are the specializations of lines 79-90 and, for `d = 1`, 93-103. -/
def get (M d r : Nat) (n s : Int) : Nat × Nat :=
  if r ≤ 1 then
    if d ≤ 1 then (1, 1)
    else if n = d then (d, 1) else get M (d - 1) M n s
  else if n = d ∧ s = r then (d, r) else get M d (r - 1) n s
termination_by (d, r)

/-- What the demand of a kernel gives: the instance, or the exception "demand for invalid kernel". -/
inductive Demand where
  | kernel (dim row : Nat)
  | invalid
deriving DecidableEq, Repr

/-- `kernel_factory`, kernel_factory.hpp:111-119. -/
def kernelFactory (M : Nat) (n s : Int) : Demand :=
  if n < 1 ∨ 3 < n ∨ s < 2 ∨ (M : Int) < s then .invalid
  else .kernel (get M 3 M n s).1 (get M 3 M n s).2

/-- How `create_solver` ends with respect to dimension and row size. `noValue` is the exception of an empty `std::optional`. -/
inductive Created where
  | solver (dim row : Int)
  | badDim
  | badRow
  | noValue
deriving DecidableEq, Repr

/-- The checks of `create_solver`, Case.cpp:161-166, 240. -/
def createSolver (M : Nat) (n s : Option Int) : Created :=
  match n with
  | none => .badDim
  | some n =>
    if 0 < n ∧ n ≤ 3 then
      match s with
      | none => .noValue
      | some s => if 2 ≤ s ∧ s ≤ (M : Int) then .solver n s else .badRow
    else .badDim

end Hexed.Lookup
