import Verif.TimeStep.Model
set_option autoImplicit false
set_option linter.unusedVariables false

/-!
# What a stable time step means
-/

namespace Hexed.TimeStep
noncomputable section

/-- Multilinear interpolation of values at the corners of the unit cube: corner `i` has coordinate 1 in dimension `k` if
bit `n_dim - 1 - k` of `i` is set, else 0. -/
def nLinear (n_dim : Nat) (values x : Nat → ℝ) : ℝ :=
  ∑ i ∈ Finset.range (2 ^ n_dim), values i * ∏ k ∈ Finset.range n_dim, if i.testBit (n_dim - 1 - k) then x k else 1 - x k

/-- Reference coordinates of quadrature point `q`: the last dimension varies fastest. -/
def position (b : Basis) (n_dim q k : Nat) : ℝ := b.node (q / b.row_size ^ (n_dim - 1 - k) % b.row_size)

/-- Mesh spacing at quadrature point `q`. -/
def spacing (b : Basis) (n_dim : Nat) (e : Elem) (q : Nat) : ℝ := nLinear n_dim e.vertex_spacing (position b n_dim q)

/-- How far waves travel in time `t`, in units of what the scheme allows. -/
def convective (b : Basis) (n_dim : Nat) (pde : Terms) (e : Elem) (q : Nat) (t : ℝ) : ℝ :=
  if pde.has_convection then t * pde.char_speed (e.data q) / (b.max_cfl * spacing b n_dim e q) else 0

/-- How far diffusion gets in time `t`, in units of what the scheme allows. -/
def diffusive (b : Basis) (n_dim : Nat) (pde : Terms) (e : Elem) (q : Nat) (t : ℝ) : ℝ :=
  if pde.has_diffusion then t * pde.diffusivity (e.data q) / (2 / -b.min_eig * spacing b n_dim e q ^ 2) else 0

/-- A usable basis. -/
structure Basis.Good (b : Basis) : Prop where
  size : 0 < b.row_size
  node0 : ∀ i < b.row_size, 0 ≤ b.node i
  node1 : ∀ i < b.row_size, b.node i ≤ 1
  cfl : 0 < b.max_cfl
  eig : b.min_eig < 0

/-- Elements have positive size, and information travels at a positive rate at every point. -/
def Ready (b : Basis) (n_dim : Nat) (pde : Terms) (es : List Elem) : Prop :=
  ∀ e ∈ es, (∀ i < 2 ^ n_dim, 0 < e.vertex_spacing i) ∧ ∀ q < b.row_size ^ n_dim,
    (pde.has_convection = true → 0 ≤ pde.char_speed (e.data q)) ∧
    (pde.has_diffusion = true → 0 ≤ pde.diffusivity (e.data q)) ∧
    (pde.has_convection = true ∧ 0 < pde.char_speed (e.data q) ∨ pde.has_diffusion = true ∧ 0 < pde.diffusivity (e.data q))

/-- Equal up to the time step scales. -/
def SameFlow (e e' : Elem) : Prop := e'.vertex_spacing = e.vertex_spacing ∧ e'.data = e.data

end
end Hexed.TimeStep
