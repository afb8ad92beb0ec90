import Verif.ArtVisc.Model
set_option autoImplicit false
set_option linter.unusedVariables false

/-!
# What the update of the artificial viscosity is expected to do
-/

namespace Hexed.ArtVisc
open Hexed.Spatial Hexed.Pde Hexed.Solver
noncomputable section

/-- The sum over elements of the nominal volume times the quadrature of the squared difference of bulk artificial viscosity between two states. -/
def changeSq (bs : BasisData) (m : Mesh) (w w' : World) : ℝ :=
  (m.elems.map fun e => (m.elem e).size ^ m.nd * ∑ q ∈ Finset.range (bs.n ^ m.nd), qw bs.weight bs.n m.nd q * (w'.state e (m.nd + 3, q) - w.state e (m.nd + 3, q)) ^ 2).sum

/-- A uniform flow with density and energy positive. -/
structure UniformFlow (bs : BasisData) (m : Mesh) (fs : Nat → ℝ) (w : World) : Prop where
  mass : 0 < fs m.nd
  energy : 0 < fs (m.nd + 1)
  state : ∀ e ∈ m.elems, ∀ q < bs.n ^ m.nd, ∀ v < m.nd + 2, w.state e (v, q) = fs v

/-- The indicator is at rest, as after construction of the solver (Solver.cpp:202-210): advected scalars 1, forcing 0. -/
structure Rest (bs : BasisData) (m : Mesh) (w : World) : Prop where
  adv : ∀ e ∈ m.elems, ∀ q < bs.n ^ m.nd, ∀ i < bs.n, w.state e (m.nd + 9 + i, q) = 1
  forcing : ∀ e ∈ m.elems, ∀ q < bs.n ^ m.nd, ∀ i < 4, w.state e (m.nd + 5 + i, q) = 0

/-- The flow does not cross walls, and does not move along no-slip walls. -/
def WallsFit (bs : BasisData) (m : Mesh) (fs : Nat → ℝ) (bc : ConRec → AdvBc) : Prop :=
  ∀ c ∈ m.cons, (c.side true).isGhost = true → match bc c with
    | .default => True
    | .nonpenetration => ∀ k < bs.n ^ (m.nd - 1), ∑ i ∈ Finset.range m.nd, fs i * c.normal (i * bs.n ^ (m.nd - 1) + k) = 0
    | .noSlip => ∀ v < m.nd, fs v = 0

end
end Hexed.ArtVisc
