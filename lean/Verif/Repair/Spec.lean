import Verif.Repair.Model
import Verif.TimeStep.Spec
import Verif.Admis.Spec
set_option autoImplicit false
set_option linter.unusedVariables false

/-!
# What a repair may and may not change
-/

namespace Hexed.Repair
open Hexed.Spatial
noncomputable section

/-- The mesh spacing at quadrature point `q` of element `e`: the multilinear interpolation of the spacings at the vertices. -/
def spacingAt (T : Steps) (nd e q : Nat) : ℝ := TimeStep.nLinear nd (T.spacing e) (TimeStep.position T.basis nd q)

/-- The integral over the domain of a variable divided by the square of the mesh spacing. -/
def scaledTotal (bs : BasisData) (m : Mesh) (T : Steps) (w : World) (v : Nat) : ℝ :=
  (m.elems.map fun e => (m.elem e).size ^ m.nd * ∑ q ∈ Finset.range (bs.n ^ m.nd), qw bs.weight bs.n m.nd q * (m.elem e).det q * (w.state e (v, q) / spacingAt T m.nd e q ^ 2)).sum

/-- Time steps can be computed: the spacing is not zero anywhere, the smallest eigenvalue of diffusion and the safety factor are not zero either. -/
structure Steps.Ok (T : Steps) (bs : BasisData) (m : Mesh) (stability_ratio : ℝ) : Prop where
  eig : T.basis.min_eig ≠ 0
  safety : stability_ratio ≠ 0
  spacing : ∀ e ∈ m.elems, ∀ q < bs.n ^ m.nd, spacingAt T m.nd e q ≠ 0

/-- Boundary connections are as `Typed_bound_connection` makes them (connection.hpp:370, 378-382). -/
def Bounded (m : Mesh) : Prop := ∀ c ∈ m.cons, (c.side true).isGhost = true → c.deformed = true ∧ c.dir.i1 = c.dir.i0 ∧ c.dir.s1 = !c.dir.s0

/-- Density and energy are positive at all quadrature points. -/
def Physical (bs : BasisData) (m : Mesh) (w : World) : Prop := ∀ e ∈ m.elems, ∀ q < bs.n ^ m.nd, 0 < w.state e (m.nd, q) ∧ 0 < w.state e (m.nd + 1, q)

/-- Density and energy are positive on a face: `Physical` at its points. -/
def PhysicalFace (bs : BasisData) (m : Mesh) (w : World) (f : Buf) : Prop :=
  ∀ k < bs.n ^ (m.nd - 1), 0 < w.buf f false (m.nd * bs.n ^ (m.nd - 1) + k) ∧ 0 < w.buf f false ((m.nd + 1) * bs.n ^ (m.nd - 1) + k)

/-- Density and energy are positive at all quadrature points of elements, of their faces and of the mortar faces of hanging connections. -/
structure AllPhysical (bs : BasisData) (m : Mesh) (w : World) : Prop where
  inside : Physical bs m w
  faces : ∀ f ∈ m.elemFaces, PhysicalFace bs m w f
  mortar : ∀ f ∈ m.fineBufs, PhysicalFace bs m w f

/-- The flow is uniform: the density, momentum and energy at all quadrature points are `x`. -/
def Uniform (bs : BasisData) (m : Mesh) (x : Nat → ℝ) (w : World) : Prop := ∀ e ∈ m.elems, ∀ q < bs.n ^ m.nd, ∀ v < m.nd + 2, w.state e (v, q) = x v

/-- The integral of variable `v` over the elements in `part`. -/
def partTotal (bs : BasisData) (m : Mesh) (part : Nat → Prop) [DecidablePred part] (w : World) (v : Nat) : ℝ :=
  ((m.elems.filter (part ·)).map fun e => (m.elem e).size ^ m.nd * ∑ q ∈ Finset.range (bs.n ^ m.nd), qw bs.weight bs.n m.nd q * (m.elem e).det q * w.state e (v, q)).sum

/-- The factor by which `step0` and `step1` multiply a mode which decays at rate `z`. -/
def growth (s0 s1 z : ℝ) : ℝ := (1 - s0 * z) * (1 - s1 * z)

end
end Hexed.Repair
