import Verif.Force.Model
import Verif.Spatial.Spec
import Verif.Pde.Visc
set_option autoImplicit false
set_option linter.unusedVariables false

/-!
# What reported surface quantities should be (C79)
-/

namespace Hexed.Force
open Hexed.Pde Hexed.Spatial
noncomputable section

/-- The area vector of a face at a point, directed out of the domain: the surface normal of the coordinate line leaving through an upper
face, its opposite at a lower face. -/
def outward (nfq : Nat) (f : Face) (q i : Nat) : ℝ := (if f.sign then 1 else -1) * f.normal (i * nfq + q)

/-- `n` is the unit vector opposite to `out`. -/
structure Inward (nd : Nat) (out n : Nat → ℝ) : Prop where
  unit : dotN nd n n = 1
  opposite : ∃ c > 0, ∀ i < nd, n i = -c * out i

/-- The inside state at a point of a face. -/
def stateAt (nfq : Nat) (f : Face) (q v : Nat) : ℝ := f.state (v * nfq + q)

/-- The convective flux of variable `v` out of the domain through the boundary connections in `S`. -/
def throughFlux (p : Pde) (bs : BasisData) (m : Mesh) (buf : Buf → Bool → Mem) (S : ConRec → Bool) (v : Nat) : ℝ :=
  (((m.cons.filter fun c => (c.side true).isGhost).filter S).map fun c => m.bufSize (c.side false) ^ (m.nd - 1) *
    ∑ k ∈ Finset.range (bs.n ^ (m.nd - 1)), qw bs.weight bs.n (m.nd - 1) k * conFlux p m.nd bs.n c (fun s => buf (c.side s)) v k).sum

/-- The diffusive flux of variable `v` out of the domain through the boundary connections in `S`. -/
def throughFluxDiff (p : Pde) (bs : BasisData) (m : Mesh) (buf : Buf → Bool → Mem) (S : ConRec → Bool) (v : Nat) : ℝ :=
  (((m.cons.filter fun c => (c.side true).isGhost).filter S).map fun c => m.bufSize (c.side false) ^ (m.nd - 1) *
    ∑ k ∈ Finset.range (bs.n ^ (m.nd - 1)), qw bs.weight bs.n (m.nd - 1) k * conFluxDiff p m.nd bs.n c (fun s => buf (c.side s)) v k).sum

/-- What the model of surface quantities sees of a connection: the state inside of `ws` and the flux that was cached in `wf`. -/
def faceOf (c : ConRec) (ws wf : World) : Face := ⟨c.dir.s0, c.normal, ws.buf (c.side false) false, wf.buf (c.side false) true⟩

end
end Hexed.Force
