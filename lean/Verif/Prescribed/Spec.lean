import Verif.Prescribed.Model
set_option autoImplicit false
set_option linter.unusedVariables false

/-!
# What a boundary condition that prescribes a function should do
-/

namespace Hexed.Prescribed
noncomputable section

/-- The vector with `m` components at point `q` of an array that has all points of component 0, then all points of component 1 and so on. -/
def at_ (a : Nat → ℝ) (nq m q : Nat) : List ℝ := List.ofFn fun i : Fin m => a (i * nq + q)

/-- The ghost state `g` is the value of `f`, which is given the position, time `t`, the state inside and the vectors `n`. -/
def Value (f : Func) (bf : Face) (t : ℝ) (n : Nat → List ℝ) (g : Nat → ℝ) : Prop :=
  ∀ q < bf.nq, ∀ v < bf.nv, (f (at_ bf.pos bf.nq bf.nd q) t (at_ bf.inState bf.nq bf.nv q) (n q))[v]? = some (g (v * bf.nq + q))

/-- The stored normal: scaled by the size of the surface, in the direction of increasing reference coordinate. -/
def stored (bf : Face) (q : Nat) : List ℝ := at_ bf.nrml bf.nq bf.nd q

/-- The normal that include/Surface_func.hpp:16 promises: a unit vector that points into the domain. The domain is at the side of
increasing coordinate at a lower face (`sign = false`) and at the side of decreasing coordinate at an upper face. -/
def IsNormal (bf : Face) (q : Nat) (n : List ℝ) : Prop :=
  n.length = bf.nd ∧ (n.map fun x => x * x).sum = 1 ∧ ∃ c > 0, ∀ i < bf.nd, n[i]? = some (c * ((if bf.sign then -1 else 1) * bf.nrml (i * bf.nq + q)))

/-- The ghost state is the value of `f` at time `t` with the promised normal. -/
def AsDocumented (f : Func) (bf : Face) (t : ℝ) (g : Nat → ℝ) : Prop :=
  ∀ n : Nat → List ℝ, (∀ q < bf.nq, IsNormal bf q (n q)) → Value f bf t n g

/-- Operations after which values that were recorded for connection `k` are not recorded again. -/
def KeepsRecord (k : Nat) : Op → Prop
  | .init _ => False
  | .connect c => c.id ≠ k
  | _ => True

/-- Operations that do not move the mesh. -/
def KeepsPlace : Op → Prop
  | .geometry _ _ => False
  | _ => True

/-- The ghost side equals the inside in state and flux. -/
def Mirrors (bf : Face) : Prop := ∀ i < bf.nv * bf.nq, bf.ghState i = bf.inState i ∧ bf.ghFlux i = bf.inFlux i

end
end Hexed.Prescribed
