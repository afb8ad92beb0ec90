import Verif.Geom.Model
import Mathlib.Analysis.Convex.Combination
import Mathlib.Analysis.Convex.Hull
set_option autoImplicit false
set_option linter.unusedVariables false

/-!
# What the geometries mean, independently of the search
-/

namespace Hexed.Geom

/-- The points of a simplex: convex hull of its vertices. -/
def Sim.points {n : Nat} (s : Sim n) : Set (V n) := convexHull ℝ (Set.range s)

mutual
/-- The points of a geometry. -/
def Geom.points {n : Nat} : Geom n → Set (V n)
  | .sphere c r => {x | ‖x - c‖ = r}
  | .simplices g _ => {x | ∃ s ∈ g.sims, x ∈ Sim.points s}
  | .compound comps => Geom.pointsList comps
def Geom.pointsList {n : Nat} : List (Geom n) → Set (V n)
  | [] => ∅
  | g :: gs => Geom.points g ∪ Geom.pointsList gs
end

/-- What a search for the point of `S` nearest to `p` within `maxDist` shall give. -/
def IsNearest {n : Nat} (S : Set (V n)) (p : V n) (maxDist : ℝ) : Option (V n) → Prop
  | none => ∀ q ∈ S, maxDist ≤ ‖q - p‖
  | some x => x ∈ S ∧ ‖x - p‖ < maxDist ∧ ∀ q ∈ S, ‖x - p‖ ≤ ‖q - p‖

mutual
/-- Objects that constructors can make: spheres with non-negative radius, simplex geometries made by their constructor. -/
def Geom.Constructed {n : Nat} [NeZero n] (huge : ℝ) : Geom n → Prop
  | .sphere c r => 0 ≤ r
  | .simplices g _ => ∃ fuel, SGeom.make huge fuel g.sims = some g
  | .compound comps => Geom.ConstructedList huge comps
def Geom.ConstructedList {n : Nat} [NeZero n] (huge : ℝ) : List (Geom n) → Prop
  | [] => True
  | g :: gs => Geom.Constructed huge g ∧ Geom.ConstructedList huge gs
end

mutual
/-- The point is the center of one of the spheres. -/
def Geom.IsCenter {n : Nat} (p : V n) : Geom n → Prop
  | .sphere c r => p = c
  | .simplices g _ => False
  | .compound comps => Geom.IsCenterList p comps
def Geom.IsCenterList {n : Nat} (p : V n) : List (Geom n) → Prop
  | [] => False
  | g :: gs => Geom.IsCenter p g ∨ Geom.IsCenterList p gs
end

end Hexed.Geom
