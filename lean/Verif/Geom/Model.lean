import Verif.Tree.Model
import Mathlib.Analysis.InnerProductSpace.PiL2
import Mathlib.LinearAlgebra.Matrix.NonsingularInverse
set_option autoImplicit false
set_option linter.unusedVariables false

/-!
# Model of the surface geometries (Nearest_point.hpp, Surface_geom.cpp, Simplex_geom.hpp, Simplex_geom.cpp, math.hpp:220-287)

Numbers are exact reals, `huge` is a parameter. Where the code divides by zero, IEEE arithmetic gives NaN or infinity and the following comparisons fail: the model says so
explicitly. `Occt::Geom` is not modelled.
-/

namespace Hexed.Geom
open Classical

/-- Points with `n` coordinates (`Mat<n_dim>`). -/
abbrev V (n : Nat) : Type := EuclideanSpace ℝ (Fin n)
/-- A simplex is the matrix of its vertices (Simplex_geom.hpp:15). -/
abbrev Sim (n : Nat) : Type := Fin n → V n

/-! ## `Nearest_point` -/

/-- Nearest_point.hpp:20-23 -/
structure Near (n : Nat) where
  ref : V n
  pnt : V n
  distSq : ℝ
  empty : Bool

namespace Near
variable {n : Nat}
/-- Nearest_point.hpp:30 -/
def new (ref : V n) (maxDist : ℝ) : Near n := ⟨ref, ref, maxDist * maxDist, true⟩
/-- Nearest_point.hpp:33 -/
noncomputable def mk' (ref pnt : V n) : Near n := ⟨ref, pnt, ‖pnt - ref‖ ^ 2, false⟩
/-- Nearest_point.hpp:35-39, conversion between fixed and dynamic size -/
noncomputable def convert (huge : ℝ) (o : Near n) : Near n := if o.empty then new o.ref huge else mk' o.ref o.pnt
/-- Nearest_point.hpp:45 -/
noncomputable def merge (a b : Near n) : Near n := if b.distSq < a.distSq then b else a
/-- Nearest_point.hpp:47 -/
noncomputable def mergePoint (a : Near n) (p : V n) : Near n := a.merge (mk' a.ref p)
/-- Nearest_point.hpp:51-55: throws (`none`) if empty -/
def point (a : Near n) : Option (V n) := if a.empty then none else some a.pnt
end Near

/-! ## Helpers of `math` -/

/-- `proj_to_segment`, math.hpp:222-229. For a segment of length zero the quotient is NaN and `std::max(0., NaN)` is 0; in the model the quotient itself is 0. -/
noncomputable def projToSegment {n : Nat} (e0 e1 target : V n) : V n :=
  let diff := e1 - e0
  let proj := inner ℝ diff (target - e0) / ‖diff‖ ^ 2
  e0 + (min 1 (max 0 proj)) • diff

/-- `bounding_ball`, math.hpp:270-278: the center -/
noncomputable def ballCenter {n : Nat} (sim : Sim n) : V n := (n : ℝ)⁻¹ • ∑ i, sim i
/-- `bounding_ball`, math.hpp:270-278: the square of the radius -/
noncomputable def ballRadiusSq {n : Nat} (sim : Sim n) : ℝ := (List.ofFn fun i => ‖sim i - ballCenter sim‖ ^ 2).foldl max 0

/-- `intersects`, math.hpp:280-287. If the end points coincide, the code compares NaN. -/
noncomputable def intersects {n : Nat} (center : V n) (radiusSq : ℝ) (e0 e1 : V n) : Bool :=
  let diff := e1 - e0
  let c := center - e0
  if diff = 0 then false else decide (‖c - (inner ℝ c diff / ‖diff‖ ^ 2) • diff‖ ^ 2 ≤ radiusSq)

/-! ## `Simplex_geom` -/

/-- A node of the tree by which simplices are sorted; `sims` are the simplices whose numbers are in `misc_data`. -/
inductive Cell (n : Nat) : Type where
  | mk (rl : Nat) (coords : Fin n → Int) (sims : List (Sim n)) (kids : List (Cell n)) : Cell n

/-- Tree.cpp:33 -/
noncomputable def cellSize (rootSz : ℝ) (rl : Nat) : ℝ := rootSz / 2 ^ rl
/-- Tree.cpp:34 -/
noncomputable def cellPos {n : Nat} (rootSz : ℝ) (orig : Fin n → ℝ) (rl : Nat) (c : Fin n → Int) (d : Fin n) : ℝ := cellSize rootSz rl * (c d : ℝ) + orig d
/-- Tree.cpp:35 -/
noncomputable def cellCenter {n : Nat} (rootSz : ℝ) (orig : Fin n → ℝ) (rl : Nat) (c : Fin n → Int) : V n :=
  WithLp.toLp 2 fun d => cellPos rootSz orig rl c d + 1 / 2 * cellSize rootSz rl

/-- Simplex_geom.hpp:54-58: all vertices strictly inside the child -/
def inCell {n : Nat} (rootSz : ℝ) (orig : Fin n → ℝ) (rl : Nat) (c : Fin n → Int) (s : Sim n) : Prop :=
  ∀ i d, 0 < s i d - cellPos rootSz orig rl c d ∧ s i d - cellPos rootSz orig rl c d < cellSize rootSz rl

/-- Simplex_geom.hpp:49-66: each simplex goes to the first child that contains it; the second component is what remains. -/
noncomputable def distribute {n : Nat} (rootSz : ℝ) (orig : Fin n → ℝ) (rl : Nat) : List (Fin n → Int) → List (Sim n) → List ((Fin n → Int) × List (Sim n)) × List (Sim n)
  | [], sims => ([], sims)
  | c :: cs, sims =>
    let r := distribute rootSz orig rl cs (sims.filter fun s => ¬inCell rootSz orig rl c s)
    ((c, sims.filter fun s => inCell rootSz orig rl c s) :: r.1, r.2)

/-- `sort_simplices`, Simplex_geom.hpp:46-69, on the cell with level `rl`, coordinates `c` and simplices `sims`. `none`: more than `fuel` levels of recursion. -/
noncomputable def sortSimplices {n : Nat} (rootSz : ℝ) (orig : Fin n → ℝ) : Nat → Nat → (Fin n → Int) → List (Sim n) → Option (Cell n)
  | 0, _, _, _ => none
  | fuel + 1, rl, c, sims =>
    let r := distribute rootSz orig (rl + 1) ((List.range (2 ^ n)).map fun i => Hexed.Tree.childCoords c i) sims
    (r.1.mapM fun k => if k.2.length > 100 then sortSimplices rootSz orig fuel (rl + 1) k.1 k.2 else some (Cell.mk (rl + 1) k.1 k.2 [])).map fun kids => Cell.mk rl c r.2 kids

/-- The members of a `Simplex_geom` (Simplex_geom.hpp:105-107). -/
structure SGeom (n : Nat) where
  sims : List (Sim n)
  rootSz : ℝ
  orig : Fin n → ℝ
  tree : Cell n

/-- `_get_bounding_box`, Simplex_geom.hpp:30-42: lower corner -/
noncomputable def boxLo {n : Nat} (huge : ℝ) (sims : List (Sim n)) (d : Fin n) : ℝ := sims.foldl (fun b s => (List.ofFn fun i => s i d).foldl min b) huge
/-- `_get_bounding_box`, Simplex_geom.hpp:30-42: upper corner -/
noncomputable def boxHi {n : Nat} (huge : ℝ) (sims : List (Sim n)) (d : Fin n) : ℝ := sims.foldl (fun b s => (List.ofFn fun i => s i d).foldl max b) (-huge)
/-- Simplex_geom.hpp:115: `maxCoeff` of the extent -/
noncomputable def boxSize {n : Nat} [NeZero n] (huge : ℝ) (sims : List (Sim n)) : ℝ :=
  (List.ofFn fun d => boxHi huge sims d - boxLo huge sims d).foldl max (boxHi huge sims 0 - boxLo huge sims 0)

/-- The constructor, Simplex_geom.hpp:112-119 -/
noncomputable def SGeom.make {n : Nat} [NeZero n] (huge : ℝ) (fuel : Nat) (sims : List (Sim n)) : Option (SGeom n) :=
  (sortSimplices (boxSize huge sims) (boxLo huge sims) fuel 0 (fun _ => 0) sims).map fun t => ⟨sims, boxSize huge sims, boxLo huge sims, t⟩

/-- `Simplex_geom<2>::merge`, Simplex_geom.cpp:7-11: the points that are merged -/
noncomputable def cand2 (sim : Sim 2) (p : V 2) : List (V 2) := [projToSegment (sim 0) (sim 1) p]

/-- `Simplex_geom<3>::merge`, Simplex_geom.cpp:13-30: the points that are merged. If the 2 by 2 matrix is singular, its inverse consists of infinities and NaN and one of the comparisons fails. -/
noncomputable def cand3 (sim : Sim 3) (p : V 3) : List (V 3) :=
  let l0 := sim 1 - sim 0
  let l1 := sim 2 - sim 0
  let a := inner ℝ l0 l0
  let b := inner ℝ l0 l1
  let d := inner ℝ l1 l1
  let r0 := inner ℝ l0 (p - sim 0)
  let r1 := inner ℝ l1 (p - sim 0)
  let det := a * d - b * b
  let x := (d * r0 - b * r1) / det
  let y := (a * r1 - b * r0) / det
  if det ≠ 0 ∧ 0 ≤ x ∧ 0 ≤ y ∧ x + y ≤ 1 then [sim 0 + (x • l0 + y • l1)]
  else (List.range 3).map fun i => projToSegment (sim (Fin.ofNat 3 i)) (sim (Fin.ofNat 3 (i + 1))) p

section search
variable {n : Nat} (cand : Sim n → V n → List (V n)) (rootSz : ℝ) (orig : Fin n → ℝ) (p : V n) (limit : ℝ)

/-- Simplex_geom.hpp:74-80: the simplices of one cell -/
noncomputable def nearestSims : List (Sim n) → Near n → Near n
  | [], nr => nr
  | s :: ss, nr => nearestSims ss (if ‖ballCenter s - p‖ - √(ballRadiusSq s) ≤ limit then (cand s p).foldl Near.mergePoint nr else nr)

mutual
/-- `recursive_nearest`, Simplex_geom.hpp:71-82 -/
noncomputable def recNearest : Cell n → Near n → Near n
  | .mk rl c sims kids, nr =>
    if ‖p - cellCenter rootSz orig rl c‖ - cellSize rootSz rl * √(n : ℝ) / 2 > limit then nr
    else recNearestList kids (nearestSims cand p limit sims nr)
noncomputable def recNearestList : List (Cell n) → Near n → Near n
  | [], nr => nr
  | k :: ks, nr => recNearestList ks (recNearest k nr)
end
end search

theorem halve_ceil (x : ℝ) (h : 1 < x) : ⌈x / 2⌉₊ < ⌈x⌉₊ := by
  have h1 : x ≤ ⌈x⌉₊ := Nat.le_ceil x
  have h2 : 1 < ⌈x⌉₊ := by
    have : (1 : ℝ) < ⌈x⌉₊ := lt_of_lt_of_le h h1
    exact_mod_cast this
  have h3 : ⌈x / 2⌉₊ ≤ ⌈x⌉₊ - 1 := by
    rw [Nat.ceil_le, Nat.cast_sub (by omega)]
    have : (2 : ℝ) ≤ ⌈x⌉₊ := by exact_mod_cast h2
    push_cast
    linarith
  omega

/-- `nearest_point`, Simplex_geom.hpp:128-148, for a positive `distance_guess` -/
noncomputable def SGeom.nearestPos {n : Nat} (huge : ℝ) (cand : Sim n → V n → List (V n)) (g : SGeom n) (p : V n) (maxDist guess : ℝ) (hg : 0 < guess) : Near n :=
  let limit := min maxDist guess
  let nearest := recNearest cand g.rootSz g.orig p limit g.tree (Near.new p limit)
  if h : nearest.empty = true ∧ guess < maxDist then nearestPos huge cand g p maxDist (2 * guess) (by linarith) else nearest.convert huge
termination_by ⌈maxDist / guess⌉₊
decreasing_by
  have : maxDist / (2 * guess) = maxDist / guess / 2 := by field_simp
  rw [this]
  exact halve_ceil _ ((one_lt_div hg).2 h.2)

/-- `nearest_point`, Simplex_geom.hpp:128-148; throws (`none`) if the guess is not positive -/
noncomputable def SGeom.nearest {n : Nat} (huge : ℝ) (cand : Sim n → V n → List (V n)) (g : SGeom n) (p : V n) (maxDist guess : ℝ) : Option (Near n) :=
  if h : 0 < guess then some (g.nearestPos huge cand p maxDist guess h) else none

section inters
variable {n : Nat} [NeZero n] (rcond : Matrix (Fin n) (Fin n) ℝ → ℝ) (gapTol : ℝ) (rootSz : ℝ) (orig : Fin n → ℝ) (p0 p1 : V n)

/-- Simplex_geom.hpp:91-93: matrix of the system for the intersection of the line with the plane of the simplex -/
noncomputable def lineMat (s : Sim n) : Matrix (Fin n) (Fin n) ℝ := Matrix.of fun d j => if j = 0 then -(p1 - p0) d else (s j - s 0) d
/-- Simplex_geom.hpp:96 -/
noncomputable def lineSol (s : Sim n) : Fin n → ℝ := Matrix.mulVec (lineMat p0 p1 s)⁻¹ fun d => (p0 - s 0) d

/-- Simplex_geom.hpp:86-101: the intersection with one simplex. The reciprocal condition number is an uninterpreted function. -/
noncomputable def interSim (s : Sim n) : List ℝ :=
  if intersects (ballCenter s) (ballRadiusSq s) p0 p1 then
    if 1e-7 < rcond (lineMat p0 p1 s) then
      if (∀ j, j ≠ 0 → -gapTol ≤ lineSol p0 p1 s j) ∧ ∑ j ∈ Finset.univ.erase 0, lineSol p0 p1 s j ≤ 1 + gapTol then [lineSol p0 p1 s 0] else []
    else []
  else []

mutual
/-- `recursive_intersections`, Simplex_geom.hpp:84-103 -/
noncomputable def recInters : Cell n → List ℝ
  | .mk rl c sims kids =>
    if intersects (cellCenter rootSz orig rl c) (cellSize rootSz rl * n / 4) p0 p1 then sims.flatMap (interSim rcond gapTol p0 p1) ++ recIntersList kids else []
noncomputable def recIntersList : List (Cell n) → List ℝ
  | [] => []
  | k :: ks => recInters k ++ recIntersList ks
end
end inters

/-- `intersections`, Simplex_geom.hpp:155-172 -/
noncomputable def SGeom.intersections {n : Nat} [NeZero n] (rcond : Matrix (Fin n) (Fin n) ℝ → ℝ) (gapTol : ℝ) (g : SGeom n) (p0 p1 : V n) : List ℝ := recInters rcond gapTol g.rootSz g.orig p0 p1 g.tree

/-! ## `Hypersphere` -/

/-- Surface_geom.cpp:31-36. Eigen's `normalized` leaves the zero vector as it is. -/
noncomputable def sphereNearest {n : Nat} (c : V n) (r : ℝ) (p : V n) (maxDist : ℝ) : Near n :=
  (Near.new p maxDist).mergePoint (c + r • (if 0 < ‖p - c‖ ^ 2 then ‖p - c‖⁻¹ • (p - c) else p - c))

/-- Surface_geom.cpp:38-54. If the points coincide, the only result is NaN: here no result. -/
noncomputable def sphereIntersections {n : Nat} (c : V n) (r : ℝ) (p0 p1 : V n) : List ℝ :=
  let start := p0 - c
  let diff := p1 - p0
  let a := ‖diff‖ ^ 2
  let b := 2 * inner ℝ diff start
  let cc := ‖start‖ ^ 2 - r * r
  let discr := b * b - 4 * a * cc
  if discr < 0 then [] else if diff = 0 then [] else if discr = 0 then [-b / 2 / a] else [(-b - √discr) / 2 / a, (-b + √discr) / 2 / a]

/-! ## All geometries -/

/-- Hypersphere, Simplex_geom and Compound_geom (Surface_geom.hpp:49-71). -/
inductive Geom (n : Nat) : Type where
  | sphere (c : V n) (r : ℝ)
  | simplices (g : SGeom n) (gapTol : ℝ)
  | compound (comps : List (Geom n))

mutual
/-- `Surface_geom::nearest_point`; `none`: throws -/
noncomputable def Geom.nearest {n : Nat} (huge : ℝ) (cand : Sim n → V n → List (V n)) (p : V n) (maxDist guess : ℝ) : Geom n → Option (Near n)
  | .sphere c r => some (sphereNearest c r p maxDist)
  | .simplices g _ => g.nearest huge cand p maxDist guess
  | .compound comps => Geom.nearestList huge cand p maxDist guess comps (Near.new p maxDist)
/-- the loop of `Compound_geom::nearest_point`, Surface_geom.cpp:10-15 -/
noncomputable def Geom.nearestList {n : Nat} (huge : ℝ) (cand : Sim n → V n → List (V n)) (p : V n) (maxDist guess : ℝ) : List (Geom n) → Near n → Option (Near n)
  | [], nr => some nr
  | g :: gs, nr => (Geom.nearest huge cand p maxDist guess g).bind fun x => Geom.nearestList huge cand p maxDist guess gs (nr.merge x)
end

mutual
/-- `Surface_geom::intersections` -/
noncomputable def Geom.intersections {n : Nat} [NeZero n] (rcond : Matrix (Fin n) (Fin n) ℝ → ℝ) (p0 p1 : V n) : Geom n → List ℝ
  | .sphere c r => sphereIntersections c r p0 p1
  | .simplices g tol => g.intersections rcond tol p0 p1
  | .compound comps => Geom.intersectionsList rcond p0 p1 comps
/-- `Compound_geom::intersections`, Surface_geom.cpp:17-25 -/
noncomputable def Geom.intersectionsList {n : Nat} [NeZero n] (rcond : Matrix (Fin n) (Fin n) ℝ → ℝ) (p0 p1 : V n) : List (Geom n) → List ℝ
  | [] => []
  | g :: gs => Geom.intersections rcond p0 p1 g ++ Geom.intersectionsList rcond p0 p1 gs
end

end Hexed.Geom
