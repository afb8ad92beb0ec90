import Verif.Polymesh.Spec
import Mathlib.Tactic.Ring
import Mathlib.Tactic.FinCases
import Mathlib.Tactic.NormNum
import Mathlib.Algebra.BigOperators.Fin

set_option autoImplicit false
set_option linter.unusedVariables false

/-!
# Area vectors of faces of hexahedra
-/

namespace Hexed.Polymesh
open Hexed.MeshConn
open Hexed.Connection (Dir vertexInds nFine strAt Legal sideInds faceVertexInds)
noncomputable section

/-- Area vector of a face with the vertices in natural order: (0, 0), (0, 1), (1, 0), (1, 1). -/
def quadNat (y : Nat → Vec) : Vec := quadArea (y 1) (y 0) (y 2) (y 3)

theorem quadNat_neg (y : Nat → Vec) (i : Fin 3) : quadArea (y 0) (y 1) (y 3) (y 2) i = -quadNat y i := by
  simp only [quadNat, quadArea, cross]; ring

/-- Vertex `k` of the face in natural order. -/
def nat3 (d : Fin 3) (s : Bool) (k : Nat) : Nat :=
  match d with
  | 0 => 4 * s.toNat + k
  | 1 => 4 * (k / 2) + 2 * s.toNat + k % 2
  | 2 => 2 * k + s.toNat

theorem sideInds_eq (d : Dir) (side : Bool) : sideInds 3 d side = (List.range 4).map (nat3 (d.iDim side) (d.faceSign side)) := by
  obtain ⟨i0, i1, s0, s1⟩ := d
  revert i0 i1 s0 s1 side
  decide +kernel

theorem filter_eq (d : Fin 3) (s : Bool) : ((List.range (2 ^ 3)).filter fun i => i / 2 ^ (3 - d.val - 1) % 2 = s.toNat) = (List.range 4).map (nat3 d s) := by
  revert d s
  decide +kernel

/-- Sign of the outward normal relative to that of the natural order. -/
def sgn (d : Fin 3) (s : Bool) : ℝ := if s.toNat ≠ d.val % 2 then 1 else -1

theorem outward_nat (x : Nat → Vec) (d : Fin 3) (s : Bool) (i : Fin 3) : outward x d s i = sgn d s * quadNat (fun k => x (nat3 d s k)) i := by
  fin_cases d <;> cases s <;>
  · simp [outward, cornerNormal, cross, edge, faceCorner, vtx, quadNat, quadArea, nat3, sgn, Function.update_apply]
    ring

/-- The outward area vectors of the faces of a hexahedron add up to zero. -/
theorem outward_closed (x : Nat → Vec) (i : Fin 3) : ∑ d : Fin 3, (outward x d false i + outward x d true i) = 0 := by
  simp only [outward_nat, Fin.sum_univ_three]
  simp [quadNat, quadArea, cross, nat3, sgn]
  ring

/-- The permutation between matched faces. -/
theorem matched_area (d : Dir) (hd : Legal 3 d) (Y Z : Nat → Vec) (h : List.Forall₂ (fun k j => Y k = Z j) (List.range 4) (faceVertexInds 3 d)) (i : Fin 3) :
    sgn d.i0 d.s0 * quadNat Y i = -(sgn d.i1 d.s1 * quadNat Z i) := by
  obtain ⟨i0, i1, s0, s1⟩ := d
  have key : ∀ l : List Nat, faceVertexInds 3 ⟨i0, i1, s0, s1⟩ = l → List.Forall₂ (fun k j => Y k = Z j) (List.range 4) l := fun l hl => hl ▸ h
  fin_cases i0 <;> fin_cases i1 <;> cases s0 <;> cases s1 <;> first
    | exact absurd hd (by decide)
    | (have := key _ (by decide +kernel : _ = [0, 1, 2, 3])
       simp [List.range_succ] at this
       obtain ⟨h0, h1, h2, h3⟩ := this
       simp [quadNat, quadArea, cross, sgn, h0, h1, h2, h3] <;> ring)
    | (have := key _ (by decide +kernel : _ = [1, 0, 3, 2])
       simp [List.range_succ] at this
       obtain ⟨h0, h1, h2, h3⟩ := this
       simp [quadNat, quadArea, cross, sgn, h0, h1, h2, h3] <;> ring)
    | (have := key _ (by decide +kernel : _ = [2, 3, 0, 1])
       simp [List.range_succ] at this
       obtain ⟨h0, h1, h2, h3⟩ := this
       simp [quadNat, quadArea, cross, sgn, h0, h1, h2, h3] <;> ring)
    | (have := key _ (by decide +kernel : _ = [0, 2, 1, 3])
       simp [List.range_succ] at this
       obtain ⟨h0, h1, h2, h3⟩ := this
       simp [quadNat, quadArea, cross, sgn, h0, h1, h2, h3] <;> ring)
    | (have := key _ (by decide +kernel : _ = [1, 3, 0, 2])
       simp [List.range_succ] at this
       obtain ⟨h0, h1, h2, h3⟩ := this
       simp [quadNat, quadArea, cross, sgn, h0, h1, h2, h3] <;> ring)
    | (have := key _ (by decide +kernel : _ = [2, 0, 3, 1])
       simp [List.range_succ] at this
       obtain ⟨h0, h1, h2, h3⟩ := this
       simp [quadNat, quadArea, cross, sgn, h0, h1, h2, h3] <;> ring)

/-- Bilinear interpolation in a face. -/
def bilin (y : Nat → Vec) (α β : ℝ) : Vec := fun i => y 0 i * ((1 - α) * (1 - β)) + y 1 i * ((1 - α) * β) + y 2 i * (α * (1 - β)) + y 3 i * (α * β)

/-- First and second axis of a face. -/
def axis (d : Fin 3) (second : Bool) : Fin 3 :=
  match d, second with
  | 0, false => 1
  | 0, true => 2
  | 1, false => 0
  | 1, true => 2
  | 2, false => 0
  | 2, true => 1

theorem interior_face (x : Nat → Vec) (d : Fin 3) (s : Bool) (ξ : Fin 3 → ℝ) (h : ξ d = (s.toNat : ℝ)) : interior x ξ = bilin (fun k => x (nat3 d s k)) (ξ (axis d false)) (ξ (axis d true)) := by
  funext i
  fin_cases d <;> cases s <;> simp at h <;>
  · simp [interior, bilin, nat3, axis, Finset.sum_range_succ, Fin.prod_univ_three, h]
    try ring

/-- Coordinates of vertex `k` of part `p` along the first or second axis of a face. -/
def tileCoord (str : Bool × Bool) (p k : Nat) (second : Bool) : ℝ :=
  let bit : Nat := if second then k % 2 else k / 2 % 2
  if strAt str second.toNat then (bit : ℝ) else
    (((if second then p % 2 else if str.2 then p % 2 else p / 2 % 2 : Nat) : ℝ) + bit) / 2

theorem partCorner_tile (d : Fin 3) (s : Bool) (str : Bool × Bool) (p k : Nat) (hk : k < 4) : partCorner d str p (nat3 d s k) d = (s.toNat : ℝ) ∧
    ∀ second, partCorner d str p (nat3 d s k) (axis d second) = tileCoord str p k second := by
  have hx : ∀ c : Fin 3, Connection.faceAxes 3 c = match c with | 0 => [1, 2] | 1 => [0, 2] | 2 => [0, 1] := by decide +kernel
  obtain ⟨a, b⟩ := str
  have hk' : k = 0 ∨ k = 1 ∨ k = 2 ∨ k = 3 := by omega
  fin_cases d <;> cases s <;> cases a <;> cases b <;> rcases hk' with rfl | rfl | rfl | rfl <;>
    simp [partCorner, tileCoord, nat3, hx, axis, strAt, List.zipIdx_cons, List.idxOf_cons]

/-- The parts of a face together have the area vector of the face. -/
theorem tile_area (y : Nat → Vec) (str : Bool × Bool) (i : Fin 3) :
    ((List.range (Connection.nFine 3 str)).map fun p => quadNat (fun k => bilin y (tileCoord str p k false) (tileCoord str p k true)) i).sum = quadNat y i := by
  obtain ⟨a, b⟩ := str
  cases a <;> cases b <;>
  · simp [Connection.nFine, List.range_succ, strAt, quadNat, quadArea, cross, bilin, tileCoord]
    try ring

theorem parts_area (x : Nat → Vec) (d : Fin 3) (s : Bool) (str : Bool × Bool) (i : Fin 3) :
    ((List.range (Connection.nFine 3 str)).map fun p => quadNat (fun k => interior x (partCorner d str p (nat3 d s k))) i).sum = quadNat (fun k => x (nat3 d s k)) i := by
  rw [← tile_area _ str]
  refine congrArg List.sum (List.map_congr_left fun p _ => ?_)
  have h : ∀ k < 4, interior x (partCorner d str p (nat3 d s k)) = bilin (fun k => x (nat3 d s k)) (tileCoord str p k false) (tileCoord str p k true) := by
    intro k hk
    obtain ⟨h1, h2⟩ := partCorner_tile d s str p k hk
    rw [interior_face x d s _ h1, h2, h2]
  simp only [quadNat, h 0 (by decide), h 1 (by decide), h 2 (by decide), h 3 (by decide)]

end
end Hexed.Polymesh
