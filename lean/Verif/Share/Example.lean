import Verif.Share.Props
set_option autoImplicit false
set_option linter.unusedVariables false

/-!
# Properties: where the sharing of vertex data falls short (C76), examples
-/

namespace Hexed.Share
open Hexed.Connection

/-! ## A square of size 2 beside two squares of size 1 -/

def sqX (e : Nat) (k : Fin 3) : ℤ := if e = 0 then 0 else if k = 0 then 2 else if e = 1 then 0 else 1

def sqSize (e : Nat) : ℤ := if e = 0 then 2 else 1

def sqMesh : Mesh where
  nd := 2
  ne := 3
  vid := fun e v => (8 * vpos sqX sqSize e v 0 + vpos sqX sqSize e v 1).toNat
  matchers := [⟨[1, 2], 0, false, (false, false)⟩]

set_option synthInstance.maxHeartbeats 400000 in
set_option synthInstance.maxSize 1000 in
theorem sq_planar : Planar sqMesh sqX sqSize (fun _ => 0) := by
  refine ⟨rfl, ?_, ?_, ?_, ?_, ?_⟩
  · intro h hh
    obtain rfl : h = ⟨[1, 2], 0, false, (false, false)⟩ := by simpa [sqMesh] using hh
    exact ⟨⟨by decide, by decide, by decide, by decide⟩, rfl⟩
  · decide
  · decide
  · decide +kernel
  · intro h hh
    obtain rfl : h = ⟨[1, 2], 0, false, (false, false)⟩ := by simpa [sqMesh] using hh
    refine ⟨by decide, fun i e hi => ?_⟩
    match i, hi with
    | 0, hi => obtain rfl : 1 = e := by simpa using hi
               decide
    | 1, hi => obtain rfl : 2 = e := by simpa using hi
               decide
    | i + 2, hi => simp at hi

/-- The value at the hanging vertex is the mean of those at the corners, from both fine elements. -/
example : (shareVertexData sqMesh sqMesh.ptrs (fun _ => (0 : ℚ)) vectorMax (fun e _ => e) (fun _ _ => 0)).map (fun val => [val 0 2, val 0 3, val 1 0, val 1 1, val 1 2, val 1 3, val 2 0, val 2 1]) =
    some [1, 2, 1, 3 / 2, 1, 2, 3 / 2, 2] := by decide +kernel

/-- Likewise, sharing the maximum can give an element less than it asked for at a hanging vertex, as for the viscosity in `set_art_visc_admis`. -/
theorem share_max_limit_refuted : Consistent ℚ sqMesh ∧ ∃ get val : Nat → Nat → ℚ, (∀ e v, 0 ≤ get e v) ∧ shareVertexData sqMesh sqMesh.ptrs (fun _ => 0) vectorMax get get = some val ∧ val 1 1 < get 1 1 := by
  refine ⟨planar_consistent ℚ sq_planar, fun e _ => if e = 1 then 1 else 0, ?_⟩
  obtain ⟨val, h, -⟩ := share_max (planar_consistent ℚ sq_planar) (fun p => List.Perm.refl _) (fun _ => 0) (fun e _ => if e = 1 then (1 : ℚ) else 0) (fun e _ => if e = 1 then 1 else 0)
  refine ⟨val, fun e v => ?_, h, ?_⟩
  · dsimp only; split <;> norm_num
  · have e : (shareVertexData sqMesh sqMesh.ptrs (fun _ => 0) vectorMax (fun e _ => if e = 1 then (1 : ℚ) else 0) (fun e _ => if e = 1 then 1 else 0)).map (fun val => val 1 1) = some (1 / 2) := by decide +kernel
    rw [h] at e
    have e : val 1 1 = 1 / 2 := by simpa using e
    rw [e]
    norm_num

/-- Sharing the minimum, as `calc_jacobian` does with the time step scale that the shape of the elements permits, does not respect the limit of each element: at hanging vertices an element can be given
a larger value than its own. -/
theorem share_min_limit_refuted : Consistent ℚ sqMesh ∧ ∃ get val : Nat → Nat → ℚ, (∀ e v, 0 < get e v) ∧ shareVertexData sqMesh sqMesh.ptrs (fun _ => 0) vectorMin get get = some val ∧ get 1 1 < val 1 1 := by
  refine ⟨planar_consistent ℚ sq_planar, fun e _ => if e = 1 then 1 / 10 else 1, ?_⟩
  obtain ⟨val, h, -⟩ := share_min (planar_consistent ℚ sq_planar) (fun p => List.Perm.refl _) (fun _ => 0) (fun e _ => if e = 1 then (1 : ℚ) / 10 else 1) (fun e _ => if e = 1 then 1 / 10 else 1)
  refine ⟨val, fun e v => ?_, h, ?_⟩
  · dsimp only; split <;> norm_num
  · have e : (shareVertexData sqMesh sqMesh.ptrs (fun _ => 0) vectorMin (fun e _ => if e = 1 then (1 : ℚ) / 10 else 1) (fun e _ => if e = 1 then 1 / 10 else 1)).map (fun val => val 1 1) = some (11 / 20) := by decide +kernel
    rw [h] at e
    have e : val 1 1 = 11 / 20 := by simpa using e
    rw [e]
    norm_num

/-! ## A cube of size 2, and the cubes of size 1 in the three neighbouring blocks around one of its edges -/

def cubeX (e : Nat) (k : Fin 3) : Nat :=
  if e = 0 then 0
  else
    let c := (e - 1) % 8 / 2 ^ (2 - k.val) % 2
    if k = 0 then (if e ≤ 8 ∨ 17 ≤ e then 2 + c else c) else if k = 1 then (if 9 ≤ e then 2 + c else c) else c

def cubeSize (e : Nat) : Nat := if e = 0 then 2 else 1

def cubePos (e v : Nat) (k : Fin 3) : Nat := cubeX e k + coord 3 v k * cubeSize e

/-- Vertices are the same if and only if they are at the same place. -/
def cubeMesh : Mesh where
  nd := 3
  ne := 25
  vid := fun e v => 25 * cubePos e v 0 + 5 * cubePos e v 1 + cubePos e v 2
  matchers := [⟨[1, 2, 3, 4], 0, false, (false, false)⟩, ⟨[9, 10, 13, 14], 1, false, (false, false)⟩]

/-- The cubes do not overlap, vertices are the same if and only if they are at the same place, and the fine elements of the connections are cubes of half the size at the upper faces of cube 0. -/
theorem cube_mesh_ok : (∀ e < 25, ∀ e' < 25, e ≠ e' → ∃ k : Fin 3, cubeX e k + cubeSize e ≤ cubeX e' k ∨ cubeX e' k + cubeSize e' ≤ cubeX e k) ∧
    (∀ e < 25, ∀ v < 8, ∀ k, cubePos e v k < 5) ∧
    ∀ h ∈ cubeMesh.matchers, h.fine.length = 4 ∧ ∀ i ∈ List.range 4, cubeSize (h.fine.getD i 0) = 1 ∧ cubeX (h.fine.getD i 0) h.id = 2 ∧
      ∀ k ∈ faceAxes 3 h.id, 2 * (cubeX (h.fine.getD i 0) k : ℤ) - 1 = partCenter 3 h.id (false, false) i k := by
  decide +kernel

/-- In three dimensions the values are not continuous, even if the levels of neighbours differ by one at most: fine cubes that touch a coarse cube only at an edge are not corrected. Here cubes 3 and 17 share a
face, but do not agree on the value of one of its vertices, so that the interpolated field jumps. -/
theorem share_edge_refuted : (∀ v < 8, coord 3 v 1 = 0 → cubeMesh.vid 3 (v + 2) = cubeMesh.vid 17 v) ∧
    ∃ get val : Nat → Nat → ℚ, shareVertexData cubeMesh cubeMesh.ptrs (fun _ => 0) vectorMax get (fun _ _ => 0) = some val ∧ cubeMesh.vid 3 3 = cubeMesh.vid 17 1 ∧ val 3 3 ≠ val 17 1 ∧
      field 3 (val 3) (Function.update (fun k => if k = 2 then 1 else 0) 1 1) ≠ field 3 (val 17) (Function.update (fun k => if k = 2 then 1 else 0) 1 0) := by
  refine ⟨by decide, fun e _ => if e = 3 then 1 else 0, ?_⟩
  have e : (shareVertexData cubeMesh cubeMesh.ptrs (fun _ => 0) vectorMax (fun e _ => if e = 3 then (1 : ℚ) else 0) (fun _ _ => 0)).map (fun val => (val 3 3, val 17 1)) = some (1 / 2, 1) := by decide +kernel
  obtain ⟨val, h1, h2⟩ := Option.map_eq_some_iff.1 e
  have e1 : val 3 3 = 1 / 2 := congrArg Prod.fst h2
  have e2 : val 17 1 = 1 := congrArg Prod.snd h2
  refine ⟨val, h1, by decide, by rw [e1, e2]; norm_num, ?_⟩
  have f : ∀ (w : Nat → ℚ), field 3 w (Function.update (fun k => if k = 2 then 1 else 0) 1 1) = w 3 ∧ field 3 w (Function.update (fun k => if k = 2 then 1 else 0) 1 0) = w 1 := by
    intro w
    constructor <;> simp [field, Finset.sum_range_succ, Finset.prod_range_succ, Function.update]
  rw [(f (val 3)).1, (f (val 17)).2, e1, e2]
  norm_num

end Hexed.Share
