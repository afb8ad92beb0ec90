import Verif.Share.Final
set_option autoImplicit false
set_option linter.unusedVariables false

/-! # Lemmas: the interpolated field on faces -/

namespace Hexed.Share
open Hexed.Connection

variable {K : Type} [Field K]

/-- The factor of one dimension in multilinear interpolation. -/
def lin (c : ℤ) (x : K) : K := if c = 1 then x else 1 - x

/-- The field on a face is the multilinear interpolation of the vertices of the face. -/
theorem field_face {nd : Nat} (hnd : nd = 2 ∨ nd = 3) (id : Fin 3) (hid : id.val < nd) (isp : Bool) (val : Nat → K) (ξ : Nat → K) (hξ : ξ id.val = if isp then 1 else 0) :
    field nd val ξ = ((faceVerts nd id isp).map fun c => val c * ((faceAxes nd id).map fun k => lin (corner nd c k) (ξ k.val)).prod).sum := by
  rcases hnd with rfl | rfl
  · match id, hid, hξ with
    | 0, _, hξ =>
      have a : faceAxes 2 0 = [1] := by decide
      cases isp
      · have b : faceVerts 2 0 false = [0, 1] := by decide
        simp at hξ
        rw [a, b]
        simp [field, Finset.sum_range_succ, Finset.prod_range_succ, lin, corner, coord, hξ]
      · have b : faceVerts 2 0 true = [2, 3] := by decide
        simp at hξ
        rw [a, b]
        simp [field, Finset.sum_range_succ, Finset.prod_range_succ, lin, corner, coord, hξ]
    | 1, _, hξ =>
      have a : faceAxes 2 1 = [0] := by decide
      cases isp
      · have b : faceVerts 2 1 false = [0, 2] := by decide
        simp at hξ
        rw [a, b]
        simp [field, Finset.sum_range_succ, Finset.prod_range_succ, lin, corner, coord, hξ]
      · have b : faceVerts 2 1 true = [1, 3] := by decide
        simp at hξ
        rw [a, b]
        simp [field, Finset.sum_range_succ, Finset.prod_range_succ, lin, corner, coord, hξ]
    | 2, h, _ => exact absurd h (by decide)
  · match id, hξ with
    | 0, hξ =>
      have a : faceAxes 3 0 = [1, 2] := by decide
      cases isp
      · have b : faceVerts 3 0 false = [0, 1, 2, 3] := by decide
        simp at hξ
        rw [a, b]
        simp [field, Finset.sum_range_succ, Finset.prod_range_succ, lin, corner, coord, hξ]
        ring
      · have b : faceVerts 3 0 true = [4, 5, 6, 7] := by decide
        simp at hξ
        rw [a, b]
        simp [field, Finset.sum_range_succ, Finset.prod_range_succ, lin, corner, coord, hξ]
        ring
    | 1, hξ =>
      have a : faceAxes 3 1 = [0, 2] := by decide
      cases isp
      · have b : faceVerts 3 1 false = [0, 1, 4, 5] := by decide
        simp at hξ
        rw [a, b]
        simp [field, Finset.sum_range_succ, Finset.prod_range_succ, lin, corner, coord, hξ]
        ring
      · have b : faceVerts 3 1 true = [2, 3, 6, 7] := by decide
        simp at hξ
        rw [a, b]
        simp [field, Finset.sum_range_succ, Finset.prod_range_succ, lin, corner, coord, hξ]
        ring
    | 2, hξ =>
      have a : faceAxes 3 2 = [0, 1] := by decide
      cases isp
      · have b : faceVerts 3 2 false = [0, 2, 4, 6] := by decide
        simp at hξ
        rw [a, b]
        simp [field, Finset.sum_range_succ, Finset.prod_range_succ, lin, corner, coord, hξ]
        ring
      · have b : faceVerts 3 2 true = [1, 3, 5, 7] := by decide
        simp at hξ
        rw [a, b]
        simp [field, Finset.sum_range_succ, Finset.prod_range_succ, lin, corner, coord, hξ]
        ring

/-- The coordinate in the coarse face of the point with coordinate `x` in part `p` (-1: first half, 1: second half, 0: not divided). -/
def coarseCoord (p : ℤ) (x : K) : K := if p = 0 then x else if p = 1 then (1 + x) / 2 else x / 2

/-- One axis: interpolating linearly from the corners to the ends of the part and from there to the point is interpolating from the corners to the point. -/
theorem lin_part (h2 : (2 : K) ≠ 0) {p c : ℤ} (hp : p = -1 ∨ p = 0 ∨ p = 1) (hc : c = -1 ∨ c = 1) (x : K) :
    ((2 + c * (if p = 0 then 2 * (-1) else p + (-1)) : ℤ) : K) / 4 * lin (-1) x + ((2 + c * (if p = 0 then 2 * 1 else p + 1) : ℤ) : K) / 4 * lin 1 x = lin c (coarseCoord p x) := by
  have h4 : (4 : K) ≠ 0 := by rw [show (4 : K) = 2 * 2 by norm_num]; exact mul_ne_zero h2 h2
  rcases hp with rfl | rfl | rfl <;> rcases hc with rfl | rfl <;> simp [lin, coarseCoord] <;> field_simp <;> ring

set_option synthInstance.maxHeartbeats 400000 in
theorem part_table : ∀ nd ∈ [2, 3], ∀ id : Fin 3, id.val < nd → ∀ a b : Bool, ∀ i ∈ List.range (nFine nd (a, b)), ∀ k ∈ faceAxes nd id,
    partCenter nd id (a, b) i k = -1 ∨ partCenter nd id (a, b) i k = 0 ∨ partCenter nd id (a, b) i k = 1 := by
  decide +kernel

theorem verts_table2 : ∀ id : Fin 3, id.val < 2 → ∀ isp : Bool, ∃ k, faceAxes 2 id = [k] ∧ (faceVerts 2 id isp).map (fun v => corner 2 v k) = [-1, 1] := by
  decide +kernel

theorem verts_table3 : ∀ id : Fin 3, ∀ isp : Bool, ∃ k l, faceAxes 3 id = [k, l] ∧ (faceVerts 3 id isp).map (fun v => (corner 3 v k, corner 3 v l)) = [(-1, -1), (-1, 1), (1, -1), (1, 1)] := by
  decide +kernel

/-- The weights of all vertices of a part for corner `c`, interpolated to a point of the part. -/
theorem weight_field (h2 : (2 : K) ≠ 0) {nd : Nat} (hnd : nd = 2 ∨ nd = 3) {h : Matcher} (hid : h.id.val < nd) {i : Nat} (hi : i < nFine nd h.str) {c : Nat} (hc : c ∈ faceVerts nd h.id h.isp) (ξ : Nat → K) :
    ((faceVerts nd h.id h.isp).map fun v => h.weight K nd i v c * ((faceAxes nd h.id).map fun k => lin (corner nd v k) (ξ k.val)).prod).sum =
      ((faceAxes nd h.id).map fun k => lin (corner nd c k) (coarseCoord (partCenter nd h.id h.str i k) (ξ k.val))).prod := by
  have hp := part_table nd (by simpa using hnd) h.id hid h.str.1 h.str.2 i (by simpa using hi)
  rcases hnd with rfl | rfl
  · obtain ⟨k, ha, hv⟩ := verts_table2 h.id hid h.isp
    have hck : corner 2 c k = -1 ∨ corner 2 c k = 1 := by
      have : corner 2 c k ∈ (faceVerts 2 h.id h.isp).map (fun v => corner 2 v k) := List.mem_map.2 ⟨c, hc, rfl⟩
      rw [hv] at this; simpa using this
    have e := lin_part h2 (hp k (by rw [ha]; simp)) hck (ξ k.val)
    have : ((faceVerts 2 h.id h.isp).map fun v => h.weight K 2 i v c * ((faceAxes 2 h.id).map fun k => lin (corner 2 v k) (ξ k.val)).prod) =
        ((faceVerts 2 h.id h.isp).map (fun v => corner 2 v k)).map fun s => ((2 + corner 2 c k * (if partCenter 2 h.id h.str i k = 0 then 2 * s else partCenter 2 h.id h.str i k + s) : ℤ) : K) / 4 * lin s (ξ k.val) := by
      rw [List.map_map]
      refine List.map_congr_left fun v _ => ?_
      simp [Matcher.weight, ha, finePos]
    rw [this, hv, ha]
    simp only [List.map_cons, List.map_nil, List.sum_cons, List.sum_nil, List.prod_cons, List.prod_nil, add_zero, mul_one]
    exact e
  · obtain ⟨k, l, ha, hv⟩ := verts_table3 h.id h.isp
    have hm : (corner 3 c k, corner 3 c l) ∈ [((-1 : ℤ), (-1 : ℤ)), (-1, 1), (1, -1), (1, 1)] := by rw [← hv]; exact List.mem_map.2 ⟨c, hc, rfl⟩
    have hck : corner 3 c k = -1 ∨ corner 3 c k = 1 := by simp at hm; tauto
    have hcl : corner 3 c l = -1 ∨ corner 3 c l = 1 := by simp at hm; tauto
    have e := lin_part h2 (hp k (by rw [ha]; simp)) hck (ξ k.val)
    have e' := lin_part h2 (hp l (by rw [ha]; simp)) hcl (ξ l.val)
    have : ((faceVerts 3 h.id h.isp).map fun v => h.weight K 3 i v c * ((faceAxes 3 h.id).map fun k => lin (corner 3 v k) (ξ k.val)).prod) =
        ((faceVerts 3 h.id h.isp).map (fun v => (corner 3 v k, corner 3 v l))).map fun s =>
          (((2 + corner 3 c k * (if partCenter 3 h.id h.str i k = 0 then 2 * s.1 else partCenter 3 h.id h.str i k + s.1) : ℤ) : K) / 4 * lin s.1 (ξ k.val)) *
          (((2 + corner 3 c l * (if partCenter 3 h.id h.str i l = 0 then 2 * s.2 else partCenter 3 h.id h.str i l + s.2) : ℤ) : K) / 4 * lin s.2 (ξ l.val)) := by
      rw [List.map_map]
      refine List.map_congr_left fun v _ => ?_
      simp only [Matcher.weight, ha, finePos, List.map_cons, List.map_nil, List.prod_cons, List.prod_nil, mul_one, Function.comp]
      ring
    rw [this, hv, ha]
    simp only [List.map_cons, List.map_nil, List.sum_cons, List.sum_nil, List.prod_cons, List.prod_nil, add_zero, mul_one]
    rw [← e, ← e']
    ring_nf

theorem sum_comm {α β : Type} (f : α → β → K) (l' : List β) : ∀ l : List α, (l.map fun a => (l'.map fun b => f a b).sum).sum = (l'.map fun b => (l.map fun a => f a b).sum).sum
  | [] => by simp
  | a :: l => by
    rw [List.map_cons, List.sum_cons, sum_comm f l' l]
    simp only [List.map_cons, List.sum_cons]
    exact (List.sum_map_add).symm

/-- If the values of a fine element on the face are interpolated from the corners, its field on the face is that of the corners. -/
theorem fine_field (h2 : (2 : K) ≠ 0) {nd : Nat} (hnd : nd = 2 ∨ nd = 3) {h : Matcher} (hid : h.id.val < nd) {i : Nat} (hi : i < nFine nd h.str) (val g : Nat → K) (ξ : Nat → K) (hξ : ξ h.id.val = if h.isp then 1 else 0)
    (hv : ∀ v ∈ faceVerts nd h.id h.isp, val v = ((faceVerts nd h.id h.isp).map fun c => h.weight K nd i v c * g c).sum) :
    field nd val ξ = ((faceVerts nd h.id h.isp).map fun c => g c * ((faceAxes nd h.id).map fun k => lin (corner nd c k) (coarseCoord (partCenter nd h.id h.str i k) (ξ k.val))).prod).sum := by
  rw [field_face hnd h.id hid h.isp val ξ hξ]
  have : ((faceVerts nd h.id h.isp).map fun v => val v * ((faceAxes nd h.id).map fun k => lin (corner nd v k) (ξ k.val)).prod) =
      (faceVerts nd h.id h.isp).map fun v => ((faceVerts nd h.id h.isp).map fun c => g c * (h.weight K nd i v c * ((faceAxes nd h.id).map fun k => lin (corner nd v k) (ξ k.val)).prod)).sum := by
    refine List.map_congr_left fun v hvv => ?_
    rw [hv v hvv, ← List.sum_map_mul_right]
    exact congrArg List.sum (List.map_congr_left fun c _ => by ring)
  rw [this, sum_comm]
  refine congrArg List.sum (List.map_congr_left fun c hc => ?_)
  rw [List.sum_map_mul_left, weight_field h2 hnd hid hi hc ξ]

end Hexed.Share
