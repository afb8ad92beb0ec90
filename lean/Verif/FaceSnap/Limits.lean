import Verif.FaceSnap.Steep
import Mathlib.Tactic.FieldSimp
set_option autoImplicit false
set_option linter.unusedVariables false

/-!
# C86: limits of the snapping of faces

Two cases in which the face is not on the surface although no problem is reported: two nodes per row, and an element both of whose opposite faces are snapped.
-/

namespace Hexed.FaceSnap
open Hexed.Spatial Hexed.Metric Hexed.Tensor Hexed.Split
open Hexed.Basis (ell)
noncomputable section

/-- The line where the first coordinate is `c`. -/
def lineGeom (c : ℝ) : Geometry where
  intersections p0 p1 := if p1 0 = p0 0 then [] else [(c - p0 0) / (p1 0 - p0 0)]
  nearest p _ := some fun i => if i = 0 then c else p i

theorem lineGeom_sound (c : ℝ) : Sound (lineGeom c) fun p => p 0 = c := by
  intro p0 p1 t ht
  simp only [lineGeom] at ht
  split_ifs at ht with h
  · cases ht
  · rw [List.mem_singleton.1 ht]
    have : p1 0 - p0 0 ≠ 0 := sub_ne_zero.2 h
    field_simp
    ring

theorem sum1 {n : Nat} (F : (Fin (2 - 1) → Fin n) → ℝ) : ∑ l, F l = ∑ i : Fin n, F fun _ => i :=
  (Fintype.sum_equiv (Equiv.funUnique (Fin 1) (Fin n)) F (fun i => F fun _ => i) fun l => congrArg F (funext fun k => congrArg l (Subsingleton.elim (α := Fin 1) _ _)))

theorem idx1 {n : Nat} (i : Fin n) : idx (fun _ : Fin (2 - 1) => i) = i := by
  have := idx_digit (fun _ : Fin (2 - 1) => i) 0
  have h := idx_lt (fun _ : Fin (2 - 1) => i)
  simpa [Nat.mod_eq_of_lt (show idx (fun _ : Fin (2 - 1) => i) < n by simpa using h)] using this

theorem prod1 (F : Fin (2 - 1) → ℝ) : ∏ k, F k = F 0 := Fin.prod_univ_one F

theorem straight2 (σ : Nat) (vert : Nat → ℝ) (x : Fin (2 - 1) → ℝ) : straight 2 0 σ vert x = vert (2 * σ) * (1 - x 0) + vert (2 * σ + 1) * x 0 := by
  rw [straight, sum1, Fin.sum_univ_two, prod1, prod1, idx1, idx1, if_neg (by decide), if_pos rfl]
  congr 2
  · simp [pt, mul_comm]
  · simp [pt, mul_comm]

theorem poly_ext {b : Basis.Nodes ℝ} (hb : b.Distinct) {p q : Polynomial ℝ} (hp : p.degree < b.n) (hq : q.degree < b.n) (h : ∀ j < b.n, p.eval (b.node j) = q.eval (b.node j)) : p = q := by
  rw [Basis.poly_eq hb p hp, Basis.poly_eq hb q hq]
  exact Finset.sum_congr rfl fun j hj => by rw [h j (Finset.mem_range.1 hj)]

/-- Interpolation is exact for polynomials of degree 1. -/
theorem linear_exact {b : Basis.Nodes ℝ} (hb : b.Distinct) (hn : 2 ≤ b.n) (α β : ℝ) (x : Fin (2 - 1) → ℝ) : ∑ c : Fin (2 - 1) → Fin b.n, (∏ k, (ell b (c k)).eval (x k)) * (α + β * b.node (c 0)) = α + β * x 0 := by
  have hs := (straight_sep (nd := 2) (d := 0) (σ := 0) (by omega) fun v => if v = 0 then α else α + β).mono hn
  have := hs.exact hb x
  rw [straight2] at this
  norm_num at this
  rw [show α + β * x 0 = α * (1 - x 0) + (α + β) * x 0 by ring, ← this]
  refine Finset.sum_congr rfl fun c _ => congrArg _ ?_
  rw [straight2]
  norm_num
  ring

/-- A trapezoid with vertices (0, 0), (0, 1), (1, 0), (2, 1). -/
def wedge : Elem := ⟨fun v i => if i = 0 then (if v = 2 then 1 else if v = 3 then 2 else 0) else if i = 1 then (if v % 2 = 1 then 1 else 0) else 0, fun _ => 0, 1, true, false, true⟩

theorem wedge_straight (σ : Nat) (hσ : σ < 2) (x : Fin (2 - 1) → ℝ) : straight 2 0 σ (fun v => wedge.vert v 0) x = (σ : ℝ) * (1 + x 0) := by
  rw [straight2]
  obtain rfl | rfl : σ = 0 ∨ σ = 1 := by omega
  · norm_num [wedge]
  · norm_num [wedge]; ring

/-- The wedge and the line `x = 3/2`, with two or three nodes per row: no problem is reported. -/
theorem wedge_snap {b : Basis.Nodes ℝ} (hb : b.Distinct) (hn : b.n = 2 ∨ b.n = 3) {lob : Nat → Basis.Nodes ℝ} (hl : IsLobatto lob) (hl0 : (lob 2).node 0 = 0) (hl1 : (lob 2).node 1 = 1) (u : Nat → ℝ) :
    ∃ e', snapNodeAdj b lob u (lineGeom (3 / 2)) 2 wedge 0 1 = .ok e' ∧ e'.problem = false ∧ ∀ c : Fin (2 - 1) → Fin b.n, e'.adj ((2 * 0 + 1) * b.n ^ (2 - 1) + idx c) = 1 / 2 + -3 / 4 * b.node (c 0) := by
  have hw : OnlyWarped b.n 2 (2 * 0 + 1) wedge.adj := fun _ _ _ _ _ => rfl
  have hm : max 2 (b.n - 1) = 2 := by omega
  obtain ⟨hl2, hl3⟩ := hl 2 (le_refl _)
  obtain ⟨e', he'⟩ := snap_total hb (by omega) hl u (lineGeom (3 / 2)) (Or.inl rfl) (by norm_num : (0 : Nat) < 2) (by norm_num : 1 < 2) wedge ⟨rfl, rfl⟩ hw (fun p s => ⟨_, rfl⟩)
  obtain ⟨v, a, h1, h2, h3, h4⟩ := problem_exact hb (by omega) hl u (lineGeom (3 / 2)) (Or.inl rfl) (by norm_num : (0 : Nat) < 2) (by norm_num : 1 < 2) wedge ⟨rfl, rfl⟩ hw he'
  generalize hL : lob (max 2 (b.n - 1)) = L at h1 h2 h3
  rw [hm] at hL
  subst hL
  have sects : ∀ q : Fin (2 - 1) → Fin (lob 2).n, (lineGeom (3 / 2)).intersections (corner 2 0 0 wedge (sample _ q)) (corner 2 0 1 wedge (sample _ q)) = [3 / 2 / (1 + sample (lob 2) q 0)] := by
    intro q
    have e0 : corner 2 0 0 wedge (sample (lob 2) q) 0 = 0 := by rw [corner, if_pos (by norm_num), wedge_straight 0 (by norm_num)]; norm_num
    have e1 : corner 2 0 1 wedge (sample (lob 2) q) 0 = 1 + sample (lob 2) q 0 := by rw [corner, if_pos (by norm_num), wedge_straight 1 (by norm_num)]; norm_num
    have hpos : 0 < 1 + sample (lob 2) q 0 := by
      have : (q 0).val = 0 ∨ (q 0).val = 1 := by have := (q 0).isLt; omega
      rw [sample]
      rcases this with h | h <;> rw [h]
      · rw [hl0]; norm_num
      · rw [hl1]; norm_num
    simp only [lineGeom]
    rw [e0, e1, if_neg (ne_of_gt hpos)]
    norm_num
  have lt0 : 0 < (lob 2).n := by omega
  have lt1 : 1 < (lob 2).n := by omega
  have hv0 : v 0 = 1 / 2 := by
    have := h1 fun _ => ⟨0, lt0⟩
    rw [sects, idx1, sample, hl0] at this
    rcases this with ⟨_, h⟩ | ⟨_, ⟨s, hs, h⟩, _⟩
    · have := h _ (List.mem_singleton.2 rfl)
      norm_num [abs_of_pos] at this
    · rw [List.mem_singleton.1 hs] at h; rw [h]; norm_num
  have hv1 : v 1 = -1 / 4 := by
    have := h1 fun _ => ⟨1, lt1⟩
    rw [sects, idx1, sample, hl1] at this
    rcases this with ⟨_, h⟩ | ⟨_, ⟨s, hs, h⟩, _⟩
    · have := h _ (List.mem_singleton.2 rfl)
      norm_num [abs_of_pos, abs_of_neg] at this
    · rw [List.mem_singleton.1 hs] at h; rw [h]; norm_num
  have ha : ∀ c : Fin (2 - 1) → Fin b.n, a (idx c) = 1 / 2 + -3 / 4 * b.node (c 0) := by
    intro c
    rw [h2, through]
    have := linear_exact hl3 (by omega) (1 / 2) (-3 / 4) (sample b c)
    simp only [sample] at this ⊢
    rw [← this]
    refine Finset.sum_congr rfl fun q _ => congrArg _ ?_
    have hq : q = fun _ => q 0 := funext fun k => congrArg q (Subsingleton.elim (α := Fin 1) _ _)
    rw [hq, idx1]
    have : (q 0).val = 0 ∨ (q 0).val = 1 := by have := (q 0).isLt; omega
    rcases this with h | h <;> rw [h]
    · rw [hv0, hl0]; norm_num
    · rw [hv1, hl1]; norm_num
  have hp : e'.problem = false := by
    rw [← Bool.not_eq_true, h3]
    rintro (⟨q, h⟩ | ⟨_, i, hi, s, ⟨p, hp1, hp2, hp3⟩, h⟩ | ⟨h, _⟩)
    · rw [sects] at h
      have := h _ (List.mem_singleton.2 rfl)
      have hq : (q 0).val = 0 ∨ (q 0).val = 1 := by have := (q 0).isLt; omega
      rw [sample] at this
      rcases hq with h | h <;> rw [h] at this
      · rw [hl0] at this; norm_num [abs_of_pos] at this
      · rw [hl1] at this; norm_num [abs_of_neg] at this
    · have e1 : p = Polynomial.C (1 / 2) + Polynomial.C (-3 / 4) * Polynomial.X := by
        refine poly_ext hb hp1 ?_ fun j hj => ?_
        · refine lt_of_le_of_lt (Polynomial.degree_add_le _ _) (max_lt ?_ ?_)
          · exact lt_of_le_of_lt Polynomial.degree_C_le (by exact_mod_cast (show 0 < b.n by omega))
          · exact lt_of_le_of_lt (Polynomial.degree_C_mul_X_le _) (by exact_mod_cast (show 1 < b.n by omega))
        · rw [hp2 j hj]
          have := ha fun _ => ⟨j, hj⟩
          rw [idx1] at this
          rw [this]
          simp
      rw [e1] at hp3
      simp at hp3
      rw [← hp3] at h
      norm_num [abs_of_neg] at h
    · omega
  exact ⟨e', he', hp, fun c => (h4 hp c).trans (ha c)⟩

/-- C86 (disagreement): with two nodes per row the face is not on the surface, even if the surface is flat and no problem is reported: the corner of the face is `3/4 n0 n1` away from it, where
`n0` and `n1` are the nodes. -/
theorem row2_refuted {b : Basis.Nodes ℝ} (hb : b.Distinct) (hn : b.n = 2) {lob : Nat → Basis.Nodes ℝ} (hl : IsLobatto lob) (hl0 : (lob 2).node 0 = 0) (hl1 : (lob 2).node 1 = 1) (u : Nat → ℝ) :
    Sound (lineGeom (3 / 2)) (fun p => p 0 = 3 / 2) ∧ ∃ e', snapNodeAdj b lob u (lineGeom (3 / 2)) 2 wedge 0 1 = .ok e' ∧ e'.problem = false ∧
      facePoint b 2 e' 1 (sample (lob 2) fun _ => ⟨0, by rw [(hl 2 (le_refl _)).1]; norm_num⟩) 0 = 3 / 2 + 3 / 4 * (b.node 0 * b.node 1) := by
  refine ⟨lineGeom_sound _, ?_⟩
  obtain ⟨hl2, hl3⟩ := hl 2 (le_refl _)
  have lt0 : 0 < (lob 2).n := by omega
  obtain ⟨e', he', hp, ha⟩ := wedge_snap hb (Or.inl hn) hl hl0 hl1 u
  have hfr := snap_frame b (by omega) lob u (lineGeom (3 / 2)) 2 (by norm_num) wedge e' 0 1 he'
  refine ⟨e', he', hp, ?_⟩
  have hu : Unwarped b 2 0 e'.adj := by
    intro j hj hjd σ hσ k hk
    rw [hfr.2.2.2.2 _ (by omega) k hk]
    rfl
  have hx : sample (lob 2) (fun _ : Fin (2 - 1) => (⟨0, lt0⟩ : Fin (lob 2).n)) = fun _ => (0 : ℝ) := by funext k; rw [sample, hl0]
  rw [hx, facePoint]
  have h01 : ∀ j, j < b.n → b.node j ^ 2 = (b.node 0 + b.node 1) * b.node j - b.node 0 * b.node 1 := by
    intro j hj
    obtain rfl | rfl : j = 0 ∨ j = 1 := by omega
    · ring
    · ring
  have key := linear_exact hb (by omega) (3 / 2 + 3 / 4 * (b.node 0 * b.node 1)) (3 / 4 + -3 / 4 * (b.node 0 + b.node 1)) fun _ => 0
  rw [mul_zero, add_zero] at key
  rw [← key]
  refine Finset.sum_congr rfl fun c _ => congrArg _ ?_
  refine (facePosition_eq (σ := 1) hb (by omega) (by norm_num) (by norm_num) (by norm_num) hu 0 c).trans ?_
  rw [ha, hfr.1, wedge_straight 1 (by norm_num), wedge_straight 0 (by norm_num)]
  have := h01 (c 0) (c 0).isLt
  push_cast
  linear_combination -3 / 4 * this

/-- The unit square. Its left face has been moved half way to its right face. -/
def gap (n : Nat) : Elem := ⟨fun v i => if i = 0 then (if v < 2 then 0 else 1) else if i = 1 then (if v % 2 = 1 then 1 else 0) else 0, fun j => if j < n then 1 / 2 else 0, 1, true, false, true⟩

theorem gap_straight (n σ : Nat) (hσ : σ < 2) (x : Fin (2 - 1) → ℝ) : straight 2 0 σ (fun v => (gap n).vert v 0) x = (σ : ℝ) := by
  rw [straight2]
  obtain rfl | rfl : σ = 0 ∨ σ = 1 := by omega
  · norm_num [gap]
  · norm_num [gap]

/-- C86 (disagreement): if the opposite face has been moved before, then the face is not on the surface, although no problem is reported. Here the left face of the unit square is at 1/2 and the
surface is the line at 3/4, but the right face is moved to 1/2 as well: the element has no volume. -/
theorem both_warped_refuted {b : Basis.Nodes ℝ} (hb : b.Distinct) (hn : 2 ≤ b.n) {lob : Nat → Basis.Nodes ℝ} (hl : IsLobatto lob) (u : Nat → ℝ) :
    Sound (lineGeom (3 / 4)) (fun p => p 0 = 3 / 4) ∧ ∃ e', snapNodeAdj b lob u (lineGeom (3 / 4)) 2 (gap b.n) 0 1 = .ok e' ∧ e'.problem = false ∧
      ∀ x, facePoint b 2 e' 0 x 0 = 1 / 2 ∧ facePoint b 2 e' 1 x 0 = 1 / 2 := by
  refine ⟨lineGeom_sound _, ?_⟩
  have hun : ∀ a p, Unwarped b 2 0 (warpFace (b.n ^ (2 - 1)) (2 * 0 + 1) (gap b.n) a p).adj := by
    intro a p j hj hjd σ hσ k hk
    rw [warp_adj, setFace_other (by omega) _ _ hk]
    have : b.n ≤ (2 * j + σ) * b.n ^ (2 - 1) + k := by
      rw [show 2 - 1 = 1 from rfl, pow_one]
      calc b.n = 1 * b.n := (one_mul _).symm
        _ ≤ (2 * j + σ) * b.n := Nat.mul_le_mul_right _ (by omega)
        _ ≤ _ := Nat.le_add_right _ _
    simp only [gap]
    rw [if_neg (by omega)]
  have left : ∀ a p x, facePoint b 2 (warpFace (b.n ^ (2 - 1)) (2 * 0 + 1) (gap b.n) a p) (2 * 0 + 0) x 0 = 1 / 2 := by
    intro a p x
    rw [facePoint_eq hb hn (Or.inl rfl) (by norm_num) (by norm_num) (hun a p) 0 (Sep.const (N := 1) (by omega) (by norm_num) (1 / 2)) (by omega)]
    · show straight 2 0 0 (fun v => (gap b.n).vert v 0) x + 1 / 2 * (straight 2 0 1 (fun v => (gap b.n).vert v 0) x - straight 2 0 0 (fun v => (gap b.n).vert v 0) x) = 1 / 2
      rw [gap_straight _ 0 (by norm_num), gap_straight _ 1 (by norm_num)]
      norm_num
    · intro c
      have hc := idx_lt c
      rw [warp_adj, setFace_other (by norm_num) _ _ hc]
      have hc' : idx c < b.n := by simpa using hc
      simp only [gap]
      rw [if_pos (by simpa using hc')]
  have right : ∀ (α : ℝ) a p, (∀ c : Fin (2 - 1) → Fin b.n, a (idx c) = α) → ∀ x, facePoint b 2 (warpFace (b.n ^ (2 - 1)) (2 * 0 + 1) (gap b.n) a p) (2 * 0 + 1) x 0 = 1 + α := by
    intro α a p ha x
    rw [facePoint_eq hb hn (Or.inl rfl) (by norm_num) (by norm_num) (hun a p) 0 (Sep.const (N := 1) (by omega) (by norm_num) α) (by omega)]
    · show straight 2 0 1 (fun v => (gap b.n).vert v 0) x + α * (straight 2 0 1 (fun v => (gap b.n).vert v 0) x - straight 2 0 0 (fun v => (gap b.n).vert v 0) x) = 1 + α
      rw [gap_straight _ 0 (by norm_num), gap_straight _ 1 (by norm_num)]
      norm_num
    · intro c
      rw [warp_adj, setFace_self _ _ (idx_lt c), ha]
  obtain ⟨hl2, hl3⟩ := hl (max 2 (b.n - 1)) (by omega)
  obtain ⟨P0, h1, h2⟩ := samplePos_eq hn (by omega : 1 ≤ (lob (max 2 (b.n - 1))).n) u (le_refl 2) (warpFace (b.n ^ (2 - 1)) (2 * 0 + 1) (gap b.n) (fun _ => 0) false) (2 * 0)
  obtain ⟨P1, h3, h4⟩ := samplePos_eq hn (by omega : 1 ≤ (lob (max 2 (b.n - 1))).n) u (le_refl 2) (warpFace (b.n ^ (2 - 1)) (2 * 0 + 1) (gap b.n) (fun _ => 0) false) (2 * 0 + 1)
  obtain ⟨a, f, k1, k2, v, k3, k4, k5⟩ := mainAdj_of hn u (lineGeom (3 / 4)) (Or.inl rfl) (sign := 1) (by omega) h1 h3
  have hq : ∀ q : Fin (2 - 1) → Fin (lob (max 2 (b.n - 1))).n, (lineGeom (3 / 4)).intersections (P0 (idx q)) (P1 (idx q)) = [1 / 2] := by
    intro q
    have e0 : P0 (idx q) 0 = 1 / 2 := by rw [h2, if_pos (by norm_num)]; exact left _ _ _
    have e1 : P1 (idx q) 0 = 1 := by rw [h4, if_pos (by norm_num), right 0 _ _ fun _ => rfl]; norm_num
    simp only [lineGeom]
    rw [e0, e1]
    norm_num
  have hbest : bestAdj 1 [1 / 2] = (-1 / 2, 1 / 2) := by
    simp only [bestAdj, List.foldl_cons, List.foldl_nil]
    norm_num [abs_of_neg]
  have hv : ∀ q : Fin (2 - 1) → Fin (lob (max 2 (b.n - 1))).n, v (idx q) = -1 / 2 := fun q => by rw [k3, hq, hbest]
  have ha : ∀ c : Fin (2 - 1) → Fin b.n, a.val (idx c) = -1 / 2 := by
    intro c
    rw [k4, through]
    have := linear_exact hl3 (by omega) (-1 / 2) 0 (sample b c)
    rw [zero_mul, add_zero] at this
    rw [← this]
    refine Finset.sum_congr rfl fun q _ => congrArg _ ?_
    rw [hv, zero_mul, add_zero]
  have hf : f = false := by
    rw [← Bool.not_eq_true, k5]
    rintro ⟨q, h⟩
    rw [hq, hbest] at h
    norm_num at h
  obtain ⟨ds, m1, m2⟩ := derivatives_eq hb (by omega) u (Or.inl rfl) a k2
  have hst : tooSteep ds = false := by
    rw [← Bool.not_eq_true, m2]
    rintro (⟨_, i, hi, s, ⟨p, hp1, hp2, hp3⟩, h⟩ | ⟨h, _⟩)
    · have e1 : p = Polynomial.C (-1 / 2) := by
        refine poly_ext hb hp1 (lt_of_le_of_lt Polynomial.degree_C_le (by exact_mod_cast (show 0 < b.n by omega))) fun j hj => ?_
        rw [hp2 j hj]
        have := ha fun _ => ⟨j, hj⟩
        rw [idx1] at this
        rw [this]
        simp
      rw [e1] at hp3
      simp at hp3
      rw [← hp3] at h
      norm_num at h
    · omega
  refine ⟨warpFace (b.n ^ (2 - 1)) (2 * 0 + 1) (gap b.n) a.val false, ?_, rfl, fun x => ⟨left _ _ x, ?_⟩⟩
  · rw [snap_unfold b lob u (lineGeom (3 / 4)) 2 (gap b.n) 0 1 (by omega) (by norm_num) ⟨rfl, rfl⟩, k1]
    simp only [Out.bind]
    rw [m1]
    simp only [ofTensor]
    rw [if_pos (by rw [hf, hst]; rfl)]
  · refine (right (-1 / 2) _ _ ha x).trans ?_
    norm_num

end
end Hexed.FaceSnap
