import Verif.Contour.Props
set_option autoImplicit false
set_option linter.unusedVariables false

/-!
# C94: orientation, and where contours fall short
-/

open Finset

namespace Hexed.Contour

variable {R : Type} [Field R] [LinearOrder R]

theorem coord_vert {d n i s : ℕ} (h : Neighbours d n i s) (v : ℕ) {j : ℕ} (hj : j < d) : coord d n (vert d n i s v) j = 2 * row d n s j + if j = i then 1 else clamp d n s j (incr d v (kdim i j)) := by
  obtain ⟨e, hr⟩ := vert_at h v
  rw [e, (coord_at hr).1 j hj]

/-- Which way the samples grow: 1 if the second is above the value. -/
def up (d n : ℕ) (sample : ℕ → R) (value : R) (i s : ℕ) : ℤ := if sample (s + strideS d n i) > value then 1 else -1

theorem elements_mem {d n : ℕ} {sample : ℕ → R} {value tol : R} {f : List (Option ℤ)} (hf : f ∈ (contour d n sample value tol).elements) : ∃ i s, Neighbours d n i s ∧ ((sample s > value) ↔ ¬(sample (s + strideS d n i) > value)) ∧ ∃ l, f = l.map some ∧ l ∈ elems d (flip sample value i s) ((List.range (3 ^ (d - 1))).map (vert d n i s)) := by
  obtain ⟨-, h2, -, -, -⟩ := contour_ok d n sample value tol
  rw [h2] at hf
  obtain ⟨l, hl, rfl⟩ := List.mem_map.1 hf
  obtain ⟨e, he, hle⟩ := List.mem_flatMap.1 hl
  unfold facesAt at hle
  split at hle
  · rename_i hc
    exact ⟨e.1, e.2, mem_edges.1 he, (crossing_iff.1 hc).1, l, rfl, hle⟩
  · cases hle

theorem elems2_flip (v : ℕ → ℤ) : elems 2 true ((List.range (3 ^ (2 - 1))).map v) = [[v 1, v 0], [v 2, v 1]] := rfl
theorem elems3_flip (v : ℕ → ℤ) : elems 3 true ((List.range (3 ^ (3 - 1))).map v) = [[v 1, v 0, v 4, v 3], [v 2, v 1, v 5, v 4], [v 4, v 3, v 7, v 6], [v 5, v 4, v 8, v 7]] := rfl

theorem flip_up {d n : ℕ} {sample : ℕ → R} {value : R} {i s : ℕ} (hx : (sample s > value) ↔ ¬(sample (s + strideS d n i) > value)) : (flip sample value i s = false ∧ up d n sample value i s = if i = 1 then -1 else 1) ∨ (flip sample value i s = true ∧ up d n sample value i s = if i = 1 then 1 else -1) := by
  unfold flip up
  by_cases h1 : sample (s + strideS d n i) > value
  · have h0 : ¬sample s > value := fun h => hx.1 h h1
    by_cases hi : i = 1
    · right; subst hi; simp [h0, h1]
    · left; simp [h0, h1, hi]
  · have h0 : sample s > value := hx.2 h1
    by_cases hi : i = 1
    · left; subst hi; simp [h0, h1]
    · right; simp [h0, h1, hi]

/-- Every segment of a contour line lies across the line between two neighbours, and the larger values are on its right. -/
theorem oriented_lines {n : ℕ} {sample : ℕ → R} {value tol : R} {f : List (Option ℤ)} (hf : f ∈ (contour 2 n sample value tol).elements) : ∃ a b, f = [some a, some b] ∧ ∃ i s, Neighbours 2 n i s ∧ ((sample s > value) ↔ ¬(sample (s + strideS 2 n i) > value)) ∧
    coord 2 n a i = 2 * row 2 n s i + 1 ∧ coord 2 n b i = 2 * row 2 n s i + 1 ∧
    (i = 0 → 0 ≤ up 2 n sample value i s * (coord 2 n b 1 - coord 2 n a 1)) ∧ (i = 1 → up 2 n sample value i s * (coord 2 n b 0 - coord 2 n a 0) ≤ 0) := by
  obtain ⟨i, s, hn, hx, l, rfl, hl⟩ := elements_mem hf
  have l0 := lo_le 2 n s 0
  have h0 := hi_le 2 n s 0
  have l1 := lo_le 2 n s 1
  have h1 := hi_le 2 n s 1
  have i0 : incr 2 0 0 = -1 := rfl
  have i1 : incr 2 1 0 = 0 := rfl
  have i2 : incr 2 2 0 = 1 := rfl
  have hi2 := hn.1
  have hii : ∀ v, coord 2 n (vert 2 n i s v) i = 2 * row 2 n s i + 1 := fun v => by rw [coord_vert hn v hn.1, if_pos rfl]
  rcases flip_up hx with ⟨e, eu⟩ | ⟨e, eu⟩ <;> rw [e] at hl
  · rw [elems2] at hl
    simp only [List.mem_cons, List.not_mem_nil, or_false] at hl
    rcases hl with rfl | rfl <;> refine ⟨_, _, rfl, i, s, hn, hx, hii _, hii _, ?_, ?_⟩ <;> rintro rfl <;> rw [eu, coord_vert hn _ (by norm_num), coord_vert hn _ (by norm_num)] <;> simp [kdim, i0, i1, i2, clamp_neg, clamp_zero, clamp_pos] <;> omega
  · rw [elems2_flip] at hl
    simp only [List.mem_cons, List.not_mem_nil, or_false] at hl
    rcases hl with rfl | rfl <;> refine ⟨_, _, rfl, i, s, hn, hx, hii _, hii _, ?_, ?_⟩ <;> rintro rfl <;> rw [eu, coord_vert hn _ (by norm_num), coord_vert hn _ (by norm_num)] <;> simp [kdim, i0, i1, i2, clamp_neg, clamp_zero, clamp_pos] <;> omega

/-- A component of the cross product of `b - a` and `c - a`. -/
def cross (n : ℕ) (a b c : ℤ) (j k : ℕ) : ℤ := (coord 3 n b j - coord 3 n a j) * (coord 3 n c k - coord 3 n a k) - (coord 3 n b k - coord 3 n a k) * (coord 3 n c j - coord 3 n a j)

/-- Every quadrilateral of a contour surface lies across the line between two neighbours, and its normal vector (right hand rule) points to the smaller values. -/
theorem oriented_surface {n : ℕ} {sample : ℕ → R} {value tol : R} {f : List (Option ℤ)} (hf : f ∈ (contour 3 n sample value tol).elements) : ∃ a b c d, f = [some a, some b, some c, some d] ∧ ∃ i s, Neighbours 3 n i s ∧ ((sample s > value) ↔ ¬(sample (s + strideS 3 n i) > value)) ∧
    (∀ w, w = a ∨ w = b ∨ w = c ∨ w = d → coord 3 n w i = 2 * row 3 n s i + 1) ∧
    (i = 0 → up 3 n sample value i s * cross n a b c 1 2 ≤ 0) ∧ (i = 1 → up 3 n sample value i s * cross n a b c 2 0 ≤ 0) ∧ (i = 2 → up 3 n sample value i s * cross n a b c 0 1 ≤ 0) := by
  obtain ⟨i, s, hn, hx, l, rfl, hl⟩ := elements_mem hf
  have l0 := (lo_le 3 n s 0).1
  have h0 := (hi_le 3 n s 0).1
  have l1 := (lo_le 3 n s 1).1
  have h1 := (hi_le 3 n s 1).1
  have l2 := (lo_le 3 n s 2).1
  have h2 := (hi_le 3 n s 2).1
  have i00 : incr 3 0 0 = -1 := rfl
  have i01 : incr 3 0 1 = -1 := rfl
  have i10 : incr 3 1 0 = -1 := rfl
  have i11 : incr 3 1 1 = 0 := rfl
  have i20 : incr 3 2 0 = -1 := rfl
  have i21 : incr 3 2 1 = 1 := rfl
  have i30 : incr 3 3 0 = 0 := rfl
  have i31 : incr 3 3 1 = -1 := rfl
  have i40 : incr 3 4 0 = 0 := rfl
  have i41 : incr 3 4 1 = 0 := rfl
  have i50 : incr 3 5 0 = 0 := rfl
  have i51 : incr 3 5 1 = 1 := rfl
  have i60 : incr 3 6 0 = 1 := rfl
  have i61 : incr 3 6 1 = -1 := rfl
  have i70 : incr 3 7 0 = 1 := rfl
  have i71 : incr 3 7 1 = 0 := rfl
  have i80 : incr 3 8 0 = 1 := rfl
  have i81 : incr 3 8 1 = 1 := rfl
  have hii : ∀ v, coord 3 n (vert 3 n i s v) i = 2 * row 3 n s i + 1 := fun v => by rw [coord_vert hn v hn.1, if_pos rfl]
  have p00 := mul_nonneg l0 l1
  have p01 := mul_nonneg l0 h1
  have p10 := mul_nonneg h0 l1
  have p11 := mul_nonneg h0 h1
  have q00 := mul_nonneg l0 l2
  have q01 := mul_nonneg l0 h2
  have q10 := mul_nonneg h0 l2
  have q11 := mul_nonneg h0 h2
  have r00 := mul_nonneg l1 l2
  have r01 := mul_nonneg l1 h2
  have r10 := mul_nonneg h1 l2
  have r11 := mul_nonneg h1 h2
  have cc : ∀ v j, j < 3 → coord 3 n (vert 3 n i s v) j = 2 * row 3 n s j + if j = i then 1 else clamp 3 n s j (incr 3 v (kdim i j)) := fun v j hj => coord_vert hn v hj
  rcases flip_up hx with ⟨e, eu⟩ | ⟨e, eu⟩ <;> rw [e] at hl
  · rw [elems3] at hl
    simp only [List.mem_cons, List.not_mem_nil, or_false] at hl
    rcases hl with rfl | rfl | rfl | rfl <;> refine ⟨_, _, _, _, rfl, i, s, hn, hx, by rintro w (rfl | rfl | rfl | rfl) <;> exact hii _, ?_, ?_, ?_⟩ <;> rintro rfl <;> rw [eu] <;> simp [cross, cc, kdim, i00, i01, i10, i11, i20, i21, i30, i31, i40, i41, i50, i51, i60, i61, i70, i71, i80, i81, clamp_neg, clamp_zero, clamp_pos] <;> linarith
  · rw [elems3_flip] at hl
    simp only [List.mem_cons, List.not_mem_nil, or_false] at hl
    rcases hl with rfl | rfl | rfl | rfl <;> refine ⟨_, _, _, _, rfl, i, s, hn, hx, by rintro w (rfl | rfl | rfl | rfl) <;> exact hii _, ?_, ?_, ?_⟩ <;> rintro rfl <;> rw [eu] <;> simp [cross, cc, kdim, i00, i01, i10, i11, i20, i21, i30, i31, i40, i41, i50, i51, i60, i61, i70, i71, i80, i81, clamp_neg, clamp_zero, clamp_pos] <;> linarith

/-! ## Where contours fall short -/

/-- Four samples: one corner is above zero. -/
def sample4 (a b c d : ℚ) (s : ℕ) : ℚ := if s = 0 then a else if s = 1 then b else if s = 2 then c else d

/-- With the default tolerance a contour line can end inside the element. -/
theorem tolerance_refuted : ∃ (sample : ℕ → ℚ) (v : ℤ), ¬OnBoundary 2 1 v ∧ starts (contour 2 1 sample 0 (1 / 1000)) v ≠ ends (contour 2 1 sample 0 (1 / 1000)) v := by
  refine ⟨sample4 (1 / 4000) (-1) (-1 / 4000) (-1), 4, ?_, ?_⟩
  · rintro ⟨j, hj, h⟩
    interval_cases j <;> revert h <;> decide
  · decide +kernel

/-- Whatever its samples, a function that varies by no more than the tolerance has no contour. -/
theorem small_refuted {d n : ℕ} {sample : ℕ → R} {tol : R} (h : ∀ s t, |sample s - sample t| ≤ tol) (value : R) : (contour d n sample value tol).faces = [] := empty_iff.2 fun i s _ _ => h _ _

/-- At the boundary of the element contours have elements whose vertices are all the same. -/
theorem degenerate_refuted : ∃ (sample : ℕ → ℚ) (k : ℕ), [k, k] ∈ (contour 2 1 sample 0 0).faces := ⟨sample4 1 (-1) (-1) (-1), 0, by decide +kernel⟩

/-- The distance a vertex is moved in one step is not limited to half a step of the samples: its direction is a number of votes. -/
theorem direction_refuted : ∃ (sample : ℕ → ℚ) (k : ℕ), ((contour 2 1 sample 0 0).dirs.getD k fun _ => 0) 0 = -2 := ⟨sample4 1 (-1) (-1) (-1), 0, by decide +kernel⟩

end Hexed.Contour
