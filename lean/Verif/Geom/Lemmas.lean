import Verif.Geom.Spec
import Mathlib.Tactic.Linarith
import Mathlib.Tactic.FieldSimp
import Mathlib.Tactic.Ring
import Mathlib.Tactic.FinCases
import Mathlib.Tactic.Module
import Mathlib.Tactic.LinearCombination
set_option autoImplicit false
set_option linter.unusedVariables false

/-! # Projections to segments and triangles -/

namespace Hexed.Geom
open Finset

variable {n : Nat}

theorem mem_points (s : Sim n) (x : V n) : x ∈ s.points ↔ ∃ w : Fin n → ℝ, (∀ i, 0 ≤ w i) ∧ ∑ i, w i = 1 ∧ x = ∑ i, w i • s i := by
  constructor
  · intro h
    have hc : Convex ℝ {x : V n | ∃ w : Fin n → ℝ, (∀ i, 0 ≤ w i) ∧ ∑ i, w i = 1 ∧ x = ∑ i, w i • s i} := by
      rintro x ⟨w, h0, h1, rfl⟩ y ⟨u, g0, g1, rfl⟩ a b ha hb hab
      refine ⟨fun i => a * w i + b * u i, fun i => add_nonneg (mul_nonneg ha (h0 i)) (mul_nonneg hb (g0 i)), ?_, ?_⟩
      · rw [sum_add_distrib, ← mul_sum, ← mul_sum, h1, g1]; linarith
      · rw [smul_sum, smul_sum, ← sum_add_distrib]
        exact sum_congr rfl fun i _ => by module
    refine convexHull_min ?_ hc h
    rintro _ ⟨i, rfl⟩
    exact ⟨fun j => if j = i then 1 else 0, fun j => by beta_reduce; split <;> norm_num, by simp, by simp [ite_smul]⟩
  · rintro ⟨w, h0, h1, rfl⟩
    exact (convex_convexHull ℝ _).sum_mem (fun i _ => h0 i) h1 (fun i _ => subset_convexHull ℝ _ ⟨i, rfl⟩)

theorem clamp_best (β s : ℝ) (h0 : 0 ≤ s) (h1 : s ≤ 1) : (min 1 (max 0 β) - β) ^ 2 ≤ (s - β) ^ 2 := by
  rcases le_total β 0 with h | h
  · rw [max_eq_left h, min_eq_right zero_le_one]; nlinarith
  · rw [max_eq_right h]
    rcases le_total β 1 with h' | h'
    · rw [min_eq_right h']; nlinarith [sq_nonneg (s - β)]
    · rw [min_eq_left h']; nlinarith

theorem seg_sq (e0 diff t : V n) (s : ℝ) : ‖e0 + s • diff - t‖ ^ 2 = ‖diff‖ ^ 2 * s ^ 2 - 2 * s * inner ℝ diff (t - e0) + ‖t - e0‖ ^ 2 := by
  have : e0 + s • diff - t = s • diff - (t - e0) := by module
  rw [this, norm_sub_sq_real, norm_smul, inner_smul_left]
  simp only [mul_pow, Real.norm_eq_abs, sq_abs, conj_trivial]; ring

theorem proj_best (e0 e1 t : V n) (s : ℝ) (h0 : 0 ≤ s) (h1 : s ≤ 1) : ‖projToSegment e0 e1 t - t‖ ≤ ‖e0 + s • (e1 - e0) - t‖ := by
  refine le_of_sq_le_sq ?_ (norm_nonneg _) |>.trans le_rfl
  rw [projToSegment]
  generalize e1 - e0 = diff
  rw [seg_sq, seg_sq]
  by_cases hd : diff = 0
  · simp [hd]
  · have hD : 0 < ‖diff‖ ^ 2 := by positivity
    have h := clamp_best (inner ℝ diff (t - e0) / ‖diff‖ ^ 2) s h0 h1
    generalize hβ : inner ℝ diff (t - e0) / ‖diff‖ ^ 2 = β at h ⊢
    have hb : inner ℝ diff (t - e0) = β * ‖diff‖ ^ 2 := by rw [← hβ]; field_simp
    rw [hb]
    nlinarith [mul_le_mul_of_nonneg_left h hD.le]

theorem proj_mem (e0 e1 t : V n) : ∃ s : ℝ, 0 ≤ s ∧ s ≤ 1 ∧ projToSegment e0 e1 t = e0 + s • (e1 - e0) :=
  ⟨_, le_min zero_le_one (le_max_left _ _), min_le_left _ _, rfl⟩

/-- What the candidates of one simplex must satisfy for the search to be right. -/
structure CandOk (cand : Sim n → V n → List (V n)) : Prop where
  mem : ∀ s p, ∀ c ∈ cand s p, c ∈ s.points
  best : ∀ s p, ∀ q ∈ s.points, ∃ c ∈ cand s p, ‖c - p‖ ≤ ‖q - p‖

theorem cand2_ok : CandOk cand2 := by
  constructor
  · intro s p c hc
    simp only [cand2, List.mem_singleton] at hc
    subst hc
    obtain ⟨t, h0, h1, h⟩ := proj_mem (s 0) (s 1) p
    rw [h, mem_points]
    refine ⟨![1 - t, t], fun i => ?_, by simp [Fin.sum_univ_two], ?_⟩
    · fin_cases i
      · simpa using h1
      · simpa using h0
    · simp only [Fin.sum_univ_two, Matrix.cons_val_zero, Matrix.cons_val_one]; module
  · intro s p q hq
    refine ⟨_, List.mem_singleton.2 rfl, ?_⟩
    obtain ⟨w, h0, h1, rfl⟩ := (mem_points s q).1 hq
    rw [Fin.sum_univ_two] at h1 ⊢
    have : w 0 • s 0 + w 1 • s 1 = s 0 + w 1 • (s 1 - s 0) := by
      have : w 0 = 1 - w 1 := by linarith
      rw [this]; module
    rw [this]
    exact proj_best _ _ _ _ (h0 1) (by linarith [h0 0])

/-- Points on edges are points of the triangle. -/
theorem edge_mem (s : Sim 3) (i j : Fin 3) (hij : i ≠ j) (t : ℝ) (h0 : 0 ≤ t) (h1 : t ≤ 1) : s i + t • (s j - s i) ∈ s.points := by
  have hi : s i ∈ s.points := subset_convexHull ℝ _ ⟨i, rfl⟩
  have hj : s j ∈ s.points := subset_convexHull ℝ _ ⟨j, rfl⟩
  have := (convex_convexHull ℝ (Set.range s)) hi hj (sub_nonneg.2 h1) h0 (by ring)
  have e : s i + t • (s j - s i) = (1 - t) • s i + t • s j := by module
  rw [e]; exact this

theorem range3 (f : Nat → V 3) : (List.range 3).map f = [f 0, f 1, f 2] := rfl

/-- From a point of the triangle towards a point of its plane outside, one leaves through an edge. -/
theorem exit_edge (w u : Fin 3 → ℝ) (h0 : ∀ i, 0 ≤ w i) (hu : ∃ i, u i < 0) :
    ∃ t : ℝ, 0 ≤ t ∧ t ≤ 1 ∧ (∀ i, 0 ≤ (1 - t) * w i + t * u i) ∧ ∃ i, (1 - t) * w i + t * u i = 0 := by
  classical
  obtain ⟨i, hi, hmin⟩ := Finset.exists_min_image (Finset.univ.filter fun i => u i < 0) (fun i => w i / (w i - u i)) (by obtain ⟨i, hi⟩ := hu; exact ⟨i, by simpa using hi⟩)
  have hui : u i < 0 := by simpa using hi
  have hpos : ∀ j, u j < 0 → 0 < w j - u j := fun j hj => by linarith [h0 j]
  refine ⟨w i / (w i - u i), div_nonneg (h0 i) (hpos i hui).le, (div_le_one (hpos i hui)).2 (by linarith), fun j => ?_, i, ?_⟩
  · have ht0 : 0 ≤ w i / (w i - u i) := div_nonneg (h0 i) (hpos i hui).le
    have ht1 : w i / (w i - u i) ≤ 1 := (div_le_one (hpos i hui)).2 (by linarith)
    by_cases hj : u j < 0
    · have h := hmin j (by simpa using hj)
      rw [le_div_iff₀ (hpos j hj)] at h
      nlinarith
    · push Not at hj
      exact add_nonneg (mul_nonneg (by linarith) (h0 j)) (mul_nonneg ht0 hj)
  · have := (hpos i hui).ne'
    field_simp
    ring

theorem tri_edge (s : Sim 3) (u : Fin 3 → ℝ) (h0 : ∀ i, 0 ≤ u i) (h1 : ∑ i, u i = 1) (hz : ∃ i, u i = 0) :
    ∃ k < 3, ∃ t : ℝ, 0 ≤ t ∧ t ≤ 1 ∧ ∑ i, u i • s i = s (Fin.ofNat 3 k) + t • (s (Fin.ofNat 3 (k + 1)) - s (Fin.ofNat 3 k)) := by
  rw [Fin.sum_univ_three] at h1 ⊢
  obtain ⟨i, hi⟩ := hz
  fin_cases i
  · refine ⟨1, by omega, u 2, h0 2, ?_, ?_⟩
    · simp only at hi; have := h0 1; linarith [show u 0 = 0 from hi]
    · have e0 : u 0 = 0 := hi
      have e1 : u 1 = 1 - u 2 := by linarith
      rw [e0, e1]
      show _ = s 1 + u 2 • (s 2 - s 1)
      module
  · refine ⟨2, by omega, u 0, h0 0, ?_, ?_⟩
    · have e1 : u 1 = 0 := hi; linarith [h0 2]
    · have e1 : u 1 = 0 := hi
      have e2 : u 2 = 1 - u 0 := by linarith
      rw [e1, e2]
      show _ = s 2 + u 0 • (s 0 - s 2)
      module
  · refine ⟨0, by omega, u 1, h0 1, ?_, ?_⟩
    · have e2 : u 2 = 0 := hi; linarith [h0 0]
    · have e2 : u 2 = 0 := hi
      have e0 : u 0 = 1 - u 1 := by linarith
      rw [e2, e0]
      show _ = s 0 + u 1 • (s 1 - s 0)
      module

/-- A degenerate triangle is the union of its edges. -/
theorem degenerate (l0 l1 : V n) (h : inner ℝ l0 l0 * inner ℝ l1 l1 - inner ℝ l0 l1 * inner ℝ l0 l1 = 0) : ∃ a b : ℝ, (a ≠ 0 ∨ b ≠ 0) ∧ a • l0 + b • l1 = 0 := by
  by_cases hl : l0 = 0
  · exact ⟨1, 0, Or.inl one_ne_zero, by simp [hl]⟩
  · refine ⟨inner ℝ l0 l1, -inner ℝ l0 l0, Or.inr (neg_ne_zero.2 (by simpa using hl)), ?_⟩
    have : ‖(inner ℝ l0 l1 : ℝ) • l0 + (-inner ℝ l0 l0 : ℝ) • l1‖ ^ 2 = 0 := by
      rw [← real_inner_self_eq_norm_sq]
      simp only [inner_add_left, inner_add_right, inner_smul_left, inner_smul_right, conj_trivial, real_inner_comm l0 l1]
      linear_combination (inner ℝ l0 l0) * h
    simpa using this

/-- In a degenerate triangle every point is on an edge. -/
theorem degenerate_edge (s : Sim 3) (w : Fin 3 → ℝ) (h0 : ∀ i, 0 ≤ w i) (h1 : ∑ i, w i = 1) (a b : ℝ) (hab : a ≠ 0 ∨ b ≠ 0) (h : a • (s 1 - s 0) + b • (s 2 - s 0) = 0) :
    ∃ u : Fin 3 → ℝ, (∀ i, 0 ≤ u i) ∧ ∑ i, u i = 1 ∧ (∃ i, u i = 0) ∧ ∑ i, u i • s i = ∑ i, w i • s i := by
  -- direction of weights that does not move the point
  have hz : ∃ z : Fin 3 → ℝ, (∃ i, z i < 0) ∧ ∑ i, z i = 0 ∧ ∑ i, z i • s i = 0 := by
    have key : ∀ a b : ℝ, a • (s 1 - s 0) + b • (s 2 - s 0) = 0 → ∑ i, (![-(a + b), a, b] : Fin 3 → ℝ) i = 0 ∧ ∑ i, (![-(a + b), a, b] : Fin 3 → ℝ) i • s i = 0 := by
      intro a b h
      constructor
      · simp [Fin.sum_univ_three]
      · rw [Fin.sum_univ_three, ← h]
        simp only [Matrix.cons_val_zero, Matrix.cons_val_one, Matrix.cons_val_two, Matrix.head_cons, Matrix.tail_cons]
        module
    by_cases hneg : a < 0 ∨ b < 0 ∨ -(a + b) < 0
    · refine ⟨_, ?_, (key a b h).1, (key a b h).2⟩
      rcases hneg with h' | h' | h'
      · exact ⟨1, h'⟩
      · exact ⟨2, h'⟩
      · exact ⟨0, h'⟩
    · push Not at hneg
      rcases hab with h' | h'
      · exact absurd (le_antisymm (by linarith) hneg.1) h'
      · exact absurd (le_antisymm (by linarith) hneg.2.1) h'
  obtain ⟨z, hzn, hz0, hzs⟩ := hz
  -- move until a weight vanishes
  obtain ⟨K, hK0, hKn⟩ : ∃ K : ℝ, 0 < K ∧ ∃ i, w i + K * z i < 0 := by
    obtain ⟨i, hi⟩ := hzn
    refine ⟨(w i + 1) / (-z i), div_pos (by linarith [h0 i]) (by linarith), i, ?_⟩
    have : z i ≠ 0 := hi.ne
    have e : (w i + 1) / (-z i) * z i = -(w i + 1) := by field_simp
    rw [e]; linarith
  obtain ⟨t, ht0, ht1, hall, i, hi⟩ := exit_edge w (fun i => w i + K * z i) h0 hKn
  refine ⟨fun i => (1 - t) * w i + t * (w i + K * z i), hall, ?_, ⟨i, hi⟩, ?_⟩
  · have : ∀ i, (1 - t) * w i + t * (w i + K * z i) = w i + (t * K) * z i := fun i => by ring
    simp only [this, sum_add_distrib, ← mul_sum, h1, hz0]; ring
  · have : ∀ i, ((1 - t) * w i + t * (w i + K * z i)) • s i = w i • s i + (t * K) • (z i • s i) := fun i => by module
    simp only [this, sum_add_distrib, ← smul_sum, hzs]; simp

theorem edges_best (s : Sim 3) (p : V 3) (u : Fin 3 → ℝ) (h0 : ∀ i, 0 ≤ u i) (h1 : ∑ i, u i = 1) (hz : ∃ i, u i = 0) :
    ∃ c ∈ (List.range 3).map (fun i => projToSegment (s (Fin.ofNat 3 i)) (s (Fin.ofNat 3 (i + 1))) p), ‖c - p‖ ≤ ‖∑ i, u i • s i - p‖ := by
  obtain ⟨k, hk, t, ht0, ht1, he⟩ := tri_edge s u h0 h1 hz
  refine ⟨_, List.mem_map.2 ⟨k, List.mem_range.2 hk, rfl⟩, ?_⟩
  rw [he]
  exact proj_best _ _ _ _ ht0 ht1

theorem cand3_ok : CandOk cand3 := by
  constructor
  · intro s p c hc
    simp only [cand3] at hc
    split at hc
    · rename_i h
      rw [List.mem_singleton] at hc
      generalize (inner ℝ (s 2 - s 0) (s 2 - s 0) * inner ℝ (s 1 - s 0) (p - s 0) - inner ℝ (s 1 - s 0) (s 2 - s 0) * inner ℝ (s 2 - s 0) (p - s 0)) /
        (inner ℝ (s 1 - s 0) (s 1 - s 0) * inner ℝ (s 2 - s 0) (s 2 - s 0) - inner ℝ (s 1 - s 0) (s 2 - s 0) * inner ℝ (s 1 - s 0) (s 2 - s 0)) = x at hc h
      generalize (inner ℝ (s 1 - s 0) (s 1 - s 0) * inner ℝ (s 2 - s 0) (p - s 0) - inner ℝ (s 1 - s 0) (s 2 - s 0) * inner ℝ (s 1 - s 0) (p - s 0)) /
        (inner ℝ (s 1 - s 0) (s 1 - s 0) * inner ℝ (s 2 - s 0) (s 2 - s 0) - inner ℝ (s 1 - s 0) (s 2 - s 0) * inner ℝ (s 1 - s 0) (s 2 - s 0)) = y at hc h
      obtain ⟨_, hx, hy, hxy⟩ := h
      subst hc
      rw [mem_points]
      refine ⟨![1 - x - y, x, y], fun i => ?_, by simp only [Fin.sum_univ_three, Matrix.cons_val]; ring, ?_⟩
      · fin_cases i
        · show 0 ≤ 1 - x - y; linarith
        · exact hx
        · exact hy
      · rw [Fin.sum_univ_three]
        simp only [Matrix.cons_val_zero, Matrix.cons_val_one, Matrix.cons_val_two, Matrix.head_cons, Matrix.tail_cons]
        module
    · obtain ⟨i, hi, rfl⟩ := List.mem_map.1 hc
      obtain ⟨t, h0, h1, h⟩ := proj_mem (s (Fin.ofNat 3 i)) (s (Fin.ofNat 3 (i + 1))) p
      rw [h]
      refine edge_mem s _ _ ?_ t h0 h1
      have hi := List.mem_range.1 hi
      interval_cases i <;> decide
  · intro s p q hq
    obtain ⟨w, h0, h1, rfl⟩ := (mem_points s q).1 hq
    simp only [cand3]
    by_cases hdet : inner ℝ (s 1 - s 0) (s 1 - s 0) * inner ℝ (s 2 - s 0) (s 2 - s 0) - inner ℝ (s 1 - s 0) (s 2 - s 0) * inner ℝ (s 1 - s 0) (s 2 - s 0) = 0
    · rw [if_neg (by rintro ⟨h, _⟩; exact h hdet)]
      obtain ⟨a, b, hab, h⟩ := degenerate _ _ hdet
      obtain ⟨u, hu0, hu1, huz, hus⟩ := degenerate_edge s w h0 h1 a b hab h
      rw [← hus]
      exact edges_best s p u hu0 hu1 huz
    · -- the projection to the plane
      generalize hx : (inner ℝ (s 2 - s 0) (s 2 - s 0) * inner ℝ (s 1 - s 0) (p - s 0) - inner ℝ (s 1 - s 0) (s 2 - s 0) * inner ℝ (s 2 - s 0) (p - s 0)) /
        (inner ℝ (s 1 - s 0) (s 1 - s 0) * inner ℝ (s 2 - s 0) (s 2 - s 0) - inner ℝ (s 1 - s 0) (s 2 - s 0) * inner ℝ (s 1 - s 0) (s 2 - s 0)) = x
      generalize hy : (inner ℝ (s 1 - s 0) (s 1 - s 0) * inner ℝ (s 2 - s 0) (p - s 0) - inner ℝ (s 1 - s 0) (s 2 - s 0) * inner ℝ (s 1 - s 0) (p - s 0)) /
        (inner ℝ (s 1 - s 0) (s 1 - s 0) * inner ℝ (s 2 - s 0) (s 2 - s 0) - inner ℝ (s 1 - s 0) (s 2 - s 0) * inner ℝ (s 1 - s 0) (s 2 - s 0)) = y
      have hxd := (div_eq_iff hdet).1 hx
      have hyd := (div_eq_iff hdet).1 hy
      have hl0 : inner ℝ (s 1 - s 0) (p - (s 0 + (x • (s 1 - s 0) + y • (s 2 - s 0)))) = (0 : ℝ) := by
        have e : p - (s 0 + (x • (s 1 - s 0) + y • (s 2 - s 0))) = (p - s 0) - (x • (s 1 - s 0) + y • (s 2 - s 0)) := by module
        rw [e, inner_sub_right, inner_add_right, inner_smul_right, inner_smul_right]
        apply mul_left_cancel₀ hdet
        linear_combination (inner ℝ (s 1 - s 0) (s 1 - s 0)) * hxd + (inner ℝ (s 1 - s 0) (s 2 - s 0)) * hyd
      have hl1 : inner ℝ (s 2 - s 0) (p - (s 0 + (x • (s 1 - s 0) + y • (s 2 - s 0)))) = (0 : ℝ) := by
        have e : p - (s 0 + (x • (s 1 - s 0) + y • (s 2 - s 0))) = (p - s 0) - (x • (s 1 - s 0) + y • (s 2 - s 0)) := by module
        rw [e, inner_sub_right, inner_add_right, inner_smul_right, inner_smul_right, real_inner_comm (s 1 - s 0) (s 2 - s 0)]
        apply mul_left_cancel₀ hdet
        linear_combination (inner ℝ (s 1 - s 0) (s 2 - s 0)) * hxd + (inner ℝ (s 2 - s 0) (s 2 - s 0)) * hyd
      -- distances in the plane
      have pyth : ∀ a b : ℝ, ‖s 0 + (a • (s 1 - s 0) + b • (s 2 - s 0)) - p‖ ^ 2 =
          ‖(a - x) • (s 1 - s 0) + (b - y) • (s 2 - s 0)‖ ^ 2 + ‖p - (s 0 + (x • (s 1 - s 0) + y • (s 2 - s 0)))‖ ^ 2 := by
        intro a b
        have e : s 0 + (a • (s 1 - s 0) + b • (s 2 - s 0)) - p = ((a - x) • (s 1 - s 0) + (b - y) • (s 2 - s 0)) - (p - (s 0 + (x • (s 1 - s 0) + y • (s 2 - s 0)))) := by module
        rw [e, norm_sub_sq_real, inner_add_left, inner_smul_left, inner_smul_left, hl0, hl1]
        simp
      have hw : ∀ w : Fin 3 → ℝ, ∑ i, w i = 1 → ∑ i, w i • s i = s 0 + (w 1 • (s 1 - s 0) + w 2 • (s 2 - s 0)) := by
        intro w h1
        rw [Fin.sum_univ_three] at h1 ⊢
        have : w 0 = 1 - w 1 - w 2 := by linarith
        rw [this]; module
      by_cases hin : 0 ≤ x ∧ 0 ≤ y ∧ x + y ≤ 1
      · rw [if_pos ⟨hdet, hin⟩]
        refine ⟨_, List.mem_singleton.2 rfl, le_of_sq_le_sq ?_ (norm_nonneg _)⟩
        rw [hw w h1, pyth, pyth]
        simp only [sub_self, zero_smul, add_zero, norm_zero]
        nlinarith [sq_nonneg ‖(w 1 - x) • (s 1 - s 0) + (w 2 - y) • (s 2 - s 0)‖]
      · rw [if_neg (fun h => hin h.2)]
        obtain ⟨t, ht0, ht1, hall, hz⟩ := exit_edge w ![1 - x - y, x, y] h0 (by
          by_contra hno
          push Not at hno
          exact hin ⟨hno 1, hno 2, by have : 0 ≤ 1 - x - y := hno 0; linarith⟩)
        have hs1 : ∑ i, ((1 - t) * w i + t * (![1 - x - y, x, y] : Fin 3 → ℝ) i) = 1 := by
          rw [sum_add_distrib, ← mul_sum, ← mul_sum, h1]
          simp only [Fin.sum_univ_three, Matrix.cons_val]; ring
        obtain ⟨c, hc, hle⟩ := edges_best s p (fun i => (1 - t) * w i + t * (![1 - x - y, x, y] : Fin 3 → ℝ) i) hall hs1 hz
        refine ⟨c, hc, hle.trans (le_of_sq_le_sq ?_ (norm_nonneg _))⟩
        rw [hw _ hs1, hw w h1, pyth, pyth]
        have e : ((1 - t) * w 1 + t * (![1 - x - y, x, y] : Fin 3 → ℝ) 1 - x) • (s 1 - s 0) + ((1 - t) * w 2 + t * (![1 - x - y, x, y] : Fin 3 → ℝ) 2 - y) • (s 2 - s 0) =
            (1 - t) • ((w 1 - x) • (s 1 - s 0) + (w 2 - y) • (s 2 - s 0)) := by
          simp only [Matrix.cons_val]
          module
        rw [e, norm_smul, mul_pow, Real.norm_eq_abs, sq_abs]
        have h3 : (1 - t) ^ 2 ≤ 1 := by nlinarith
        nlinarith [sq_nonneg ‖(w 1 - x) • (s 1 - s 0) + (w 2 - y) • (s 2 - s 0)‖]

end Hexed.Geom
