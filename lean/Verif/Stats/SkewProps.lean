import Verif.Stats.Model
import Mathlib.Geometry.Euclidean.Angle.Unoriented.Basic
import Mathlib.Analysis.InnerProductSpace.PiL2
set_option autoImplicit false
set_option linter.unusedVariables false

/-!
# The skewness of elements and other element information (C74)
-/

namespace Hexed.Stats

/-! ## Specification -/

/-- The edge of the element at vertex `v` along dimension `i`: column `i` of the Jacobian matrix. -/
def edge (nd : Nat) (jac : Nat → Nat → Nat → ℝ) (v i : Nat) : EuclideanSpace ℝ (Fin nd) := WithLp.toLp 2 fun k : Fin nd => jac v k i

/-- How far the angle (in the sense of Euclidean geometry) between edges `i` and `j` at vertex `v` is from a right angle: 0 for a right
angle, 1 for parallel edges. -/
noncomputable def deviation (nd : Nat) (jac : Nat → Nat → Nat → ℝ) (v i j : Nat) : ℝ :=
  |2 * InnerProductGeometry.angle (edge nd jac v i) (edge nd jac v j) / Real.pi - 1|

/-! ## Lemmas -/

theorem foldl_max {α : Type} (g : α → ℝ) : ∀ (l : List α) (a : ℝ), a ≤ l.foldl (fun m x => max m (g x)) a ∧ (∀ x ∈ l, g x ≤ l.foldl (fun m x => max m (g x)) a) ∧
    (l.foldl (fun m x => max m (g x)) a = a ∨ ∃ x ∈ l, l.foldl (fun m x => max m (g x)) a = g x)
  | [], a => by simp
  | x :: l, a => by
    obtain ⟨h1, h2, h3⟩ := foldl_max g l (max a (g x))
    simp only [List.foldl_cons]
    refine ⟨(le_max_left _ _).trans h1, ?_, ?_⟩
    · intro y hy
      rcases List.mem_cons.1 hy with rfl | hy
      · exact (le_max_right _ _).trans h1
      · exact h2 y hy
    · rcases h3 with h3 | ⟨y, hy, h3⟩
      · rcases max_choice a (g x) with h | h
        · left; rw [h3, h]
        · right; exact ⟨x, by simp, by rw [h3, h]⟩
      · right; exact ⟨y, by simp [hy], h3⟩

theorem normalized_dot (nd : Nat) (x y : Nat → ℝ) :
    ∑ k ∈ Finset.range nd, normalized nd x k * normalized nd y k =
      inner ℝ (WithLp.toLp 2 fun k : Fin nd => x k) (WithLp.toLp 2 fun k : Fin nd => y k) /
        (‖(WithLp.toLp 2 fun k : Fin nd => x k : EuclideanSpace ℝ (Fin nd))‖ * ‖(WithLp.toLp 2 fun k : Fin nd => y k : EuclideanSpace ℝ (Fin nd))‖) := by
  have hn : ∀ z : Nat → ℝ, ‖(WithLp.toLp 2 fun k : Fin nd => z k : EuclideanSpace ℝ (Fin nd))‖ = √(∑ i ∈ Finset.range nd, z i ^ 2) := by
    intro z
    rw [EuclideanSpace.norm_eq, Finset.sum_range]
    congr 1
    refine Finset.sum_congr rfl fun k _ => by simp
  have hz : ∀ z : Nat → ℝ, ∀ k < nd, normalized nd z k = z k / √(∑ i ∈ Finset.range nd, z i ^ 2) := by
    intro z k hk
    rw [normalized]
    split
    · rfl
    · next h =>
      have h0 : ∑ i ∈ Finset.range nd, z i ^ 2 = 0 := le_antisymm (not_lt.1 h) (Finset.sum_nonneg fun _ _ => sq_nonneg _)
      have := (Finset.sum_eq_zero_iff_of_nonneg (fun _ _ => sq_nonneg _)).1 h0 k (Finset.mem_range.2 hk)
      rw [pow_eq_zero_iff two_ne_zero] at this
      rw [this, zero_div]
  rw [hn, hn, PiLp.inner_apply, Finset.sum_range, Finset.sum_div]
  refine Finset.sum_congr rfl fun k _ => ?_
  rw [hz x k k.2, hz y k k.2]
  simp only [RCLike.inner_apply, conj_trivial]
  rw [div_mul_div_comm, mul_comm (y k)]

theorem skew_max (nd : Nat) (jac : Nat → Nat → Nat → ℝ) : 0 ≤ skewness nd jac ∧ (∀ v < 2 ^ nd, ∀ i < nd, ∀ j < nd, i < j → deviation nd jac v i j ≤ skewness nd jac) ∧
    (skewness nd jac = 0 ∨ ∃ v < 2 ^ nd, ∃ i < nd, ∃ j < nd, i < j ∧ skewness nd jac = deviation nd jac v i j) := by
  let l : List (Nat × Nat × Nat) := (List.range (2 ^ nd)).flatMap fun v => (List.range nd).flatMap fun i => (List.range' (i + 1) (nd - (i + 1))).map fun j => (v, i, j)
  have hl : ∀ t : Nat × Nat × Nat, t ∈ l ↔ t.1 < 2 ^ nd ∧ t.2.1 < nd ∧ t.2.1 < t.2.2 ∧ t.2.2 < nd := by
    rintro ⟨v, i, j⟩
    simp only [l, List.mem_flatMap, List.mem_range, List.mem_map, List.mem_range', Prod.mk.injEq]
    constructor
    · rintro ⟨v', hv, i', hi, j', ⟨k, hk, hj⟩, rfl, rfl, rfl⟩; refine ⟨hv, hi, ?_, ?_⟩ <;> omega
    · rintro ⟨hv, hi, hij, hj⟩; exact ⟨v, hv, i, hi, j, ⟨j - (i + 1), by omega, by omega⟩, rfl, rfl, rfl⟩
  have hs : skewness nd jac = l.foldl (fun m t => max m (deviation nd jac t.1 t.2.1 t.2.2)) 0 := by
    rw [skewness]
    simp only [l, List.foldl_flatMap, List.foldl_map, normalized_dot]
    rfl
  obtain ⟨h1, h2, h3⟩ := foldl_max (fun t : Nat × Nat × Nat => deviation nd jac t.1 t.2.1 t.2.2) l 0
  rw [← hs] at h1 h2 h3
  refine ⟨h1, fun v hv i hi j hj hij => h2 (v, i, j) ((hl _).2 ⟨hv, hi, hij, hj⟩), ?_⟩
  rcases h3 with h3 | ⟨⟨v, i, j⟩, ht, h3⟩
  · exact .inl h3
  · obtain ⟨a, b, c, d⟩ := (hl _).1 ht
    exact .inr ⟨v, a, i, b, j, d, c, h3⟩

theorem deviation_range (nd : Nat) (jac : Nat → Nat → Nat → ℝ) (v i j : Nat) : 0 ≤ deviation nd jac v i j ∧ deviation nd jac v i j ≤ 1 := by
  refine ⟨abs_nonneg _, ?_⟩
  have h1 := InnerProductGeometry.angle_nonneg (edge nd jac v i) (edge nd jac v j)
  have h2 := InnerProductGeometry.angle_le_pi (edge nd jac v i) (edge nd jac v j)
  have hp := Real.pi_pos
  rw [deviation, abs_le]
  constructor
  · have : 0 ≤ 2 * InnerProductGeometry.angle (edge nd jac v i) (edge nd jac v j) / Real.pi := by positivity
    linarith
  · have : 2 * InnerProductGeometry.angle (edge nd jac v i) (edge nd jac v j) / Real.pi ≤ 2 := by rw [div_le_iff₀ hp]; linarith
    linarith

/-! ## Properties -/

/-- C74: the skewness of an element with at least two dimensions is the largest deviation from a right angle of any pair of edges that
share a vertex. -/
theorem skewness_greatest {nd : Nat} (hnd : 2 ≤ nd) (jac : Nat → Nat → Nat → ℝ) :
    IsGreatest {x | ∃ v < 2 ^ nd, ∃ i < nd, ∃ j < nd, i < j ∧ x = deviation nd jac v i j} (skewness nd jac) := by
  obtain ⟨h1, h2, h3⟩ := skew_max nd jac
  refine ⟨?_, ?_⟩
  · rcases h3 with h3 | h3
    · refine ⟨0, by positivity, 0, by omega, 1, by omega, by omega, ?_⟩
      have := h2 0 (by positivity) 0 (by omega) 1 (by omega) (by omega)
      rw [h3] at this ⊢
      exact le_antisymm (deviation_range _ _ _ _ _).1 this
    · exact h3
  · rintro x ⟨v, hv, i, hi, j, hj, hij, rfl⟩
    exact h2 v hv i hi j hj hij

/-- C74: skewness is between 0 and 1; it is 0 exactly if all pairs of edges meet at right angles, and 1 exactly if some pair of edges is
parallel (edges of length zero, whose angle is not defined, count as perpendicular to all others). -/
theorem skewness_range {nd : Nat} (hnd : 2 ≤ nd) (jac : Nat → Nat → Nat → ℝ) :
    0 ≤ skewness nd jac ∧ skewness nd jac ≤ 1 ∧
    (skewness nd jac = 0 ↔ ∀ v < 2 ^ nd, ∀ i < nd, ∀ j < nd, i < j → inner ℝ (edge nd jac v i) (edge nd jac v j) = 0) ∧
    (skewness nd jac = 1 ↔ ∃ v < 2 ^ nd, ∃ i < nd, ∃ j < nd, i < j ∧ edge nd jac v i ≠ 0 ∧ ∃ r : ℝ, r ≠ 0 ∧ edge nd jac v j = r • edge nd jac v i) := by
  obtain ⟨⟨v, hv, i, hi, j, hj, hij, hx⟩, h2⟩ := skewness_greatest hnd jac
  have hp := Real.pi_pos
  have d0 : ∀ v i j, deviation nd jac v i j = 0 ↔ inner ℝ (edge nd jac v i) (edge nd jac v j) = 0 := by
    intro v i j
    rw [InnerProductGeometry.inner_eq_zero_iff_angle_eq_pi_div_two, deviation, abs_eq_zero]
    constructor
    · intro h; field_simp at h; linarith
    · intro h; rw [h]; field_simp; ring
  have d1 : ∀ v i j, deviation nd jac v i j = 1 ↔ edge nd jac v i ≠ 0 ∧ ∃ r : ℝ, r ≠ 0 ∧ edge nd jac v j = r • edge nd jac v i := by
    intro v i j
    have e : deviation nd jac v i j = 1 ↔ InnerProductGeometry.angle (edge nd jac v i) (edge nd jac v j) = 0 ∨ InnerProductGeometry.angle (edge nd jac v i) (edge nd jac v j) = Real.pi := by
      rw [deviation, abs_eq zero_le_one]
      constructor
      · rintro (h | h)
        · right; field_simp at h; linarith
        · left; field_simp at h; linarith
      · rintro (h | h)
        · right; rw [h]; simp
        · left; rw [h]; field_simp; ring
    rw [e, InnerProductGeometry.angle_eq_zero_iff, InnerProductGeometry.angle_eq_pi_iff]
    constructor
    · rintro (⟨h, r, hr, hy⟩ | ⟨h, r, hr, hy⟩)
      · exact ⟨h, r, hr.ne', hy⟩
      · exact ⟨h, r, hr.ne, hy⟩
    · rintro ⟨h, r, hr, hy⟩
      rcases lt_or_gt_of_ne hr with hr | hr
      · exact .inr ⟨h, r, hr, hy⟩
      · exact .inl ⟨h, r, hr, hy⟩
  have hle : skewness nd jac ≤ 1 := by rw [hx]; exact (deviation_range _ _ _ _ _).2
  refine ⟨by rw [hx]; exact (deviation_range _ _ _ _ _).1, hle, ?_, ?_⟩
  · constructor
    · intro h v hv i hi j hj hij
      rw [← d0]
      exact le_antisymm ((h2 ⟨v, hv, i, hi, j, hj, hij, rfl⟩).trans h.le) (deviation_range _ _ _ _ _).1
    · intro h
      rw [hx, d0]
      exact h v hv i hi j hj hij
  · constructor
    · intro h
      rw [h] at hx
      exact ⟨v, hv, i, hi, j, hj, hij, (d1 v i j).1 hx.symm⟩
    · rintro ⟨v, hv, i, hi, j, hj, hij, h⟩
      exact le_antisymm hle (by rw [← (d1 v i j).2 h]; exact h2 ⟨v, hv, i, hi, j, hj, hij, rfl⟩)

/-- A square has skewness 0. -/
example : skewness 2 (fun _ i j => if i = j then 1 else 0) = 0 := by
  rw [(skewness_range le_rfl _).2.2.1]
  intro v _ i hi j hj hij
  have h0 : i = 0 := by omega
  have h1 : j = 1 := by omega
  subst h0 h1
  simp [edge, PiLp.inner_apply, Fin.sum_univ_two]

/-- C74: an element flattened to a line (the second edge has length zero at every vertex) is degenerate, with zero area, but its skewness
is that of a perfect element. -/
theorem skewness_collapsed_refuted : ∃ jac : Nat → Nat → Nat → ℝ, (∀ v, jac v 0 0 * jac v 1 1 - jac v 0 1 * jac v 1 0 = 0) ∧ skewness 2 jac = 0 := by
  refine ⟨fun _ k i => if k = 0 ∧ i = 0 then 1 else 0, by simp, ?_⟩
  rw [(skewness_range le_rfl _).2.2.1]
  intro v _ i hi j hj hij
  have h1 : j = 1 := by omega
  subst h1
  simp [edge, PiLp.inner_apply]

/-- C74: `Record` is documented to return `Element::record`; it returns whether this is nonzero. -/
theorem record_refuted : ∃ record, recordFunc record ≠ record := ⟨2, by decide⟩

theorem record_partial (record : Int) : (recordFunc record = 0 ↔ record = 0) ∧ ((record = 0 ∨ record = 1) → recordFunc record = record) := by
  unfold recordFunc
  refine ⟨by split <;> simp_all, ?_⟩
  rintro (rfl | rfl) <;> decide

end Hexed.Stats
