import Verif.Geom.Props
import Mathlib.Algebra.QuadraticDiscriminant
import Mathlib.Analysis.SpecificLimits.Basic
set_option autoImplicit false
set_option linter.unusedVariables false

/-! # Intersections of lines with surface geometries (C29), construction of simplex geometries -/

namespace Hexed.Geom
open Finset Classical

variable {n : Nat}

/-! ## Specification -/

/-- The point of the line with parameter `t`. -/
noncomputable def linePt (p0 p1 : V n) (t : ℝ) : V n := p0 + t • (p1 - p0)

mutual
/-- The line hits the geometry at parameter `t`. A simplex is hit if it contains the point and the line is not (nearly) in its plane: the reciprocal condition number of the
linear system is above the tolerance in the code. -/
def Geom.Hit [NeZero n] (rcond : Matrix (Fin n) (Fin n) ℝ → ℝ) (p0 p1 : V n) (t : ℝ) : Geom n → Prop
  | .sphere c r => ‖linePt p0 p1 t - c‖ = r
  | .simplices g _ => ∃ s ∈ g.sims, linePt p0 p1 t ∈ s.points ∧ 1e-7 < rcond (lineMat p0 p1 s)
  | .compound comps => Geom.HitList rcond p0 p1 t comps
def Geom.HitList [NeZero n] (rcond : Matrix (Fin n) (Fin n) ℝ → ℝ) (p0 p1 : V n) (t : ℝ) : List (Geom n) → Prop
  | [] => False
  | g :: gs => Geom.Hit rcond p0 p1 t g ∨ Geom.HitList rcond p0 p1 t gs
end

mutual
/-- The line hits the geometry up to the gap tolerance: simplices are extended by the tolerance, relative to their edges. -/
def Geom.NearHit [NeZero n] (p0 p1 : V n) (t : ℝ) : Geom n → Prop
  | .sphere c r => ‖linePt p0 p1 t - c‖ = r
  | .simplices g tol => ∃ s ∈ g.sims, ∃ w : Fin n → ℝ, (∀ j, j ≠ 0 → -tol ≤ w j) ∧ ∑ j ∈ univ.erase 0, w j ≤ 1 + tol ∧ linePt p0 p1 t = s 0 + ∑ j ∈ univ.erase 0, w j • (s j - s 0)
  | .compound comps => Geom.NearHitList p0 p1 t comps
def Geom.NearHitList [NeZero n] (p0 p1 : V n) (t : ℝ) : List (Geom n) → Prop
  | [] => False
  | g :: gs => Geom.NearHit p0 p1 t g ∨ Geom.NearHitList p0 p1 t gs
end

mutual
/-- The bounding cubes of the simplex geometries have an edge of at most 1, and the gap tolerances are not negative. -/
def Geom.Small : Geom n → Prop
  | .sphere c r => True
  | .simplices g tol => g.rootSz ≤ 1 ∧ 0 ≤ tol
  | .compound comps => Geom.SmallList comps
def Geom.SmallList : List (Geom n) → Prop
  | [] => True
  | g :: gs => Geom.Small g ∧ Geom.SmallList gs
end

/-! ## Lemmas -/

theorem intersects_of (c p0 p1 : V n) (r2 t : ℝ) (hd : p1 ≠ p0) (h : ‖linePt p0 p1 t - c‖ ^ 2 ≤ r2) : intersects c r2 p0 p1 = true := by
  have hd0 : p1 - p0 ≠ 0 := sub_ne_zero.2 hd
  rw [intersects, if_neg hd0, decide_eq_true_iff]
  refine le_trans ?_ h
  rw [linePt]
  generalize p1 - p0 = d at *
  have hD : 0 < ‖d‖ ^ 2 := by positivity
  have e : p0 + t • d - c = t • d - (c - p0) := by abel
  rw [e]
  generalize c - p0 = v
  rw [norm_sub_sq_real, norm_sub_sq_real, norm_smul, norm_smul, inner_smul_left, inner_smul_right]
  simp only [mul_pow, Real.norm_eq_abs, sq_abs, conj_trivial]
  rw [real_inner_comm d v]
  generalize inner ℝ d v = b
  have : b / ‖d‖ ^ 2 * ‖d‖ ^ 2 = b := by field_simp
  generalize b / ‖d‖ ^ 2 = β at *
  subst this
  nlinarith [mul_nonneg hD.le (sq_nonneg (t - β))]

theorem mulVec_line [NeZero n] (p0 p1 : V n) (s : Sim n) (z : Fin n → ℝ) (d : Fin n) :
    Matrix.mulVec (lineMat p0 p1 s) z d = -(z 0 * (p1 - p0) d) + ∑ j ∈ univ.erase 0, z j * (s j - s 0) d := by
  rw [Matrix.mulVec, dotProduct, ← add_sum_erase univ _ (mem_univ (0 : Fin n))]
  congr 1
  · simp [lineMat]; ring
  · refine sum_congr rfl fun j hj => ?_
    simp only [lineMat, Matrix.of_apply, if_neg (ne_of_mem_erase hj)]
    ring

theorem line_eq_iff [NeZero n] (p0 p1 : V n) (s : Sim n) (z : Fin n → ℝ) :
    (Matrix.mulVec (lineMat p0 p1 s) z = fun d => (p0 - s 0) d) ↔ linePt p0 p1 (z 0) = s 0 + ∑ j ∈ univ.erase 0, z j • (s j - s 0) := by
  have hs : ∀ d, (∑ j ∈ univ.erase 0, z j • (s j - s 0)) d = ∑ j ∈ univ.erase 0, z j * (s j - s 0) d := by
    intro d
    rw [WithLp.ofLp_sum, Finset.sum_apply]
    rfl
  constructor
  · intro h
    ext d
    have := congrFun h d
    rw [mulVec_line] at this
    have e1 : linePt p0 p1 (z 0) d = p0 d + z 0 * (p1 - p0) d := rfl
    have e2 : (s 0 + ∑ j ∈ univ.erase 0, z j • (s j - s 0)) d = s 0 d + (∑ j ∈ univ.erase 0, z j • (s j - s 0)) d := rfl
    have e3 : (p0 - s 0) d = p0 d - s 0 d := rfl
    rw [e1, e2, hs]
    rw [e3] at this
    linarith
  · intro h
    funext d
    rw [mulVec_line]
    have := congrArg (fun v : V n => v d) h
    simp only at this
    have e1 : linePt p0 p1 (z 0) d = p0 d + z 0 * (p1 - p0) d := rfl
    have e2 : (s 0 + ∑ j ∈ univ.erase 0, z j • (s j - s 0)) d = s 0 d + (∑ j ∈ univ.erase 0, z j • (s j - s 0)) d := rfl
    have e3 : (p0 - s 0) d = p0 d - s 0 d := rfl
    rw [e1, e2, hs] at this
    rw [e3]
    linarith

section
variable [NeZero n] (rcond : Matrix (Fin n) (Fin n) ℝ → ℝ) (hrc : ∀ A, 1e-7 < rcond A → IsUnit A.det) (tol : ℝ) (rootSz : ℝ) (orig : Fin n → ℝ) (p0 p1 : V n)
include hrc

theorem line_ne (s : Sim n) (h : 1e-7 < rcond (lineMat p0 p1 s)) : p1 ≠ p0 := by
  rintro rfl
  have := hrc _ h
  rw [Matrix.det_eq_zero_of_column_eq_zero 0 (fun i => by simp [lineMat])] at this
  exact not_isUnit_zero this

theorem interSim_complete (htol : 0 ≤ tol) (s : Sim n) (t : ℝ) (ht : linePt p0 p1 t ∈ s.points) (h : 1e-7 < rcond (lineMat p0 p1 s)) : t ∈ interSim rcond tol p0 p1 s := by
  have hball : intersects (ballCenter s) (ballRadiusSq s) p0 p1 = true := by
    refine intersects_of _ _ _ _ t (line_ne rcond hrc p0 p1 s h) ?_
    have := ball_contains s _ ht
    calc _ ≤ √(ballRadiusSq s) ^ 2 := pow_le_pow_left₀ (norm_nonneg _) this 2
      _ = _ := Real.sq_sqrt (radius_nonneg s)
  obtain ⟨w, h0, h1, hw⟩ := (mem_points s _).1 ht
  have hz : ∃ z : Fin n → ℝ, z 0 = t ∧ ∀ j, j ≠ 0 → z j = w j := ⟨fun j => if j = 0 then t else w j, by simp, fun j hj => by simp [hj]⟩
  obtain ⟨z, hz0, hzj⟩ := hz
  have hsum : ∑ j ∈ univ.erase 0, z j = 1 - w 0 := by
    rw [sum_congr rfl fun j hj => hzj j (ne_of_mem_erase hj)]
    rw [← add_sum_erase univ _ (mem_univ (0 : Fin n))] at h1
    linarith
  have hsol : lineSol p0 p1 s = z := by
    have hA : Matrix.mulVec (lineMat p0 p1 s) z = fun d => (p0 - s 0) d := by
      rw [line_eq_iff, hz0, hw, ← add_sum_erase univ _ (mem_univ (0 : Fin n))]
      have e : ∑ j ∈ univ.erase 0, z j • (s j - s 0) = ∑ j ∈ univ.erase 0, w j • s j - (1 - w 0) • s 0 := by
        rw [← hsum, sum_smul, ← sum_sub_distrib]
        exact sum_congr rfl fun j hj => by rw [hzj j (ne_of_mem_erase hj), smul_sub]
      rw [e]
      module
    rw [lineSol, ← hA, Matrix.mulVec_mulVec, Matrix.nonsing_inv_mul _ (hrc _ h), Matrix.one_mulVec]
  rw [interSim, if_pos hball, if_pos h, hsol, if_pos, hz0]
  · exact List.mem_singleton.2 rfl
  · refine ⟨fun j hj => ?_, ?_⟩
    · rw [hzj j hj]; linarith [h0 j]
    · rw [hsum]; linarith [h0 0]

theorem interSim_sound (s : Sim n) (t : ℝ) (h : t ∈ interSim rcond tol p0 p1 s) :
    ∃ w : Fin n → ℝ, (∀ j, j ≠ 0 → -tol ≤ w j) ∧ ∑ j ∈ univ.erase 0, w j ≤ 1 + tol ∧ linePt p0 p1 t = s 0 + ∑ j ∈ univ.erase 0, w j • (s j - s 0) := by
  rw [interSim] at h
  split at h
  · split at h
    · rename_i hr
      split at h
      · rename_i hc
        refine ⟨lineSol p0 p1 s, hc.1, hc.2, ?_⟩
        rw [List.mem_singleton.1 h, ← line_eq_iff, lineSol, Matrix.mulVec_mulVec, Matrix.mul_nonsing_inv _ (hrc _ hr), Matrix.one_mulVec]
      · simp at h
    · simp at h
  · simp at h

omit hrc in
theorem cell_hit (h0 : rootSz ≤ 1) (rl : Nat) (c : Fin n → Int) (s : Sim n) (hb : InBox rootSz orig rl c s) (hd : p1 ≠ p0) (t : ℝ) (ht : linePt p0 p1 t ∈ s.points) :
    intersects (cellCenter rootSz orig rl c) (cellSize rootSz rl * n / 4) p0 p1 = true := by
  refine intersects_of _ _ _ _ t hd ((cell_contains rootSz orig rl c s hb _ ht).2.trans ?_)
  have hs1 : cellSize rootSz rl ≤ 1 := by
    rw [cellSize, div_le_one (by positivity)]
    exact h0.trans (one_le_pow₀ (by norm_num))
  have hs0 : 0 ≤ cellSize rootSz rl := by
    have := hb 0 0; linarith
  have : cellSize rootSz rl ^ 2 ≤ cellSize rootSz rl := by nlinarith
  have := mul_le_mul_of_nonneg_right this (Nat.cast_nonneg (α := ℝ) n)
  linarith

mutual
theorem recInters_complete (htol : 0 ≤ tol) (h0 : rootSz ≤ 1) (t : ℝ) : ∀ k : Cell n, k.Inside rootSz orig → (∃ s ∈ k.all, linePt p0 p1 t ∈ s.points ∧ 1e-7 < rcond (lineMat p0 p1 s)) →
    t ∈ recInters rcond tol rootSz orig p0 p1 k
  | .mk rl c sims kids, hin, h => by
    rw [Cell.Inside] at hin
    obtain ⟨s, hs, ht, hr⟩ := h
    rw [recInters, if_pos (cell_hit rootSz orig p0 p1 h0 rl c s (hin.1 s hs) (line_ne rcond hrc p0 p1 s hr) t ht)]
    rw [Cell.all] at hs
    rcases List.mem_append.1 hs with hs | hs
    · exact List.mem_append_left _ (List.mem_flatMap.2 ⟨s, hs, interSim_complete rcond hrc tol p0 p1 htol s t ht hr⟩)
    · exact List.mem_append_right _ (recIntersList_complete htol h0 t kids hin.2 ⟨s, hs, ht, hr⟩)
theorem recIntersList_complete (htol : 0 ≤ tol) (h0 : rootSz ≤ 1) (t : ℝ) : ∀ ks : List (Cell n), Cell.InsideList rootSz orig ks →
    (∃ s ∈ Cell.allList ks, linePt p0 p1 t ∈ s.points ∧ 1e-7 < rcond (lineMat p0 p1 s)) → t ∈ recIntersList rcond tol rootSz orig p0 p1 ks
  | [], _, h => by simp [Cell.allList] at h
  | k :: ks, hin, h => by
    rw [Cell.InsideList] at hin
    obtain ⟨s, hs, h⟩ := h
    rw [Cell.allList] at hs
    rw [recIntersList]
    rcases List.mem_append.1 hs with hs | hs
    · exact List.mem_append_left _ (recInters_complete htol h0 t k hin.1 ⟨s, hs, h⟩)
    · exact List.mem_append_right _ (recIntersList_complete htol h0 t ks hin.2 ⟨s, hs, h⟩)
end

mutual
theorem recInters_sound (t : ℝ) : ∀ k : Cell n, t ∈ recInters rcond tol rootSz orig p0 p1 k → ∃ s ∈ k.all, ∃ w : Fin n → ℝ,
    (∀ j, j ≠ 0 → -tol ≤ w j) ∧ ∑ j ∈ univ.erase 0, w j ≤ 1 + tol ∧ linePt p0 p1 t = s 0 + ∑ j ∈ univ.erase 0, w j • (s j - s 0)
  | .mk rl c sims kids, h => by
    rw [recInters] at h
    rw [Cell.all]
    split at h
    · rcases List.mem_append.1 h with h | h
      · obtain ⟨s, hs, h⟩ := List.mem_flatMap.1 h
        exact ⟨s, List.mem_append_left _ hs, interSim_sound rcond hrc tol p0 p1 s t h⟩
      · obtain ⟨s, hs, h⟩ := recIntersList_sound t kids h
        exact ⟨s, List.mem_append_right _ hs, h⟩
    · simp at h
theorem recIntersList_sound (t : ℝ) : ∀ ks : List (Cell n), t ∈ recIntersList rcond tol rootSz orig p0 p1 ks → ∃ s ∈ Cell.allList ks, ∃ w : Fin n → ℝ,
    (∀ j, j ≠ 0 → -tol ≤ w j) ∧ ∑ j ∈ univ.erase 0, w j ≤ 1 + tol ∧ linePt p0 p1 t = s 0 + ∑ j ∈ univ.erase 0, w j • (s j - s 0)
  | [], h => by simp [recIntersList] at h
  | k :: ks, h => by
    rw [recIntersList] at h
    rw [Cell.allList]
    rcases List.mem_append.1 h with h | h
    · obtain ⟨s, hs, h⟩ := recInters_sound t k h
      exact ⟨s, List.mem_append_left _ hs, h⟩
    · obtain ⟨s, hs, h⟩ := recIntersList_sound t ks h
      exact ⟨s, List.mem_append_right _ hs, h⟩
end
end

/-- Intersections with a sphere are exactly the parameters of the points of the line on it. -/
theorem sphere_inters (c : V n) (r : ℝ) (hr : 0 ≤ r) (p0 p1 : V n) (hd : p1 ≠ p0) (t : ℝ) : t ∈ sphereIntersections c r p0 p1 ↔ ‖linePt p0 p1 t - c‖ = r := by
  have hd0 : p1 - p0 ≠ 0 := sub_ne_zero.2 hd
  have e : ‖linePt p0 p1 t - c‖ ^ 2 - r * r = ‖p1 - p0‖ ^ 2 * (t * t) + 2 * inner ℝ (p1 - p0) (p0 - c) * t + (‖p0 - c‖ ^ 2 - r * r) := by
    have : linePt p0 p1 t - c = t • (p1 - p0) + (p0 - c) := by rw [linePt]; abel
    rw [this, norm_add_sq_real, norm_smul, inner_smul_left]
    simp only [mul_pow, Real.norm_eq_abs, sq_abs, conj_trivial]; ring
  have hiff : ‖linePt p0 p1 t - c‖ = r ↔ ‖p1 - p0‖ ^ 2 * (t * t) + 2 * inner ℝ (p1 - p0) (p0 - c) * t + (‖p0 - c‖ ^ 2 - r * r) = 0 := by
    rw [← e]
    constructor
    · intro h; rw [h]; ring
    · intro h
      have h2 : ‖linePt p0 p1 t - c‖ ^ 2 = r ^ 2 := by linarith
      exact (pow_left_inj₀ (norm_nonneg _) hr two_ne_zero).1 h2
  rw [hiff, sphereIntersections]
  have ha : ‖p1 - p0‖ ^ 2 ≠ 0 := pow_ne_zero 2 (norm_ne_zero_iff.2 hd0)
  generalize ‖p1 - p0‖ ^ 2 = a at ha ⊢
  generalize 2 * inner ℝ (p1 - p0) (p0 - c) = b
  generalize ‖p0 - c‖ ^ 2 - r * r = cc
  split
  · rename_i hneg
    simp only [List.not_mem_nil, false_iff]
    refine quadratic_ne_zero_of_discrim_ne_sq (fun s => ?_) t
    rw [discrim]
    nlinarith [sq_nonneg s]
  · rename_i hneg
    split
    · rename_i h0
      rw [List.mem_singleton, quadratic_eq_zero_iff_of_discrim_eq_zero ha (by rw [discrim]; linarith)]
      rw [div_div]
    · rename_i h0
      have hd' : 0 ≤ b * b - 4 * a * cc := not_lt.1 hneg
      rw [quadratic_eq_zero_iff ha (s := √(b * b - 4 * a * cc)) (by rw [discrim, Real.mul_self_sqrt hd']; ring)]
      simp only [List.mem_cons, List.not_mem_nil, or_false, div_div]
      exact or_comm

section
variable [NeZero n] (huge : ℝ) (rcond : Matrix (Fin n) (Fin n) ℝ → ℝ) (hrc : ∀ A, 1e-7 < rcond A → IsUnit A.det) (p0 p1 : V n) (hd : p1 ≠ p0) (t : ℝ)
include hrc hd

mutual
/-- No intersection is missed if the bounding cubes have an edge of at most 1. Missing because false (`intersections_refuted`): larger geometries. -/
theorem intersections_complete_partial : ∀ g : Geom n, g.Constructed huge → g.Small → g.Hit rcond p0 p1 t → t ∈ g.intersections rcond p0 p1
  | .sphere c r, hc, _, h => by
    rw [Geom.Constructed] at hc
    rw [Geom.Hit] at h
    rw [Geom.intersections]
    exact (sphere_inters c r hc p0 p1 hd t).2 h
  | .simplices g tol, hc, hs, h => by
    rw [Geom.Constructed] at hc
    obtain ⟨fuel, hf⟩ := hc
    obtain ⟨_, h1, h2⟩ := make_spec huge fuel g.sims g hf
    rw [Geom.Small] at hs
    rw [Geom.Hit] at h
    obtain ⟨s, hs', h⟩ := h
    rw [Geom.intersections, SGeom.intersections]
    exact recInters_complete rcond hrc tol g.rootSz g.orig p0 p1 hs.2 hs.1 t g.tree h1 ⟨s, (h2 s).2 hs', h⟩
  | .compound comps, hc, hs, h => by
    rw [Geom.Constructed] at hc
    rw [Geom.Small] at hs
    rw [Geom.Hit] at h
    rw [Geom.intersections]
    exact intersectionsList_complete comps hc hs h
theorem intersectionsList_complete : ∀ gs : List (Geom n), Geom.ConstructedList huge gs → Geom.SmallList gs → Geom.HitList rcond p0 p1 t gs → t ∈ Geom.intersectionsList rcond p0 p1 gs
  | [], _, _, h => by rw [Geom.HitList] at h; exact h.elim
  | g :: gs, hc, hs, h => by
    rw [Geom.ConstructedList] at hc
    rw [Geom.SmallList] at hs
    rw [Geom.HitList] at h
    rw [Geom.intersectionsList]
    rcases h with h | h
    · exact List.mem_append_left _ (intersections_complete_partial g hc.1 hs.1 h)
    · exact List.mem_append_right _ (intersectionsList_complete gs hc.2 hs.2 h)
end

mutual
/-- Everything reported is an intersection, up to the gap tolerance. -/
theorem intersections_sound : ∀ g : Geom n, g.Constructed huge → t ∈ g.intersections rcond p0 p1 → g.NearHit p0 p1 t
  | .sphere c r, hc, h => by
    rw [Geom.Constructed] at hc
    rw [Geom.intersections] at h
    rw [Geom.NearHit]
    exact (sphere_inters c r hc p0 p1 hd t).1 h
  | .simplices g tol, hc, h => by
    rw [Geom.Constructed] at hc
    obtain ⟨fuel, hf⟩ := hc
    obtain ⟨_, h1, h2⟩ := make_spec huge fuel g.sims g hf
    rw [Geom.intersections, SGeom.intersections] at h
    rw [Geom.NearHit]
    obtain ⟨s, hs, h⟩ := recInters_sound rcond hrc tol g.rootSz g.orig p0 p1 t g.tree h
    exact ⟨s, (h2 s).1 hs, h⟩
  | .compound comps, hc, h => by
    rw [Geom.Constructed] at hc
    rw [Geom.intersections] at h
    rw [Geom.NearHit]
    exact intersectionsList_sound comps hc h
theorem intersectionsList_sound : ∀ gs : List (Geom n), Geom.ConstructedList huge gs → t ∈ Geom.intersectionsList rcond p0 p1 gs → Geom.NearHitList p0 p1 t gs
  | [], _, h => by simp [Geom.intersectionsList] at h
  | g :: gs, hc, h => by
    rw [Geom.ConstructedList] at hc
    rw [Geom.intersectionsList] at h
    rw [Geom.NearHitList]
    rcases List.mem_append.1 h with h | h
    · exact Or.inl (intersections_sound g hc.1 h)
    · exact Or.inr (intersectionsList_sound gs hc.2 h)
end
end

/-! ## The constructor returns -/

theorem distribute_length (rootSz : ℝ) (orig : Fin n → ℝ) (rl : Nat) : ∀ (cs : List (Fin n → Int)) (sims : List (Sim n)),
    ∀ k ∈ (distribute rootSz orig rl cs sims).1, k.2.length ≤ sims.length
  | [], sims, k, hk => by simp [distribute] at hk
  | c :: cs, sims, k, hk => by
    rw [distribute] at hk
    rcases List.mem_cons.1 hk with rfl | hk
    · exact List.length_filter_le _ _
    · exact (distribute_length rootSz orig rl cs _ k hk).trans (List.length_filter_le _ _)

theorem mapM_ok {α β : Type} (f : α → Option β) : ∀ l : List α, (∀ x ∈ l, ∃ y, f x = some y) → ∃ ys, l.mapM f = some ys
  | [], _ => ⟨[], by simp⟩
  | x :: l, h => by
    obtain ⟨y, hy⟩ := h x List.mem_cons_self
    obtain ⟨ys, hys⟩ := mapM_ok f l fun z hz => h z (List.mem_cons_of_mem _ hz)
    exact ⟨y :: ys, by rw [List.mapM_cons, hy, hys]; rfl⟩

theorem sort_returns (rootSz : ℝ) (orig : Fin n → ℝ) (δ : ℝ) : ∀ (k rl : Nat) (c : Fin n → Int) (sims : List (Sim n)), rootSz / 2 ^ (rl + k + 1) ≤ δ →
    (∀ s ∈ sims, ∃ i j d, δ ≤ s i d - s j d) → ∃ t, sortSimplices rootSz orig (k + 1) rl c sims = some t
  | k, rl, c, sims, hδ, hs => by
    rw [sortSimplices]
    obtain ⟨h1, h2⟩ := distribute_spec rootSz orig (rl + 1) ((List.range (2 ^ n)).map fun i => Hexed.Tree.childCoords c i) sims
    obtain ⟨ys, hys⟩ := mapM_ok (fun x : (Fin n → Int) × List (Sim n) => if x.2.length > 100 then sortSimplices rootSz orig k (rl + 1) x.1 x.2 else some (Cell.mk (rl + 1) x.1 x.2 []))
      (distribute rootSz orig (rl + 1) ((List.range (2 ^ n)).map fun i => Hexed.Tree.childCoords c i) sims).1 (by
        intro x hx
        beta_reduce
        split
        · rename_i hlong
          match k, hδ with
          | 0, hδ =>
            exfalso
            obtain ⟨s, hsx⟩ := List.exists_mem_of_length_pos (show 0 < x.2.length by omega)
            obtain ⟨hin, hmem⟩ := h1 x hx s hsx
            obtain ⟨i, j, d, hij⟩ := hs s hmem
            have g1 := (hin i d).2
            have g2 := (hin j d).1
            have : cellSize rootSz (rl + 1) ≤ δ := hδ
            linarith
          | k + 1, hδ =>
            refine sort_returns rootSz orig δ k (rl + 1) x.1 x.2 ?_ (fun s hsx => hs s (h1 x hx s hsx).2)
            rwa [show rl + 1 + k + 1 = rl + (k + 1) + 1 by omega]
        · exact ⟨_, rfl⟩)
    exact ⟨_, by rw [hys]; rfl⟩

/-- If no simplex has all its vertices in the same point, the constructor returns. -/
theorem make_returns [NeZero n] (huge : ℝ) (sims : List (Sim n)) (h : ∀ s ∈ sims, ∃ i j, s i ≠ s j) : ∃ fuel g, SGeom.make huge fuel sims = some g := by
  have hδ : ∃ δ : ℝ, 0 < δ ∧ ∀ s ∈ sims, ∃ i j d, δ ≤ s i d - s j d := by
    induction sims with
    | nil => exact ⟨1, one_pos, by simp⟩
    | cons s sims ih =>
      obtain ⟨δ, h0, hδ⟩ := ih fun x hx => h x (List.mem_cons_of_mem _ hx)
      obtain ⟨i, j, hij⟩ := h s List.mem_cons_self
      have hne : ∃ d, s i d ≠ s j d := by
        by_contra hno
        push Not at hno
        exact hij (by ext d; exact hno d)
      obtain ⟨d, hd⟩ := hne
      have hs : ∃ i j d, 0 < s i d - s j d := by
        rcases lt_or_gt_of_ne hd with h | h
        · exact ⟨j, i, d, by linarith⟩
        · exact ⟨i, j, d, by linarith⟩
      obtain ⟨i, j, d, hpos⟩ := hs
      refine ⟨min δ (s i d - s j d), lt_min h0 hpos, fun x hx => ?_⟩
      rcases List.mem_cons.1 hx with rfl | hx
      · exact ⟨i, j, d, min_le_right _ _⟩
      · obtain ⟨i', j', d', h'⟩ := hδ x hx
        exact ⟨i', j', d', (min_le_left _ _).trans h'⟩
  obtain ⟨δ, h0, hδ⟩ := hδ
  obtain ⟨k, hk⟩ : ∃ k : Nat, boxSize huge sims / 2 ^ (0 + k + 1) ≤ δ := by
    obtain ⟨k, hk⟩ := pow_unbounded_of_one_lt (boxSize huge sims / δ) (one_lt_two)
    refine ⟨k, ?_⟩
    rw [div_le_iff₀ (by positivity)]
    rw [div_lt_iff₀ h0] at hk
    have : (2 : ℝ) ^ (0 + k + 1) = 2 * 2 ^ k := by rw [zero_add, pow_succ]; ring
    rw [this]
    have := mul_pos (pow_pos two_pos k : (0 : ℝ) < 2 ^ k) h0
    linarith
  obtain ⟨t, ht⟩ := sort_returns (boxSize huge sims) (boxLo huge sims) δ k 0 (fun _ => 0) sims hk hδ
  exact ⟨k + 1, _, by rw [SGeom.make, ht]; rfl⟩

/-! ## Counterexample and examples -/

theorem make_small [NeZero n] (huge : ℝ) (sims : List (Sim n)) (h : sims.length ≤ 100) :
    ∃ rest kids, SGeom.make huge 1 sims = some ⟨sims, boxSize huge sims, boxLo huge sims, .mk 0 (fun _ => 0) rest kids⟩ := by
  rw [SGeom.make, sortSimplices]
  obtain ⟨ys, hys⟩ := mapM_ok (fun x : (Fin n → Int) × List (Sim n) => if x.2.length > 100 then sortSimplices (boxSize huge sims) (boxLo huge sims) 0 (0 + 1) x.1 x.2 else some (Cell.mk (0 + 1) x.1 x.2 []))
    (distribute (boxSize huge sims) (boxLo huge sims) (0 + 1) ((List.range (2 ^ n)).map fun i => Hexed.Tree.childCoords (fun _ => 0) i) sims).1 (by
      intro x hx
      have := distribute_length _ _ _ _ _ x hx
      exact ⟨_, if_neg (by omega)⟩)
  exact ⟨_, ys, by rw [hys]; rfl⟩

/-- A point in the plane. -/
noncomputable def pt (x y : ℝ) : V 2 := WithLp.toLp 2 ![x, y]

/-- A segment of length `L` along the diagonal. -/
noncomputable def diagonal (L : ℝ) : Sim 2 := ![pt 0 0, pt L L]

theorem diagonal_box (L huge : ℝ) (hL : 0 ≤ L) (hh : L ≤ huge) : boxLo huge [diagonal L] = (fun _ => 0) ∧ boxSize huge [diagonal L] = L := by
  have h0 : ∀ d, diagonal L 0 d = 0 := fun d => by fin_cases d <;> rfl
  have h1 : ∀ d, diagonal L 1 d = L := fun d => by fin_cases d <;> rfl
  have hlo : ∀ d, boxLo huge [diagonal L] d = 0 := fun d => by
    simp only [boxLo, List.foldl_cons, List.foldl_nil, List.ofFn_succ, List.ofFn_zero]
    show min (min huge (diagonal L 0 d)) (diagonal L 1 d) = 0
    rw [h0, h1, min_eq_right (hL.trans hh), min_eq_left hL]
  have hhi : ∀ d, boxHi huge [diagonal L] d = L := fun d => by
    simp only [boxHi, List.foldl_cons, List.foldl_nil, List.ofFn_succ, List.ofFn_zero]
    show max (max (-huge) (diagonal L 0 d)) (diagonal L 1 d) = L
    rw [h0, h1, max_eq_right (show -huge ≤ 0 by linarith), max_eq_right hL]
  refine ⟨funext hlo, ?_⟩
  simp only [boxSize, hlo, hhi, List.ofFn_succ, List.ofFn_zero, List.foldl_cons, List.foldl_nil, sub_zero, max_self]

/-- The geometry consisting of one diagonal of length 100: the vertical line through (1, 0) meets it in (1, 1), but no intersection is reported. -/
theorem intersections_refuted (rcond : Matrix (Fin 2) (Fin 2) ℝ → ℝ) (tol : ℝ) : ∃ (g : SGeom 2), (∃ fuel, SGeom.make 1000 fuel g.sims = some g) ∧
    (∃ s ∈ g.sims, linePt (pt 1 0) (pt 1 1) 1 ∈ s.points) ∧ g.intersections rcond tol (pt 1 0) (pt 1 1) = [] := by
  obtain ⟨rest, kids, hm⟩ := make_small 1000 [diagonal 100] (by simp)
  obtain ⟨hlo, hsz⟩ := diagonal_box 100 1000 (by norm_num) (by norm_num)
  refine ⟨⟨[diagonal 100], boxSize 1000 [diagonal 100], boxLo 1000 [diagonal 100], .mk 0 (fun _ => 0) rest kids⟩, ⟨1, hm⟩, ⟨diagonal 100, List.mem_singleton.2 rfl, ?_⟩, ?_⟩
  · rw [mem_points]
    refine ⟨![99 / 100, 1 / 100], fun i => by fin_cases i <;> norm_num, by rw [Fin.sum_univ_two]; norm_num, ?_⟩
    rw [Fin.sum_univ_two]
    ext d
    fin_cases d
    · show (1 : ℝ) + 1 * (1 - 1) = 99 / 100 * 0 + 1 / 100 * 100; norm_num
    · show (0 : ℝ) + 1 * (1 - 0) = 99 / 100 * 0 + 1 / 100 * 100; norm_num
  · rw [SGeom.intersections, recInters, if_neg]
    simp only [hsz, hlo]
    rw [intersects]
    have hd : pt 1 1 - pt 1 0 = pt 0 1 := by ext d; fin_cases d <;> norm_num [pt]
    have hc : cellCenter 100 (fun _ => 0) 0 (fun _ => 0) - pt 1 0 = pt 49 50 := by ext d; fin_cases d <;> norm_num [pt, cellCenter, cellPos, cellSize]
    rw [hd, hc]
    have hne : pt 0 1 ≠ 0 := fun h => by
      have := congrArg (fun v : V 2 => v 1) h
      simp [pt] at this
    rw [if_neg hne, decide_eq_true_iff, not_le]
    have hi : inner ℝ (pt 49 50) (pt 0 1) = (50 : ℝ) := by simp [pt, PiLp.inner_apply, Fin.sum_univ_two]
    have hn : ‖pt 0 1‖ ^ 2 = (1 : ℝ) := by simp [pt, EuclideanSpace.norm_sq_eq, Fin.sum_univ_two]
    rw [hi, hn]
    have he : pt 49 50 - (50 / 1 : ℝ) • pt 0 1 = pt 49 0 := by ext d; fin_cases d <;> norm_num [pt]
    rw [he]
    have : ‖pt 49 0‖ ^ 2 = (2401 : ℝ) := by simp [pt, EuclideanSpace.norm_sq_eq, Fin.sum_univ_two]; norm_num
    rw [this, cellSize]
    norm_num

/-- A circle and a diagonal of length 1, put together. -/
noncomputable def exGeom (g : SGeom 2) : Geom 2 := .compound [.sphere (pt 3 0) 1, .compound [], .simplices g (1 / 1000000)]

theorem exGeom_ok : ∃ g : SGeom 2, g.sims = [diagonal 1] ∧ (exGeom g).Constructed 1000 ∧ (exGeom g).Small := by
  obtain ⟨rest, kids, hm⟩ := make_small 1000 [diagonal 1] (by simp)
  obtain ⟨hlo, hsz⟩ := diagonal_box 1 1000 (by norm_num) (by norm_num)
  refine ⟨⟨[diagonal 1], boxSize 1000 [diagonal 1], boxLo 1000 [diagonal 1], .mk 0 (fun _ => 0) rest kids⟩, rfl, ?_, ?_⟩
  · simp only [exGeom, Geom.Constructed, Geom.ConstructedList, and_true, true_and]
    exact ⟨by norm_num, 1, hm⟩
  · simp only [exGeom, Geom.Small, Geom.SmallList, and_true, true_and, hsz]
    norm_num

/-- The hypotheses of `nearest_2d_partial` hold for it with a small guess, which has to be doubled. -/
example : ∃ g : SGeom 2, ∃ nr, (exGeom g).nearest 1000 cand2 (pt 0 5) 1000 (1 / 8) = some nr ∧ IsNearest (exGeom g).points (pt 0 5) 1000 nr.point := by
  obtain ⟨g, hg, hc, hs⟩ := exGeom_ok
  refine ⟨g, nearest_2d_partial 1000 (exGeom g) hc (pt 0 5) ?_ 1000 (1 / 8) (by norm_num) le_rfl (by norm_num)⟩
  simp only [exGeom, Geom.IsCenter, Geom.IsCenterList, or_false]
  intro h
  have := congrArg (fun v : V 2 => v 0) h
  norm_num [pt] at this

/-- The vertical line through (1/2, 0) hits the diagonal: the hypotheses of `intersections_complete_partial` hold with `rcond` the absolute value of the determinant. -/
example : ∃ g : SGeom 2, (1 / 2 : ℝ) ∈ (exGeom g).intersections (fun A => |A.det|) (pt (1 / 2) 0) (pt (1 / 2) 1) := by
  obtain ⟨g, hg, hc, hs⟩ := exGeom_ok
  refine ⟨g, intersections_complete_partial 1000 (fun A => |A.det|) ?_ (pt (1 / 2) 0) (pt (1 / 2) 1) ?_ (1 / 2) (exGeom g) hc hs ?_⟩
  · intro A h
    rw [isUnit_iff_ne_zero]
    intro h0
    rw [h0, abs_zero] at h
    norm_num at h
  · intro h
    have := congrArg (fun v : V 2 => v 1) h
    norm_num [pt] at this
  · simp only [exGeom, Geom.Hit, Geom.HitList, or_false, false_or]
    refine Or.inr ⟨diagonal 1, by rw [hg]; exact List.mem_singleton.2 rfl, ?_, ?_⟩
    · rw [mem_points]
      refine ⟨![1 / 2, 1 / 2], fun i => by fin_cases i <;> norm_num, by rw [Fin.sum_univ_two]; norm_num, ?_⟩
      rw [Fin.sum_univ_two]
      ext d
      fin_cases d
      · show (1 / 2 : ℝ) + 1 / 2 * (1 / 2 - 1 / 2) = 1 / 2 * 0 + 1 / 2 * 1; norm_num
      · show (0 : ℝ) + 1 / 2 * (1 - 0) = 1 / 2 * 0 + 1 / 2 * 1; norm_num
    · rw [Matrix.det_fin_two]
      have e00 : lineMat (pt (1 / 2) 0) (pt (1 / 2) 1) (diagonal 1) 0 0 = -(1 / 2 - 1 / 2) := rfl
      have e01 : lineMat (pt (1 / 2) 0) (pt (1 / 2) 1) (diagonal 1) 0 1 = 1 - 0 := rfl
      have e10 : lineMat (pt (1 / 2) 0) (pt (1 / 2) 1) (diagonal 1) 1 0 = -(1 - 0) := rfl
      have e11 : lineMat (pt (1 / 2) 0) (pt (1 / 2) 1) (diagonal 1) 1 1 = 1 - 0 := rfl
      rw [e00, e01, e10, e11]
      norm_num

/-- A triangle in space: the constructor returns and `nearest_3d_partial` applies to what it makes. -/
example : ∃ g : SGeom 3, ∃ nr, (Geom.simplices g 0).nearest 1000 cand3 (WithLp.toLp 2 ![3, 1, 4]) 1000 1000 = some nr ∧
    IsNearest {x | ∃ s ∈ g.sims, x ∈ s.points} (WithLp.toLp 2 ![3, 1, 4]) 1000 nr.point := by
  obtain ⟨fuel, g, hg⟩ := make_returns 1000 [(![WithLp.toLp 2 ![0, 0, 0], WithLp.toLp 2 ![1, 0, 0], WithLp.toLp 2 ![0, 1, 0]] : Sim 3)] (by
    intro s hs
    rw [List.mem_singleton.1 hs]
    refine ⟨0, 1, fun h => ?_⟩
    have := congrArg (fun v : V 3 => v 0) h
    simp at this)
  have hsims := (make_spec _ _ _ _ hg).1
  obtain ⟨nr, h1, h2⟩ := nearest_3d_partial 1000 (.simplices g 0) (by rw [Geom.Constructed]; exact ⟨fuel, by rw [hsims]; exact hg⟩) (WithLp.toLp 2 ![3, 1, 4])
    (by rw [Geom.IsCenter]; exact not_false) 1000 1000 (by norm_num) le_rfl (by norm_num)
  rw [Geom.points] at h2
  exact ⟨g, nr, h1, h2⟩

end Hexed.Geom
