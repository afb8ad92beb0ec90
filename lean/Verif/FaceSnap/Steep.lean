import Verif.FaceSnap.Props
import Mathlib.Tactic.LinearCombination
set_option autoImplicit false
set_option linter.unusedVariables false

/-!
# C86: when a problem is reported, and what happens then
-/

namespace Hexed.FaceSnap
open Hexed.Spatial Hexed.Metric Hexed.Tensor Hexed.Split
open Hexed.Basis (ell)
noncomputable section

theorem isSlope_iff {b : Basis.Nodes ℝ} (hb : b.Distinct) (v : Nat → ℝ) {i : Nat} (hi : i < b.n) (s : ℝ) : IsSlope b v i s ↔ s = ∑ j ∈ Finset.range b.n, Basis.derivative b i j * v j := by
  constructor
  · rintro ⟨p, h1, h2, h3⟩
    rw [← h3, ← Basis.derivative_exact hb p h1 hi]
    exact Finset.sum_congr rfl fun j hj => by rw [h2 j (Finset.mem_range.1 hj)]
  · rintro rfl
    have hdeg : (∑ j ∈ Finset.range b.n, Polynomial.C (v j) * ell b j).degree < b.n := by
      refine lt_of_le_of_lt (Polynomial.degree_sum_le _ _) ?_
      rw [Finset.sup_lt_iff (by exact WithBot.bot_lt_coe _)]
      intro j hj
      rw [← Polynomial.smul_eq_C_mul]
      exact lt_of_le_of_lt (Polynomial.degree_smul_le _ _) (Basis.ell_degree_lt hb (Finset.mem_range.1 hj))
    have hev : ∀ j < b.n, (∑ j ∈ Finset.range b.n, Polynomial.C (v j) * ell b j).eval (b.node j) = v j := by
      intro j hj
      rw [Polynomial.eval_finset_sum, Finset.sum_eq_single j]
      · rw [Polynomial.eval_mul, Polynomial.eval_C, Basis.ell_node hb hj hj, if_pos rfl, mul_one]
      · intro k hk hkj
        rw [Polynomial.eval_mul, Basis.ell_node hb hj (Finset.mem_range.1 hk), if_neg (by omega), mul_zero]
      · intro h; exact absurd (Finset.mem_range.2 hj) h
    refine ⟨_, hdeg, hev, ?_⟩
    rw [← Basis.derivative_exact hb _ hdeg hi]
    exact Finset.sum_congr rfl fun j hj => by rw [hev j (Finset.mem_range.1 hj)]

/-- The test of the derivatives. -/
theorem derivatives_eq {b : Basis.Nodes ℝ} (hb : b.Distinct) (hn : 1 ≤ b.n) (u : Nat → ℝ) {nd : Nat} (hnd : nd = 2 ∨ nd = 3) (a : Vec ℝ) (ha : a.size = b.n ^ (nd - 1)) :
    ∃ ds, derivatives b u nd a = some ds ∧ (tooSteep ds = true ↔ Steep b nd a.val) := by
  have any_iff : ∀ v : Vec ℝ, ((List.range v.size).any fun j => decide (1 < |v.val j|)) = true ↔ ∃ j < v.size, 1 < |v.val j| := by
    intro v
    rw [List.any_eq_true]
    simp [List.mem_range]
  obtain rfl | rfl := hnd
  · obtain ⟨d0, h1, h2, h3⟩ := dimension_sum (diffMat b) u a 0 1 hn (by rw [ha]; simp [diffMat])
    have h2' : d0.size = b.n := by rw [h2]; simp [diffMat]
    refine ⟨[d0], by rw [derivatives, if_neg (by norm_num), h1]; rfl, ?_⟩
    rw [tooSteep, List.any_cons, List.any_nil, Bool.or_false, any_iff, Steep, h2']
    have val : ∀ i < b.n, IsSlope b a.val i (d0.val i) := by
      intro i hi
      rw [isSlope_iff hb _ hi]
      have := h3 0 i 0 (by simp) hi (by norm_num)
      simpa [diffMat] using this
    constructor
    · rintro ⟨i, hi, h⟩
      exact Or.inl ⟨rfl, i, hi, _, val i hi, h⟩
    · rintro (⟨_, i, hi, s, h4, h5⟩ | ⟨h, _⟩)
      · have := val i hi
        rw [isSlope_iff hb _ hi] at this h4
        exact ⟨i, hi, by rw [this, ← h4]; exact h5⟩
      · omega
  · have hsz : a.size = b.n ^ 2 := ha
    obtain ⟨d0, h1, h2, h3⟩ := dimension_sum (diffMat b) u a 0 b.n hn (by rw [hsz]; simp [diffMat]; ring)
    have h2' : d0.size = b.n ^ 2 := by rw [h2]; simp [diffMat]; ring
    obtain ⟨d1, k1, k2, k3⟩ := dimension_sum (diffMat b) u a 1 1 hn (by rw [hsz]; simp [diffMat])
    have k2' : d1.size = b.n ^ 2 := by rw [k2]; simp [diffMat]; ring
    obtain ⟨d2, m1, m2, m3⟩ := dimension_sum (diffMat b) u d0 1 1 hn (by rw [h2']; simp [diffMat])
    have m2' : d2.size = b.n ^ 2 := by rw [m2]; simp [diffMat]; ring
    refine ⟨[d0, d1, d2], by rw [derivatives, if_neg (by norm_num), h1]; simp only [Option.bind_some]; rw [if_pos trivial, k1]; simp only [Option.bind_some]; rw [m1]; rfl, ?_⟩
    rw [tooSteep, List.any_cons, List.any_cons, List.any_cons, List.any_nil, Bool.or_false, Bool.or_eq_true, Bool.or_eq_true, any_iff, any_iff, any_iff, Steep, h2', k2', m2']
    have split : ∀ k < b.n ^ 2, ∃ i < b.n, ∃ j < b.n, k = i * b.n + j := fun k hk =>
      ⟨k / b.n, by rw [Nat.div_lt_iff_lt_mul (by omega), ← pow_two]; exact hk, k % b.n, Nat.mod_lt _ (by omega), by rw [Nat.mul_comm]; exact (Nat.div_add_mod k b.n).symm⟩
    have lt : ∀ i < b.n, ∀ j < b.n, i * b.n + j < b.n ^ 2 := by
      intro i hi j hj
      rw [pow_two]
      calc i * b.n + j < i * b.n + b.n := by omega
        _ = (i + 1) * b.n := by ring
        _ ≤ b.n * b.n := Nat.mul_le_mul_right _ hi
    have v0 : ∀ i < b.n, ∀ j < b.n, IsSlope b (fun k => a.val (k * b.n + j)) i (d0.val (i * b.n + j)) := by
      intro i hi j hj
      rw [isSlope_iff hb _ hi]
      have := h3 0 i j (by simp) hi hj
      simpa [diffMat] using this
    have v1 : ∀ i < b.n, ∀ j < b.n, IsSlope b (fun k => a.val (i * b.n + k)) j (d1.val (i * b.n + j)) := by
      intro i hi j hj
      rw [isSlope_iff hb _ hj]
      have := k3 i j 0 (by simpa [diffMat] using hi) hj (by norm_num)
      simpa [diffMat] using this
    have v2 : ∀ i < b.n, ∀ j < b.n, IsSlope b (fun k => d0.val (i * b.n + k)) j (d2.val (i * b.n + j)) := by
      intro i hi j hj
      rw [isSlope_iff hb _ hj]
      have := m3 i j 0 (by simpa [diffMat] using hi) hj (by norm_num)
      simpa [diffMat] using this
    constructor
    · rintro (⟨k, hk, h⟩ | ⟨k, hk, h⟩ | ⟨k, hk, h⟩) <;> obtain ⟨i, hi, j, hj, rfl⟩ := split k hk
      · exact Or.inr ⟨rfl, i, hi, j, hj, _, h, Or.inl (v0 i hi j hj)⟩
      · exact Or.inr ⟨rfl, i, hi, j, hj, _, h, Or.inr (Or.inl (v1 i hi j hj))⟩
      · exact Or.inr ⟨rfl, i, hi, j, hj, _, h, Or.inr (Or.inr ⟨_, fun k hk => v0 i hi k hk, v2 i hi j hj⟩)⟩
    · rintro (⟨h, _⟩ | ⟨_, i, hi, j, hj, s, h, h5 | h5 | ⟨w, h5, h6⟩⟩)
      · omega
      · have := v0 i hi j hj
        rw [isSlope_iff hb _ hi] at this h5
        exact Or.inl ⟨_, lt i hi j hj, by rw [this, ← h5]; exact h⟩
      · have := v1 i hi j hj
        rw [isSlope_iff hb _ hj] at this h5
        exact Or.inr (Or.inl ⟨_, lt i hi j hj, by rw [this, ← h5]; exact h⟩)
      · have := v2 i hi j hj
        rw [isSlope_iff hb _ hj] at this h6
        refine Or.inr (Or.inr ⟨_, lt i hi j hj, ?_⟩)
        have e : s = d2.val (i * b.n + j) := by
          rw [this, h6]
          refine Finset.sum_congr rfl fun k hk => ?_
          have hk := Finset.mem_range.1 hk
          have h7 := v0 i hi k hk
          have h8 := h5 k hk
          rw [isSlope_iff hb _ hi] at h7 h8
          rw [h8, h7]
        rw [← e]; exact h

theorem wanted_best (sign : Nat) (sects : List ℝ) : Wanted sign sects (bestAdj sign sects).1 := by
  rcases bestAdj_spec sign sects with ⟨h1, h2, h3⟩ | ⟨h1, t, ht, h2, h3, h4⟩
  · exact Or.inl ⟨h2, h3⟩
  · refine Or.inr ⟨by rw [h2, ← h3]; exact h1, ⟨t, ht, h2⟩, fun s hs => by rw [h2]; exact h4 s hs⟩

theorem far_best (sign : Nat) (sects : List ℝ) : 999 / 1000 < (bestAdj sign sects).2 ↔ ∀ s ∈ sects, 999 / 1000 < |s - (sign : ℝ)| := by
  rcases bestAdj_spec sign sects with ⟨h1, h2, h3⟩ | ⟨h1, t, ht, h2, h3, h4⟩
  · rw [h1]
    exact ⟨fun _ s hs => lt_of_lt_of_le (by norm_num) (h3 s hs), fun _ => by norm_num⟩
  · rw [h3]
    exact ⟨fun h s hs => lt_of_lt_of_le h (h4 s hs), fun h => h t ht⟩

section
variable {b : Basis.Nodes ℝ} (hb : b.Distinct) (hn : 2 ≤ b.n) {lob : Nat → Basis.Nodes ℝ} (hl : IsLobatto lob) (u : Nat → ℝ) (g : Geometry) {nd : Nat} (hnd : nd = 2 ∨ nd = 3) {d : Nat} (hd : d < nd)
  {sign : Nat} (hs : sign < 2) (e : Elem) (he : e.deformed = true ∧ e.needs = true) (hw : OnlyWarped b.n nd (2 * d + sign) e.adj)

include hb hn hl hnd hd hs he hw in
/-- C86: a problem is reported exactly if a sample point has no intersection nearer than 0.999 times the length of the element, or if the wanted adjustments have a derivative greater than 1. If
no problem is reported, the adjustments are the wanted ones. -/
theorem problem_exact {e' : Elem} (h : snapNodeAdj b lob u g nd e d sign = .ok e') :
    ∃ v a : Nat → ℝ,
      (∀ q : Fin (nd - 1) → Fin (lob (max 2 (b.n - 1))).n, Wanted sign (g.intersections (corner nd d 0 e (sample _ q)) (corner nd d 1 e (sample _ q))) (v (idx q))) ∧
      (∀ c : Fin (nd - 1) → Fin b.n, a (idx c) = through (lob (max 2 (b.n - 1))) v (sample b c)) ∧
      (e'.problem = true ↔ (∃ q : Fin (nd - 1) → Fin (lob (max 2 (b.n - 1))).n, ∀ s ∈ g.intersections (corner nd d 0 e (sample _ q)) (corner nd d 1 e (sample _ q)), 999 / 1000 < |s - (sign : ℝ)|) ∨
        Steep b nd a) ∧
      (e'.problem = false → ∀ c : Fin (nd - 1) → Fin b.n, e'.adj ((2 * d + sign) * b.n ^ (nd - 1) + idx c) = a (idx c)) := by
  obtain ⟨hl1, hl2⟩ := hl (max 2 (b.n - 1)) (by omega)
  obtain ⟨r, h1, ds, h2, h3⟩ := snap_cases b lob u g nd e d sign (by omega) (by omega) he h
  obtain ⟨a, f, h4, h4', v, h5, h6, h7⟩ := mainAdj_eq hb hn u g hnd hd hs e hw (l := lob (max 2 (b.n - 1))) (by omega) false
  rw [h4] at h1
  injection h1 with h1
  subst h1
  obtain ⟨ds', k1, k2⟩ := derivatives_eq hb (by omega) u hnd a h4'
  rw [k1] at h2
  injection h2 with h2
  subst h2
  have hflag : (f || tooSteep ds') = true ↔ (∃ q : Fin (nd - 1) → Fin (lob (max 2 (b.n - 1))).n, ∀ s ∈ g.intersections (corner nd d 0 e (sample _ q)) (corner nd d 1 e (sample _ q)), 999 / 1000 < |s - (sign : ℝ)|) ∨
        Steep b nd a.val := by
    rw [Bool.or_eq_true, k2, h7]
    simp only [far_best]
  refine ⟨v, a.val, fun q => by rw [h5]; exact wanted_best _ _, h6, ?_, ?_⟩
  · rw [← hflag]
    rcases h3 with ⟨h8, rfl⟩ | ⟨h8, _, a, _, rfl⟩ | ⟨h8, _, rfl⟩ <;> rw [h8] <;> simp [warpFace]
  · intro hp c
    rcases h3 with ⟨h8, rfl⟩ | ⟨h8, _, a, _, rfl⟩ | ⟨h8, _, rfl⟩
    · exact setFace_self _ _ (idx_lt c)
    · cases hp
    · cases hp

include hb hn hnd hd hs he hw in
/-- C86: if a problem is reported and there are at most three nodes per row, the face is the straight one. -/
theorem straight_exact {e' : Elem} (h : snapNodeAdj b lob u g nd e d sign = .ok e') (hp : e'.problem = true) (hn3 : b.n ≤ 3) (x : Fin (nd - 1) → ℝ) (i : Nat) (hi : i < nd) :
    facePoint b nd e' (2 * d + sign) x i = corner nd d sign e x i := by
  obtain ⟨r, h1, ds, h2, h3⟩ := snap_cases b lob u g nd e d sign (by omega) (by omega) he h
  rcases h3 with ⟨h8, rfl⟩ | ⟨h8, _, a, _, rfl⟩ | ⟨h8, _, rfl⟩
  · cases hp
  · omega
  · rw [facePoint_eq hb hn hnd hd hs (warp_unwarped e hw hs _ _) i (Sep.const (N := 1) (by omega) (by omega) 0) (by omega), zero_mul, add_zero, corner, if_pos hi]
    · rfl
    · intro c
      rw [warp_adj, setFace_self _ _ (idx_lt c)]

include hb hn hl hnd hd hs he hw in
/-- C86: the function ends normally if the surface has a nearest point to every point. -/
theorem snap_total (hg : ∀ p s, ∃ y, g.nearest p s = some y) : ∃ e', snapNodeAdj b lob u g nd e d sign = .ok e' := by
  obtain ⟨hl1, hl2⟩ := hl (max 2 (b.n - 1)) (by omega)
  obtain ⟨hl3, hl4⟩ := hl 3 (by omega)
  obtain ⟨a, f, h4, h4', v, h5, h6, h7⟩ := mainAdj_eq hb hn u g hnd hd hs e hw (l := lob (max 2 (b.n - 1))) (by omega) false
  obtain ⟨ds', k1, k2⟩ := derivatives_eq hb (by omega) u hnd a h4'
  rw [snap_unfold b lob u g nd e d sign (by omega) (by omega) he, h4]
  simp only [Out.bind]
  rw [k1]
  simp only [ofTensor]
  split_ifs with c1 c2
  · exact ⟨_, rfl⟩
  · obtain ⟨P0, p1, p2⟩ := sample_points hb u hnd hd hs e hw (by omega) (l := lob 3) (by omega) false 0 (by norm_num)
    obtain ⟨P1, p3, p4⟩ := sample_points hb u hnd hd hs e hw (by omega) (l := lob 3) (by omega) false 1 (by norm_num)
    rw [add_zero] at p1
    have key : ∀ size N, ∃ v, projections g nd sign size P0 P1 N = .ok v := by
      intro size N
      induction N with
      | zero => exact ⟨_, rfl⟩
      | succ N ih =>
        obtain ⟨w, hw⟩ := ih
        obtain ⟨y, hy⟩ := hg (if sign = 0 then P0 N else P1 N) size
        rw [projections, hw]
        simp only [Out.bind]
        rw [hy]
        exact ⟨_, rfl⟩
    obtain ⟨w, hw⟩ := key (warpFace (b.n ^ (nd - 1)) (2 * d + sign) e (fun _ => 0) false).size ((lob 3).n ^ (nd - 1))
    obtain ⟨a', m1, _, m3⟩ := interp_through (b := lob 3) (l := b) (by omega) (by omega) u (by omega : 2 ≤ nd) w
    rw [fallback, p1]
    simp only [Out.bind]
    rw [p3]
    simp only
    rw [hw]
    simp only
    rw [m1]
    exact ⟨_, rfl⟩
  · exact ⟨_, rfl⟩

include hb hl hnd hd hs he hw in
/-- C86: with at least three nodes per row, if no problem is reported then the sample points of the face are points of the surface. -/
theorem snapped_on_surface (hn3 : 3 ≤ b.n) {S : (Nat → ℝ) → Prop} (hg : Sound g S) {e' : Elem} (h : snapNodeAdj b lob u g nd e d sign = .ok e') (hp : e'.problem = false)
    (q : Fin (nd - 1) → Fin (lob (b.n - 1)).n) : S fun i => if i < nd then facePoint b nd e' (2 * d + sign) (sample _ q) i else 0 := by
  obtain ⟨t, ht, _, _, h1⟩ := snapped_exact hb hl u g hnd hd hs e he hw hn3 h hp q
  have := hg _ _ t ht
  convert this using 1
  funext i
  split_ifs with hi
  · exact h1 i hi
  · simp [corner, hi]

end

end
end Hexed.FaceSnap
