import Verif.Contour.Local
import Verif.Contour.Spec
import Mathlib.Tactic.LinearCombination
set_option autoImplicit false
set_option linter.unusedVariables false

/-!
# What belongs to one sample, in three dimensions
-/

open Finset

namespace Hexed.Contour

/-- The boundary of a quadrilateral with vertices in the order of the program (00, 01, 10, 11), as seen by a function of directed edges. -/
def bd3 (g : ℤ → ℤ → ℤ) : List ℤ → ℤ
  | [a, b, c, d] => g a b + g b d + g d c + g c a
  | _ => 0

theorem flip3 {g : ℤ → ℤ → ℤ} (hg : ∀ u v, g u v = -g v u) (l : List ℤ) (h : l.length = 2 ^ (3 - 1)) : bd3 g (flipElem l) = -bd3 g l := by
  match l, h with
  | [a, b, c, d], _ =>
    simp only [flipElem, bd3]
    rw [hg b a, hg a c, hg c d, hg d b]
    ring

theorem elems3 (v : ℕ → ℤ) : elems 3 false ((List.range (3 ^ (3 - 1))).map v) = [[v 0, v 1, v 3, v 4], [v 1, v 2, v 4, v 5], [v 3, v 4, v 6, v 7], [v 4, v 5, v 7, v 8]] := rfl

theorem K3 {g : ℤ → ℤ → ℤ} (hg : ∀ u v, g u v = -g v u) (n i s : ℕ) (v : ℕ → ℤ) (hv : ∀ k, vert 3 n i s k = v k) : K 3 n (bd3 g) i s = (g (v 0) (v 1) + g (v 1) (v 2)) - (g (v 6) (v 7) + g (v 7) (v 8)) + (g (v 2) (v 5) + g (v 5) (v 8)) - (g (v 0) (v 3) + g (v 3) (v 6)) := by
  unfold K
  rw [elems3]
  simp only [hv, bd3, List.map_cons, List.map_nil, List.sum_cons, List.sum_nil]
  rw [hg (v 4) (v 3), hg (v 3) (v 0), hg (v 5) (v 4), hg (v 4) (v 1), hg (v 7) (v 6), hg (v 6) (v 3), hg (v 8) (v 7), hg (v 7) (v 4)]
  ring

def V3 (n s : ℕ) (a b c : ℤ) : ℤ := at' 3 n s fun j => if j = 0 then a else if j = 1 then b else c

theorem vert3_0 (n s v : ℕ) : vert 3 n 0 s v = V3 n s 1 (clamp 3 n s 1 (incr 3 v 0)) (clamp 3 n s 2 (incr 3 v 1)) := by
  rw [vert_eq, V3, at']
  simp [Finset.sum_range_succ, kdim]
  ring
theorem vert3_1 (n s v : ℕ) : vert 3 n 1 s v = V3 n s (clamp 3 n s 0 (incr 3 v 0)) 1 (clamp 3 n s 2 (incr 3 v 1)) := by
  rw [vert_eq, V3, at']
  simp [Finset.sum_range_succ, kdim]
  ring
theorem vert3_2 (n s v : ℕ) : vert 3 n 2 s v = V3 n s (clamp 3 n s 0 (incr 3 v 0)) (clamp 3 n s 1 (incr 3 v 1)) 1 := by
  rw [vert_eq, V3, at']
  simp [Finset.sum_range_succ, kdim]
  ring

theorem V3_sub0 (n s : ℕ) (b c : ℤ) : V3 n s 1 b c - 2 * strideB 3 n 0 = V3 n s (-1) b c := by
  simp [V3, at', Finset.sum_range_succ]; ring
theorem V3_sub1 (n s : ℕ) (a c : ℤ) : V3 n s a 1 c - 2 * strideB 3 n 1 = V3 n s a (-1) c := by
  simp [V3, at', Finset.sum_range_succ]; ring
theorem V3_sub2 (n s : ℕ) (a b : ℤ) : V3 n s a b 1 - 2 * strideB 3 n 2 = V3 n s a b (-1) := by
  simp [V3, at', Finset.sum_range_succ]; ring

/-- Edges in the three directions. -/
def E2 (n s : ℕ) (g : ℤ → ℤ → ℤ) (a b : ℤ) : ℤ := g (V3 n s a b (-lo 3 n s 2)) (V3 n s a b 0) + g (V3 n s a b 0) (V3 n s a b (hi 3 n s 2))
def E1 (n s : ℕ) (g : ℤ → ℤ → ℤ) (a c : ℤ) : ℤ := g (V3 n s a (-lo 3 n s 1) c) (V3 n s a 0 c) + g (V3 n s a 0 c) (V3 n s a (hi 3 n s 1) c)
def E0 (n s : ℕ) (g : ℤ → ℤ → ℤ) (b c : ℤ) : ℤ := g (V3 n s (-lo 3 n s 0) b c) (V3 n s 0 b c) + g (V3 n s 0 b c) (V3 n s (hi 3 n s 0) b c)

theorem row_end {d n s j : ℕ} (h : lo d n s j = 0 ∨ hi d n s j = 0) : (2 * row d n s j : ℤ) = 0 ∨ (2 * row d n s j : ℤ) = 2 * n := by
  rcases lo_cases d n s j with ⟨_, h'⟩ | ⟨e, h'⟩
  · left; rw [h']; rfl
  · rcases hi_cases d n s j with ⟨_, h''⟩ | ⟨e', _⟩
    · right; rw [h'']
    · omega

theorem lo_le (d n s j : ℕ) : 0 ≤ lo d n s j ∧ lo d n s j ≤ 1 := by unfold lo; split <;> simp
theorem hi_le (d n s j : ℕ) : 0 ≤ hi d n s j ∧ hi d n s j ≤ 1 := by unfold hi; split <;> simp

theorem V3_side0 {n s : ℕ} (h : lo 3 n s 0 = 0 ∨ hi 3 n s 0 = 0) {b c b' c' : ℤ} (hb : -lo 3 n s 1 ≤ b ∧ b ≤ hi 3 n s 1) (hb' : -lo 3 n s 1 ≤ b' ∧ b' ≤ hi 3 n s 1) (hc : -lo 3 n s 2 ≤ c ∧ c ≤ hi 3 n s 2) (hc' : -lo 3 n s 2 ≤ c' ∧ c' ≤ hi 3 n s 2) : SameSide 3 n (V3 n s 0 b c) (V3 n s 0 b' c') := by
  have l0 := lo_le 3 n s 0
  have h0 := hi_le 3 n s 0
  have k : ∀ b c, (-lo 3 n s 1 ≤ b ∧ b ≤ hi 3 n s 1) → (-lo 3 n s 2 ≤ c ∧ c ≤ hi 3 n s 2) → coord 3 n (V3 n s 0 b c) 0 = 2 * row 3 n s 0 := by
    intro b c hb hc
    have := (coord_at (d := 3) (n := n) (s := s) (δ := fun j => if j = 0 then 0 else if j = 1 then b else c) ?_).1 0 (by norm_num)
    · rw [V3, this]; simp
    · intro j hj
      interval_cases j
      · constructor <;> simp <;> omega
      · exact hb
      · exact hc
  refine ⟨0, by norm_num, ?_, ?_⟩
  · rw [k b c hb hc, k b' c' hb' hc']
  · rw [k b c hb hc]; exact row_end h

theorem V3_side1 {n s : ℕ} (h : lo 3 n s 1 = 0 ∨ hi 3 n s 1 = 0) {a c a' c' : ℤ} (hb : -lo 3 n s 0 ≤ a ∧ a ≤ hi 3 n s 0) (hb' : -lo 3 n s 0 ≤ a' ∧ a' ≤ hi 3 n s 0) (hc : -lo 3 n s 2 ≤ c ∧ c ≤ hi 3 n s 2) (hc' : -lo 3 n s 2 ≤ c' ∧ c' ≤ hi 3 n s 2) : SameSide 3 n (V3 n s a 0 c) (V3 n s a' 0 c') := by
  have l0 := lo_le 3 n s 1
  have h0 := hi_le 3 n s 1
  have k : ∀ b c, (-lo 3 n s 0 ≤ b ∧ b ≤ hi 3 n s 0) → (-lo 3 n s 2 ≤ c ∧ c ≤ hi 3 n s 2) → coord 3 n (V3 n s b 0 c) 1 = 2 * row 3 n s 1 := by
    intro b c hb hc
    have := (coord_at (d := 3) (n := n) (s := s) (δ := fun j => if j = 0 then b else if j = 1 then 0 else c) ?_).1 1 (by norm_num)
    · rw [V3, this]; simp
    · intro j hj
      interval_cases j
      · exact hb
      · constructor <;> simp <;> omega
      · exact hc
  refine ⟨1, by norm_num, ?_, ?_⟩
  · rw [k a c hb hc, k a' c' hb' hc']
  · rw [k a c hb hc]; exact row_end h

theorem V3_side2 {n s : ℕ} (h : lo 3 n s 2 = 0 ∨ hi 3 n s 2 = 0) {a c a' c' : ℤ} (hb : -lo 3 n s 0 ≤ a ∧ a ≤ hi 3 n s 0) (hb' : -lo 3 n s 0 ≤ a' ∧ a' ≤ hi 3 n s 0) (hc : -lo 3 n s 1 ≤ c ∧ c ≤ hi 3 n s 1) (hc' : -lo 3 n s 1 ≤ c' ∧ c' ≤ hi 3 n s 1) : SameSide 3 n (V3 n s a c 0) (V3 n s a' c' 0) := by
  have l0 := lo_le 3 n s 2
  have h0 := hi_le 3 n s 2
  have k : ∀ b c, (-lo 3 n s 0 ≤ b ∧ b ≤ hi 3 n s 0) → (-lo 3 n s 1 ≤ c ∧ c ≤ hi 3 n s 1) → coord 3 n (V3 n s b c 0) 2 = 2 * row 3 n s 2 := by
    intro b c hb hc
    have := (coord_at (d := 3) (n := n) (s := s) (δ := fun j => if j = 0 then b else if j = 1 then c else 0) ?_).1 2 (by norm_num)
    · rw [V3, this]; simp
    · intro j hj
      interval_cases j
      · exact hb
      · exact hc
      · constructor <;> simp <;> omega
  refine ⟨2, by norm_num, ?_, ?_⟩
  · rw [k a c hb hc, k a' c' hb' hc']
  · rw [k a c hb hc]; exact row_end h

theorem P3 {n : ℕ} {g : ℤ → ℤ → ℤ} (hg : ∀ u v, g u v = -g v u) (hz : ∀ u v, SameSide 3 n u v → g u v = 0) (s : ℕ) : P 3 n (bd3 g) s = 0 := by
  have hl := fun j => (lo_cases 3 n s j).imp And.left And.left
  have hh := fun j => (hi_cases 3 n s j).imp And.left And.left
  have e0 := K3 hg n 0 s _ (vert3_0 n s)
  have e1 := K3 hg n 1 s _ (vert3_1 n s)
  have e2 := K3 hg n 2 s _ (vert3_2 n s)
  have m0 : 0 < row 3 n s 0 → _ := fun h => K3 hg n 0 (s - strideS 3 n 0) (fun v => V3 n s (-1) (clamp 3 n s 1 (incr 3 v 0)) (clamp 3 n s 2 (incr 3 v 1))) (fun v => by rw [vert_sub (by norm_num) h, vert3_0, V3_sub0])
  have m1 : 0 < row 3 n s 1 → _ := fun h => K3 hg n 1 (s - strideS 3 n 1) (fun v => V3 n s (clamp 3 n s 0 (incr 3 v 0)) (-1) (clamp 3 n s 2 (incr 3 v 1))) (fun v => by rw [vert_sub (by norm_num) h, vert3_1, V3_sub1])
  have m2 : 0 < row 3 n s 2 → _ := fun h => K3 hg n 2 (s - strideS 3 n 2) (fun v => V3 n s (clamp 3 n s 0 (incr 3 v 0)) (clamp 3 n s 1 (incr 3 v 1)) (-1)) (fun v => by rw [vert_sub (by norm_num) h, vert3_2, V3_sub2])
  have i00 : incr 3 0 0 = -1 := rfl
  have i01 : incr 3 0 1 = -1 := rfl
  have i10 : incr 3 1 0 = -1 := rfl
  have i11 : incr 3 1 1 = 0 := rfl
  have i20 : incr 3 2 0 = -1 := rfl
  have i21 : incr 3 2 1 = 1 := rfl
  have i30 : incr 3 3 0 = 0 := rfl
  have i31 : incr 3 3 1 = -1 := rfl
  have i50 : incr 3 5 0 = 0 := rfl
  have i51 : incr 3 5 1 = 1 := rfl
  have i60 : incr 3 6 0 = 1 := rfl
  have i61 : incr 3 6 1 = -1 := rfl
  have i70 : incr 3 7 0 = 1 := rfl
  have i71 : incr 3 7 1 = 0 := rfl
  have i80 : incr 3 8 0 = 1 := rfl
  have i81 : incr 3 8 1 = 1 := rfl
  simp only [i00, i01, i10, i11, i20, i21, i30, i31, i50, i51, i60, i61, i70, i71, i80, i81, clamp_neg, clamp_zero, clamp_pos] at e0 e1 e2 m0 m1 m2
  unfold P
  rw [Finset.sum_range_succ, Finset.sum_range_succ, Finset.sum_range_succ, Finset.sum_range_zero, ite_hi, ite_hi, ite_hi, ite_lo _ _ _ _ _ _ m0, ite_lo _ _ _ _ _ _ m1, ite_lo _ _ _ _ _ _ m2, e0, e1, e2]
  have r0 : -lo 3 n s 0 ≤ -lo 3 n s 0 ∧ -lo 3 n s 0 ≤ hi 3 n s 0 := ⟨le_rfl, by linarith [(lo_le 3 n s 0).1, (hi_le 3 n s 0).1]⟩
  have r0' : -lo 3 n s 0 ≤ hi 3 n s 0 ∧ hi 3 n s 0 ≤ hi 3 n s 0 := ⟨by linarith [(lo_le 3 n s 0).1, (hi_le 3 n s 0).1], le_rfl⟩
  have r0z : -lo 3 n s 0 ≤ 0 ∧ 0 ≤ hi 3 n s 0 := ⟨by linarith [(lo_le 3 n s 0).1], (hi_le 3 n s 0).1⟩
  have r1 : -lo 3 n s 1 ≤ -lo 3 n s 1 ∧ -lo 3 n s 1 ≤ hi 3 n s 1 := ⟨le_rfl, by linarith [(lo_le 3 n s 1).1, (hi_le 3 n s 1).1]⟩
  have r1' : -lo 3 n s 1 ≤ hi 3 n s 1 ∧ hi 3 n s 1 ≤ hi 3 n s 1 := ⟨by linarith [(lo_le 3 n s 1).1, (hi_le 3 n s 1).1], le_rfl⟩
  have r1z : -lo 3 n s 1 ≤ 0 ∧ 0 ≤ hi 3 n s 1 := ⟨by linarith [(lo_le 3 n s 1).1], (hi_le 3 n s 1).1⟩
  have r2 : -lo 3 n s 2 ≤ -lo 3 n s 2 ∧ -lo 3 n s 2 ≤ hi 3 n s 2 := ⟨le_rfl, by linarith [(lo_le 3 n s 2).1, (hi_le 3 n s 2).1]⟩
  have r2' : -lo 3 n s 2 ≤ hi 3 n s 2 ∧ hi 3 n s 2 ≤ hi 3 n s 2 := ⟨by linarith [(lo_le 3 n s 2).1, (hi_le 3 n s 2).1], le_rfl⟩
  have r2z : -lo 3 n s 2 ≤ 0 ∧ 0 ≤ hi 3 n s 2 := ⟨by linarith [(lo_le 3 n s 2).1], (hi_le 3 n s 2).1⟩
  have c2 := corner (hl 0) (hh 0) (hl 1) (hh 1) (E2 n s g)
    (fun h b hb hb' => by unfold E2; rw [hz _ _ (V3_side0 h ⟨hb, hb'⟩ ⟨hb, hb'⟩ r2 r2z), hz _ _ (V3_side0 h ⟨hb, hb'⟩ ⟨hb, hb'⟩ r2z r2')]; rfl)
    (fun h a ha ha' => by unfold E2; rw [hz _ _ (V3_side1 h ⟨ha, ha'⟩ ⟨ha, ha'⟩ r2 r2z), hz _ _ (V3_side1 h ⟨ha, ha'⟩ ⟨ha, ha'⟩ r2z r2')]; rfl)
  have c1 := corner (hl 0) (hh 0) (hl 2) (hh 2) (E1 n s g)
    (fun h c hc hc' => by unfold E1; rw [hz _ _ (V3_side0 h r1 r1z ⟨hc, hc'⟩ ⟨hc, hc'⟩), hz _ _ (V3_side0 h r1z r1' ⟨hc, hc'⟩ ⟨hc, hc'⟩)]; rfl)
    (fun h a ha ha' => by unfold E1; rw [hz _ _ (V3_side2 h ⟨ha, ha'⟩ ⟨ha, ha'⟩ r1 r1z), hz _ _ (V3_side2 h ⟨ha, ha'⟩ ⟨ha, ha'⟩ r1z r1')]; rfl)
  have c0 := corner (hl 1) (hh 1) (hl 2) (hh 2) (E0 n s g)
    (fun h c hc hc' => by unfold E0; rw [hz _ _ (V3_side1 h r0 r0z ⟨hc, hc'⟩ ⟨hc, hc'⟩), hz _ _ (V3_side1 h r0z r0' ⟨hc, hc'⟩ ⟨hc, hc'⟩)]; rfl)
    (fun h b hb hb' => by unfold E0; rw [hz _ _ (V3_side2 h r0 r0z ⟨hb, hb'⟩ ⟨hb, hb'⟩), hz _ _ (V3_side2 h r0z r0' ⟨hb, hb'⟩ ⟨hb, hb'⟩)]; rfl)
  unfold E2 at c2
  unfold E1 at c1
  unfold E0 at c0
  have s0 : sign 0 = -1 := rfl
  have s1 : sign 1 = 1 := rfl
  have s2 : sign 2 = -1 := rfl
  rw [s0, s1, s2]
  linear_combination c2 - c1 + c0

end Hexed.Contour
