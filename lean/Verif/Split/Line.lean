import Verif.Split.Spec
import Verif.Metric.Curved
set_option autoImplicit false
set_option linter.unusedVariables false

/-!
# Lemmas: lines through elements
-/

namespace Hexed.Split
open Hexed.Spatial Hexed.Metric
noncomputable section

/-- The point where the line of row `k` meets face `σ`. -/
def endPt (b : Basis.Nodes ℝ) (nd i k : Nat) (vert : Nat → ℝ) (σ : Nat) : ℝ :=
  ∑ l ∈ Finset.range (2 ^ (nd - 1)), vert (pt nd 2 i l σ) * ∏ d ∈ (Finset.range nd).erase i,
    if l / 2 ^ (nd - 2 - without i d) % 2 = 1 then b.node (k / b.n ^ (nd - 2 - without i d) % b.n) else 1 - b.node (k / b.n ^ (nd - 2 - without i d) % b.n)

theorem line_eq {b : Basis.Nodes ℝ} {nd i : Nat} (hi : i < nd) (k : Nat) (adj : Mem) (vert : Nat → ℝ) (ξ : ℝ) :
    line b nd i k adj vert ξ = (1 - ξ) * endPt b nd i k vert 0 + ξ * endPt b nd i k vert 1 +
      ((1 - ξ) * adj (2 * i * b.n ^ (nd - 1) + k) + ξ * adj ((2 * i + 1) * b.n ^ (nd - 1) + k)) * (endPt b nd i k vert 1 - endPt b nd i k vert 0) := by
  have h2 : 0 < 2 := by norm_num
  have rest : ∀ (F : Nat → Nat → ℝ) (l σ : Nat), σ < 2 → (∏ d ∈ Finset.range nd, F d (pt nd 2 i l σ / 2 ^ (nd - 1 - d) % 2)) =
      F i σ * ∏ d ∈ (Finset.range nd).erase i, F d (l / 2 ^ (nd - 2 - without i d) % 2) := by
    intro F l σ hσ
    rw [← Finset.mul_prod_erase _ _ (Finset.mem_range.2 hi), pt_digit_self h2 hσ]
    congr 1
    refine Finset.prod_congr rfl fun d hd => ?_
    rw [Finset.mem_erase, Finset.mem_range] at hd
    rw [pt_digit h2 hi hd.2 hσ hd.1]
  have hx : ∀ d ∈ (Finset.range nd).erase i, facePos b nd i ξ (fun _ => 0) 1 k d = b.node (k / b.n ^ (nd - 2 - without i d) % b.n) := by
    intro d hd
    rw [Finset.mem_erase, Finset.mem_range] at hd
    rw [facePos, if_neg hd.1, if_pos hd.2, zero_add, one_mul]
  have hxi : facePos b nd i ξ (fun _ => 0) 1 k i = ξ := by rw [facePos, if_pos rfl]
  have sum1 : (∑ v ∈ Finset.range (2 ^ nd), vert v * ∏ d ∈ Finset.range nd, if v / 2 ^ (nd - 1 - d) % 2 = 1 then facePos b nd i ξ (fun _ => 0) 1 k d else 1 - facePos b nd i ξ (fun _ => 0) 1 k d) =
      (1 - ξ) * endPt b nd i k vert 0 + ξ * endPt b nd i k vert 1 := by
    rw [sum_rows nd 2 i h2 hi, endPt, endPt, Finset.mul_sum, Finset.mul_sum, ← Finset.sum_add_distrib]
    refine Finset.sum_congr rfl fun l _ => ?_
    have r := rest (fun d β => if β = 1 then facePos b nd i ξ (fun _ => 0) 1 k d else 1 - facePos b nd i ξ (fun _ => 0) 1 k d) l
    rw [Finset.sum_range_succ, Finset.sum_range_one, r 0 (by norm_num), r 1 (by norm_num), if_neg (by norm_num), if_pos rfl, hxi,
      Finset.prod_congr rfl fun d hd => by rw [hx d hd]]
    ring
  have sum2 : (∑ v ∈ Finset.range (2 ^ nd), vert v * ∏ d ∈ Finset.range nd, if d = i then (if v / 2 ^ (nd - 1 - d) % 2 = 1 then 1 else -1) else
      if v / 2 ^ (nd - 1 - d) % 2 = 1 then facePos b nd i ξ (fun _ => 0) 1 k d else 1 - facePos b nd i ξ (fun _ => 0) 1 k d) =
      endPt b nd i k vert 1 - endPt b nd i k vert 0 := by
    rw [sum_rows nd 2 i h2 hi, endPt, endPt, ← Finset.sum_sub_distrib]
    refine Finset.sum_congr rfl fun l _ => ?_
    have r := rest (fun d β => if d = i then (if β = 1 then 1 else -1) else if β = 1 then facePos b nd i ξ (fun _ => 0) 1 k d else 1 - facePos b nd i ξ (fun _ => 0) 1 k d) l
    rw [Finset.sum_range_succ, Finset.sum_range_one, r 0 (by norm_num), r 1 (by norm_num), if_pos rfl, if_pos rfl, if_neg (by norm_num), if_pos rfl,
      Finset.prod_congr rfl fun d hd => by rw [if_neg (Finset.mem_erase.1 hd).1, hx d hd]]
    ring
  simp only [line]
  rw [sum1, sum2]

/-- `Deformed_element::position` of elements whose faces are warped in one direction only. -/
theorem position_line {b : Basis.Nodes ℝ} (hn : 0 < b.n) {nd : Nat} (hnd : 1 ≤ nd ∧ nd ≤ 3) {i : Nat} (hi : i < nd) {adj : Mem} (hu : Unwarped b nd i adj) {q : Nat} (hq : q < b.n ^ nd) (vert : Nat → ℝ) :
    warpedPosition b nd adj q vert = line b nd i (rowOf nd b.n i q) adj vert (b.node (nodeOf nd b.n i q)) := by
  have hdiv : b.n ^ nd / b.n = b.n ^ (nd - 1) := by
    obtain ⟨k, rfl⟩ : ∃ k, nd = k + 1 := ⟨nd - 1, by omega⟩
    rw [Nat.pow_succ, Nat.mul_div_cancel _ hn, Nat.add_sub_cancel]
  have hval : ∀ j < nd, ∀ σ < 2, adj (2 * j * b.n ^ nd / b.n + faceQpoint nd b.n j q + σ * (b.n ^ nd / b.n)) = adj ((2 * j + σ) * b.n ^ (nd - 1) + rowOf nd b.n j q) := by
    intro j hj σ hσ
    have h1 : 2 * j * b.n ^ nd / b.n = 2 * j * b.n ^ (nd - 1) := by
      obtain ⟨k, rfl⟩ : ∃ k, nd = k + 1 := ⟨nd - 1, by omega⟩
      rw [Nat.pow_succ, ← mul_assoc, Nat.mul_div_cancel _ hn, Nat.add_sub_cancel]
    rw [h1, hdiv, faceQpoint_eq hnd hn hj hq, show 2 * j * b.n ^ (nd - 1) + rowOf nd b.n j q + σ * b.n ^ (nd - 1) = (2 * j + σ) * b.n ^ (nd - 1) + rowOf nd b.n j q by ring]
  have key := fold_step hnd (fun j => b.node (q / b.n ^ (nd - j - 1) % b.n)) (fun j i => adj (2 * j * b.n ^ nd / b.n + faceQpoint nd b.n j q + i * (b.n ^ nd / b.n))) vert
  refine Eq.trans key ?_
  have hx : ∀ d < nd, b.node (q / b.n ^ (nd - d - 1) % b.n) = facePos b nd i (b.node (nodeOf nd b.n i q)) (fun _ => 0) 1 (rowOf nd b.n i q) d := by
    intro d hd
    rw [elemPos_row hn hi, Function.update_apply]
    split_ifs with h
    · subst h; rw [nodeOf, Nat.sub_right_comm]
    · rw [elemPos, if_pos hd, zero_add, one_mul, Nat.sub_right_comm]
  simp only [line]
  congr 1
  · refine Finset.sum_congr rfl fun v _ => congrArg _ (Finset.prod_congr rfl fun d hd => ?_)
    rw [hx d (Finset.mem_range.1 hd)]
  · rw [Finset.sum_eq_single_of_mem i (Finset.mem_range.2 hi)]
    · beta_reduce
      rw [hval i hi 0 (by omega), hval i hi 1 (by omega), add_zero]
      have : b.node (q / b.n ^ (nd - i - 1) % b.n) = b.node (nodeOf nd b.n i q) := by rw [nodeOf, Nat.sub_right_comm]
      rw [this]
      congr 1
      refine Finset.sum_congr rfl fun v _ => congrArg _ (Finset.prod_congr rfl fun d hd => ?_)
      rw [hx d (Finset.mem_range.1 hd)]
    · intro j hj hji
      have hj := Finset.mem_range.1 hj
      beta_reduce
      rw [hval j hj 0 (by omega), hval j hj 1 (by omega), hu j hj hji 0 (by omega) _ (rowOf_lt hn hj hq), hu j hj hji 1 (by omega) _ (rowOf_lt hn hj hq)]
      ring

theorem endPt_congr {b : Basis.Nodes ℝ} {nd i k : Nat} {vert vert' : Nat → ℝ} {σ : Nat} (h : ∀ l < 2 ^ (nd - 1), vert (pt nd 2 i l σ) = vert' (pt nd 2 i l σ)) : endPt b nd i k vert σ = endPt b nd i k vert' σ :=
  Finset.sum_congr rfl fun l hl => by rw [h l (Finset.mem_range.1 hl)]

theorem endPt_comb {b : Basis.Nodes ℝ} {nd i k : Nat} {vert u w : Nat → ℝ} {σ τ ρ : Nat} (o : ℝ) (h : ∀ l < 2 ^ (nd - 1), vert (pt nd 2 i l σ) = (1 - o) * u (pt nd 2 i l τ) + o * w (pt nd 2 i l ρ)) :
    endPt b nd i k vert σ = (1 - o) * endPt b nd i k u τ + o * endPt b nd i k w ρ := by
  rw [endPt, endPt, endPt, Finset.mul_sum, Finset.mul_sum, ← Finset.sum_add_distrib]
  refine Finset.sum_congr rfl fun l hl => ?_
  rw [h l (Finset.mem_range.1 hl)]
  ring

end
end Hexed.Split
