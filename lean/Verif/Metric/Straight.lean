import Verif.Metric.Props
set_option autoImplicit false
set_option linter.unusedVariables false

/-!
# Elements with straight edges

Where `node_adjustments` are zero, the position in an element is the multilinear interpolation of the positions of its vertices.
-/

namespace Hexed.Metric
open Hexed.Spatial Hexed.Pde Hexed.Solver
open MvPolynomial
noncomputable section

/-- The polynomial which is 1 at vertex `v` and 0 at the others; the last coordinate varies fastest with the number of the vertex. -/
def corner (nd v : Nat) : MvPolynomial ℕ ℝ := ∏ d ∈ Finset.range nd, if v / 2 ^ (nd - 1 - d) % 2 = 1 then X d else 1 - X d

/-- Multilinear interpolation of values at vertices. -/
def multilin (nd : Nat) (vert : Nat → ℝ) : MvPolynomial ℕ ℝ := ∑ v ∈ Finset.range (2 ^ nd), C (vert v) * corner nd v

/-- The position in elements which have straight edges. -/
def Shape.straight (s : Shape) (e i : Nat) : MvPolynomial ℕ ℝ :=
  if (s.elem e).deformed then multilin s.nd fun v => (s.elem e).vert v i else C ((s.elem e).corner i) + C (s.elem e).size * X i

theorem corner_bound (nd v j : Nat) : degreeOf j (corner nd v) ≤ ∑ d ∈ Finset.range nd, if d = j then 1 else 0 := by
  refine le_trans (degreeOf_prod_le _ _ _) (Finset.sum_le_sum fun d _ => ?_)
  have hX : degreeOf j (X d : MvPolynomial ℕ ℝ) ≤ if d = j then 1 else 0 := by
    rw [degreeOf_X]; simp only [eq_comm]; exact le_rfl
  split_ifs at hX ⊢ with h1 h2 <;> first
    | exact hX
    | (refine le_trans (degreeOf_sub_le _ _ _) ?_; rw [degreeOf_one]; omega)

theorem corner_degree (nd v j : Nat) : degreeOf j (corner nd v) < 2 := by
  have h := corner_bound nd v j
  have : (∑ d ∈ Finset.range nd, if d = j then 1 else 0) ≤ 1 := by
    rw [Finset.sum_ite_eq' (Finset.range nd) j fun _ => 1]; split_ifs <;> omega
  omega

theorem multilin_degree (nd : Nat) (vert : Nat → ℝ) (j : Nat) : degreeOf j (multilin nd vert) < 2 := by
  refine Nat.lt_succ_of_le (le_trans (degreeOf_sum_le _ _ _) (Finset.sup_le fun v _ => ?_))
  exact le_trans (degreeOf_C_mul_le _ _ _) (Nat.le_of_lt_succ (corner_degree nd v j))

theorem multilin_eval (nd : Nat) (vert : Nat → ℝ) (ξ : Nat → ℝ) :
    eval ξ (multilin nd vert) = ∑ v ∈ Finset.range (2 ^ nd), vert v * ∏ d ∈ Finset.range nd, if v / 2 ^ (nd - 1 - d) % 2 = 1 then ξ d else 1 - ξ d := by
  rw [multilin, map_sum]
  refine Finset.sum_congr rfl fun v _ => ?_
  rw [map_mul, eval_C, corner, map_prod]
  congr 1
  refine Finset.prod_congr rfl fun d _ => ?_
  split_ifs <;> simp

/-- `Deformed_element::position` without adjustments. -/
theorem warped_straight (b : Basis.Nodes ℝ) {nd : Nat} (hnd : 1 ≤ nd ∧ nd ≤ 3) (q : Nat) (vert : Nat → ℝ) : warpedPosition b nd (fun _ => 0) q vert = eval (elemPos b nd (fun _ => 0) 1 q) (multilin nd vert) := by
  rw [multilin_eval]
  obtain rfl | rfl | rfl : nd = 1 ∨ nd = 2 ∨ nd = 3 := by omega
  · simp [warpedPosition, positionStep, contractLast, elemPos, Finset.sum_range_succ, Finset.prod_range_succ, List.range_succ]; ring
  · simp [warpedPosition, positionStep, contractLast, elemPos, Finset.sum_range_succ, Finset.prod_range_succ, List.range_succ]; ring
  · simp [warpedPosition, positionStep, contractLast, elemPos, Finset.sum_range_succ, Finset.prod_range_succ, List.range_succ]; ring

/-- Meshes of elements with straight edges. -/
theorem inSpace_straight {s : Shape} {b : Basis.Nodes ℝ} (hnd : 1 ≤ s.nd ∧ s.nd ≤ 3) (hadj : ∀ e ∈ s.elems, (s.elem e).deformed = true → ∀ a, (s.elem e).adj a = 0)
    (hreg : ∀ e ∈ s.elems, ∀ ξ, (∀ i < s.nd, 0 ≤ ξ i ∧ ξ i ≤ 1) → volume s s.straight e ξ ≠ 0)
    (hmeet : ∀ c ∈ s.cons, (c.side true).isGhost = false → ∀ R, Connection.IsFrame c.dir R → ∀ ξ η : Nat → ℝ,
      (∀ k : Fin 3, k.val < s.nd → k ≠ c.dir.i1 → 2 * η k.val - 1 = ∑ l : Fin 3, (R k l : ℝ) * (2 * ξ l.val - 1)) → ∀ i < s.nd, surface s s.straight (c.side false) i ξ = surface s s.straight (c.side true) i η) :
    InSpace s b 2 s.straight := by
  refine ⟨?_, ?_, ?_, hreg, hmeet⟩
  · intro e he i hi j hj
    rw [Shape.straight]
    split_ifs
    · exact multilin_degree _ _ _
    · refine lt_of_le_of_lt (degreeOf_add_le _ _ _) (max_lt (by rw [degreeOf_C]; norm_num) (lt_of_le_of_lt (degreeOf_C_mul_le _ _ _) ?_))
      rw [degreeOf_X]; split_ifs <;> norm_num
  · intro e he q hq i hi
    rw [ElemShape.position, Shape.straight]
    split_ifs with h
    · rw [show (s.elem e).adj = fun _ => 0 from funext (hadj e he h)]
      exact warped_straight b hnd q _
    · simp only [map_add, map_mul, eval_C, eval_X]
      rw [elemPos, if_pos hi, Nat.sub_right_comm]; ring
  · intro e he h i hi ξ
    rw [Shape.straight, if_neg (by rw [h]; simp)]
    simp

end
end Hexed.Metric
