import Verif.Metric.Corners
set_option autoImplicit false
set_option linter.unusedVariables false

/-!
# Elements with warped faces

`node_adjustments` that are samples of polynomials on the faces move the points of an element along its (multilinearly interpolated) edges; the position in the element is a polynomial.
-/

namespace Hexed.Metric
open Hexed.Spatial Hexed.Pde Hexed.Solver
open MvPolynomial
noncomputable section

/-- Multilinear interpolation of the vectors from the vertices with coordinate `j` equal to 0 to those with coordinate `j` equal to 1. -/
def edge (nd j : Nat) (vert : Nat → ℝ) : MvPolynomial ℕ ℝ :=
  ∑ v ∈ Finset.range (2 ^ nd), C (vert v) * ∏ d ∈ Finset.range nd, if d = j then (if v / 2 ^ (nd - 1 - d) % 2 = 1 then 1 else -1) else if v / 2 ^ (nd - 1 - d) % 2 = 1 then X d else 1 - X d

/-- The position in an element with warped faces: points of face `2*j + i` are moved by `A j i` times the edge in direction `j`, points in between proportionally. -/
def warped (nd : Nat) (A : Nat → Nat → MvPolynomial ℕ ℝ) (vert : Nat → ℝ) : MvPolynomial ℕ ℝ :=
  multilin nd vert + ∑ j ∈ Finset.range nd, ((1 - X j) * A j 0 + X j * A j 1) * edge nd j vert

theorem edge_eval (nd j : Nat) (vert : Nat → ℝ) (ξ : Nat → ℝ) :
    eval ξ (edge nd j vert) = ∑ v ∈ Finset.range (2 ^ nd), vert v * ∏ d ∈ Finset.range nd, if d = j then (if v / 2 ^ (nd - 1 - d) % 2 = 1 then 1 else -1) else if v / 2 ^ (nd - 1 - d) % 2 = 1 then ξ d else 1 - ξ d := by
  rw [edge, map_sum]
  refine Finset.sum_congr rfl fun v _ => ?_
  rw [map_mul, eval_C, map_prod]
  congr 1
  refine Finset.prod_congr rfl fun d _ => ?_
  split_ifs <;> simp

theorem edge_degree (nd j : Nat) (vert : Nat → ℝ) (i : Nat) : degreeOf i (edge nd j vert) ≤ if i = j then 0 else 1 := by
  refine le_trans (degreeOf_sum_le _ _ _) (Finset.sup_le fun v _ => le_trans (degreeOf_C_mul_le _ _ _) ?_)
  have h : degreeOf i (∏ d ∈ Finset.range nd, if d = j then (if v / 2 ^ (nd - 1 - d) % 2 = 1 then (1 : MvPolynomial ℕ ℝ) else -1) else if v / 2 ^ (nd - 1 - d) % 2 = 1 then X d else 1 - X d) ≤
      ∑ d ∈ Finset.range nd, if d = i then (if i = j then 0 else 1) else 0 := by
    refine le_trans (degreeOf_prod_le _ _ _) (Finset.sum_le_sum fun d _ => ?_)
    have hX : degreeOf i (X d : MvPolynomial ℕ ℝ) ≤ if d = i then 1 else 0 := by
      rw [degreeOf_X]; simp only [eq_comm]; exact le_rfl
    have hm : degreeOf i (-1 : MvPolynomial ℕ ℝ) = 0 := by
      rw [show (-1 : MvPolynomial ℕ ℝ) = C (-1) by simp, degreeOf_C]
    by_cases hdj : d = j
    · rw [if_pos hdj]
      split_ifs <;> simp [hm]
    · rw [if_neg hdj]
      have : (if d = i then if i = j then 0 else 1 else 0) = if d = i then 1 else 0 := by
        by_cases h : d = i
        · rw [if_pos h, if_pos h, if_neg (fun e => hdj (h.trans e))]
        · rw [if_neg h, if_neg h]
      rw [this]
      split_ifs at hX ⊢ <;> first
        | exact hX
        | (refine le_trans (degreeOf_sub_le _ _ _) ?_; rw [degreeOf_one]; omega)
  refine le_trans h ?_
  rw [Finset.sum_ite_eq' (Finset.range nd) i fun _ => if i = j then 0 else 1]
  split_ifs <;> omega

/-- The degree of the position: one more than that of the adjustments, which do not depend on the coordinate along which they act. -/
theorem warped_degree {nd M : Nat} {A : Nat → Nat → MvPolynomial ℕ ℝ} {vert : Nat → ℝ} {i : Nat} (hM : 1 ≤ M) (hA : ∀ j < nd, ∀ σ < 2, degreeOf i (A j σ) + 1 ≤ M) (hA' : ∀ j < nd, ∀ σ < 2, degreeOf j (A j σ) = 0) :
    degreeOf i (warped nd A vert) ≤ M := by
  refine le_trans (degreeOf_add_le _ _ _) (max_le (by have := multilin_degree nd vert i; omega) ?_)
  refine le_trans (degreeOf_sum_le _ _ _) (Finset.sup_le fun j hj => ?_)
  have hj := Finset.mem_range.1 hj
  refine le_trans (degreeOf_mul_le _ _ _) ?_
  have he := edge_degree nd j vert i
  have hX : degreeOf i (X j : MvPolynomial ℕ ℝ) ≤ if i = j then 1 else 0 := by rw [degreeOf_X]
  have hX1 : degreeOf i (1 - X j : MvPolynomial ℕ ℝ) ≤ if i = j then 1 else 0 := by
    refine le_trans (degreeOf_sub_le _ _ _) (max_le ?_ hX); rw [degreeOf_one]; omega
  have h0 := hA j hj 0 (by omega)
  have h1 := hA j hj 1 (by omega)
  have hs : degreeOf i ((1 - X j) * A j 0 + X j * A j 1) + (if i = j then 0 else 1) ≤ M := by
    have h2 := degreeOf_add_le i ((1 - X j) * A j 0) (X j * A j 1)
    have h3 := degreeOf_mul_le i (1 - X j) (A j 0)
    have h4 := degreeOf_mul_le i (X j) (A j 1)
    by_cases h : i = j
    · subst h
      have z0 := hA' i hj 0 (by omega)
      have z1 := hA' i hj 1 (by omega)
      simp only [if_true] at hX hX1 ⊢
      omega
    · simp only [if_neg h] at hX hX1 ⊢
      omega
  omega

/-- The body of the loop with the data it uses. -/
def posStep (node : Nat → ℝ) (a : Nat → Nat → ℝ) (s : (Nat → ℝ) × (Nat → Nat → ℝ)) (j_dim : Nat) : (Nat → ℝ) × (Nat → Nat → ℝ) :=
  let interp : Nat → ℝ := fun i => if i = 0 then 1 - node j_dim else node j_dim
  (contractLast interp s.1,
   fun k_dim => contractLast (if j_dim = k_dim then fun c => ∑ i ∈ Finset.range 2, a j_dim i * interp i * (if c = 0 then -1 else 1) else interp) (s.2 k_dim))

theorem fold_step {nd : Nat} (hnd : 1 ≤ nd ∧ nd ≤ 3) (node : Nat → ℝ) (a : Nat → Nat → ℝ) (vert : Nat → ℝ) :
    ((List.range nd).reverse.foldl (posStep node a) (vert, fun _ => vert)).1 0 + ∑ j_dim ∈ Finset.range nd, ((List.range nd).reverse.foldl (posStep node a) (vert, fun _ => vert)).2 j_dim 0 =
      (∑ v ∈ Finset.range (2 ^ nd), vert v * ∏ d ∈ Finset.range nd, if v / 2 ^ (nd - 1 - d) % 2 = 1 then node d else 1 - node d) +
      ∑ j ∈ Finset.range nd, ((1 - node j) * a j 0 + node j * a j 1) * ∑ v ∈ Finset.range (2 ^ nd), vert v * ∏ d ∈ Finset.range nd, if d = j then (if v / 2 ^ (nd - 1 - d) % 2 = 1 then 1 else -1) else if v / 2 ^ (nd - 1 - d) % 2 = 1 then node d else 1 - node d := by
  obtain rfl | rfl | rfl : nd = 1 ∨ nd = 2 ∨ nd = 3 := by omega
  · simp [posStep, contractLast, Finset.sum_range_succ, Finset.prod_range_succ, List.range_succ]; ring
  · simp [posStep, contractLast, Finset.sum_range_succ, Finset.prod_range_succ, List.range_succ]; ring
  · simp [posStep, contractLast, Finset.sum_range_succ, Finset.prod_range_succ, List.range_succ]; ring

theorem faceQpoint_eq {nd n : Nat} (hnd : 1 ≤ nd ∧ nd ≤ 3) (hn : 0 < n) {j q : Nat} (hj : j < nd) (hq : q < n ^ nd) : faceQpoint nd n j q = rowOf nd n j q := by
  obtain rfl | rfl | rfl : nd = 1 ∨ nd = 2 ∨ nd = 3 := by omega
  · obtain rfl : j = 0 := by omega
    rw [pow_one] at hq
    simp [faceQpoint, rowOf, List.range_succ, Nat.mod_one, Nat.div_eq_of_lt hq]
  · have e : n ^ 2 / n / n = 1 := by rw [Nat.div_div_eq_div_mul, ← pow_two, Nat.div_self (by positivity)]
    have hq' : q / n < n := by rw [Nat.div_lt_iff_lt_mul hn]; rwa [pow_two] at hq
    obtain rfl | rfl : j = 0 ∨ j = 1 := by omega
    · simp [faceQpoint, rowOf, List.range_succ, e, Nat.div_eq_of_lt hq']
    · simp [faceQpoint, rowOf, List.range_succ, e, Nat.mod_one, Nat.mod_eq_of_lt hq']
  · have e : n ^ 3 / n / n = n := by
      rw [Nat.div_div_eq_div_mul, show n ^ 3 = n * n * n by ring, Nat.mul_div_cancel_left _ (by positivity)]
    have hq' : q / n / n < n := by
      rw [Nat.div_div_eq_div_mul, Nat.div_lt_iff_lt_mul (by positivity)]
      calc q < n ^ 3 := hq
        _ = _ := by ring
    have hq2 : q / n ^ 2 < n := by rw [pow_two, ← Nat.div_div_eq_div_mul]; exact hq'
    have e2 : q / n ^ 2 = q / n / n := by rw [pow_two, Nat.div_div_eq_div_mul]
    have hnn : n / n = 1 := Nat.div_self hn
    obtain rfl | rfl | rfl : j = 0 ∨ j = 1 ∨ j = 2 := by omega
    · simp [faceQpoint, rowOf, List.range_succ, e, hnn, Nat.div_eq_of_lt hq2]
      rw [pow_two, Nat.mod_mul, add_comm, mul_comm]
    · simp [faceQpoint, rowOf, List.range_succ, e, hnn, e2, Nat.mod_eq_of_lt hq']
    · simp [faceQpoint, rowOf, List.range_succ, e, hnn, e2, Nat.mod_eq_of_lt hq', Nat.mod_one]
      exact Nat.div_add_mod' _ _

theorem eval_free {P : MvPolynomial ℕ ℝ} {j : Nat} (h : degreeOf j P = 0) (x : Nat → ℝ) (c : ℝ) : eval (Function.update x j c) P = eval x P := by
  have hd : (lineOf j x P).natDegree = 0 := Nat.le_zero.1 (le_trans (line_degree j x P) (le_of_eq h))
  obtain ⟨y, hy⟩ := Polynomial.natDegree_eq_zero.1 hd
  rw [← line_eval, ← hy, Polynomial.eval_C]
  conv_rhs => rw [← Function.update_eq_self j x, ← line_eval, ← hy, Polynomial.eval_C]

/-- `Deformed_element::position` follows the polynomial if the adjustments are samples of polynomials. -/
theorem warped_exact {b : Basis.Nodes ℝ} (hn : 0 < b.n) {nd : Nat} (hnd : 1 ≤ nd ∧ nd ≤ 3) {adj : Mem} {A : Nat → Nat → MvPolynomial ℕ ℝ} (hA : ∀ j < nd, ∀ σ < 2, degreeOf j (A j σ) = 0)
    (hadj : ∀ j < nd, ∀ σ < 2, ∀ k < b.n ^ (nd - 1), adj ((2 * j + σ) * b.n ^ (nd - 1) + k) = eval (facePos b nd j σ (fun _ => 0) 1 k) (A j σ)) {q : Nat} (hq : q < b.n ^ nd) (vert : Nat → ℝ) :
    warpedPosition b nd adj q vert = eval (elemPos b nd (fun _ => 0) 1 q) (warped nd A vert) := by
  have hdiv : b.n ^ nd / b.n = b.n ^ (nd - 1) := by
    obtain ⟨k, rfl⟩ : ∃ k, nd = k + 1 := ⟨nd - 1, by omega⟩
    rw [Nat.pow_succ, Nat.mul_div_cancel _ hn, Nat.add_sub_cancel]
  have hval : ∀ j < nd, ∀ σ < 2, adj (2 * j * b.n ^ nd / b.n + faceQpoint nd b.n j q + σ * (b.n ^ nd / b.n)) = eval (elemPos b nd (fun _ => 0) 1 q) (A j σ) := by
    intro j hj σ hσ
    have h1 : 2 * j * b.n ^ nd / b.n = 2 * j * b.n ^ (nd - 1) := by
      obtain ⟨k, rfl⟩ : ∃ k, nd = k + 1 := ⟨nd - 1, by omega⟩
      rw [Nat.pow_succ, ← mul_assoc, Nat.mul_div_cancel _ hn, Nat.add_sub_cancel]
    rw [h1, hdiv, faceQpoint_eq hnd hn hj hq, show 2 * j * b.n ^ (nd - 1) + rowOf nd b.n j q + σ * b.n ^ (nd - 1) = (2 * j + σ) * b.n ^ (nd - 1) + rowOf nd b.n j q by ring,
      hadj j hj σ hσ _ (rowOf_lt hn hj hq), elemPos_row hn hj, eval_free (hA j hj σ hσ)]
  have key := fold_step hnd (fun j => b.node (q / b.n ^ (nd - j - 1) % b.n)) (fun j i => adj (2 * j * b.n ^ nd / b.n + faceQpoint nd b.n j q + i * (b.n ^ nd / b.n))) vert
  refine Eq.trans key ?_
  have hnode : ∀ d < nd, b.node (q / b.n ^ (nd - d - 1) % b.n) = elemPos b nd (fun _ => 0) 1 q d := by
    intro d hd
    rw [elemPos, if_pos hd, zero_add, one_mul, Nat.sub_right_comm]
  rw [warped, map_add, map_sum, multilin_eval]
  congr 1
  · refine Finset.sum_congr rfl fun v _ => congrArg _ (Finset.prod_congr rfl fun d hd => ?_)
    rw [hnode d (Finset.mem_range.1 hd)]
  · refine Finset.sum_congr rfl fun j hj => ?_
    have hj := Finset.mem_range.1 hj
    rw [map_mul, edge_eval, map_add, map_mul, map_mul, map_sub, map_one, eval_X]
    beta_reduce
    rw [hval j hj 0 (by omega), hval j hj 1 (by omega), hnode j hj]
    congr 1
    refine Finset.sum_congr rfl fun v _ => congrArg _ (Finset.prod_congr rfl fun d hd => ?_)
    rw [hnode d (Finset.mem_range.1 hd)]

/-- The positions in elements with warped faces. -/
def Shape.warped (s : Shape) (A : Nat → Nat → Nat → MvPolynomial ℕ ℝ) (e i : Nat) : MvPolynomial ℕ ℝ :=
  if (s.elem e).deformed then Metric.warped s.nd (A e) fun v => (s.elem e).vert v i else C ((s.elem e).corner i) + C (s.elem e).size * X i

/-- Meshes of elements with warped faces: adjustments of degree at most `m - 2`. -/
theorem inSpace_warped {s : Shape} {b : Basis.Nodes ℝ} {m : Nat} (hn : 0 < b.n) (hnd : 1 ≤ s.nd ∧ s.nd ≤ 3) (hm : 2 ≤ m) {A : Nat → Nat → Nat → MvPolynomial ℕ ℝ}
    (hdeg : ∀ e ∈ s.elems, ∀ j < s.nd, ∀ σ < 2, degreeOf j (A e j σ) = 0 ∧ ∀ i < s.nd, degreeOf i (A e j σ) + 2 ≤ m)
    (hadj : ∀ e ∈ s.elems, (s.elem e).deformed = true → ∀ j < s.nd, ∀ σ < 2, ∀ k < b.n ^ (s.nd - 1), (s.elem e).adj ((2 * j + σ) * b.n ^ (s.nd - 1) + k) = eval (facePos b s.nd j σ (fun _ => 0) 1 k) (A e j σ))
    (hreg : ∀ e ∈ s.elems, ∀ ξ, (∀ i < s.nd, 0 ≤ ξ i ∧ ξ i ≤ 1) → volume s (s.warped A) e ξ ≠ 0)
    (hmeet : ∀ c ∈ s.cons, (c.side true).isGhost = false → ∀ R, Connection.IsFrame c.dir R → ∀ ξ η : Nat → ℝ,
      (∀ k : Fin 3, k.val < s.nd → k ≠ c.dir.i1 → 2 * η k.val - 1 = ∑ l : Fin 3, (R k l : ℝ) * (2 * ξ l.val - 1)) → ∀ i < s.nd, surface s (s.warped A) (c.side false) i ξ = surface s (s.warped A) (c.side true) i η) :
    InSpace s b m (s.warped A) := by
  refine ⟨?_, ?_, ?_, hreg, hmeet⟩
  · intro e he i hi j hj
    rw [Shape.warped]
    split_ifs
    · have := warped_degree (nd := s.nd) (M := m - 1) (A := A e) (vert := fun v => (s.elem e).vert v i) (i := j) (by omega) (fun k hk σ hσ => by have := (hdeg e he k hk σ hσ).2 j hj; omega) (fun k hk σ hσ => (hdeg e he k hk σ hσ).1)
      omega
    · refine lt_of_le_of_lt (degreeOf_add_le _ _ _) (max_lt (by rw [degreeOf_C]; omega) (lt_of_le_of_lt (degreeOf_C_mul_le _ _ _) ?_))
      rw [degreeOf_X]; split_ifs <;> omega
  · intro e he q hq i hi
    rw [ElemShape.position, Shape.warped]
    split_ifs with h
    · exact warped_exact hn hnd (fun j hj σ hσ => (hdeg e he j hj σ hσ).1) (hadj e he h) hq _
    · simp only [map_add, map_mul, eval_C, eval_X]
      rw [elemPos, if_pos hi, Nat.sub_right_comm]; ring
  · intro e he h i hi ξ
    rw [Shape.warped, if_neg (by rw [h]; simp)]
    simp

end
end Hexed.Metric
