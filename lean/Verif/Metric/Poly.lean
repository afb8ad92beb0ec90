import Verif.Metric.Model
import Verif.Spatial.ExactRefined
import Mathlib.Algebra.MvPolynomial.PDeriv
import Mathlib.Algebra.MvPolynomial.CommRing
import Mathlib.LinearAlgebra.Matrix.Determinant.Basic
import Mathlib.LinearAlgebra.Matrix.Notation
set_option autoImplicit false
set_option linter.unusedVariables false

/-!
# Polynomials in several variables
-/

namespace Hexed.Metric
open Hexed.Spatial
open MvPolynomial
noncomputable section

/-- The function that a polynomial defines. -/
def fieldOf (P : MvPolynomial ℕ ℝ) : Field := fun x => eval x P

/-- A polynomial along a line in direction `i`. -/
def lineOf (i : ℕ) (x : ℕ → ℝ) : MvPolynomial ℕ ℝ →ₐ[ℝ] Polynomial ℝ := aeval fun j => if j = i then Polynomial.X else Polynomial.C (x j)

theorem line_eval (i : ℕ) (x : ℕ → ℝ) (P : MvPolynomial ℕ ℝ) (t : ℝ) : (lineOf i x P).eval t = eval (Function.update x i t) P := by
  induction P using MvPolynomial.induction_on with
  | C a => simp [lineOf]
  | add p q hp hq => rw [map_add, Polynomial.eval_add, hp, hq, map_add]
  | mul_X p j hp =>
    rw [map_mul, Polynomial.eval_mul, hp, map_mul, eval_X]
    congr 1
    rw [lineOf, aeval_X]
    by_cases h : j = i
    · subst h; simp
    · simp [h]

theorem line_deriv (i : ℕ) (x : ℕ → ℝ) (P : MvPolynomial ℕ ℝ) : Polynomial.derivative (lineOf i x P) = lineOf i x (pderiv i P) := by
  induction P using MvPolynomial.induction_on with
  | C a => simp [lineOf, Polynomial.algebraMap_eq]
  | add p q hp hq => rw [map_add, Polynomial.derivative_add, hp, hq, map_add, map_add]
  | mul_X p j hp =>
    rw [map_mul, Polynomial.derivative_mul, hp, pderiv_mul, map_add, map_mul, map_mul]
    congr 2
    rw [lineOf, aeval_X]
    by_cases h : j = i
    · subst h; simp
    · rw [pderiv_X_of_ne h]; simp [h]

theorem line_degree (i : ℕ) (x : ℕ → ℝ) (P : MvPolynomial ℕ ℝ) : (lineOf i x P).natDegree ≤ degreeOf i P := by
  conv_lhs => rw [P.as_sum, map_sum]
  refine Polynomial.natDegree_sum_le_of_forall_le _ _ fun s hs => ?_
  have h1 : s i ≤ degreeOf i P := monomial_le_degreeOf i hs
  refine le_trans ?_ h1
  rw [lineOf, aeval_monomial, Finsupp.prod]
  refine le_trans (Polynomial.natDegree_mul_le) ?_
  rw [Polynomial.algebraMap_eq, Polynomial.natDegree_C, zero_add]
  refine le_trans (Polynomial.natDegree_prod_le _ _) ?_
  have : ∀ j ∈ s.support, ((if j = i then Polynomial.X else Polynomial.C (x j)) ^ s j : Polynomial ℝ).natDegree ≤ if j = i then s i else 0 := by
    intro j _
    by_cases h : j = i
    · subst h; simp
    · rw [if_neg h, if_neg h, ← Polynomial.C_pow, Polynomial.natDegree_C]
  refine le_trans (Finset.sum_le_sum this) ?_
  rw [Finset.sum_ite_eq']
  split_ifs <;> omega

theorem partialD_field (i : ℕ) (P : MvPolynomial ℕ ℝ) (x : ℕ → ℝ) : partialD i (fieldOf P) x = eval x (pderiv i P) := by
  have h : (fun t => fieldOf P (Function.update x i t)) = fun t => (lineOf i x P).eval t := by
    funext t; rw [line_eval]; rfl
  rw [partialD, h, Polynomial.deriv, line_deriv, line_eval, Function.update_eq_self]

theorem line_poly {i m : ℕ} {P : MvPolynomial ℕ ℝ} (h : degreeOf i P < m) (x : ℕ → ℝ) : ∃ Q : Polynomial ℝ, Q.degree < m ∧ ∀ t, fieldOf P (Function.update x i t) = Q.eval t :=
  ⟨lineOf i x P, lt_of_le_of_lt Polynomial.degree_le_natDegree (by exact_mod_cast lt_of_le_of_lt (line_degree i x P) h), fun t => (line_eval i x P t).symm⟩

theorem polyIn_field {nd m : ℕ} {P : MvPolynomial ℕ ℝ} (h : ∀ i < nd, degreeOf i P < m) : PolyIn nd m (fieldOf P) := fun i hi x => line_poly (h i hi) x

/-- On a face only the degrees along the face count. -/
theorem polyIn_face {nd m d : ℕ} {P : MvPolynomial ℕ ℝ} (h0 : 0 < m) (h : ∀ i < nd, i ≠ d → degreeOf i P < m) (c : ℝ) : PolyIn nd m fun x => fieldOf P (Function.update x d c) := by
  intro i hi x
  by_cases hid : i = d
  · subst hid
    refine ⟨Polynomial.C (fieldOf P (Function.update x i c)), lt_of_le_of_lt Polynomial.degree_C_le (by exact_mod_cast h0), fun t => by simp⟩
  · obtain ⟨Q, h1, h2⟩ := line_poly (h i hi hid) (Function.update x d c)
    refine ⟨Q, h1, fun t => ?_⟩
    rw [← h2]
    show fieldOf P (Function.update (Function.update x i t) d c) = _
    rw [Function.update_comm (Ne.symm hid)]

theorem pderiv_comm (i j : ℕ) (P : MvPolynomial ℕ ℝ) : pderiv i (pderiv j P) = pderiv j (pderiv i P) := by
  induction P using MvPolynomial.induction_on with
  | C a => simp
  | add p q hp hq => simp only [map_add, hp, hq]
  | mul_X p k hp =>
    have hX : ∀ a b : ℕ, pderiv a (pderiv b (X k : MvPolynomial ℕ ℝ)) = 0 := by
      intro a b
      by_cases h : k = b
      · subst h; simp
      · rw [pderiv_X_of_ne h]; simp
    simp only [pderiv_mul, map_add, hp, hX]
    ring

theorem degreeOf_pderiv_le (i j : ℕ) (P : MvPolynomial ℕ ℝ) : degreeOf j (pderiv i P) ≤ degreeOf j P - if j = i then 1 else 0 := by
  conv_lhs => rw [P.as_sum, map_sum]
  refine le_trans (degreeOf_sum_le _ _ _) (Finset.sup_le fun s hs => ?_)
  rw [pderiv_monomial]
  by_cases hc : coeff s P * (s i : ℝ) = 0
  · rw [hc]; simp
  · rw [degreeOf_monomial_eq _ _ hc]
    have h1 : s j ≤ degreeOf j P := monomial_le_degreeOf j hs
    by_cases h : j = i
    · subst h; simp; omega
    · simp [h]; exact h1

/-- `jacMinor` of a matrix of polynomials. -/
def polyMinor (nd : ℕ) (J : ℕ → ℕ → MvPolynomial ℕ ℝ) (d j : ℕ) : MvPolynomial ℕ ℝ :=
  Matrix.det (Matrix.of fun r c : Fin nd => if c.val = d then (if r.val = j then 1 else 0) else J r.val c.val)

theorem eval_minor (nd : ℕ) (J : ℕ → ℕ → MvPolynomial ℕ ℝ) (d j : ℕ) (x : ℕ → ℝ) : eval x (polyMinor nd J d j) = jacMinor nd (fun r c => eval x (J r c)) d j := by
  rw [polyMinor, RingHom.map_det, jacMinor, jacDet]
  congr 1
  ext r c
  simp only [RingHom.mapMatrix_apply, Matrix.map_apply, Matrix.of_apply]
  split_ifs <;> simp

/-- The columns of the cofactor matrix of a gradient have no divergence. -/
theorem piola {nd : ℕ} (hnd : 1 ≤ nd ∧ nd ≤ 3) (P : ℕ → MvPolynomial ℕ ℝ) {j : ℕ} (hj : j < nd) :
    ∑ d ∈ Finset.range nd, pderiv d (polyMinor nd (fun r c => pderiv c (P r)) d j) = 0 := by
  obtain rfl | rfl | rfl : nd = 1 ∨ nd = 2 ∨ nd = 3 := by omega
  · obtain rfl : j = 0 := by omega
    simp [polyMinor]
  · obtain rfl | rfl : j = 0 ∨ j = 1 := by omega
    · simp [polyMinor, Finset.sum_range_succ, Matrix.det_fin_two, pderiv_comm 1 0]
    · simp [polyMinor, Finset.sum_range_succ, Matrix.det_fin_two, pderiv_comm 1 0]
  · obtain rfl | rfl | rfl : j = 0 ∨ j = 1 ∨ j = 2 := by omega
    all_goals
      simp [polyMinor, Finset.sum_range_succ, Matrix.det_fin_three, pderiv_comm 1 0, pderiv_comm 2 0, pderiv_comm 2 1, pderiv_mul]
      ring

theorem minor2 (J : ℕ → ℕ → MvPolynomial ℕ ℝ) {d j : ℕ} (hd : d < 2) (hj : j < 2) :
    ∃ r < 2, ∃ c < 2, c ≠ d ∧ (polyMinor 2 J d j = J r c ∨ polyMinor 2 J d j = -J r c) := by
  refine ⟨1 - j, by omega, 1 - d, by omega, by omega, ?_⟩
  obtain rfl | rfl : j = 0 ∨ j = 1 := by omega
  all_goals obtain rfl | rfl : d = 0 ∨ d = 1 := by omega
  all_goals simp [polyMinor, Matrix.det_fin_two]

theorem minor3 (J : ℕ → ℕ → MvPolynomial ℕ ℝ) {d j : ℕ} (hd : d < 3) (hj : j < 3) :
    ∃ r1 < 3, ∃ r2 < 3, ∃ c1 < 3, ∃ c2 < 3, c1 ≠ c2 ∧ c1 ≠ d ∧ c2 ≠ d ∧ polyMinor 3 J d j = J r1 c1 * J r2 c2 - J r1 c2 * J r2 c1 := by
  refine ⟨(j + 1) % 3, Nat.mod_lt _ (by omega), (j + 2) % 3, Nat.mod_lt _ (by omega), (d + 1) % 3, Nat.mod_lt _ (by omega), (d + 2) % 3, Nat.mod_lt _ (by omega), by omega, by omega, by omega, ?_⟩
  obtain rfl | rfl | rfl : j = 0 ∨ j = 1 ∨ j = 2 := by omega
  all_goals obtain rfl | rfl | rfl : d = 0 ∨ d = 1 ∨ d = 2 := by omega
  all_goals
    simp [polyMinor, Matrix.det_fin_three]
    try ring

/-- Degrees of the cofactors: in the direction of the normal, and in directions along the face. -/
theorem minor_degree {nd m : ℕ} (hnd : 1 ≤ nd ∧ nd ≤ 3) {P : ℕ → MvPolynomial ℕ ℝ} (hm : 1 ≤ m) (hP : ∀ r < nd, ∀ i < nd, degreeOf i (P r) < m) {d j : ℕ} (hd : d < nd) (hj : j < nd) {i : ℕ} (hi : i < nd) :
    degreeOf i (polyMinor nd (fun r c => pderiv c (P r)) d j) ≤ (nd - 1) * (m - 1) - if i = d then 0 else 1 := by
  have hD : ∀ r < nd, ∀ c < nd, degreeOf i (pderiv c (P r)) ≤ m - 1 - if i = c then 1 else 0 := by
    intro r hr c hc
    refine le_trans (degreeOf_pderiv_le c i _) ?_
    have := hP r hr i hi
    split_ifs <;> omega
  obtain rfl | rfl | rfl : nd = 1 ∨ nd = 2 ∨ nd = 3 := by omega
  · obtain rfl : j = 0 := by omega
    obtain rfl : d = 0 := by omega
    simp [polyMinor]
  · obtain ⟨r, hr, c, hc, hcd, e⟩ := minor2 (fun r c => pderiv c (P r)) hd hj
    have := hD r hr c hc
    rcases e with e | e <;> rw [e]
    · split_ifs at this ⊢ <;> omega
    · rw [degreeOf_neg]; split_ifs at this ⊢ <;> omega
  · obtain ⟨r1, hr1, r2, hr2, c1, hc1, c2, hc2, h12, h1d, h2d, e⟩ := minor3 (fun r c => pderiv c (P r)) hd hj
    rw [e]
    have a1 := hD r1 hr1 c1 hc1
    have a2 := hD r2 hr2 c2 hc2
    have a3 := hD r1 hr1 c2 hc2
    have a4 := hD r2 hr2 c1 hc1
    refine le_trans (degreeOf_sub_le i _ _) (max_le (le_trans (degreeOf_mul_le i _ _) ?_) (le_trans (degreeOf_mul_le i _ _) ?_))
    · split_ifs at a1 a2 ⊢ <;> omega
    · split_ifs at a3 a4 ⊢ <;> omega

end
end Hexed.Metric
