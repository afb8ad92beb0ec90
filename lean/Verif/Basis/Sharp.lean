import Verif.Basis.Props
set_option autoImplicit false
set_option linter.unusedVariables false

/-!
# `Derivative` beyond the degree of the basis

Given exact boundary values, `Derivative` (Derivative.hpp:50-55) differentiates polynomials exactly at the nodes even when they are too rich for the basis, as far as the quadrature
reaches: for Gauss-Legendre nodes (exact to degree `2*row_size - 1`) up to degree `row_size + 1`.
-/

namespace Hexed.Basis
open Polynomial

variable {K : Type} [Field K]

theorem deriv_exact_sharp [CharZero K] {b : Nodes K} {deg : Nat} (h : b.Exact deg) (hd : 2 * b.n ≤ deg + 3) {dm bd : Nat → Nat → K} (m : Matrices b dm bd) (p : K[X]) (hp : p.natDegree + b.n ≤ deg + 2)
    {i : Nat} (hi : i < b.n) :
    deriv b.n b.weight dm bd (fun j => p.eval (b.node j)) (fun s => p.eval (s : K)) i = (Polynomial.derivative p).eval (b.node i) := by
  -- the interpolating polynomial and what it misses
  let I : K[X] := ∑ j ∈ Finset.range b.n, C (p.eval (b.node j)) * ell b j
  have hIn : ∀ j < b.n, I.eval (b.node j) = p.eval (b.node j) := by
    intro j hj
    rw [eval_finset_sum, Finset.sum_eq_single_of_mem j (by simpa using hj)]
    · rw [eval_mul, eval_C, ell_node h.distinct hj hj]; simp
    · intro l hl hlj
      rw [eval_mul, ell_node h.distinct hj (by simpa using hl)]; simp [Ne.symm hlj]
  have hI : I.degree < b.n := by
    refine lt_of_le_of_lt (degree_sum_le _ _) ?_
    rw [Finset.sup_lt_iff (by exact_mod_cast WithBot.bot_lt_coe b.n)]
    intro j hj
    refine lt_of_le_of_lt (by rw [← smul_eq_C_mul]; exact degree_smul_le _ _) (ell_degree_lt h.distinct (by simpa using hj))
  have hId : I.natDegree < b.n := by
    by_cases h0 : I = 0
    · rw [h0, natDegree_zero]; omega
    · exact (natDegree_lt_iff_degree_lt h0).2 hI
  set r := p - I with hr
  have hrn : ∀ j < b.n, r.eval (b.node j) = 0 := fun j hj => by rw [hr, eval_sub, hIn j hj, sub_self]
  have hrd : (r * ell b i).natDegree ≤ deg + 1 := by
    refine le_trans natDegree_mul_le ?_
    rw [ell_degree h.distinct hi]
    have : r.natDegree ≤ max p.natDegree I.natDegree := natDegree_sub_le _ _
    rcases le_total p.natDegree I.natDegree with h1 | h1
    · rw [max_eq_right h1] at this; omega
    · rw [max_eq_left h1] at this; omega
  have hint := h.integral _ hrd
  have hsum : ∑ l ∈ Finset.range b.n, b.weight l * (Polynomial.derivative (r * ell b i)).eval (b.node l) = b.weight i * (Polynomial.derivative r).eval (b.node i) := by
    rw [Finset.sum_eq_single_of_mem i (by simpa using hi)]
    · rw [derivative_mul, eval_add, eval_mul, eval_mul, hrn i hi, ell_node h.distinct hi hi, if_pos rfl]; ring
    · intro l hl hli
      have hl := Finset.mem_range.1 hl
      rw [derivative_mul, eval_add, eval_mul, eval_mul, hrn l hl, ell_node h.distinct hl hi, if_neg hli]; ring
  rw [hsum, eval_mul, eval_mul] at hint
  have h1 := deriv_exact h.distinct m I hI hi
  have h2 : deriv b.n b.weight dm bd (fun j => p.eval (b.node j)) (fun s => p.eval (s : K)) i =
      deriv b.n b.weight dm bd (fun j => I.eval (b.node j)) (fun s => I.eval (s : K)) i + ∑ s ∈ Finset.range 2, lift b.weight bd i s * r.eval (s : K) := by
    simp only [deriv, range_sum]
    rw [Finset.sum_congr rfl fun j hj => by rw [← hIn j (Finset.mem_range.1 hj)], add_assoc, ← Finset.sum_add_distrib]
    congr 1
    refine Finset.sum_congr rfl fun s _ => ?_
    rw [Finset.sum_congr rfl fun j hj => by rw [← hIn j (Finset.mem_range.1 hj)], hr, eval_sub]
    ring
  rw [h2, h1]
  have h3 : ∑ s ∈ Finset.range 2, lift b.weight bd i s * r.eval (s : K) = (Polynomial.derivative r).eval (b.node i) := by
    have hw := h.weight_ne i hi
    rw [Finset.sum_range_succ, Finset.sum_range_one, lift, lift, m.bound_eq (by omega) hi, m.bound_eq (by omega) hi]
    push_cast
    field_simp
    linear_combination -hint
  rw [h3, hr, derivative_sub, eval_sub]
  ring

end Hexed.Basis
