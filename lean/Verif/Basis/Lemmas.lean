import Mathlib.LinearAlgebra.Lagrange
import Mathlib.Tactic.Ring
import Mathlib.Tactic.FieldSimp
import Mathlib.Tactic.LinearCombination
import Verif.Basis.Spec
set_option autoImplicit false
set_option linter.unusedVariables false

/-! Helper lemmas about the bases. -/

namespace Hexed.Basis
open Polynomial

variable {K : Type} [Field K]

theorem range_sum (n : Nat) (f : Nat → K) : ((List.range n).map f).sum = ∑ i ∈ Finset.range n, f i := rfl

theorem foldl_mul_if (c : Nat → Prop) [DecidablePred c] (f : Nat → K) : ∀ (l : List Nat) (a : K),
    l.foldl (fun acc k => if c k then acc * f k else acc) a = a * ((l.filter fun k => c k).map f).prod
  | [], a => by simp
  | k :: l, a => by
    rw [List.foldl_cons, foldl_mul_if c f l]
    by_cases h : c k <;> simp [h, mul_assoc]

theorem foldl_add_if (c : Nat → Prop) [DecidablePred c] (f : Nat → K) : ∀ (l : List Nat) (a : K),
    l.foldl (fun acc k => if c k then acc + f k else acc) a = a + ((l.filter fun k => c k).map f).sum
  | [], a => by simp
  | k :: l, a => by
    rw [List.foldl_cons, foldl_add_if c f l]
    by_cases h : c k <;> simp [h, add_assoc]

theorem filter_range_prod (n : Nat) (c : Nat → Prop) [DecidablePred c] (f : Nat → K) :
    (((List.range n).filter fun k => c k).map f).prod = ∏ k ∈ (Finset.range n).filter c, f k := rfl

theorem filter_range_sum (n : Nat) (c : Nat → Prop) [DecidablePred c] (f : Nat → K) :
    (((List.range n).filter fun k => c k).map f).sum = ∑ k ∈ (Finset.range n).filter c, f k := rfl

theorem filter_ne (n j : Nat) : (Finset.range n).filter (fun k => k ≠ j) = (Finset.range n).erase j := by
  ext k; simp [and_comm]

/-- The Lagrange polynomial of node `j`. -/
noncomputable def ell (b : Nodes K) (j : Nat) : K[X] := Lagrange.basis (Finset.range b.n) b.node j

theorem ell_eval (b : Nodes K) (j : Nat) (s : K) :
    (ell b j).eval s = ∏ k ∈ (Finset.range b.n).erase j, (s - b.node k) / (b.node j - b.node k) := by
  rw [ell, Lagrange.basis, eval_prod]
  refine Finset.prod_congr rfl fun k _ => ?_
  simp [Lagrange.basisDivisor, div_eq_mul_inv, mul_comm]

theorem interpolateCpp_eq (b : Nodes K) (s : K) (j : Nat) : interpolateCpp b s j = (ell b j).eval s := by
  rw [ell_eval, interpolateCpp, foldl_mul_if (fun k => j ≠ k), filter_range_prod, one_mul]
  congr 1
  ext k; simp [and_comm, eq_comm]

theorem eraseIdx_range_map (f : Nat → K) (g : K → K) (n j : Nat) (hj : j < n) (a : K) :
    (((List.range n).map f).eraseIdx j).foldl (fun r x => r * g x) a = a * ∏ k ∈ (Finset.range n).erase j, g (f k) := by
  have h1 : ∀ (l : List K) (a : K), l.foldl (fun r x => r * g x) a = a * (l.map g).prod := by
    intro l
    induction l with
    | nil => simp
    | cons x l ih => intro a; rw [List.foldl_cons, ih]; simp [mul_assoc]
  have h2 : ((List.range n).map f).eraseIdx j = ((List.range n).eraseIdx j).map f := by rw [List.eraseIdx_map]
  have h3 : (List.range n).eraseIdx j = (List.range n).filter fun k => k ≠ j := by
    have h4 : (List.range n).erase j = (List.range n).eraseIdx j := by
      rw [List.erase_eq_eraseIdx]
      have : List.idxOf? j (List.range n) = some j := by
        rw [List.idxOf?_eq_some_iff]
        exact ⟨by simpa using hj, by simp, fun k hk => by simp; omega⟩
      rw [this]
    rw [← h4, List.nodup_range.erase_eq_filter]
    apply List.filter_congr
    intro k _
    rw [Bool.eq_iff_iff]; simp
  rw [h1, h2, h3, List.map_map]
  congr 1
  exact filter_range_prod n (fun k => k ≠ j) (g ∘ f) |>.trans (by rw [filter_ne]; rfl)

theorem interpolate_eq (b : Nodes K) (s : K) (j : Nat) (hj : j < b.n) : interpolate b j s = (ell b j).eval s := by
  rw [ell_eval, interpolate]
  have := eraseIdx_range_map b.node (fun x => (s - x) / (b.node j - x)) b.n j hj 1
  simpa using this

theorem injOn {b : Nodes K} (h : b.Distinct) : Set.InjOn b.node (Finset.range b.n : Set Nat) := by
  intro i hi j hj e
  exact h i (by simpa using hi) j (by simpa using hj) e

/-- A polynomial of degree below `n` is the combination of the Lagrange polynomials with its nodal values. -/
theorem poly_eq {b : Nodes K} (h : b.Distinct) (p : K[X]) (hp : p.degree < b.n) :
    p = ∑ j ∈ Finset.range b.n, C (p.eval (b.node j)) * ell b j := by
  have := Lagrange.eq_interpolate (s := Finset.range b.n) (v := b.node) (f := p) (injOn h) (by simpa using hp)
  conv_lhs => rw [this]
  rw [Lagrange.interpolate_apply]
  rfl

theorem ell_degree {b : Nodes K} (h : b.Distinct) {j : Nat} (hj : j < b.n) : (ell b j).natDegree = b.n - 1 := by
  rw [ell, Lagrange.natDegree_basis (injOn h) (by simpa using hj)]; simp

theorem ell_degree_lt {b : Nodes K} (h : b.Distinct) {j : Nat} (hj : j < b.n) : (ell b j).degree < b.n := by
  refine lt_of_le_of_lt degree_le_natDegree ?_
  rw [ell_degree h hj]
  exact_mod_cast (show b.n - 1 < b.n by omega)

theorem ell_node {b : Nodes K} (h : b.Distinct) {i j : Nat} (hi : i < b.n) (hj : j < b.n) :
    (ell b j).eval (b.node i) = if i = j then 1 else 0 := by
  split
  · next e => subst e; exact Lagrange.eval_basis_self (injOn h) (by simpa using hi)
  · next e => exact Lagrange.eval_basis_of_ne (fun e' => e e'.symm) (by simpa using hi)

theorem derivative_eq {b : Nodes K} (h : b.Distinct) {i j : Nat} (hi : i < b.n) (hj : j < b.n) :
    derivative b i j = (Polynomial.derivative (ell b j)).eval (b.node i) := by
  have hne : ∀ k ∈ (Finset.range b.n).erase j, b.node j - b.node k ≠ 0 := by
    intro k hk e
    rw [Finset.mem_erase, Finset.mem_range] at hk
    exact hk.1 (h k hk.2 j hj (sub_eq_zero.1 e).symm)
  have hd : ∀ k, Polynomial.derivative (Lagrange.basisDivisor (b.node j) (b.node k)) = C (b.node j - b.node k)⁻¹ := by
    intro k; simp [Lagrange.basisDivisor]
  rw [ell, Lagrange.basis, Polynomial.derivative_prod_finset, eval_finset_sum]
  simp only [hd, eval_mul, eval_C, eval_prod]
  have hb : ∀ k x, eval x (Lagrange.basisDivisor (b.node j) (b.node k)) = (x - b.node k) / (b.node j - b.node k) := by
    intro k x; simp [Lagrange.basisDivisor, div_eq_mul_inv, mul_comm]
  simp only [hb]
  rw [derivative]
  split
  · next e =>
    subst e
    rw [foldl_add_if (fun k => k ≠ i), filter_range_sum, filter_ne, zero_add]
    refine Finset.sum_congr rfl fun k hk => ?_
    rw [Finset.prod_eq_one]
    · rw [one_mul, one_div]
    · intro l hl
      exact div_self (hne l (Finset.mem_of_mem_erase hl))
  · next e =>
    have hi' : i ∈ (Finset.range b.n).erase j := by simp [hi, e]
    rw [Finset.sum_eq_single_of_mem i hi']
    · have step : (fun (dp : K) (k : Nat) => if k ≠ j then (let dp := dp / (b.node j - b.node k); if k ≠ i then dp * (b.node i - b.node k) else dp) else dp) =
          fun dp k => if k ≠ j then dp * (if k ≠ i then (b.node i - b.node k) / (b.node j - b.node k) else (b.node j - b.node k)⁻¹) else dp := by
        funext dp k
        by_cases h1 : k = j
        · simp [h1]
        · by_cases h2 : k = i
          · simp [h1, h2, div_eq_mul_inv]
          · simp only [ne_eq, h1, not_false_eq_true, if_true, h2]; ring
      rw [step, foldl_mul_if (fun k => k ≠ j), filter_range_prod, filter_ne, one_mul, ← Finset.prod_erase_mul _ _ hi']
      congr 1
      · refine Finset.prod_congr rfl fun k hk => ?_
        rw [if_pos (Finset.ne_of_mem_erase hk)]
      · simp
    · intro k hk hki
      rw [Finset.prod_eq_zero (i := i), zero_mul]
      · simp [hi, e, Ne.symm hki]
      · simp

theorem equiDiff_eq (b : Nodes K) (i j : Nat) : equiDiff b i j = derivative b i j := by
  rw [equiDiff, derivative]
  split
  · next e => subst e; rfl
  · rfl

/-- Two-level tables. -/
theorem table2 (n m : Nat) (f : Nat → Nat → K) (i j : Nat) (hj : j < m) (hi : i < n) :
    ((List.range m).flatMap fun j => (List.range n).map fun i => f i j)[j * n + i]? = some (f i j) := by
  induction m with
  | zero => omega
  | succ m ih =>
    rw [List.range_succ, List.flatMap_append]
    have hl : ((List.range m).flatMap fun j => (List.range n).map fun i => f i j).length = m * n := by
      rw [List.length_flatMap]; simp
    by_cases h : j < m
    · have : j * n + i < m * n := by
        have : (j + 1) * n ≤ m * n := Nat.mul_le_mul_right _ h
        rw [Nat.add_mul] at this; omega
      rw [List.getElem?_append_left (by rw [hl]; exact this)]
      exact ih h
    · have : j = m := by omega
      subst this
      rw [List.getElem?_append_right (by rw [hl]; omega), hl]
      simp [hi]

theorem table3 (n m l : Nat) (f : Nat → Nat → Nat → K) (h i j : Nat) (hh : h < l) (hj : j < m) (hi : i < n) :
    ((List.range l).flatMap fun h => (List.range m).flatMap fun j => (List.range n).map fun i => f h i j)[h * (m * n) + (j * n + i)]? = some (f h i j) := by
  have hin : ∀ h, ((List.range m).flatMap fun j => (List.range n).map fun i => f h i j) =
      (List.range (m * n)).map fun k => f h (k % n) (k / n) := by
    intro h
    have hn : 0 < n := by omega
    apply List.ext_getElem?
    intro k
    by_cases hk : k < m * n
    · have h1 : k / n < m := by rw [Nat.div_lt_iff_lt_mul hn]; exact hk
      have := table2 n m (fun i j => f h i j) (k % n) (k / n) h1 (Nat.mod_lt _ hn)
      rw [Nat.div_add_mod'] at this
      rw [this]; simp [hk]
    · rw [List.getElem?_eq_none, List.getElem?_eq_none]
      · simp; omega
      · rw [List.length_flatMap]; simp; omega
  have hn : 0 < n := by omega
  have hlt : j * n + i < m * n := by
    have : (j + 1) * n ≤ m * n := Nat.mul_le_mul_right _ hj
    rw [Nat.add_mul] at this; omega
  have := table2 (m * n) l (fun k h => f h (k % n) (k / n)) (j * n + i) h hh hlt
  simp only [hin]
  rw [this]
  have e1 : (j * n + i) % n = i := by rw [Nat.add_comm, Nat.add_mul_mod_self_right, Nat.mod_eq_of_lt hi]
  have e2 : (j * n + i) / n = j := by rw [Nat.add_comm, Nat.add_mul_div_right _ _ hn, Nat.div_eq_of_lt hi]; omega
  rw [e1, e2]

/-- The antiderivative: every polynomial is a derivative, with degree one more. -/
theorem exists_antideriv [CharZero K] (q : K[X]) : ∃ p : K[X], Polynomial.derivative p = q ∧ p.natDegree ≤ q.natDegree + 1 := by
  refine ⟨∑ k ∈ Finset.range (q.natDegree + 1), monomial (k + 1) (q.coeff k / (k + 1)), ?_, ?_⟩
  · rw [Polynomial.derivative_sum]
    conv_rhs => rw [q.as_sum_range]
    refine Finset.sum_congr rfl fun k _ => ?_
    rw [Polynomial.derivative_monomial]
    have : (k : K) + 1 ≠ 0 := by exact_mod_cast Nat.succ_ne_zero k
    simp only [Nat.add_sub_cancel, Nat.cast_add, Nat.cast_one]
    rw [div_mul_cancel₀ _ this]
  · refine natDegree_sum_le_of_forall_le _ _ fun k hk => ?_
    refine (natDegree_monomial_le _).trans ?_
    have := Finset.mem_range.1 hk
    omega

end Hexed.Basis
