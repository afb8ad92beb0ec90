import Verif.Basis.Lemmas
import Mathlib.Analysis.Real.Sqrt
import Mathlib.Tactic.NormNum
import Mathlib.Tactic.IntervalCases
import Mathlib.Algebra.BigOperators.Field
import Mathlib.Tactic.Linarith
set_option autoImplicit false
set_option linter.unusedVariables false

/-!
# Properties of the polynomial bases (C37, C44) and of the differentiation operator (C45)
-/

namespace Hexed.Basis
open Polynomial

variable {K : Type} [Field K]

/-! ## Interpolation and differentiation (C37) -/

/-- `Basis::interpolate` gives the value, at any point, of every polynomial of degree below `row_size`, from its values at the nodes.
For any distinct nodes. -/
theorem interpolate_exact {b : Nodes K} (h : b.Distinct) (p : K[X]) (hp : p.degree < b.n) (s : K) :
    ∑ j ∈ Finset.range b.n, interpolateCpp b s j * p.eval (b.node j) = p.eval s := by
  conv_rhs => rw [poly_eq h p hp, eval_finset_sum]
  refine Finset.sum_congr rfl fun j _ => ?_
  rw [interpolateCpp_eq, eval_mul, eval_C, mul_comm]

/-- The same for `interpolate` of the generator script. -/
theorem interpolate_py_exact {b : Nodes K} (h : b.Distinct) (p : K[X]) (hp : p.degree < b.n) (s : K) :
    ∑ j ∈ Finset.range b.n, interpolate b j s * p.eval (b.node j) = p.eval s := by
  rw [← interpolate_exact h p hp s]
  refine Finset.sum_congr rfl fun j hj => ?_
  rw [interpolateCpp_eq, interpolate_eq b s j (Finset.mem_range.1 hj)]

/-- At a node the interpolation is the nodal value. -/
theorem interpolate_node {b : Nodes K} (h : b.Distinct) {i j : Nat} (hi : i < b.n) (hj : j < b.n) :
    interpolateCpp b (b.node i) j = if i = j then 1 else 0 := by rw [interpolateCpp_eq, ell_node h hi hj]

/-- The differentiation matrix of the generator script is exact: it gives the derivative at each node of every polynomial of degree
below `row_size`. -/
theorem derivative_exact {b : Nodes K} (h : b.Distinct) (p : K[X]) (hp : p.degree < b.n) {i : Nat} (hi : i < b.n) :
    ∑ j ∈ Finset.range b.n, derivative b i j * p.eval (b.node j) = (Polynomial.derivative p).eval (b.node i) := by
  conv_rhs => rw [poly_eq h p hp, Polynomial.derivative_sum, eval_finset_sum]
  refine Finset.sum_congr rfl fun j hj => ?_
  rw [derivative_eq h hi (Finset.mem_range.1 hj), Polynomial.derivative_C_mul, eval_mul, eval_C, mul_comm]

/-- The nodes of `Equidistant` are different points. -/
theorem equidistant_distinct [CharZero K] (n : Nat) (hn : 2 ≤ n) : (equidistant K n).Distinct := by
  intro i hi j hj e
  have h1 : ((n : K) - 1) ≠ 0 := by
    rw [sub_ne_zero]; exact_mod_cast (show n ≠ 1 by omega)
  simp only [equidistant] at e
  have := (div_left_inj' h1).1 e
  exact_mod_cast this

/-- `Equidistant::diff_mat` is exact on polynomials of degree below `row_size`, for every row size of at least 2. -/
theorem equidistant_diff_exact [CharZero K] (n : Nat) (hn : 2 ≤ n) (p : K[X]) (hp : p.degree < n) {i : Nat} (hi : i < n) :
    ∑ j ∈ Finset.range n, equiDiff (equidistant K n) i j * p.eval ((j : K) / ((n : K) - 1)) = (Polynomial.derivative p).eval ((i : K) / ((n : K) - 1)) := by
  have := derivative_exact (equidistant_distinct (K := K) n hn) p hp hi
  simp only [equiDiff_eq]
  exact this

/-- `Equidistant::boundary` gives the values at 0 and 1. -/
theorem equidistant_boundary_exact [CharZero K] (n : Nat) (hn : 2 ≤ n) (p : K[X]) (s : Nat) (hs : s < 2) :
    ∑ j ∈ Finset.range n, equiBoundary (equidistant K n) s j * p.eval ((j : K) / ((n : K) - 1)) = p.eval (s : K) := by
  have h1 : ((n : K) - 1) ≠ 0 := by
    rw [sub_ne_zero]; exact_mod_cast (show n ≠ 1 by omega)
  have hs' : s = 0 ∨ s = 1 := by omega
  rcases hs' with rfl | rfl
  · rw [Finset.sum_eq_single_of_mem 0 (by simp; omega)]
    · simp [equiBoundary]
    · intro j _ hj; simp [equiBoundary, hj]
  · rw [Finset.sum_eq_single_of_mem (n - 1) (by simp; omega)]
    · have : ((n - 1 : Nat) : K) = (n : K) - 1 := by rw [Nat.cast_sub (by omega)]; simp
      simp [equiBoundary, equidistant, this, div_self h1]
    · intro j _ hj; simp [equiBoundary, equidistant, hj]

/-! ## The tables of the generated C++ -/

/-- The generated members return the numbers computed by the script, with the indices in the right order. -/
theorem tables_exact (b : Nodes K) {i j : Nat} (hi : i < b.n) (hj : j < b.n) :
    diffMat b i j = some (derivative b i j) ∧ (∀ s < 2, boundary b s j = some (interpolate b j (s : K))) ∧
    (∀ h < 2, prolongMat b h i j = some (prolong b i j h)) ∧ ∀ h < 2, restrictMat b h i j = some (restrict b i j h) := by
  refine ⟨?_, ?_, ?_, ?_⟩
  · rw [diffMat, colMajor, Nat.zero_add]; exact table2 b.n b.n (derivative b) i j hj hi
  · intro s hs; exact table2 b.n 2 (fun j s => interpolate b j (s : K)) j s hs hj
  · intro h hh
    rw [prolongMat, colMajor, Nat.mul_assoc]
    exact table3 b.n b.n 2 (fun h i j => prolong b i j h) h i j hh hj hi
  · intro h hh
    rw [restrictMat, colMajor, Nat.mul_assoc]
    exact table3 b.n b.n 2 (fun h i j => restrict b i j h) h i j hh hj hi

/-! ## Prolongation and restriction (C44) -/

/-- `prolong` gives the values at the nodes of the half interval (`h` = 0: lower half, 1: upper half) of every polynomial of degree
below `row_size`. -/
theorem prolong_exact {b : Nodes K} (h : b.Distinct) (p : K[X]) (hp : p.degree < b.n) {i : Nat} (hi : i < b.n) (half : Nat) :
    ∑ j ∈ Finset.range b.n, prolong b i j half * p.eval (b.node j) = p.eval ((b.node i + half) / 2) :=
  interpolate_py_exact h p hp _

/-- An exact quadrature rule gives the same integral when applied to the two halves separately. -/
theorem quad_halves [CharZero K] {b : Nodes K} {deg : Nat} (h : b.Exact deg) (q : K[X]) (hq : q.natDegree ≤ deg) :
    ∑ i ∈ Finset.range b.n, b.weight i * q.eval (b.node i) =
      ∑ half ∈ Finset.range 2, ∑ j ∈ Finset.range b.n, b.weight j / 2 * q.eval ((b.node j + (half : Nat)) / 2) := by
  obtain ⟨p, rfl, hp⟩ := exists_antideriv q
  have h2 : (2 : K) ≠ 0 := two_ne_zero
  rw [h.integral p (by omega)]
  have key : ∀ c : K, ∑ j ∈ Finset.range b.n, b.weight j / 2 * (Polynomial.derivative p).eval ((b.node j + c) / 2) =
      p.eval ((1 + c) / 2) - p.eval (c / 2) := by
    intro c
    have hd : (C (2⁻¹ : K) * (X + C c)).natDegree ≤ 1 := by
      refine (natDegree_C_mul_le _ _).trans ?_
      rw [natDegree_X_add_C]
    have h3 := h.integral (p.comp (C (2⁻¹ : K) * (X + C c))) (by
      refine natDegree_comp_le.trans ?_
      calc p.natDegree * _ ≤ p.natDegree * 1 := Nat.mul_le_mul_left _ hd
        _ ≤ deg + 1 := by omega)
    rw [eval_comp, eval_comp] at h3
    simp only [eval_mul, eval_C, eval_add, eval_X, zero_add] at h3
    rw [show (1 + c) / 2 = (2 : K)⁻¹ * (1 + c) by ring, show c / 2 = (2 : K)⁻¹ * c by ring, ← h3]
    refine Finset.sum_congr rfl fun j _ => ?_
    rw [Polynomial.derivative_comp]
    simp only [Polynomial.derivative_mul, Polynomial.derivative_C, Polynomial.derivative_add, Polynomial.derivative_X, eval_mul, eval_C, eval_comp, eval_add, eval_X, eval_one, eval_zero]
    rw [show (b.node j + c) / 2 = (2 : K)⁻¹ * (b.node j + c) by ring]
    ring
  rw [Finset.sum_range_succ, Finset.sum_range_succ, Finset.sum_range_zero, zero_add, key, key]
  simp

/-- Restriction undoes prolongation, if the quadrature rule is exact to degree `2*row_size - 2` (Gauss-Legendre: `2*row_size - 1`). -/
theorem restrict_prolong [CharZero K] {b : Nodes K} {deg : Nat} (h : b.Exact deg) (hd : 2 * b.n - 2 ≤ deg) {i k : Nat} (hi : i < b.n) (hk : k < b.n) :
    ∑ half ∈ Finset.range 2, ∑ j ∈ Finset.range b.n, restrict b i j half * prolong b j k half = if i = k then 1 else 0 := by
  have h1 := quad_halves h (ell b i * ell b k) (by
    refine natDegree_mul_le.trans ?_
    rw [ell_degree h.distinct hi, ell_degree h.distinct hk]; omega)
  have h2 : ∑ l ∈ Finset.range b.n, b.weight l * (ell b i * ell b k).eval (b.node l) = if i = k then b.weight i else 0 := by
    rw [Finset.sum_eq_single_of_mem i (by simpa using hi)]
    · rw [eval_mul, ell_node h.distinct hi hi, ell_node h.distinct hi hk, if_pos rfl]; split <;> simp
    · intro l hl hli
      rw [eval_mul, ell_node h.distinct (by simpa using hl) hi]; simp [hli]
  rw [h2] at h1
  have hw := h.weight_ne i hi
  have : ∑ half ∈ Finset.range 2, ∑ j ∈ Finset.range b.n, restrict b i j half * prolong b j k half =
      (∑ half ∈ Finset.range 2, ∑ j ∈ Finset.range b.n, b.weight j / 2 * (ell b i * ell b k).eval ((b.node j + (half : Nat)) / 2)) / b.weight i := by
    rw [Finset.sum_div]
    refine Finset.sum_congr rfl fun half _ => ?_
    rw [Finset.sum_div]
    refine Finset.sum_congr rfl fun j hj => ?_
    rw [restrict, prolong, prolong, interpolate_eq b _ i hi, interpolate_eq b _ k hk, eval_mul]
    ring
  rw [this, ← h1]
  split
  · exact div_self hw
  · simp

/-- `restrict` gives the values at the nodes of every polynomial that the rule integrates exactly against the Lagrange polynomials (degree
`d` with `d + row_size - 1 ≤ deg`), from its values at the nodes of the two halves. -/
theorem restrict_exact [CharZero K] {b : Nodes K} {deg : Nat} (h : b.Exact deg) (p : K[X]) (hp : p.natDegree + (b.n - 1) ≤ deg) {i : Nat} (hi : i < b.n) :
    ∑ half ∈ Finset.range 2, ∑ j ∈ Finset.range b.n, restrict b i j half * p.eval ((b.node j + (half : Nat)) / 2) = p.eval (b.node i) := by
  have h1 := quad_halves h (p * ell b i) (by
    refine natDegree_mul_le.trans ?_
    rw [ell_degree h.distinct hi]; exact hp)
  have h2 : ∑ l ∈ Finset.range b.n, b.weight l * (p * ell b i).eval (b.node l) = b.weight i * p.eval (b.node i) := by
    rw [Finset.sum_eq_single_of_mem i (by simpa using hi)]
    · rw [eval_mul, ell_node h.distinct hi hi, if_pos rfl, mul_one]
    · intro l hl hli
      rw [eval_mul, ell_node h.distinct (by simpa using hl) hi]; simp [hli]
  rw [h2] at h1
  have hw := h.weight_ne i hi
  have : ∑ half ∈ Finset.range 2, ∑ j ∈ Finset.range b.n, restrict b i j half * p.eval ((b.node j + (half : Nat)) / 2) =
      (∑ half ∈ Finset.range 2, ∑ j ∈ Finset.range b.n, b.weight j / 2 * (p * ell b i).eval ((b.node j + (half : Nat)) / 2)) / b.weight i := by
    rw [Finset.sum_div]
    refine Finset.sum_congr rfl fun half _ => ?_
    rw [Finset.sum_div]
    refine Finset.sum_congr rfl fun j hj => ?_
    rw [restrict, prolong, interpolate_eq b _ i hi, eval_mul]
    ring
  rw [this, ← h1, mul_div_cancel_left₀ _ hw]

/-- `restrict` is the orthogonal projection: whatever the data `g` on the two halves, the restricted data has the same integral against
every polynomial of degree below `row_size`. -/
theorem restrict_projection {b : Nodes K} (h : b.Distinct) (hw : ∀ i < b.n, b.weight i ≠ 0) (g : Nat → Nat → K) (p : K[X]) (hp : p.degree < b.n) :
    ∑ i ∈ Finset.range b.n, b.weight i * (∑ half ∈ Finset.range 2, ∑ j ∈ Finset.range b.n, restrict b i j half * g half j) * p.eval (b.node i) =
      ∑ half ∈ Finset.range 2, ∑ j ∈ Finset.range b.n, b.weight j / 2 * g half j * p.eval ((b.node j + (half : Nat)) / 2) := by
  have e : ∀ i ∈ Finset.range b.n, b.weight i * (∑ half ∈ Finset.range 2, ∑ j ∈ Finset.range b.n, restrict b i j half * g half j) * p.eval (b.node i) =
      ∑ half ∈ Finset.range 2, ∑ j ∈ Finset.range b.n, b.weight j / 2 * g half j * (prolong b j i half * p.eval (b.node i)) := by
    intro i hi
    rw [Finset.mul_sum, Finset.sum_mul]
    refine Finset.sum_congr rfl fun half _ => ?_
    rw [Finset.mul_sum, Finset.sum_mul]
    refine Finset.sum_congr rfl fun j _ => ?_
    have := hw i (Finset.mem_range.1 hi)
    rw [restrict]
    field_simp
  rw [Finset.sum_congr rfl e, Finset.sum_comm]
  refine Finset.sum_congr rfl fun half _ => ?_
  rw [Finset.sum_comm]
  refine Finset.sum_congr rfl fun j hj => ?_
  rw [← Finset.mul_sum, prolong_exact h p hp (Finset.mem_range.1 hj)]

/-- Restriction conserves the integral. -/
theorem restrict_conserves {b : Nodes K} (h : b.Distinct) (hn : 1 ≤ b.n) (hw : ∀ i < b.n, b.weight i ≠ 0) {j : Nat} (hj : j < b.n) (half : Nat) :
    ∑ i ∈ Finset.range b.n, b.weight i * restrict b i j half = b.weight j / 2 := by
  have h1 := prolong_exact h (1 : K[X]) (by rw [degree_one]; exact_mod_cast hn) hj half
  simp only [eval_one, mul_one] at h1
  calc _ = ∑ i ∈ Finset.range b.n, b.weight j / 2 * prolong b j i half := by
        refine Finset.sum_congr rfl fun i hi => ?_
        have := hw i (Finset.mem_range.1 hi)
        rw [restrict]; field_simp
    _ = _ := by rw [← Finset.mul_sum, h1, mul_one]

/-! ## The differentiation operator (C45) -/

/-- `dm` and `bd` hold the matrices of the basis. -/
structure Matrices (b : Nodes K) (dm bd : Nat → Nat → K) : Prop where
  diff : ∀ i < b.n, ∀ j < b.n, diffMat b i j = some (dm i j)
  bound : ∀ s < 2, ∀ j < b.n, boundary b s j = some (bd s j)

theorem Matrices.diff_eq {b : Nodes K} {dm bd : Nat → Nat → K} (m : Matrices b dm bd) {i j : Nat} (hi : i < b.n) (hj : j < b.n) : dm i j = derivative b i j := by
  have h := m.diff i hi j hj
  rw [(tables_exact b hi hj).1] at h
  exact (Option.some.inj h).symm

theorem Matrices.bound_eq {b : Nodes K} {dm bd : Nat → Nat → K} (m : Matrices b dm bd) {s j : Nat} (hs : s < 2) (hj : j < b.n) : bd s j = (ell b j).eval (s : K) := by
  have h := m.bound s hs j hj
  rw [(tables_exact b hj hj).2.1 s hs, interpolate_eq b _ j hj] at h
  exact (Option.some.inj h).symm

/-- Extrapolation to the ends of the interval is exact. -/
theorem Matrices.extrap {b : Nodes K} {dm bd : Nat → Nat → K} (m : Matrices b dm bd) (h : b.Distinct) {s : Nat} (hs : s < 2) (p : K[X]) (hp : p.degree < b.n) :
    ∑ j ∈ Finset.range b.n, bd s j * p.eval (b.node j) = p.eval (s : K) := by
  rw [← interpolate_exact h p hp]
  refine Finset.sum_congr rfl fun j hj => ?_
  rw [m.bound_eq hs (Finset.mem_range.1 hj), interpolateCpp_eq]

/-- The lifting operator puts exactly the boundary values into the integral. -/
theorem lift_integral {b : Nodes K} {dm bd : Nat → Nat → K} (m : Matrices b dm bd) (h : b.Distinct) (hn : 1 ≤ b.n) (hw : ∀ i < b.n, b.weight i ≠ 0) (bv : Nat → K) :
    ∑ i ∈ Finset.range b.n, b.weight i * boundaryTerm b.weight bd bv i = bv 1 - bv 0 := by
  have e : ∀ s < 2, ∑ j ∈ Finset.range b.n, bd s j = 1 := by
    intro s hs
    have := m.extrap h hs 1 (by rw [degree_one]; exact_mod_cast hn)
    simpa using this
  have : ∀ i ∈ Finset.range b.n, b.weight i * boundaryTerm b.weight bd bv i = bd 1 i * bv 1 - bd 0 i * bv 0 := by
    intro i hi
    have := hw i (Finset.mem_range.1 hi)
    rw [boundaryTerm, range_sum, Finset.sum_range_succ, Finset.sum_range_succ, Finset.sum_range_zero]
    simp only [lift, if_true, one_ne_zero, if_false]
    field_simp
    ring
  rw [Finset.sum_congr rfl this, Finset.sum_sub_distrib, ← Finset.sum_mul, ← Finset.sum_mul, e 1 (by omega), e 0 (by omega)]
  ring

/-- `Derivative` applied with boundary values is conservative: the quadrature of the result is the difference of the two boundary values,
whatever the interior values. -/
theorem deriv_conservative [CharZero K] {b : Nodes K} {deg : Nat} (h : b.Exact deg) (hn : 1 ≤ b.n) (hd : b.n ≤ deg + 2) {dm bd : Nat → Nat → K}
    (m : Matrices b dm bd) (q bv : Nat → K) :
    ∑ i ∈ Finset.range b.n, b.weight i * deriv b.n b.weight dm bd q bv i = bv 1 - bv 0 := by
  -- the interpolating polynomial of the interior values
  let p : K[X] := ∑ j ∈ Finset.range b.n, C (q j) * ell b j
  have hpn : ∀ j < b.n, p.eval (b.node j) = q j := by
    intro j hj
    rw [eval_finset_sum, Finset.sum_eq_single_of_mem j (by simpa using hj)]
    · rw [eval_mul, eval_C, ell_node h.distinct hj hj]; simp
    · intro l hl hlj
      rw [eval_mul, ell_node h.distinct hj (by simpa using hl)]; simp [Ne.symm hlj]
  have hp : p.degree < b.n := by
    refine lt_of_le_of_lt (degree_sum_le _ _) ?_
    rw [Finset.sup_lt_iff (by exact_mod_cast WithBot.bot_lt_coe b.n)]
    intro j hj
    refine lt_of_le_of_lt (by rw [← smul_eq_C_mul]; exact degree_smul_le _ _) (ell_degree_lt h.distinct (by simpa using hj))
  have hpd : p.natDegree ≤ deg + 1 := by
    have : p.natDegree < b.n := by
      by_cases h0 : p = 0
      · rw [h0, natDegree_zero]; omega
      · exact (natDegree_lt_iff_degree_lt h0).2 hp
    omega
  have e1 : ∑ i ∈ Finset.range b.n, b.weight i * ((List.range b.n).map fun j => dm i j * q j).sum = p.eval 1 - p.eval 0 := by
    rw [← h.integral p hpd]
    refine Finset.sum_congr rfl fun i hi => ?_
    rw [← derivative_exact h.distinct p hp (Finset.mem_range.1 hi), range_sum]
    congr 1
    refine Finset.sum_congr rfl fun j hj => ?_
    rw [m.diff_eq (Finset.mem_range.1 hi) (Finset.mem_range.1 hj), hpn j (Finset.mem_range.1 hj)]
  have e2 : ∀ s < 2, ((List.range b.n).map fun j => bd s j * q j).sum = p.eval (s : K) := by
    intro s hs
    rw [range_sum, ← m.extrap h.distinct hs p hp]
    refine Finset.sum_congr rfl fun j hj => ?_
    rw [hpn j (Finset.mem_range.1 hj)]
  have e3 := lift_integral m h.distinct hn h.weight_ne (fun s => bv s - ((List.range b.n).map fun j => bd s j * q j).sum)
  calc _ = ∑ i ∈ Finset.range b.n, b.weight i * ((List.range b.n).map fun j => dm i j * q j).sum +
        ∑ i ∈ Finset.range b.n, b.weight i * boundaryTerm b.weight bd (fun s => bv s - ((List.range b.n).map fun j => bd s j * q j).sum) i := by
        rw [← Finset.sum_add_distrib]
        refine Finset.sum_congr rfl fun i _ => ?_
        rw [deriv, mul_add]; rfl
    _ = _ := by rw [e1, e3, e2 1 (by omega), e2 0 (by omega)]; push_cast; ring

/-- `Derivative` is exact on polynomials of degree below `row_size` given their own boundary values. -/
theorem deriv_exact {b : Nodes K} (h : b.Distinct) {dm bd : Nat → Nat → K} (m : Matrices b dm bd) (p : K[X]) (hp : p.degree < b.n) {i : Nat} (hi : i < b.n) :
    deriv b.n b.weight dm bd (fun j => p.eval (b.node j)) (fun s => p.eval (s : K)) i = (Polynomial.derivative p).eval (b.node i) := by
  have e2 : ∀ s < 2, ((List.range b.n).map fun j => bd s j * p.eval (b.node j)).sum = p.eval (s : K) := fun s hs => m.extrap h hs p hp
  rw [deriv, range_sum, ← derivative_exact h p hp hi, range_sum]
  have : ∑ s ∈ Finset.range 2, lift b.weight bd i s * (p.eval (s : K) - ((List.range b.n).map fun j => bd s j * p.eval (b.node j)).sum) = 0 :=
    Finset.sum_eq_zero fun s hs => by rw [e2 s (Finset.mem_range.1 hs), sub_self, mul_zero]
  rw [this, add_zero]
  refine Finset.sum_congr rfl fun j hj => ?_
  rw [m.diff_eq hi (Finset.mem_range.1 hj)]

/-- The two-step form (`interior_term`, then `boundary_term` with the numerical boundary values) is the same operator, and `interior_term`
hands out the extrapolated values. -/
theorem deriv_split (n : Nat) (weight : Nat → K) (dm bd : Nat → Nat → K) (q bv : Nat → K) (i : Nat) :
    (interiorTerm n weight dm bd q).1 i + boundaryTerm weight bd bv i = deriv n weight dm bd q bv i := by
  simp only [interiorTerm, boundaryTerm, deriv, range_sum]
  simp only [mul_sub, Finset.sum_sub_distrib]
  ring

/-! ## Concrete cases -/

/-- Simpson's rule (Gauss-Lobatto with three nodes) is exact to degree 3. -/
example : (⟨3, fun i => (i : ℚ) / 2, fun i => if i = 1 then 2 / 3 else 1 / 6⟩ : Nodes ℚ).Exact 3 := by
  refine ⟨?_, ?_, ?_⟩
  · intro i hi j hj e
    simp only at e
    have : (i : ℚ) = j := by linarith
    exact_mod_cast this
  · intro i hi; dsimp only; split <;> norm_num
  · intro p hp
    have hp' : p.natDegree < 5 := by omega
    rw [p.as_sum_range' 5 hp']
    simp [Finset.sum_range_succ, eval_add, derivative_monomial, eval_monomial]
    ring

/-- Gauss-Legendre with two nodes is exact to degree 3 = 2*2 - 1. -/
theorem gauss2_exact : (⟨2, fun i => if i = 0 then (1 - 1 / √3) / 2 else (1 + 1 / √3) / 2, fun _ => 1 / 2⟩ : Nodes ℝ).Exact 3 := by
  have h3 : √3 * √3 = (3 : ℝ) := Real.mul_self_sqrt (by norm_num)
  have hpos : (0 : ℝ) < √3 := Real.sqrt_pos.2 (by norm_num)
  have hs : (1 / √3) ^ 2 = (1 / 3 : ℝ) := by rw [div_pow, sq (√3), h3]; norm_num
  refine ⟨?_, ?_, ?_⟩
  · intro i hi j hj e
    dsimp only at hi hj e
    have hq : (0 : ℝ) < (√3)⁻¹ := by positivity
    interval_cases i <;> interval_cases j <;> simp at e ⊢ <;> linarith
  · intro i hi; norm_num
  · intro p hp
    have hp' : p.natDegree < 5 := by omega
    rw [p.as_sum_range' 5 hp']
    generalize 1 / √3 = t at hs
    have ht3 : t ^ 3 = t / 3 := by rw [pow_succ, hs]; ring
    simp [Finset.sum_range_succ, eval_add, derivative_monomial, eval_monomial]
    linear_combination (p.coeff 3 * 3 / 4 + p.coeff 4 * (3 / 2)) * hs

/-- Equidistant nodes with their matrices. -/
example : Matrices (equidistant ℚ 3) (derivative (equidistant ℚ 3)) (fun s j => interpolate (equidistant ℚ 3) j (s : ℚ)) :=
  ⟨fun i hi j hj => (tables_exact _ hi hj).1, fun s hs j hj => (tables_exact _ hj hj).2.1 s hs⟩

end Hexed.Basis
