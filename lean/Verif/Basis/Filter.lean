import Verif.Basis.Props
import Mathlib.RingTheory.Polynomial.ShiftedLegendre
import Mathlib.LinearAlgebra.Matrix.NonsingularInverse
import Mathlib.Tactic.Positivity
set_option autoImplicit false
set_option linter.unusedVariables false

/-!
# The modal filter (C46)

`legendre`, `get_ortho`, `filter` of script/Basis.py and the tables made from them. The square root needs real numbers. sympy's
`legendre(m, x)` is not modelled; it is replaced by Mathlib's Legendre polynomials: `P_m(2x - 1) = (-1)^m shiftedLegendre_m(x)`.
-/

namespace Hexed.Basis
open Polynomial

/-! ## Model -/

/-- `poly.subs(x, node*2 - 1)`, Basis.py:113,118. -/
noncomputable def legendreVal (m : Nat) (x : ℝ) : ℝ := (-1) ^ m * aeval x (shiftedLegendre m)

/-- `legendre(degree)[i_node]` and `get_ortho`, Basis.py:104-127. -/
noncomputable def ortho (b : Nodes ℝ) (degree i_node : Nat) : ℝ :=
  let norm := (List.range b.n).foldl (fun norm i => norm + legendreVal degree (b.node i) ^ 2 * b.weight i) 0
  legendreVal degree (b.node i_node) / √norm

/-- `filter(i_result, i_operand)`, Basis.py:152-156. -/
noncomputable def filter (b : Nodes ℝ) (i_result i_operand : Nat) : ℝ :=
  (List.range b.n).foldl (fun dot m => dot + ortho b m i_result * (1 / 2) ^ m * ortho b m i_operand * b.weight i_operand) 0

/-- `filter()(i, j)` of the generated C++, auto_generate.py:120-127, 216-224. -/
noncomputable def filterMat (b : Nodes ℝ) (i j : Nat) : Option ℝ :=
  colMajor b ((List.range b.n).flatMap fun j => (List.range b.n).map fun i => filter b i j) 0 i j

/-- `orthogonal(degree)(i)`, auto_generate.py:106-113, 206-214. -/
noncomputable def orthogonal (b : Nodes ℝ) (degree i : Nat) : Option ℝ :=
  ((List.range b.n).flatMap fun m => (List.range b.n).map fun i => ortho b m i)[degree * b.n + i]?

/-! ## Lemmas -/

theorem foldl_add (f : Nat → ℝ) : ∀ (l : List Nat) (a : ℝ), l.foldl (fun acc k => acc + f k) a = a + (l.map f).sum
  | [], a => by simp
  | k :: l, a => by rw [List.foldl_cons, foldl_add f l]; simp [add_assoc]

theorem filter_eq (b : Nodes ℝ) (i j : Nat) :
    filter b i j = ∑ m ∈ Finset.range b.n, ortho b m i * (1 / 2) ^ m * ortho b m j * b.weight j := by
  rw [filter, foldl_add, zero_add, range_sum]

/-- The quadrature of a polynomial. -/
noncomputable def quad (b : Nodes ℝ) (q : ℝ[X]) : ℝ := ∑ i ∈ Finset.range b.n, b.weight i * q.eval (b.node i)

theorem quad_add (b : Nodes ℝ) (p q : ℝ[X]) : quad b (p + q) = quad b p + quad b q := by
  simp only [quad, eval_add, mul_add, Finset.sum_add_distrib]

/-- `x^m (1-x)^m`. -/
noncomputable def bump (m : Nat) : ℝ[X] := X ^ m * (1 - X) ^ m

noncomputable def D (k : Nat) (p : ℝ[X]) : ℝ[X] := (⇑Polynomial.derivative)^[k] p

theorem D_succ (k : Nat) (p : ℝ[X]) : D (k + 1) p = Polynomial.derivative (D k p) := by
  rw [D, Function.iterate_succ_apply']; rfl

theorem bump_zero (m k : Nat) (hk : k < m) : (D k (bump m)).eval 0 = 0 ∧ (D k (bump m)).eval 1 = 0 := by
  constructor
  · have h : (X : ℝ[X]) ^ m ∣ bump m := Dvd.intro _ rfl
    obtain ⟨c, hc⟩ := pow_sub_dvd_iterate_derivative_of_pow_dvd k h
    show ((⇑Polynomial.derivative)^[k] (bump m)).eval 0 = 0
    rw [hc, eval_mul, eval_pow, eval_X, zero_pow (by omega), zero_mul]
  · have h : (1 - X : ℝ[X]) ^ m ∣ bump m := Dvd.intro_left _ rfl
    obtain ⟨c, hc⟩ := pow_sub_dvd_iterate_derivative_of_pow_dvd k h
    show ((⇑Polynomial.derivative)^[k] (bump m)).eval 1 = 0
    rw [hc, eval_mul, eval_pow, eval_sub, eval_one, eval_X, sub_self, zero_pow (by omega), zero_mul]

theorem bump_natDegree (m : Nat) : (bump m).natDegree ≤ 2 * m := by
  refine natDegree_mul_le.trans ?_
  have h1 : ((X : ℝ[X]) ^ m).natDegree = m := natDegree_X_pow m
  have h2 : ((1 - X : ℝ[X]) ^ m).natDegree ≤ m := by
    refine natDegree_pow_le.trans ?_
    have : (1 - X : ℝ[X]).natDegree ≤ 1 := (natDegree_sub_le _ _).trans (by simp)
    calc m * _ ≤ m * 1 := Nat.mul_le_mul_left _ this
      _ = m := by omega
  omega

theorem D_natDegree (k : Nat) (p : ℝ[X]) : (D k p).natDegree ≤ p.natDegree - k := natDegree_iterate_derivative p k

/-- Integration by parts, `k` times. -/
theorem by_parts {b : Nodes ℝ} {deg : Nat} (h : b.Exact deg) (m : Nat) (q : ℝ[X]) (hq : m + q.natDegree ≤ deg) : ∀ k, k ≤ m → k ≤ q.natDegree + 1 →
    quad b (D m (bump m) * q) = (-1) ^ k * quad b (D (m - k) (bump m) * D k q)
  | 0, _, _ => by simp [D]
  | k + 1, hk, hkq => by
    rw [by_parts h m q hq k (by omega) (by omega)]
    have h1 := h.integral (D (m - (k + 1)) (bump m) * D k q) (by
      refine natDegree_mul_le.trans ?_
      have := D_natDegree (m - (k + 1)) (bump m)
      have := D_natDegree k q
      have := bump_natDegree m
      omega)
    have hz := bump_zero m (m - (k + 1)) (by omega)
    rw [eval_mul, eval_mul, hz.1, hz.2, zero_mul, zero_mul, sub_zero, Polynomial.derivative_mul, ← D_succ, ← D_succ] at h1
    have h2 : quad b (D (m - (k + 1) + 1) (bump m) * D k q + D (m - (k + 1)) (bump m) * D (k + 1) q) = 0 := h1
    rw [quad_add, show m - (k + 1) + 1 = m - k by omega] at h2
    rw [pow_succ]
    linear_combination (-1) ^ k * h2

theorem D_zero_of {q : ℝ[X]} {k : Nat} (hk : q.natDegree < k) : D k q = 0 := iterate_derivative_eq_zero hk

/-- The Legendre polynomial of degree `m` on [0, 1] is orthogonal to polynomials of lower degree. -/
theorem quad_bump {b : Nodes ℝ} {deg : Nat} (h : b.Exact deg) (m : Nat) (q : ℝ[X]) (hq : q.natDegree < m) (hd : m + q.natDegree ≤ deg) :
    quad b (D m (bump m) * q) = 0 := by
  rw [by_parts h m q hd (q.natDegree + 1) (by omega) (le_refl _), D_zero_of (q := q) (by omega), mul_zero]
  simp [quad]

noncomputable def sl (m : Nat) : ℝ[X] := (shiftedLegendre m).map (Int.castRingHom ℝ)

theorem sl_eval (m : Nat) (x : ℝ) : aeval x (shiftedLegendre m) = (sl m).eval x := by
  rw [sl, eval_map]; rfl

theorem sl_rodrigues (m : Nat) : C (Nat.factorial m : ℝ) * sl m = D m (bump m) := by
  have h := congrArg (Polynomial.map (Int.castRingHom ℝ)) (factorial_mul_shiftedLegendre_eq m)
  rw [Polynomial.map_mul, ← Polynomial.iterate_derivative_map] at h
  simpa [sl, D, bump] using h

theorem sl_natDegree (m : Nat) : (sl m).natDegree = m := by
  rw [sl, natDegree_map_eq_of_injective (RingHom.injective_int _), natDegree_shiftedLegendre]

theorem sl_ortho {b : Nodes ℝ} {deg : Nat} (h : b.Exact deg) (m : Nat) (q : ℝ[X]) (hq : q.natDegree < m) (hd : m + q.natDegree ≤ deg) :
    quad b (sl m * q) = 0 := by
  have h1 := quad_bump h m q hq hd
  rw [← sl_rodrigues] at h1
  have hf : (Nat.factorial m : ℝ) ≠ 0 := by exact_mod_cast Nat.factorial_ne_zero m
  have h2 : quad b (C (Nat.factorial m : ℝ) * sl m * q) = (Nat.factorial m : ℝ) * quad b (sl m * q) := by
    rw [quad, quad, Finset.mul_sum]
    refine Finset.sum_congr rfl fun i _ => ?_
    simp only [eval_mul, eval_C]; ring
  rw [h2] at h1
  exact (mul_eq_zero.1 h1).resolve_left hf

/-- The square of the norm in `legendre`. -/
noncomputable def normSq (b : Nodes ℝ) (m : Nat) : ℝ := ∑ i ∈ Finset.range b.n, legendreVal m (b.node i) ^ 2 * b.weight i

theorem ortho_eq (b : Nodes ℝ) (m i : Nat) : ortho b m i = legendreVal m (b.node i) / √(normSq b m) := by
  rw [ortho]; simp only [foldl_add, zero_add, range_sum]; rfl

theorem normSq_pos {b : Nodes ℝ} (hd : b.Distinct) (hw : ∀ i < b.n, 0 < b.weight i) {m : Nat} (hm : m < b.n) : 0 < normSq b m := by
  have hnn : ∀ i ∈ Finset.range b.n, 0 ≤ legendreVal m (b.node i) ^ 2 * b.weight i :=
    fun i hi => mul_nonneg (sq_nonneg _) (hw i (Finset.mem_range.1 hi)).le
  refine lt_of_le_of_ne (Finset.sum_nonneg hnn) fun h0 => ?_
  have hz := (Finset.sum_eq_zero_iff_of_nonneg hnn).1 h0.symm
  have hroot : ∀ i ∈ Finset.range b.n, (sl m).eval (b.node i) = 0 := by
    intro i hi
    have h1 := hz i hi
    have h2 := (hw i (Finset.mem_range.1 hi)).ne'
    have h3 := pow_eq_zero_iff (two_ne_zero) |>.1 ((mul_eq_zero.1 h1).resolve_right h2)
    rw [legendreVal, sl_eval] at h3
    exact (mul_eq_zero.1 h3).resolve_left (pow_ne_zero _ (by norm_num))
  have := Polynomial.eq_zero_of_degree_lt_of_eval_index_eq_zero (f := sl m) (s := Finset.range b.n) (v := b.node) (injOn hd) (by
    refine lt_of_le_of_lt degree_le_natDegree ?_
    rw [sl_natDegree]; simpa using hm) hroot
  have h4 := sl_natDegree m
  rw [this, natDegree_zero] at h4
  subst h4
  have h5 : sl 0 = 1 := by
    have := sl_rodrigues 0
    simpa [D, bump] using this
  rw [h5] at this
  exact one_ne_zero this

/-! ## Properties (C46) -/

/-- The rows of `orthogonal` are orthonormal with respect to the quadrature rule, if it is exact to degree `2*row_size - 3`
(Gauss-Lobatto: `2*row_size - 3`, Gauss-Legendre: `2*row_size - 1`). -/
theorem orthogonal_orthonormal {b : Nodes ℝ} {deg : Nat} (h : b.Exact deg) (hw : ∀ i < b.n, 0 < b.weight i) (hd : 2 * b.n ≤ deg + 3) {l m : Nat} (hl : l < b.n) (hm : m < b.n) :
    ∑ i ∈ Finset.range b.n, b.weight i * ortho b l i * ortho b m i = if l = m then 1 else 0 := by
  have e : ∑ i ∈ Finset.range b.n, b.weight i * ortho b l i * ortho b m i =
      (∑ i ∈ Finset.range b.n, b.weight i * (legendreVal l (b.node i) * legendreVal m (b.node i))) / (√(normSq b l) * √(normSq b m)) := by
    rw [Finset.sum_div]
    refine Finset.sum_congr rfl fun i _ => ?_
    rw [ortho_eq, ortho_eq]; ring
  rw [e]
  split
  · next hlm =>
    subst hlm
    have hp := normSq_pos h.distinct hw hl
    rw [Real.mul_self_sqrt hp.le]
    rw [div_eq_one_iff_eq hp.ne', normSq]
    refine Finset.sum_congr rfl fun i _ => by ring
  · next hlm =>
    have key : ∀ l m, l < m → m < b.n → ∑ i ∈ Finset.range b.n, b.weight i * (legendreVal l (b.node i) * legendreVal m (b.node i)) = 0 := by
      intro l m hlm hm
      have h1 := sl_ortho h m (sl l) (by rw [sl_natDegree]; exact hlm) (by rw [sl_natDegree]; omega)
      have h2 : ∑ i ∈ Finset.range b.n, b.weight i * (legendreVal l (b.node i) * legendreVal m (b.node i)) = (-1) ^ l * (-1) ^ m * quad b (sl m * sl l) := by
        rw [quad, Finset.mul_sum]
        refine Finset.sum_congr rfl fun i _ => ?_
        rw [legendreVal, legendreVal, sl_eval, sl_eval, eval_mul]; ring
      rw [h2, h1, mul_zero]
    rcases Nat.lt_or_gt_of_ne hlm with h1 | h1
    · rw [key l m h1 hm, zero_div]
    · have := key m l h1 hl
      simp only [mul_comm (legendreVal m _)] at this
      rw [this, zero_div]

/-- The generated members return these numbers. -/
theorem filter_tables (b : Nodes ℝ) {i j : Nat} (hi : i < b.n) (hj : j < b.n) :
    filterMat b i j = some (filter b i j) ∧ orthogonal b j i = some (ortho b j i) := by
  refine ⟨?_, ?_⟩
  · rw [filterMat, colMajor, Nat.zero_add]; exact table2 b.n b.n (filter b) i j hj hi
  · exact table2 b.n b.n (fun i m => ortho b m i) i j hj hi

/-- The filter multiplies the Legendre mode of degree `m` by `2^(-m)`. -/
theorem filter_mode {b : Nodes ℝ} {deg : Nat} (h : b.Exact deg) (hw : ∀ i < b.n, 0 < b.weight i) (hd : 2 * b.n ≤ deg + 3) {i m : Nat} (hm : m < b.n) :
    ∑ j ∈ Finset.range b.n, filter b i j * ortho b m j = (1 / 2) ^ m * ortho b m i := by
  simp only [filter_eq, Finset.sum_mul]
  rw [Finset.sum_comm, Finset.sum_eq_single_of_mem m (by simpa using hm)]
  · have h1 := orthogonal_orthonormal h hw hd hm hm
    rw [if_pos rfl] at h1
    calc _ = ortho b m i * (1 / 2) ^ m * ∑ j ∈ Finset.range b.n, b.weight j * ortho b m j * ortho b m j := by
          rw [Finset.mul_sum]; refine Finset.sum_congr rfl fun j _ => by ring
      _ = _ := by rw [h1]; ring
  · intro l hl hlm
    have h1 := orthogonal_orthonormal h hw hd (Finset.mem_range.1 hl) hm
    rw [if_neg hlm] at h1
    calc _ = ortho b l i * (1 / 2) ^ l * ∑ j ∈ Finset.range b.n, b.weight j * ortho b l j * ortho b m j := by
          rw [Finset.mul_sum]; refine Finset.sum_congr rfl fun j _ => by ring
      _ = _ := by rw [h1]; ring

theorem legendreVal_zero (x : ℝ) : legendreVal 0 x = 1 := by
  have h5 : sl 0 = 1 := by
    have := sl_rodrigues 0
    simpa [D, bump] using this
  rw [legendreVal, sl_eval, h5]; simp

/-- The filter does not change the integral: filtering is conservative. -/
theorem filter_conserves {b : Nodes ℝ} {deg : Nat} (h : b.Exact deg) (hw : ∀ i < b.n, 0 < b.weight i) (hd : 2 * b.n ≤ deg + 3) {j : Nat} (hj : j < b.n) :
    ∑ i ∈ Finset.range b.n, b.weight i * filter b i j = b.weight j := by
  have hn : 0 < b.n := by omega
  have hp := normSq_pos h.distinct hw hn
  have ho : ∀ i, ortho b 0 i = 1 / √(normSq b 0) := fun i => by rw [ortho_eq, legendreVal_zero]
  have hs : √(normSq b 0) ≠ 0 := (Real.sqrt_pos.2 hp).ne'
  have hm : ∀ m ∈ Finset.range b.n, ∑ i ∈ Finset.range b.n, b.weight i * ortho b m i = if m = 0 then √(normSq b 0) else 0 := by
    intro m hm
    have h1 := orthogonal_orthonormal h hw hd (Finset.mem_range.1 hm) hn
    simp only [ho, ← Finset.sum_mul] at h1
    split at h1 <;> rename_i hm0
    · rw [if_pos hm0]; field_simp at h1; exact h1
    · rw [if_neg hm0]
      exact (mul_eq_zero.1 h1).resolve_right (one_div_ne_zero hs)
  simp only [filter_eq, Finset.mul_sum]
  rw [Finset.sum_comm]
  calc _ = ∑ m ∈ Finset.range b.n, (∑ i ∈ Finset.range b.n, b.weight i * ortho b m i) * ((1 / 2) ^ m * ortho b m j * b.weight j) := by
        refine Finset.sum_congr rfl fun m _ => ?_
        rw [Finset.sum_mul]; refine Finset.sum_congr rfl fun i _ => by ring
    _ = _ := by
        rw [Finset.sum_eq_single_of_mem 0 (by simpa using hn)]
        · rw [hm 0 (by simpa using hn), if_pos rfl, ho]; field_simp
        · intro m hm1 hm0; rw [hm m hm1, if_neg hm0, zero_mul]

/-- The modes span everything: nodal values are recovered from their modal coefficients. -/
theorem modes_complete {b : Nodes ℝ} {deg : Nat} (h : b.Exact deg) (hw : ∀ i < b.n, 0 < b.weight i) (hd : 2 * b.n ≤ deg + 3) (u : Nat → ℝ) {i : Nat} (hi : i < b.n) :
    u i = ∑ m ∈ Finset.range b.n, (∑ j ∈ Finset.range b.n, b.weight j * ortho b m j * u j) * ortho b m i := by
  let A : Matrix (Fin b.n) (Fin b.n) ℝ := fun m j => b.weight j * ortho b m j
  let B : Matrix (Fin b.n) (Fin b.n) ℝ := fun j m => ortho b m j
  have hAB : A * B = 1 := by
    ext l m
    rw [Matrix.mul_apply, Matrix.one_apply]
    have := orthogonal_orthonormal h hw hd l.2 m.2
    rw [Finset.sum_range] at this
    simpa [Fin.ext_iff, A, B] using this
  have hBA : B * A = 1 := mul_eq_one_comm.1 hAB
  have h1 : ∀ j : Fin b.n, ∑ m : Fin b.n, ortho b m i * (b.weight j * ortho b m j) = if (⟨i, hi⟩ : Fin b.n) = j then 1 else 0 := by
    intro j
    have := congrFun (congrFun hBA ⟨i, hi⟩) j
    rw [Matrix.mul_apply, Matrix.one_apply] at this
    exact this
  rw [Finset.sum_range]
  simp only [Finset.sum_range (n := b.n), Finset.sum_mul]
  rw [Finset.sum_comm]
  calc u i = ∑ j : Fin b.n, (if (⟨i, hi⟩ : Fin b.n) = j then 1 else 0) * u j := by simp
    _ = _ := by
      refine Finset.sum_congr rfl fun j _ => ?_
      rw [← h1 j, Finset.sum_mul]
      refine Finset.sum_congr rfl fun m _ => by ring

/-- The filter never increases the quadrature norm of the values. -/
theorem filter_contracts {b : Nodes ℝ} {deg : Nat} (h : b.Exact deg) (hw : ∀ i < b.n, 0 < b.weight i) (hd : 2 * b.n ≤ deg + 3) (u : Nat → ℝ) :
    ∑ i ∈ Finset.range b.n, b.weight i * (∑ j ∈ Finset.range b.n, filter b i j * u j) ^ 2 ≤ ∑ i ∈ Finset.range b.n, b.weight i * u i ^ 2 := by
  let c : Nat → ℝ := fun m => ∑ j ∈ Finset.range b.n, b.weight j * ortho b m j * u j
  have parseval : ∀ a : Nat → ℝ, ∑ i ∈ Finset.range b.n, b.weight i * (∑ m ∈ Finset.range b.n, a m * ortho b m i) ^ 2 = ∑ m ∈ Finset.range b.n, a m ^ 2 := by
    intro a
    have e : ∀ i ∈ Finset.range b.n, b.weight i * (∑ m ∈ Finset.range b.n, a m * ortho b m i) ^ 2 =
        ∑ m ∈ Finset.range b.n, ∑ l ∈ Finset.range b.n, a m * a l * (b.weight i * ortho b m i * ortho b l i) := by
      intro i _
      rw [sq, Finset.sum_mul_sum, Finset.mul_sum]
      refine Finset.sum_congr rfl fun m _ => ?_
      rw [Finset.mul_sum]
      refine Finset.sum_congr rfl fun l _ => by ring
    rw [Finset.sum_congr rfl e, Finset.sum_comm]
    refine Finset.sum_congr rfl fun m hm => ?_
    rw [Finset.sum_comm, Finset.sum_eq_single_of_mem m hm]
    · rw [← Finset.mul_sum, orthogonal_orthonormal h hw hd (Finset.mem_range.1 hm) (Finset.mem_range.1 hm), if_pos rfl]; ring
    · intro l hl hlm
      rw [← Finset.mul_sum, orthogonal_orthonormal h hw hd (Finset.mem_range.1 hm) (Finset.mem_range.1 hl), if_neg (Ne.symm hlm), mul_zero]
  have e1 : ∀ i ∈ Finset.range b.n, b.weight i * (∑ j ∈ Finset.range b.n, filter b i j * u j) ^ 2 =
      b.weight i * (∑ m ∈ Finset.range b.n, ((1 / 2) ^ m * c m) * ortho b m i) ^ 2 := by
    intro i _
    congr 2
    simp only [filter_eq, Finset.sum_mul, c, Finset.mul_sum]
    rw [Finset.sum_comm]
    refine Finset.sum_congr rfl fun m _ => Finset.sum_congr rfl fun j _ => by ring
  have e2 : ∀ i ∈ Finset.range b.n, b.weight i * u i ^ 2 = b.weight i * (∑ m ∈ Finset.range b.n, c m * ortho b m i) ^ 2 := by
    intro i hi
    rw [← modes_complete h hw hd u (Finset.mem_range.1 hi)]
  rw [Finset.sum_congr rfl e1, Finset.sum_congr rfl e2, parseval, parseval]
  refine Finset.sum_le_sum fun m _ => ?_
  have h1 : ((1 / 2 : ℝ) ^ m) ^ 2 ≤ 1 := by
    rw [← pow_mul]; exact pow_le_one₀ (by norm_num) (by norm_num)
  calc ((1 / 2) ^ m * c m) ^ 2 = ((1 / 2 : ℝ) ^ m) ^ 2 * c m ^ 2 := by ring
    _ ≤ 1 * c m ^ 2 := mul_le_mul_of_nonneg_right h1 (sq_nonneg _)
    _ = _ := one_mul _

/-- The hypotheses are met by the two-point Gauss-Legendre rule: `2 * 2 ≤ 3 + 3`. -/
example (u : Nat → ℝ) : let b : Nodes ℝ := ⟨2, fun i => if i = 0 then (1 - 1 / √3) / 2 else (1 + 1 / √3) / 2, fun _ => 1 / 2⟩
    ∑ i ∈ Finset.range 2, b.weight i * (∑ j ∈ Finset.range 2, filter b i j * u j) ^ 2 ≤ ∑ i ∈ Finset.range 2, b.weight i * u i ^ 2 :=
  filter_contracts gauss2_exact (fun i _ => by norm_num) (by norm_num) u

end Hexed.Basis
