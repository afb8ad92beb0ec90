import Verif.Stats.ModalLemmas
import Mathlib.Algebra.MvPolynomial.Eval
import Mathlib.Algebra.Polynomial.AlgebraMap
set_option autoImplicit false
set_option linter.unusedVariables false

/-! # Lemmas about the nonsmoothness indicator -/

namespace Hexed.Stats
open Hexed.Tensor Hexed.Basis

variable {b : Nodes ℝ} {deg : Nat}

theorem idx_insert {n : Nat} : ∀ {m : Nat} (i : Fin (m + 1)) (k : Fin n) (c : Fin m → Fin n), ∃ pre post, pre < n ^ (i : Nat) ∧ post < n ^ (m - i) ∧
    idx c = pre * n ^ (m - i) + post ∧ idx (i.insertNth k c : Fin (m + 1) → Fin n) = (pre * n + k) * n ^ (m - i) + post := by
  intro m
  induction m with
  | zero =>
    intro i k c
    obtain rfl : i = 0 := by apply Fin.ext; simp
    refine ⟨0, idx c, by simp, by simpa using idx_lt c, by simp, ?_⟩
    rw [Fin.insertNth_zero', idx_cons]; simp
  | succ m ih =>
    intro i k c
    refine Fin.cases ?_ (fun j => ?_) i
    · refine ⟨0, idx c, by simp, by simpa using idx_lt c, by simp, ?_⟩
      rw [Fin.insertNth_zero', idx_cons]; simp
    · obtain ⟨pre, post, h1, h2, h3, h4⟩ := ih j k (Fin.tail c)
      have hc : c = Fin.cons (c 0) (Fin.tail c) := (Fin.cons_self_tail c).symm
      have hi : (j.succ.insertNth k c : Fin (m + 2) → Fin n) = Fin.cons (c 0) (j.insertNth k (Fin.tail c) : Fin (m + 1) → Fin n) := by
        conv_lhs => rw [hc]
        exact Fin.insertNth_succ_cons _ _ _ _
      have hj : (j : Nat) ≤ m := Nat.lt_succ_iff.1 j.2
      have e1 : n ^ m = n ^ (j : Nat) * n ^ (m - j) := by rw [← pow_add]; congr 1; omega
      have e2 : m + 1 - (j.succ : Nat) = m - j := by simp
      refine ⟨c 0 * n ^ (j : Nat) + pre, post, ?_, ?_, ?_, ?_⟩
      · have := (c 0).2
        rw [Fin.val_succ, pow_succ]
        nlinarith [Nat.pow_pos (n := (j : Nat)) (Nat.pos_of_ne_zero (by intro h; omega) : 0 < n)]
      · rw [e2]; exact h2
      · rw [e2]; conv_lhs => rw [hc, idx_cons, h3, e1]
        ring
      · rw [e2, hi, idx_cons, h4, pow_succ, e1]; ring

/-- The component along the highest Legendre polynomial in variable `i`. -/
noncomputable def top (b : Nodes ℝ) {m : Nat} (i : Fin (m + 1)) (v : (Fin (m + 1) → Fin b.n) → ℝ) (c : Fin m → Fin b.n) : ℝ :=
  ∑ k : Fin b.n, ortho b (b.n - 1) k * b.weight k * v (i.insertNth k c : Fin (m + 1) → Fin b.n)

theorem elemNonsmooth_eq (hb : Rule b deg) (u : Nat → ℝ) (m : Nat) (vals : Nat → ℝ) :
    elemNonsmooth b u (m + 1) vals = some (√((∑ i : Fin (m + 1), ∑ c : Fin m → Fin b.n, wgt b c * top b i (at' vals) c ^ 2) / (m + 1 : Nat))) := by
  obtain ⟨wt, w1, w2, w3⟩ := weights_eq hb.some u m
  let M : Mat ℝ := ⟨1, b.n, fun _ k => ortho b (b.n - 1) k * b.weight k⟩
  let S : Nat → ℝ := fun j => if h : j < m + 1 then ∑ c : Fin m → Fin b.n, wgt b c * top b ⟨j, h⟩ (at' vals) c ^ 2 else 0
  have step : ∀ j < m + 1, ∀ s : ℝ, ((dimension M u ⟨MathFn.pow (K := Nat) b.n (m + 1 : Nat), vals⟩ j).bind fun proj => (weightedDot proj wt).bind fun d => some (s + d)) = some (s + S j) := by
    intro j hj s
    have hp : b.n ^ (m + 1) = b.n ^ (j + 1) * b.n ^ (m - j) := by rw [← pow_add]; congr 1; omega
    obtain ⟨r, r1, r2, r3⟩ := dimension_sum M u ⟨b.n ^ (m + 1), vals⟩ j (b.n ^ (m - j)) hb.some hp
    have hr : r.size = b.n ^ m := by
      rw [r2]
      show b.n ^ j * 1 * b.n ^ (m - j) = _
      rw [mul_one, ← pow_add]; congr 1; omega
    rw [MathFn.pow_nat, r1, Option.bind_some, weightedDot, if_pos (by rw [hr, w2]), Option.bind_some]
    congr 2
    simp only [S]
    rw [dif_pos hj, hr, sum_idx hb.some]
    refine Finset.sum_congr rfl fun c _ => ?_
    have e : r.val (idx c) = top b ⟨j, hj⟩ (at' vals) c := by
      obtain ⟨pre, post, h1, h2, h3, _⟩ := idx_insert (⟨j, hj⟩ : Fin (m + 1)) (⟨0, hb.some⟩ : Fin b.n) c
      have h4 := r3 pre 0 post h1 Nat.one_pos h2
      simp only [M, Nat.mul_one, Nat.add_zero] at h4
      rw [h3, h4, Finset.sum_range, top]
      refine Finset.sum_congr rfl fun k _ => ?_
      obtain ⟨pre', post', h1', h2', h3', h5⟩ := idx_insert (⟨j, hj⟩ : Fin (m + 1)) k c
      have hpos : 0 < b.n ^ (m - j) := Nat.pow_pos hb.some
      have hpp : pre = pre' ∧ post = post' := by
        have e := h3.symm.trans h3'
        have q1 : pre = pre' := by
          have := congrArg (· / b.n ^ (m - j)) e
          simpa [Nat.add_div_of_dvd_right, Nat.mul_div_cancel _ hpos, Nat.div_eq_of_lt h2, Nat.div_eq_of_lt h2'] using this
        subst q1
        exact ⟨rfl, by simpa using e⟩
      obtain ⟨rfl, rfl⟩ := hpp
      rw [at', h5]
    rw [e, w3, wgt]; ring
  have loop : ∀ n ≤ m + 1, ∀ s : ℝ, forLoop n (fun i_dim (s : ℝ) =>
      (dimension M u ⟨MathFn.pow (K := Nat) b.n (m + 1 : Nat), vals⟩ i_dim).bind fun proj => (weightedDot proj wt).bind fun d => some (s + d)) s = some (s + ∑ j ∈ Finset.range n, S j) := by
    intro n
    induction n with
    | zero => intro _ s; simp [forLoop_zero]
    | succ n ih =>
      intro hn s
      rw [forLoop_succ, ih (by omega), Option.bind_some, step n (by omega), Finset.sum_range_succ, add_assoc]
  rw [elemNonsmooth, Nat.add_sub_cancel, w1, Option.bind_some]
  rw [loop (m + 1) le_rfl 0, Option.bind_some, if_neg (by omega), zero_add, Finset.sum_range]
  congr 4
  funext i
  simp only [S]
  rw [dif_pos i.2]

/-- The index of the highest mode. -/
def last (hb : Rule b deg) : Fin b.n := ⟨b.n - 1, by have := hb.some; omega⟩

theorem top_mode (hb : Rule b deg) {m : Nat} (i : Fin (m + 1)) (v : (Fin (m + 1) → Fin b.n) → ℝ) (d : Fin m → Fin b.n) :
    mode b (top b i v) d = mode b v (i.insertNth (last hb) d : Fin (m + 1) → Fin b.n) := by
  rw [mode, mode, ← (Fin.insertNthEquiv (fun _ => Fin b.n) i).sum_comp, Fintype.sum_prod_type, Finset.sum_comm]
  refine Finset.sum_congr rfl fun c _ => ?_
  rw [top, Finset.mul_sum]
  refine Finset.sum_congr rfl fun k _ => ?_
  simp only [Fin.insertNthEquiv, Equiv.coe_fn_mk]
  rw [wgt, wgt, leg, leg, Fin.prod_univ_succAbove _ i, Fin.prod_univ_succAbove (fun k_1 => ortho b _ _) i]
  simp only [Fin.insertNth_apply_same, Fin.insertNth_apply_succAbove, last]
  ring

theorem top_sum (hb : Rule b deg) (hd : 2 * b.n ≤ deg + 3) {m : Nat} (i : Fin (m + 1)) (v : (Fin (m + 1) → Fin b.n) → ℝ) :
    ∑ c : Fin m → Fin b.n, wgt b c * top b i v c ^ 2 = ∑ d : Fin (m + 1) → Fin b.n, if d i = last hb then mode b v d ^ 2 else 0 := by
  rw [parseval hb hd, ← (Fin.insertNthEquiv (fun _ => Fin b.n) i).sum_comp, Fintype.sum_prod_type, Finset.sum_comm]
  refine Finset.sum_congr rfl fun d _ => ?_
  simp only [Fin.insertNthEquiv, Equiv.coe_fn_mk, Fin.insertNth_apply_same]
  rw [Finset.sum_ite_eq' Finset.univ (last hb), if_pos (Finset.mem_univ _), top_mode hb]

/-- The square of the indicator, as a sum over modes: each mode counts as often as it has highest degree in a variable. -/
theorem nonsmooth_sum (hb : Rule b deg) (hd : 2 * b.n ≤ deg + 3) {m : Nat} (v : (Fin (m + 1) → Fin b.n) → ℝ) :
    (∑ i : Fin (m + 1), ∑ c : Fin m → Fin b.n, wgt b c * top b i v c ^ 2) =
      ∑ d : Fin (m + 1) → Fin b.n, ((Finset.univ.filter fun i => (d i : Nat) = b.n - 1).card : ℝ) * mode b v d ^ 2 := by
  simp only [top_sum hb hd]
  rw [Finset.sum_comm]
  refine Finset.sum_congr rfl fun d _ => ?_
  rw [← Finset.sum_filter, Finset.sum_const, nsmul_eq_mul]
  congr 3
  refine Finset.filter_congr fun i _ => ?_
  simp [last, Fin.ext_iff]

/-! ## Polynomials -/

theorem ortho_poly (hb : Rule b deg) (hd : 2 * b.n ≤ deg + 3) {l s : Nat} (hl : l < b.n) (hs : s < l) : ∑ i : Fin b.n, b.weight i * ortho b l i * b.node i ^ s = 0 := by
  have h := sl_ortho hb.exact l (Polynomial.X ^ s) (by simpa using hs) (by simp; omega)
  rw [quad, Finset.sum_range] at h
  have e : ∀ i : Fin b.n, b.weight i * ortho b l i * b.node i ^ s = ((-1) ^ l / √(normSq b l)) * (b.weight i * (sl l * Polynomial.X ^ s).eval (b.node i)) := by
    intro i
    rw [ortho_eq, legendreVal, sl_eval]; simp; ring
  simp only [e]
  rw [← Finset.mul_sum, h, mul_zero]

/-- A polynomial of lower degree than `l` in variable `i` has no mode of degree `l` in that variable. -/
theorem mode_poly (hb : Rule b deg) (hd : 2 * b.n ≤ deg + 3) {nd : Nat} (p : MvPolynomial (Fin nd) ℝ) (i : Fin nd) (d : Fin nd → Fin b.n) (hp : p.degreeOf i < d i) :
    mode b (fun c => MvPolynomial.eval (point b c) p) d = 0 := by
  simp only [mode, MvPolynomial.eval_eq', Finset.mul_sum]
  rw [Finset.sum_comm]
  refine Finset.sum_eq_zero fun s hs => ?_
  have e : ∀ c : Fin nd → Fin b.n, wgt b c * leg b d c * (MvPolynomial.coeff s p * ∏ k, point b c k ^ s k) =
      MvPolynomial.coeff s p * ∏ k, b.weight (c k) * ortho b (d k) (c k) * b.node (c k) ^ s k := by
    intro c; rw [Finset.prod_mul_distrib, Finset.prod_mul_distrib]; simp only [point, wgt, leg]; ring
  simp only [e]
  rw [← Finset.mul_sum]
  have h := Finset.prod_univ_sum (fun _ : Fin nd => (Finset.univ : Finset (Fin b.n))) (fun k j => b.weight j * ortho b (d k) j * b.node j ^ s k)
  rw [Fintype.piFinset_univ] at h
  rw [← h, Finset.prod_eq_zero (Finset.mem_univ i), mul_zero]
  exact ortho_poly hb hd (d i).2 (lt_of_le_of_lt (MvPolynomial.le_degreeOf_of_mem_support i hs) hp)

theorem degreeOf_aeval {nd : Nat} (k i : Fin nd) (q : Polynomial ℝ) : MvPolynomial.degreeOf i (Polynomial.aeval (MvPolynomial.X k : MvPolynomial (Fin nd) ℝ) q) ≤ if k = i then q.natDegree else 0 := by
  rw [Polynomial.aeval_eq_sum_range]
  refine (MvPolynomial.degreeOf_sum_le _ _ _).trans (Finset.sup_le fun j hj => ?_)
  rw [MvPolynomial.smul_eq_C_mul]
  refine (MvPolynomial.degreeOf_mul_le _ _ _).trans ?_
  rw [MvPolynomial.degreeOf_C, zero_add]
  refine (MvPolynomial.degreeOf_pow_le _ _ _).trans ?_
  have hj' := Finset.mem_range_succ_iff.1 hj
  rw [MvPolynomial.degreeOf_X]
  by_cases h : k = i
  · rw [if_pos h.symm, if_pos h]; omega
  · rw [if_neg (Ne.symm h), if_neg h]; omega

/-- Values all of whose modes have degree at most `l` in each variable are those of such a polynomial. -/
theorem poly_of_modes (hb : Rule b deg) (hd : 2 * b.n ≤ deg + 3) {nd : Nat} (v : (Fin nd → Fin b.n) → ℝ) (l : Nat) (h : ∀ d i, l < (d i : Nat) → mode b v d = 0) :
    ∃ p : MvPolynomial (Fin nd) ℝ, (∀ i, p.degreeOf i ≤ l) ∧ ∀ c, v c = MvPolynomial.eval (point b c) p := by
  let q : Nat → Polynomial ℝ := fun m => Polynomial.C ((-1) ^ m / √(normSq b m)) * sl m
  let t : (Fin nd → Fin b.n) → MvPolynomial (Fin nd) ℝ := fun d => MvPolynomial.C (mode b v d) * ∏ k, Polynomial.aeval (MvPolynomial.X k) (q (d k))
  refine ⟨∑ d, t d, fun i => ?_, fun c => ?_⟩
  · refine (MvPolynomial.degreeOf_sum_le _ _ _).trans (Finset.sup_le fun d _ => ?_)
    by_cases hdi : l < (d i : Nat)
    · simp only [t, h d i hdi, map_zero, zero_mul, MvPolynomial.degreeOf_zero]; exact Nat.zero_le _
    · refine (MvPolynomial.degreeOf_mul_le _ _ _).trans ?_
      rw [MvPolynomial.degreeOf_C, zero_add]
      refine (MvPolynomial.degreeOf_prod_le _ _ _).trans ?_
      refine (Finset.sum_le_sum fun k _ => degreeOf_aeval k i (q (d k))).trans ?_
      rw [Finset.sum_ite_eq' Finset.univ i, if_pos (Finset.mem_univ _)]
      refine (Polynomial.natDegree_C_mul_le _ _).trans ?_
      rw [sl_natDegree]; omega
  · rw [mode_complete hb hd v c, map_sum]
    refine Finset.sum_congr rfl fun d _ => ?_
    simp only [t, map_mul, MvPolynomial.eval_C, map_prod]
    congr 1
    rw [leg]
    refine Finset.prod_congr rfl fun k _ => ?_
    have e : MvPolynomial.eval (point b c) (Polynomial.aeval (MvPolynomial.X k) (q (d k))) = (q (d k)).eval (b.node (c k)) := by
      have := Polynomial.hom_eval₂ (q (d k)) (algebraMap ℝ (MvPolynomial (Fin nd) ℝ)) (MvPolynomial.eval (point b c)) (MvPolynomial.X k)
      rw [Polynomial.aeval_def, this, MvPolynomial.eval_X]
      have hid : (MvPolynomial.eval (point b c)).comp (algebraMap ℝ (MvPolynomial (Fin nd) ℝ)) = RingHom.id ℝ := by
        ext x; simp [MvPolynomial.algebraMap_eq]
      rw [hid, Polynomial.eval₂_id]; rfl
    rw [e, ortho_eq, legendreVal, sl_eval]
    simp only [q, Polynomial.eval_mul, Polynomial.eval_C]; ring

end Hexed.Stats
