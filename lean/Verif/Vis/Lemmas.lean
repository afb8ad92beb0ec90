import Verif.Vis.Spec
import Verif.Tensor.Props
import Verif.Basis.Props
import Verif.Stats.Quad
import Verif.Stats.Nonsmooth
import Mathlib.Algebra.MvPolynomial.Polynomial
import Mathlib.Algebra.MvPolynomial.Funext
set_option autoImplicit false
set_option linter.unusedVariables false

/-! # Helper lemmas: tensor product interpolation -/

namespace Hexed.Vis
open Hexed.Tensor Hexed.Basis Hexed.Stats

/-- Tensor product interpolation. -/
noncomputable def lag (b : Nodes ℝ) {nd : Nat} (g : Nat → ℝ) (x : Fin nd → ℝ) : ℝ := ∑ c : Fin nd → Fin b.n, (∏ k, interpolateCpp b (x k) (c k)) * g (idx c)

theorem mono_lag {b : Nodes ℝ} (h : b.Distinct) {nd : Nat} (s : Fin nd → Nat) (hs : ∀ k, s k < b.n) (x : Fin nd → ℝ) :
    ∑ c : Fin nd → Fin b.n, (∏ k, interpolateCpp b (x k) (c k)) * ∏ k, b.node (c k) ^ s k = ∏ k, x k ^ s k := by
  simp only [← Finset.prod_mul_distrib]
  have := Finset.prod_univ_sum (fun _ : Fin nd => (Finset.univ : Finset (Fin b.n))) (fun k i => interpolateCpp b (x k) i * b.node i ^ s k)
  rw [Fintype.piFinset_univ] at this
  rw [← this]
  refine Finset.prod_congr rfl fun k _ => ?_
  have e := interpolate_exact h (Polynomial.X ^ s k) (lt_of_le_of_lt (Polynomial.degree_X_pow_le _) (by exact_mod_cast hs k)) (x k)
  rw [Finset.sum_range] at e
  simpa using e

theorem lag_eq {b : Nodes ℝ} (h : b.Distinct) {nd : Nat} {g : Nat → ℝ} {p : MvPolynomial (Fin nd) ℝ} (hp : Interp b g p) (x : Fin nd → ℝ) : lag b g x = MvPolynomial.eval x p := by
  unfold lag
  simp only [← hp.val]
  simp only [MvPolynomial.eval_eq', Finset.mul_sum]
  rw [Finset.sum_comm]
  refine Finset.sum_congr rfl fun s hs => ?_
  rw [← mono_lag h s (fun k => lt_of_le_of_lt (MvPolynomial.le_degreeOf_of_mem_support k hs) (hp.deg k)) x, Finset.mul_sum]
  refine Finset.sum_congr rfl fun c _ => ?_
  ring

/-- The Lagrange polynomial of node `j` in coordinate `k`. -/
noncomputable def mvEll (b : Nodes ℝ) {nd : Nat} (j : Nat) (k : Fin nd) : MvPolynomial (Fin nd) ℝ :=
  ∑ i ∈ (ell b j).support, MvPolynomial.C ((ell b j).coeff i) * MvPolynomial.X k ^ i

theorem mvEll_eval (b : Nodes ℝ) {nd : Nat} (j : Nat) (k : Fin nd) (x : Fin nd → ℝ) : MvPolynomial.eval x (mvEll b j k) = (ell b j).eval (x k) := by
  rw [mvEll, map_sum, Polynomial.eval_eq_sum, Polynomial.sum]
  refine Finset.sum_congr rfl fun i _ => by simp

theorem mvEll_deg {b : Nodes ℝ} (h : b.Distinct) {nd : Nat} (j : Fin b.n) (k l : Fin nd) : (mvEll b j k).degreeOf l ≤ if k = l then b.n - 1 else 0 := by
  refine (MvPolynomial.degreeOf_sum_le _ _ _).trans (Finset.sup_le fun i hi => ?_)
  refine (MvPolynomial.degreeOf_C_mul_le _ _ _).trans ?_
  refine (MvPolynomial.degreeOf_pow_le _ _ _).trans ?_
  rw [MvPolynomial.degreeOf_X]
  have hd : i ≤ (ell b j).natDegree := Polynomial.le_natDegree_of_mem_supp i hi
  have hn : (ell b j).natDegree ≤ b.n - 1 := (ell_degree h j.2).le
  by_cases e : k = l
  · rw [if_pos e, if_pos e.symm]; omega
  · rw [if_neg e, if_neg (Ne.symm e)]; omega

theorem interp_exists {b : Nodes ℝ} (h : b.Distinct) (hn : 0 < b.n) {nd : Nat} (g : Nat → ℝ) : ∃ p : MvPolynomial (Fin nd) ℝ, Interp b g p := by
  refine ⟨∑ c : Fin nd → Fin b.n, MvPolynomial.C (g (idx c)) * ∏ k, mvEll b (c k) k, fun l => ?_, fun c => ?_⟩
  · refine lt_of_le_of_lt (MvPolynomial.degreeOf_sum_le _ _ _) ?_
    refine (Finset.sup_lt_iff (by simpa using hn)).2 fun c _ => ?_
    refine lt_of_le_of_lt (MvPolynomial.degreeOf_C_mul_le _ _ _) ?_
    refine lt_of_le_of_lt (MvPolynomial.degreeOf_prod_le _ _ _) ?_
    refine lt_of_le_of_lt (Finset.sum_le_sum fun k _ => mvEll_deg h (c k) k l) ?_
    rw [Finset.sum_ite_eq']
    simp; omega
  · rw [map_sum, Finset.sum_eq_single c]
    · simp only [map_mul, MvPolynomial.eval_C, map_prod, mvEll_eval]
      rw [Finset.prod_eq_one, mul_one]
      intro k _
      rw [ell_node h (c k).2 (c k).2, if_pos rfl]
    · intro c' _ hc
      simp only [map_mul, MvPolynomial.eval_C, map_prod, mvEll_eval]
      obtain ⟨k, hk⟩ : ∃ k, c' k ≠ c k := by by_contra hcon; push Not at hcon; exact hc (funext hcon)
      rw [Finset.prod_eq_zero (Finset.mem_univ k), mul_zero]
      rw [ell_node h (c k).2 (c' k).2, if_neg fun e => hk (Fin.ext e.symm)]
    · simp

theorem interp_eq {b : Nodes ℝ} (h : b.Distinct) {nd : Nat} {g : Nat → ℝ} {p q : MvPolynomial (Fin nd) ℝ} (hp : Interp b g p) (hq : Interp b g q) : p = q := by
  refine MvPolynomial.funext fun x => ?_
  rw [← lag_eq h hp, lag_eq h hq]


/-! ## Matrices -/

theorem boundMat_eq {b : Nodes ℝ} (s k : Nat) (hs : s < 2) (hk : k < b.n) : (boundMat b).val s k = interpolateCpp b s k := by
  simp only [boundMat, Basis.boundary, boundaryTable]
  rw [table2 b.n 2 (fun j pos => interpolate b j (pos : ℝ)) k s hs hk, Option.getD_some, interpolate_eq b _ k hk, interpolateCpp_eq]

theorem linSpaced_eq {n i : Nat} (hn : 2 ≤ n) : linSpaced n i = (i : ℝ) / ((n : ℝ) - 1) := by rw [linSpaced, if_neg (by omega)]

theorem vars_val {nq nv q v : Nat} (func : Nat → Nat → ℝ) (hq : q < nq) : (vars nq nv func).val (v * nq + q) = func q v := by
  simp only [vars]
  rw [Nat.mul_comm v, Nat.mul_add_mod, Nat.mod_eq_of_lt hq, Nat.mul_add_div (by omega), Nat.div_eq_of_lt hq, Nat.add_zero]

/-- The loop over variables. -/
theorem perVar_ok (u : Nat → ℝ) {nv n_in n_out : Nat} (ho : 0 < n_out) (f : Vec ℝ → Option (Vec ℝ)) (vs : Vec ℝ) (hs : vs.size = n_in * nv) (g : Nat → Vec ℝ)
    (hf : ∀ v < nv, f ⟨n_in, fun j => vs.val (v * n_in + j)⟩ = some (g v)) (hg : ∀ v < nv, (g v).size = n_out) :
    ∃ r, perVar u nv n_in n_out f vs = some r ∧ r.size = n_out * nv ∧ ∀ v < nv, ∀ j < n_out, r.val (v * n_out + j) = (g v).val j := by
  refine ⟨_, forLoop_write _ _ u (fun j => j / n_out) (fun v j => (g v).val (j - v * n_out)) _ ?_, rfl, ?_⟩
  · intro v hv val
    have h1 : n_in = 0 ∨ v * n_in + (n_in - 1) * 1 < vs.size := by
      rcases Nat.eq_zero_or_pos n_in with h | h
      · exact Or.inl h
      · right
        have : (v + 1) * n_in ≤ nv * n_in := Nat.mul_le_mul_right _ hv
        rw [hs, Nat.mul_comm n_in nv]
        rw [Nat.add_mul] at this
        omega
    have h2 : v * n_out + (n_out - 1) * 1 < n_out * nv := by
      have : (v + 1) * n_out ≤ nv * n_out := Nat.mul_le_mul_right _ hv
      rw [Nat.mul_comm n_out nv]
      rw [Nat.add_mul] at this
      omega
    rw [Nat.mul_one] at h1
    simp only [readSeq, Nat.mul_one, if_pos h1, Option.bind, hf v hv, writeSeq]
    rw [if_pos ⟨hg v hv, Or.inr (by simpa using h2)⟩]
    congr 2
    funext j
    have hb := @div_eq_block n_out v j
    by_cases hj : j / n_out = v
    · rw [if_pos hj, if_pos (hb.2 ⟨ho, hj⟩), Nat.div_one]
    · rw [if_neg hj, if_neg fun hc => hj (hb.1 hc).2]
  · intro v hv j hj
    have e : (v * n_out + j) / n_out = v := by rw [Nat.mul_comm, Nat.mul_add_div ho, Nat.div_eq_of_lt hj, Nat.add_zero]
    simp only [e, if_pos hv, Nat.add_sub_cancel_left]

theorem hyper_lag {b : Nodes ℝ} (u : Nat → ℝ) {nd : Nat} (hnd : 1 ≤ nd) (hb : 2 ≤ b.n) {n : Nat} (hn : 1 ≤ n) (v : Vec ℝ) (hv : v.size = b.n ^ nd) {fuel : Nat} (hf : nd ≤ fuel) :
    ∃ r, hypercube (interpMat b n) u fuel v = some r ∧ r.size = n ^ nd ∧ ∀ d : Fin nd → Fin n, r.val (idx d) = lag b v.val fun k => linSpaced n (d k) :=
  hypercube_kron (interpMat b n) u hb hn nd hnd v hv fuel hf

theorem lag_congr {b : Nodes ℝ} {nd : Nat} {g g' : Nat → ℝ} (h : ∀ q < b.n ^ nd, g q = g' q) (x : Fin nd → ℝ) : lag b g x = lag b g' x :=
  Finset.sum_congr rfl fun c _ => by rw [h _ (idx_lt c)]

/-- Interpolation in one more dimension. -/
theorem lag_insert (b : Nodes ℝ) {m : Nat} (i : Fin (m + 1)) (g : Nat → ℝ) (t : ℝ) (x : Fin m → ℝ) (g' : Nat → ℝ)
    (h : ∀ c : Fin m → Fin b.n, g' (idx c) = ∑ k : Fin b.n, interpolateCpp b t k * g (idx (i.insertNth k c : Fin (m + 1) → Fin b.n))) :
    lag b g' x = lag b g (i.insertNth t x : Fin (m + 1) → ℝ) := by
  unfold lag
  simp only [h, Finset.mul_sum]
  rw [Finset.sum_comm, ← (Fin.insertNthEquiv (fun _ => Fin b.n) i).sum_comp, Fintype.sum_prod_type]
  refine Finset.sum_congr rfl fun k _ => Finset.sum_congr rfl fun c _ => ?_
  simp only [Fin.insertNthEquiv_apply]
  rw [Fin.prod_univ_succAbove _ i]
  simp only [Fin.insertNth_apply_same, Fin.insertNth_apply_succAbove]
  change _ = _ * g (idx (i.insertNth k c : Fin (m + 1) → Fin b.n))
  ring

end Hexed.Vis
