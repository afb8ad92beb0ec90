import Verif.Stats.ModalSpec
import Verif.Stats.Lemmas
set_option autoImplicit false
set_option linter.unusedVariables false

/-! # Lemmas about Legendre modes -/

namespace Hexed.Stats
open Hexed.Tensor Hexed.Basis

variable {b : Nodes ℝ} {deg : Nat}

theorem leg_orthonormal (hb : Rule b deg) (hd : 2 * b.n ≤ deg + 3) {nd : Nat} (d e : Fin nd → Fin b.n) :
    ∑ c, wgt b c * leg b d c * leg b e c = if d = e then 1 else 0 := by
  have h1 : ∀ c : Fin nd → Fin b.n, wgt b c * leg b d c * leg b e c = ∏ k, b.weight (c k) * ortho b (d k) (c k) * ortho b (e k) (c k) := by
    intro c; rw [Finset.prod_mul_distrib, Finset.prod_mul_distrib]; rfl
  simp only [h1]
  have h2 := Finset.prod_univ_sum (fun _ : Fin nd => (Finset.univ : Finset (Fin b.n))) (fun k i => b.weight i * ortho b (d k) i * ortho b (e k) i)
  rw [Fintype.piFinset_univ] at h2
  rw [← h2]
  have h3 : ∀ k, ∑ i : Fin b.n, b.weight i * ortho b (d k) i * ortho b (e k) i = if d k = e k then 1 else 0 := by
    intro k
    have := orthogonal_orthonormal hb.exact hb.pos hd (d k).2 (e k).2
    rw [Finset.sum_range] at this
    rw [this]; simp only [Fin.ext_iff]
  simp only [h3]
  split
  · next h => subst h; simp
  · next h =>
    obtain ⟨k, hk⟩ := Function.ne_iff.1 h
    exact Finset.prod_eq_zero (Finset.mem_univ k) (if_neg hk)

/-- Values are recovered from their modes. -/
theorem mode_complete (hb : Rule b deg) (hd : 2 * b.n ≤ deg + 3) {nd : Nat} (v : (Fin nd → Fin b.n) → ℝ) (c : Fin nd → Fin b.n) :
    v c = ∑ d, mode b v d * leg b d c := by
  let A : Matrix (Fin nd → Fin b.n) (Fin nd → Fin b.n) ℝ := fun d c => wgt b c * leg b d c
  let B : Matrix (Fin nd → Fin b.n) (Fin nd → Fin b.n) ℝ := fun c d => leg b d c
  have hAB : A * B = 1 := by
    ext d e
    rw [Matrix.mul_apply, Matrix.one_apply]
    exact leg_orthonormal hb hd d e
  have hBA : B * A = 1 := mul_eq_one_comm.1 hAB
  have h1 : ∀ c', ∑ d, leg b d c * (wgt b c' * leg b d c') = if c = c' then 1 else 0 := by
    intro c'
    have := congrFun (congrFun hBA c) c'
    rw [Matrix.mul_apply, Matrix.one_apply] at this
    exact this
  simp only [mode, Finset.sum_mul]
  rw [Finset.sum_comm]
  calc v c = ∑ c', (if c = c' then 1 else 0) * v c' := by simp
    _ = _ := by
      refine Finset.sum_congr rfl fun c' _ => ?_
      rw [← h1 c', Finset.sum_mul]
      exact Finset.sum_congr rfl fun d _ => by ring

/-- The modes of a combination of Legendre polynomials are its coefficients. -/
theorem mode_sum (hb : Rule b deg) (hd : 2 * b.n ≤ deg + 3) {nd : Nat} (a : (Fin nd → Fin b.n) → ℝ) (d : Fin nd → Fin b.n) :
    mode b (fun c => ∑ e, a e * leg b e c) d = a d := by
  simp only [mode, Finset.mul_sum]
  rw [Finset.sum_comm, Finset.sum_eq_single d]
  · have := leg_orthonormal hb hd d d
    rw [if_pos rfl] at this
    calc _ = a d * ∑ c, wgt b c * leg b d c * leg b d c := by rw [Finset.mul_sum]; exact Finset.sum_congr rfl fun c _ => by ring
      _ = a d := by rw [this, mul_one]
  · intro e _ he
    have := leg_orthonormal hb hd d e
    rw [if_neg (Ne.symm he)] at this
    calc _ = a e * ∑ c, wgt b c * leg b d c * leg b e c := by rw [Finset.mul_sum]; exact Finset.sum_congr rfl fun c _ => by ring
      _ = 0 := by rw [this, mul_zero]
  · simp

theorem mode_ext (hb : Rule b deg) (hd : 2 * b.n ≤ deg + 3) {nd : Nat} {v w : (Fin nd → Fin b.n) → ℝ} (h : ∀ d, mode b v d = mode b w d) : v = w := by
  funext c
  rw [mode_complete hb hd v c, mode_complete hb hd w c]
  simp only [h]

/-- Parseval. -/
theorem parseval (hb : Rule b deg) (hd : 2 * b.n ≤ deg + 3) {nd : Nat} (v : (Fin nd → Fin b.n) → ℝ) : ∑ c, wgt b c * v c ^ 2 = ∑ d, mode b v d ^ 2 := by
  calc ∑ c, wgt b c * v c ^ 2 = ∑ c, wgt b c * v c * ∑ d, mode b v d * leg b d c := by
        refine Finset.sum_congr rfl fun c _ => ?_
        rw [← mode_complete hb hd v c]; ring
    _ = ∑ d, mode b v d * ∑ c, wgt b c * leg b d c * v c := by
        simp only [Finset.mul_sum]
        rw [Finset.sum_comm]
        exact Finset.sum_congr rfl fun d _ => Finset.sum_congr rfl fun c _ => by ring
    _ = _ := Finset.sum_congr rfl fun d _ => by rw [sq]; rfl

theorem norm2_modes (hb : Rule b deg) (hd : 2 * b.n ≤ deg + 3) {nd : Nat} (v : (Fin nd → Fin b.n) → ℝ) : norm2 b v = √(∑ d, mode b v d ^ 2) := by
  rw [norm2, parseval hb hd]

theorem mode_le_norm (hb : Rule b deg) (hd : 2 * b.n ≤ deg + 3) {nd : Nat} (v : (Fin nd → Fin b.n) → ℝ) (d : Fin nd → Fin b.n) : |mode b v d| ≤ norm2 b v := by
  rw [norm2_modes hb hd]
  apply Real.le_sqrt_of_sq_le
  rw [sq_abs]
  exact Finset.single_le_sum (f := fun d => mode b v d ^ 2) (fun _ _ => sq_nonneg _) (Finset.mem_univ d)

/-- The zero mode is the mean. -/
theorem ortho_zero (hb : Rule b deg) (i : Nat) : ortho b 0 i = 1 := by
  have h1 : normSq b 0 = 1 := by
    have := mono_quad hb.exact (s := 0) (Nat.zero_le _)
    rw [normSq, Finset.sum_range]
    simp only [legendreVal_zero]
    simpa using this
  rw [ortho_eq, legendreVal_zero, h1]; simp

theorem mode_zero (hb : Rule b deg) {nd : Nat} (v : (Fin nd → Fin b.n) → ℝ) : mode b v (fun _ => ⟨0, hb.some⟩) = mean b v := by
  rw [mode, mean]
  refine Finset.sum_congr rfl fun c _ => ?_
  simp [leg, ortho_zero hb]

theorem mode_pow (b : Nodes ℝ) {nd : Nat} (v : Nat → ℝ) (d : Fin nd → Fin b.n) :
    ∑ c : Fin nd → Fin b.n, (∏ k, ortho b (d k) (c k) * b.weight (c k)) * v (idx c) = mode b (at' v) d := by
  rw [mode]
  refine Finset.sum_congr rfl fun c _ => ?_
  rw [Finset.prod_mul_distrib, at', wgt, leg]; ring

/-- The digits of a position are its coordinates. -/
theorem idx_digit {n : Nat} (hn : 0 < n) : ∀ {nd : Nat} (c : Fin nd → Fin n) (k : Fin nd), idx c / n ^ (nd - 1 - k) % n = c k
  | nd + 1, c, k => by
    have hc : c = Fin.cons (c 0) (Fin.tail c) := (Fin.cons_self_tail c).symm
    refine Fin.cases ?_ (fun k => ?_) k
    · rw [hc, idx_cons]
      simp only [Fin.val_zero, Nat.sub_zero, Nat.add_sub_cancel, Fin.cons_zero]
      rw [Nat.mul_comm, Nat.mul_add_div (Nat.pow_pos hn), Nat.div_eq_of_lt (idx_lt _), Nat.add_zero, Nat.mod_eq_of_lt (c 0).2]
    · have ih := idx_digit hn (Fin.tail c) k
      rw [hc, idx_cons]
      simp only [Fin.val_succ, Fin.cons_succ]
      rw [show nd + 1 - 1 - (k + 1) = nd - 1 - k by omega]
      have hk := k.2
      have he : (c 0 : Nat) * n ^ nd = n ^ (nd - 1 - k) * (n * (c 0 * n ^ (k : Nat))) := by
        have : n ^ nd = n ^ (nd - 1 - k) * n * n ^ (k : Nat) := by
          rw [← pow_succ, ← pow_add]; congr 1; omega
        rw [this]; ring
      rw [he, Nat.mul_add_div (Nat.pow_pos hn), Nat.mul_add_mod]
      exact ih

theorem idx_inj {n nd : Nat} (hn : 0 < n) {c d : Fin nd → Fin n} (h : idx c = idx d) : c = d := by
  funext k
  apply Fin.ext
  rw [← idx_digit hn c k, ← idx_digit hn d k, h]

end Hexed.Stats
