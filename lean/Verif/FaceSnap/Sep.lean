import Verif.FaceSnap.Model
import Verif.Tensor.Props
import Verif.Basis.Props
set_option autoImplicit false
set_option linter.unusedVariables false

/-!
# Tensor product interpolation of sums of products of polynomials
-/

namespace Hexed.FaceSnap
open Hexed.Spatial Hexed.Metric Hexed.Tensor
open Hexed.Basis (ell)
noncomputable section

/-- `f` is a sum of products of polynomials of degree below `N` in one coordinate each. -/
def Sep (m N : Nat) (f : (Fin m → ℝ) → ℝ) : Prop :=
  ∃ L : List (Fin m → Polynomial ℝ), (∀ p ∈ L, ∀ k, (p k).degree < N) ∧ ∀ x, f x = (L.map fun p => ∏ k, (p k).eval (x k)).sum

theorem Sep.add {m N : Nat} {f g : (Fin m → ℝ) → ℝ} (hf : Sep m N f) (hg : Sep m N g) : Sep m N fun x => f x + g x := by
  obtain ⟨L, h1, h2⟩ := hf
  obtain ⟨M, h3, h4⟩ := hg
  refine ⟨L ++ M, ?_, fun x => by beta_reduce; rw [h2, h4, List.map_append, List.sum_append]⟩
  intro p hp
  rcases List.mem_append.1 hp with h | h
  · exact h1 p h
  · exact h3 p h

theorem Sep.zero {m N : Nat} : Sep m N fun _ => 0 := ⟨[], by simp, by simp⟩

theorem Sep.prod {m N : Nat} (p : Fin m → Polynomial ℝ) (h : ∀ k, (p k).degree < N) : Sep m N fun x => ∏ k, (p k).eval (x k) := ⟨[p], by simpa using h, by simp⟩

theorem Sep.sum {m N : Nat} {A : Type} (s : Finset A) (f : A → (Fin m → ℝ) → ℝ) (h : ∀ a ∈ s, Sep m N (f a)) : Sep m N fun x => ∑ a ∈ s, f a x := by
  classical
  induction s using Finset.induction_on with
  | empty => simpa using Sep.zero
  | insert a s ha ih =>
    simp only [Finset.sum_insert ha]
    exact (h a (Finset.mem_insert_self _ _)).add (ih fun b hb => h b (Finset.mem_insert_of_mem hb))

/-- With at least one coordinate, constant factors can be absorbed. -/
theorem Sep.smul {m N : Nat} (hm : 0 < m) {f : (Fin m → ℝ) → ℝ} (c : ℝ) (hf : Sep m N f) : Sep m N fun x => c * f x := by
  obtain ⟨L, h1, h2⟩ := hf
  refine ⟨L.map fun p => Function.update p ⟨0, hm⟩ (Polynomial.C c * p ⟨0, hm⟩), ?_, fun x => ?_⟩
  · intro p hp k
    obtain ⟨p, hp', rfl⟩ := List.mem_map.1 hp
    rw [Function.update_apply]
    split_ifs with h
    · by_cases hc : c = 0
      · rw [hc, Polynomial.C_0, zero_mul, Polynomial.degree_zero]; exact WithBot.bot_lt_coe _
      · rw [Polynomial.degree_C_mul hc]; exact h1 p hp' _
    · exact h1 p hp' k
  · beta_reduce
    rw [h2, List.map_map, ← List.sum_map_mul_left]
    congr 1
    refine List.map_congr_left fun p _ => ?_
    rw [Function.comp, ← Finset.mul_prod_erase _ _ (Finset.mem_univ (⟨0, hm⟩ : Fin m)), ← Finset.mul_prod_erase Finset.univ (fun k => Polynomial.eval (x k) (Function.update p ⟨0, hm⟩ _ k)) (Finset.mem_univ (⟨0, hm⟩ : Fin m)),
      Function.update_self, Polynomial.eval_mul, Polynomial.eval_C, mul_assoc]
    congr 2
    refine Finset.prod_congr rfl fun k hk => ?_
    rw [Function.update_of_ne (Finset.ne_of_mem_erase hk)]

theorem degree_mul_lt {p q : Polynomial ℝ} {M N : Nat} (hp : p.degree < M) (hq : q.degree < N) : (p * q).degree < ((M + N - 1 : Nat) : WithBot Nat) := by
  by_cases h1 : p = 0
  · rw [h1, zero_mul, Polynomial.degree_zero]; exact WithBot.bot_lt_coe _
  by_cases h2 : q = 0
  · rw [h2, mul_zero, Polynomial.degree_zero]; exact WithBot.bot_lt_coe _
  rw [Polynomial.degree_eq_natDegree h1, Nat.cast_lt] at hp
  rw [Polynomial.degree_eq_natDegree h2, Nat.cast_lt] at hq
  rw [Polynomial.degree_eq_natDegree (mul_ne_zero h1 h2), Polynomial.natDegree_mul h1 h2, Nat.cast_lt]
  omega

theorem Sep.mul {m M N : Nat} {f g : (Fin m → ℝ) → ℝ} (hf : Sep m M f) (hg : Sep m N g) : Sep m (M + N - 1) fun x => f x * g x := by
  obtain ⟨L, h1, h2⟩ := hf
  obtain ⟨K, h3, h4⟩ := hg
  refine ⟨L.flatMap fun p => K.map fun q => fun k => p k * q k, ?_, fun x => ?_⟩
  · intro r hr k
    obtain ⟨p, hp, hr⟩ := List.mem_flatMap.1 hr
    obtain ⟨q, hq, rfl⟩ := List.mem_map.1 hr
    exact degree_mul_lt (h1 p hp k) (h3 q hq k)
  · beta_reduce
    rw [h2, h4]
    clear h1 h2
    induction L with
    | nil => simp
    | cons p L ih =>
      rw [List.flatMap_cons, List.map_append, List.sum_append, ← ih, List.map_cons, List.sum_cons, add_mul]
      congr 1
      rw [← List.sum_map_mul_left, List.map_map]
      congr 1
      refine List.map_congr_left fun q _ => ?_
      simp only [Function.comp, Polynomial.eval_mul, Finset.prod_mul_distrib]

theorem Sep.mono {m M N : Nat} {f : (Fin m → ℝ) → ℝ} (h : M ≤ N) (hf : Sep m M f) : Sep m N f := by
  obtain ⟨L, h1, h2⟩ := hf
  exact ⟨L, fun p hp k => lt_of_lt_of_le (h1 p hp k) (by exact_mod_cast h), h2⟩

/-- Interpolation at a tensor product of nodes reproduces sums of products of polynomials of degree below the number of nodes. -/
theorem Sep.exact {b : Basis.Nodes ℝ} (hb : b.Distinct) {m : Nat} {f : (Fin m → ℝ) → ℝ} (hf : Sep m b.n f) (x : Fin m → ℝ) :
    ∑ c : Fin m → Fin b.n, (∏ k, (ell b (c k)).eval (x k)) * f (fun k => b.node (c k)) = f x := by
  obtain ⟨L, h1, h2⟩ := hf
  simp only [h2]
  clear h2
  induction L with
  | nil => simp
  | cons p L ih =>
    simp only [List.map_cons, List.sum_cons, mul_add, Finset.sum_add_distrib]
    rw [ih fun q hq => h1 q (by simp [hq])]
    congr 1
    simp only [← Finset.prod_mul_distrib]
    have key := Finset.prod_univ_sum (fun _ : Fin m => (Finset.univ : Finset (Fin b.n))) fun k c => (ell b c).eval (x k) * (p k).eval (b.node c)
    rw [Fintype.piFinset_univ] at key
    rw [← key]
    refine Finset.prod_congr rfl fun k _ => ?_
    have e := Basis.interpolate_exact hb (p k) (h1 p (by simp) k) (x k)
    rw [← e, ← Fin.sum_univ_eq_sum_range (fun j => Basis.interpolateCpp b (x k) j * (p k).eval (b.node j))]
    refine Finset.sum_congr rfl fun c _ => ?_
    rw [Basis.interpolateCpp_eq]

/-- Digits of a position. -/
theorem idx_digit : ∀ {m n : Nat} (c : Fin m → Fin n) (k : Fin m), idx c / n ^ (m - 1 - k) % n = c k
  | 0, _, _, k => k.elim0
  | m + 1, n, c, k => by
    have hn : 0 < n := lt_of_le_of_lt (Nat.zero_le _) (c 0).isLt
    have e : idx c = c 0 * n ^ m + idx (fun i => c i.succ) := by
      conv_lhs => rw [← Fin.cons_self_tail c]
      rw [idx_cons]; rfl
    have hlt := idx_lt fun i : Fin m => c i.succ
    rcases Fin.eq_zero_or_eq_succ k with rfl | ⟨j, rfl⟩
    · rw [e, show m + 1 - 1 - ((0 : Fin (m + 1)) : Nat) = m by simp, Nat.add_comm, Nat.add_mul_div_right _ _ (Nat.pow_pos hn), Nat.div_eq_of_lt hlt, Nat.zero_add, Nat.mod_eq_of_lt (c 0).isLt]
    · have ih := idx_digit (fun i => c i.succ) j
      have h1 : m + 1 - 1 - (j.succ : Nat) = m - 1 - j := by rw [Fin.val_succ]; omega
      have h2 : n ^ m = n ^ (j + 1 : Nat) * n ^ (m - 1 - j) := by rw [← pow_add]; congr 1; omega
      rw [h1, e, h2, ← mul_assoc, Nat.add_comm, Nat.add_mul_div_right _ _ (Nat.pow_pos hn), pow_succ, ← mul_assoc, Nat.add_mul_mod_self_right, ih]

end
end Hexed.FaceSnap
