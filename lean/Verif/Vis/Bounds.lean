import Verif.Vis.Data
import Mathlib.Order.Bounds.Basic
set_option autoImplicit false
set_option linter.unusedVariables false

/-! # Helper lemmas: extreme values -/

namespace Hexed.Vis
open Hexed.Tensor Hexed.Basis Hexed.Stats

variable {b : Nodes ℝ}

theorem fold_min (f : Nat → ℝ) : ∀ (n : Nat) (a : ℝ), IsLeast (insert a {y | ∃ i < n, y = f i}) ((List.range n).foldl (fun a i => min a (f i)) a)
  | 0, a => by simp [IsLeast, lowerBounds]
  | n + 1, a => by
    rw [List.range_succ, List.foldl_append]
    obtain ⟨h1, h2⟩ := fold_min f n a
    simp only [List.foldl_cons, List.foldl_nil]
    refine ⟨?_, ?_⟩
    · rcases min_choice ((List.range n).foldl (fun a i => min a (f i)) a) (f n) with e | e <;> rw [e]
      · rcases h1 with h | ⟨i, hi, h⟩
        · exact Or.inl h
        · exact Or.inr ⟨i, by omega, h⟩
      · exact Or.inr ⟨n, by omega, rfl⟩
    · rintro y (rfl | ⟨i, hi, rfl⟩)
      · exact (min_le_left _ _).trans (h2 (Or.inl rfl))
      · by_cases e : i = n
        · subst e; exact min_le_right _ _
        · exact (min_le_left _ _).trans (h2 (Or.inr ⟨i, by omega, rfl⟩))

theorem fold_max (f : Nat → ℝ) : ∀ (n : Nat) (a : ℝ), IsGreatest (insert a {y | ∃ i < n, y = f i}) ((List.range n).foldl (fun a i => max a (f i)) a)
  | 0, a => by simp [IsGreatest, upperBounds]
  | n + 1, a => by
    rw [List.range_succ, List.foldl_append]
    obtain ⟨h1, h2⟩ := fold_max f n a
    simp only [List.foldl_cons, List.foldl_nil]
    refine ⟨?_, ?_⟩
    · rcases max_choice ((List.range n).foldl (fun a i => max a (f i)) a) (f n) with e | e <;> rw [e]
      · rcases h1 with h | ⟨i, hi, h⟩
        · exact Or.inl h
        · exact Or.inr ⟨i, by omega, h⟩
      · exact Or.inr ⟨n, by omega, rfl⟩
    · rintro y (rfl | ⟨i, hi, rfl⟩)
      · exact (h2 (Or.inl rfl)).trans (le_max_left _ _)
      · by_cases e : i = n
        · subst e; exact le_max_right _ _
        · exact (h2 (Or.inr ⟨i, by omega, rfl⟩)).trans (le_max_left _ _)

theorem coeff_ok (v : Vec ℝ) {start n : Nat} (hn : 0 < n) (hs : start + n ≤ v.size) :
    (∃ lo, coeff min v start n = some lo ∧ IsLeast {y | ∃ i < n, y = v.val (start + i)} lo) ∧ ∃ hi, coeff max v start n = some hi ∧ IsGreatest {y | ∃ i < n, y = v.val (start + i)} hi := by
  have h : n = 0 ∨ start + (n - 1) * 1 < v.size := Or.inr (by omega)
  have e : insert (v.val (start + 0)) {y | ∃ i < n, y = v.val (start + i)} = {y | ∃ i < n, y = v.val (start + i)} := Set.insert_eq_of_mem ⟨0, hn, rfl⟩
  unfold coeff
  rw [readSeq, if_pos h]
  refine ⟨⟨_, by rw [Option.bind_some, if_neg (by omega)], ?_⟩, ⟨_, by rw [Option.bind_some, if_neg (by omega)], ?_⟩⟩
  · simp only [Nat.mul_one]
    have := fold_min (fun i => v.val (start + i)) n (v.val (start + 0))
    rwa [e] at this
  · simp only [Nat.mul_one]
    have := fold_max (fun i => v.val (start + i)) n (v.val (start + 0))
    rwa [e] at this

/-- The values of variable `v` in a block. -/
def blockSet (r : Vec ℝ) (n v : Nat) : Set ℝ := {y | ∃ i < n, y = r.val (v * n + i)}

theorem IsLeast.min {s t : Set ℝ} {a c : ℝ} (h : IsLeast s a) (h' : IsLeast t c) : IsLeast (s ∪ t) (min a c) := h.union h'
theorem IsGreatest.max {s t : Set ℝ} {a c : ℝ} (h : IsGreatest s a) (h' : IsGreatest t c) : IsGreatest (s ∪ t) (max a c) := h.union h'

theorem boundsLoop (r : Vec ℝ) {n nv : Nat} (hn : 0 < n) (hr : r.size = n * nv) (bd : Nat → ℝ × ℝ) :
    ∃ bd', forLoop nv (boundsStep r n) bd = some bd' ∧ ∀ v < nv, ∀ S T : Set ℝ, IsLeast S (bd v).1 → IsGreatest T (bd v).2 →
      IsLeast (S ∪ blockSet r n v) (bd' v).1 ∧ IsGreatest (T ∪ blockSet r n v) (bd' v).2 := by
  have H : ∀ v : Nat, ∃ lo hi, v < nv → coeff min r (v * n) n = some lo ∧ coeff max r (v * n) n = some hi ∧ IsLeast (blockSet r n v) lo ∧ IsGreatest (blockSet r n v) hi := by
    intro v
    by_cases hv : v < nv
    · have : v * n + n ≤ r.size := by
        have : (v + 1) * n ≤ nv * n := Nat.mul_le_mul_right _ hv
        rw [hr, Nat.mul_comm n nv]; rw [Nat.add_mul] at this; omega
      obtain ⟨⟨lo, h1, h2⟩, hi, h3, h4⟩ := coeff_ok r hn this
      exact ⟨lo, hi, fun _ => ⟨h1, h3, h2, h4⟩⟩
    · exact ⟨0, 0, fun h => absurd h hv⟩
  choose lo hi h using H
  refine ⟨_, forLoop_eq _ (fun i v => if v < i then (min (lo v) (bd v).1, max (hi v) (bd v).2) else bd v) nv ?_, ?_⟩
  · intro i hi'
    obtain ⟨h1, h2, -⟩ := h i hi'
    simp only [boundsStep, h1, h2, Option.bind_some]
    congr 1
    funext v
    by_cases e : v = i
    · subst e; simp
    · rw [Function.update_of_ne e]
      by_cases e2 : v < i
      · rw [if_pos e2, if_pos (by omega)]
      · rw [if_neg e2, if_neg (by omega)]
  · intro v hv S T hS hT
    obtain ⟨-, -, h3, h4⟩ := h v hv
    simp only [if_pos hv]
    rw [Set.union_comm S, Set.union_comm T]
    exact ⟨IsLeast.min h3 hS, IsGreatest.max h4 hT⟩

theorem boundsFold (u : Nat → ℝ) {nd nv n : Nat} (hnd : 1 ≤ nd) (hb : 2 ≤ b.n) (hn : 1 ≤ n) : ∀ (elems : List (Nat → Nat → ℝ)) (bd : Nat → ℝ × ℝ),
    ∃ bd', elems.foldlM (fun (bounds : Nat → ℝ × ℝ) func =>
      (interior b u nd nv (vars (MathFn.pow (K := Nat) b.n nd) nv func) n).bind fun v => forLoop nv (boundsStep v (MathFn.pow (K := Nat) n nd)) bounds) bd = some bd' ∧
      ∀ v < nv, ∀ S T : Set ℝ, IsLeast S (bd v).1 → IsGreatest T (bd v).2 →
        IsLeast (S ∪ {y | ∃ f ∈ elems, ∃ d : Fin nd → Fin n, y = lag b (f · v) fun k => linSpaced n (d k)}) (bd' v).1 ∧
        IsGreatest (T ∪ {y | ∃ f ∈ elems, ∃ d : Fin nd → Fin n, y = lag b (f · v) fun k => linSpaced n (d k)}) (bd' v).2
  | [], bd => ⟨bd, rfl, fun v hv S T hS hT => by simpa using ⟨hS, hT⟩⟩
  | f :: l, bd => by
    obtain ⟨r, r1, r2, r3⟩ := interior_lag u hnd hb hn (nv := nv) f
    obtain ⟨b1, p1, p2⟩ := boundsLoop r (Nat.pow_pos hn : 0 < n ^ nd) r2 bd
    obtain ⟨b2, q1, q2⟩ := boundsFold u hnd hb hn l b1
    refine ⟨b2, ?_, fun v hv S T hS hT => ?_⟩
    · rw [List.foldlM_cons, r1]
      simp only [Option.bind_some]
      rw [MathFn.pow_nat] at q1 ⊢
      rw [MathFn.pow_nat] at q1 ⊢
      rw [p1]
      exact q1
    · obtain ⟨h1, h2⟩ := p2 v hv S T hS hT
      obtain ⟨h3, h4⟩ := q2 v hv _ _ h1 h2
      have e : blockSet r (n ^ nd) v = {y | ∃ d : Fin nd → Fin n, y = lag b (f · v) fun k => linSpaced n (d k)} := by
        ext y
        constructor
        · rintro ⟨i, hi, rfl⟩
          obtain ⟨d, rfl⟩ := idx_surj hn i hi
          exact ⟨d, r3 v hv d⟩
        · rintro ⟨d, rfl⟩
          exact ⟨idx d, idx_lt d, (r3 v hv d).symm⟩
      have e2 : ∀ U : Set ℝ, U ∪ {y | ∃ g ∈ f :: l, ∃ d : Fin nd → Fin n, y = lag b (g · v) fun k => linSpaced n (d k)} =
          U ∪ blockSet r (n ^ nd) v ∪ {y | ∃ g ∈ l, ∃ d : Fin nd → Fin n, y = lag b (g · v) fun k => linSpaced n (d k)} := by
        intro U
        rw [e]
        ext y
        simp only [Set.mem_union, Set.mem_setOf_eq, List.mem_cons, exists_eq_or_imp]
        tauto
      rw [e2, e2]
      exact ⟨h3, h4⟩

/-- A polynomial that is linear in each coordinate lies between its values at the corners. -/
theorem corner_bounds {nd : Nat} {p : MvPolynomial (Fin nd) ℝ} (hp : ∀ k, p.degreeOf k < 2) {lo hi : ℝ} (hc : ∀ c : Fin nd → Fin 2, lo ≤ MvPolynomial.eval (fun k => ((c k : Nat) : ℝ)) p ∧ MvPolynomial.eval (fun k => ((c k : Nat) : ℝ)) p ≤ hi)
    {x : Fin nd → ℝ} (hx : ∀ k, 0 ≤ x k ∧ x k ≤ 1) : lo ≤ MvPolynomial.eval x p ∧ MvPolynomial.eval x p ≤ hi := by
  let b2 : Nodes ℝ := ⟨2, fun i => (i : ℝ), fun _ => 0⟩
  have hd : b2.Distinct := fun i _ j _ e => Nat.cast_injective (R := ℝ) e
  have hi2 : Interp b2 (fun q => MvPolynomial.eval (fun k : Fin nd => ((q / 2 ^ (nd - 1 - k) % 2 : Nat) : ℝ)) p) p := ⟨hp, fun c => by
    have : ∀ k : Fin nd, idx c / 2 ^ (nd - 1 - k) % 2 = c k := fun k => idx_digit (by norm_num) c k
    simp only [this]; rfl⟩
  have hw : ∀ (t : ℝ) (i : Fin 2), interpolateCpp b2 t i = if (i : Nat) = 1 then t else 1 - t := by
    intro t i
    fin_cases i <;> simp [interpolateCpp, b2, List.range_succ]
    ring
  have e := lag_eq hd hi2 x
  have hnn : ∀ c : Fin nd → Fin 2, 0 ≤ ∏ k : Fin nd, interpolateCpp b2 (x k) (c k) := fun c => Finset.prod_nonneg fun k _ => by
    rw [hw]; have := hx k; split <;> linarith
  have hsum : ∑ c : Fin nd → Fin 2, ∏ k : Fin nd, interpolateCpp b2 (x k) (c k) = 1 := by
    have hs := Finset.prod_univ_sum (fun _ : Fin nd => (Finset.univ : Finset (Fin 2))) (fun k i => interpolateCpp b2 (x k) i)
    rw [Fintype.piFinset_univ] at hs
    rw [← hs]
    exact Finset.prod_eq_one fun k _ => by simp [Fin.sum_univ_two, hw]
  have hg : ∀ c : Fin nd → Fin 2, MvPolynomial.eval (fun k : Fin nd => ((idx c / 2 ^ (nd - 1 - k) % 2 : Nat) : ℝ)) p = MvPolynomial.eval (fun k => ((c k : Nat) : ℝ)) p := fun c => hi2.val c ▸ rfl
  have e' : MvPolynomial.eval x p = ∑ c : Fin nd → Fin 2, (∏ k : Fin nd, interpolateCpp b2 (x k) (c k)) * MvPolynomial.eval (fun k => ((c k : Nat) : ℝ)) p := by
    rw [← e]
    exact Finset.sum_congr rfl fun c _ => by rw [← hg c]
  rw [e']
  constructor
  · calc lo = ∑ c : Fin nd → Fin 2, (∏ k : Fin nd, interpolateCpp b2 (x k) (c k)) * lo := by rw [← Finset.sum_mul, hsum, one_mul]
      _ ≤ _ := Finset.sum_le_sum fun c _ => mul_le_mul_of_nonneg_left (hc c).1 (hnn c)
  · calc _ ≤ ∑ c : Fin nd → Fin 2, (∏ k : Fin nd, interpolateCpp b2 (x k) (c k)) * hi := Finset.sum_le_sum fun c _ => mul_le_mul_of_nonneg_left (hc c).2 (hnn c)
      _ = hi := by rw [← Finset.sum_mul, hsum, one_mul]

end Hexed.Vis
