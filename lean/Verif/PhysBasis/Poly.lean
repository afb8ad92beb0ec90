import Verif.PhysBasis.Indices
import Mathlib.LinearAlgebra.Span.Basic
import Mathlib.Algebra.MvPolynomial.CommRing
import Mathlib.Algebra.BigOperators.Fin
import Mathlib.Tactic.FieldSimp
import Mathlib.Tactic.LinearCombination
import Mathlib.Tactic.Linarith
import Mathlib.Tactic.NormNum
set_option autoImplicit false
set_option linter.unusedVariables false

/-!
# Lemmas about the span of the basis
-/

namespace Hexed.PhysBasis

open Finset

theorem legendre_mul (n : Nat) (x : ℝ) : x * legendre (n + 1) x = (n + 2) / (2 * n + 3) * legendre (n + 2) x + (n + 1) / (2 * n + 3) * legendre n x := by
  rw [legendre]
  have h1 : (n : ℝ) + 2 ≠ 0 := by positivity
  have h2 : 2 * (n : ℝ) + 3 ≠ 0 := by positivity
  field_simp
  ring

section span

variable {nd : Nat} (a b : Fin nd → ℝ)

/-- A product of Legendre polynomials of shifted and scaled coordinates. -/
noncomputable def prodLeg (J : Fin nd → Nat) (x : Fin nd → ℝ) : ℝ := ∏ d, legendre (J d) (a d * x d + b d)

/-- The span of those of total degree at most `N`. -/
noncomputable def legSpan (N : Nat) : Submodule ℝ ((Fin nd → ℝ) → ℝ) := Submodule.span ℝ {f | ∃ J : Fin nd → Nat, ∑ d, J d ≤ N ∧ f = prodLeg a b J}

variable {a b}

theorem legSpan_mono {M N : Nat} (h : M ≤ N) : legSpan a b M ≤ legSpan a b N :=
  Submodule.span_mono fun f ⟨J, hJ, e⟩ => ⟨J, hJ.trans h, e⟩

theorem prodLeg_split (J : Fin nd → Nat) (d : Fin nd) (n : Nat) (x : Fin nd → ℝ) : prodLeg a b (Function.update J d n) x = legendre n (a d * x d + b d) * ∏ i ∈ univ.erase d, legendre (J i) (a i * x i + b i) := by
  unfold prodLeg
  rw [← Finset.mul_prod_erase univ _ (Finset.mem_univ d), Function.update_self]
  congr 1
  apply Finset.prod_congr rfl
  intro i hi
  rw [Function.update_of_ne (Finset.ne_of_mem_erase hi)]

theorem sum_update (J : Fin nd → Nat) (d : Fin nd) (n : Nat) : ∑ i, Function.update J d n i = n + ∑ i ∈ univ.erase d, J i := by
  rw [← Finset.add_sum_erase univ _ (Finset.mem_univ d), Function.update_self]
  congr 1
  apply Finset.sum_congr rfl
  intro i hi
  rw [Function.update_of_ne (Finset.ne_of_mem_erase hi)]

/-- Multiplication by a coordinate adds at most one to the degree. -/
theorem legSpan_mul (ha : ∀ d, a d ≠ 0) {N : Nat} {f : (Fin nd → ℝ) → ℝ} (hf : f ∈ legSpan a b N) (d : Fin nd) : (fun x => x d * f x) ∈ legSpan a b (N + 1) := by
  induction hf using Submodule.span_induction with
  | mem f h =>
    obtain ⟨J, hJ, rfl⟩ := h
    have hu : prodLeg a b J = prodLeg a b (Function.update J d (J d)) := by rw [Function.update_eq_self]
    have hs : J d + ∑ i ∈ univ.erase d, J i = ∑ i, J i := Finset.add_sum_erase univ _ (Finset.mem_univ d)
    have mem : ∀ n, n ≤ J d + 1 → prodLeg a b (Function.update J d n) ∈ legSpan a b (N + 1) := fun n hn =>
      Submodule.subset_span ⟨_, by rw [sum_update]; omega, rfl⟩
    cases hd : J d with
    | zero =>
      have e : (fun x => x d * prodLeg a b J x) = (1 / a d) • prodLeg a b (Function.update J d 1) + (-(b d / a d)) • prodLeg a b (Function.update J d 0) := by
        funext x
        rw [hu, hd]
        simp only [Pi.add_apply, Pi.smul_apply, smul_eq_mul, prodLeg_split, legendre]
        have := ha d
        field_simp
        ring
      rw [e]
      exact Submodule.add_mem _ (Submodule.smul_mem _ _ (mem 1 (by omega))) (Submodule.smul_mem _ _ (mem 0 (by omega)))
    | succ n =>
      have e : (fun x => x d * prodLeg a b J x) = (1 / a d * ((n + 2) / (2 * n + 3))) • prodLeg a b (Function.update J d (n + 2)) + (1 / a d * ((n + 1) / (2 * n + 3))) • prodLeg a b (Function.update J d n) + (-(b d / a d)) • prodLeg a b (Function.update J d (n + 1)) := by
        funext x
        rw [hu, hd]
        simp only [Pi.add_apply, Pi.smul_apply, smul_eq_mul, prodLeg_split]
        have h := legendre_mul n (a d * x d + b d)
        have h0 := ha d
        have hx : x d = (a d * x d + b d) * (1 / a d) - b d / a d := by field_simp; ring
        calc x d * (legendre (n + 1) (a d * x d + b d) * ∏ i ∈ univ.erase d, legendre (J i) (a i * x i + b i))
            = (((a d * x d + b d) * (1 / a d) - b d / a d)) * (legendre (n + 1) (a d * x d + b d) * ∏ i ∈ univ.erase d, legendre (J i) (a i * x i + b i)) := by rw [← hx]
          _ = _ := by linear_combination (1 / a d * ∏ i ∈ univ.erase d, legendre (J i) (a i * x i + b i)) * h
      rw [e]
      exact Submodule.add_mem _ (Submodule.add_mem _ (Submodule.smul_mem _ _ (mem _ (by omega))) (Submodule.smul_mem _ _ (mem _ (by omega)))) (Submodule.smul_mem _ _ (mem _ (by omega)))
  | zero =>
    have : (fun x : Fin nd → ℝ => x d * (0 : (Fin nd → ℝ) → ℝ) x) = 0 := by funext x; simp
    rw [this]; exact Submodule.zero_mem _
  | add f g _ _ hf hg =>
    have : (fun x : Fin nd → ℝ => x d * (f + g) x) = (fun x => x d * f x) + fun x => x d * g x := by funext x; simp [mul_add]
    rw [this]; exact Submodule.add_mem _ hf hg
  | smul c f _ hf =>
    have : (fun x : Fin nd → ℝ => x d * (c • f) x) = c • fun x => x d * f x := by funext x; simp; ring
    rw [this]; exact Submodule.smul_mem _ _ hf

theorem monomial_mem (ha : ∀ d, a d ≠ 0) : ∀ (N : Nat) (m : Fin nd → Nat), ∑ d, m d = N → (fun x : Fin nd → ℝ => ∏ d, x d ^ m d) ∈ legSpan a b N := by
  intro N
  induction N with
  | zero =>
    intro m h
    have h0 : ∀ d, m d = 0 := fun d => by
      have := Finset.sum_eq_zero_iff.1 h d (Finset.mem_univ d)
      exact this
    refine Submodule.subset_span ⟨fun _ => 0, by simp, ?_⟩
    funext x
    simp [prodLeg, legendre, h0]
  | succ N ih =>
    intro m h
    obtain ⟨d, hd⟩ : ∃ d, m d ≠ 0 := by
      by_contra hc
      push Not at hc
      simp [hc] at h
    have hs : m d + ∑ i ∈ univ.erase d, m i = ∑ i, m i := Finset.add_sum_erase univ _ (Finset.mem_univ d)
    have := legSpan_mul ha (ih (Function.update m d (m d - 1)) (by rw [sum_update]; omega)) d
    have e : (fun x : Fin nd → ℝ => ∏ i, x i ^ m i) = fun x => x d * ∏ i, x i ^ Function.update m d (m d - 1) i := by
      funext x
      rw [← Finset.mul_prod_erase univ _ (Finset.mem_univ d), ← Finset.mul_prod_erase univ (fun i => x i ^ Function.update m d (m d - 1) i) (Finset.mem_univ d), Function.update_self, ← mul_assoc, ← pow_succ', show m d - 1 + 1 = m d by omega]
      congr 1
      apply Finset.prod_congr rfl
      intro i hi
      rw [Function.update_of_ne (Finset.ne_of_mem_erase hi)]
    rw [e]
    exact this

/-- Every polynomial of total degree at most `N` is a combination of the products. -/
theorem poly_mem (ha : ∀ d, a d ≠ 0) {N : Nat} (P : MvPolynomial (Fin nd) ℝ) (hP : P.totalDegree ≤ N) : (fun x => MvPolynomial.eval x P) ∈ legSpan a b N := by
  have e : (fun x => MvPolynomial.eval x P) = ∑ m ∈ P.support, P.coeff m • fun x : Fin nd → ℝ => ∏ d, x d ^ m d := by
    funext x
    rw [MvPolynomial.eval_eq']
    simp
  rw [e]
  refine Submodule.sum_mem _ fun m hm => Submodule.smul_mem _ _ ?_
  have h1 := monomial_mem (a := a) (b := b) ha _ (fun d => m d) rfl
  refine legSpan_mono ?_ h1
  have := MvPolynomial.le_totalDegree hm
  rw [Finsupp.sum_fintype _ _ (by simp)] at this
  exact this.trans hP

/-- A Legendre polynomial of a polynomial. -/
noncomputable def legM (p : MvPolynomial (Fin nd) ℝ) : Nat → MvPolynomial (Fin nd) ℝ
  | 0 => 1
  | 1 => p
  | n + 2 => MvPolynomial.C (1 / ((n : ℝ) + 2)) * (MvPolynomial.C (2 * (n : ℝ) + 3) * p * legM p (n + 1) - MvPolynomial.C ((n : ℝ) + 1) * legM p n)

theorem legM_eval (p : MvPolynomial (Fin nd) ℝ) (x : Fin nd → ℝ) : ∀ n, MvPolynomial.eval x (legM p n) = legendre n (MvPolynomial.eval x p) := by
  intro n
  induction n using Nat.strong_induction_on with
  | _ n ih =>
    match n, ih with
    | 0, _ => simp [legM, legendre]
    | 1, _ => simp [legM, legendre]
    | n + 2, ih =>
      rw [legM, legendre]
      simp only [map_mul, map_sub, MvPolynomial.eval_C, ih (n + 1) (by omega), ih n (by omega)]
      ring

theorem legM_degree (p : MvPolynomial (Fin nd) ℝ) (hp : p.totalDegree ≤ 1) : ∀ n, (legM p n).totalDegree ≤ n := by
  intro n
  induction n using Nat.strong_induction_on with
  | _ n ih =>
    match n, ih with
    | 0, _ => simp [legM]
    | 1, _ => simpa [legM] using hp
    | n + 2, ih =>
      rw [legM]
      have h1 := ih (n + 1) (by omega)
      have h2 := ih n (by omega)
      refine (MvPolynomial.totalDegree_mul _ _).trans ?_
      rw [MvPolynomial.totalDegree_C, zero_add]
      refine (MvPolynomial.totalDegree_sub _ _).trans (max_le ?_ ?_)
      · refine (MvPolynomial.totalDegree_mul _ _).trans ?_
        have := MvPolynomial.totalDegree_mul (MvPolynomial.C (2 * (n : ℝ) + 3)) p
        rw [MvPolynomial.totalDegree_C, zero_add] at this
        omega
      · refine (MvPolynomial.totalDegree_mul _ _).trans ?_
        rw [MvPolynomial.totalDegree_C, zero_add]
        omega

/-- Every combination of the products is a polynomial. -/
theorem mem_poly {N : Nat} {f : (Fin nd → ℝ) → ℝ} (hf : f ∈ legSpan a b N) : ∃ P : MvPolynomial (Fin nd) ℝ, P.totalDegree ≤ N ∧ ∀ x, f x = MvPolynomial.eval x P := by
  induction hf using Submodule.span_induction with
  | mem f h =>
    obtain ⟨J, hJ, rfl⟩ := h
    refine ⟨∏ d, legM (MvPolynomial.C (a d) * MvPolynomial.X d + MvPolynomial.C (b d)) (J d), ?_, fun x => ?_⟩
    · refine (MvPolynomial.totalDegree_finset_prod _ _).trans (le_trans (Finset.sum_le_sum fun d _ => ?_) hJ)
      apply legM_degree
      refine (MvPolynomial.totalDegree_add _ _).trans (max_le ?_ ?_)
      · refine (MvPolynomial.totalDegree_mul _ _).trans ?_
        rw [MvPolynomial.totalDegree_C, MvPolynomial.totalDegree_X]
      · rw [MvPolynomial.totalDegree_C]; omega
    · rw [map_prod]
      unfold prodLeg
      apply Finset.prod_congr rfl
      intro d _
      rw [legM_eval]
      simp
  | zero => exact ⟨0, by simp, by simp⟩
  | add f g _ _ hf hg =>
    obtain ⟨P, h1, h2⟩ := hf
    obtain ⟨Q, k1, k2⟩ := hg
    exact ⟨P + Q, (MvPolynomial.totalDegree_add _ _).trans (max_le h1 k1), fun x => by simp [h2, k2]⟩
  | smul c f _ hf =>
    obtain ⟨P, h1, h2⟩ := hf
    refine ⟨MvPolynomial.C c * P, (MvPolynomial.totalDegree_mul _ _).trans (by rw [MvPolynomial.totalDegree_C]; omega), fun x => by simp [h2]⟩

end span

/-! ## The basis -/

theorem minOf_le (f : Nat → ℝ) : ∀ n q, q ≤ n → minOf f n ≤ f q := by
  intro n
  induction n with
  | zero => intro q h; have : q = 0 := by omega
            subst this; exact le_rfl
  | succ n ih =>
    intro q h
    rw [minOf]
    by_cases e : q = n + 1
    · subst e; exact min_le_right _ _
    · exact (min_le_left _ _).trans (ih q (by omega))

theorem le_maxOf (f : Nat → ℝ) : ∀ n q, q ≤ n → f q ≤ maxOf f n := by
  intro n
  induction n with
  | zero => intro q h; have : q = 0 := by omega
            subst this; exact le_rfl
  | succ n ih =>
    intro q h
    rw [maxOf]
    by_cases e : q = n + 1
    · subst e; exact le_max_right _ _
    · exact (ih q (by omega)).trans (le_max_left _ _)

theorem minOf_mem (f : Nat → ℝ) (n : Nat) : ∃ q ≤ n, minOf f n = f q := by
  induction n with
  | zero => exact ⟨0, le_rfl, rfl⟩
  | succ n ih =>
    obtain ⟨q, h, e⟩ := ih
    rw [minOf]
    rcases min_choice (minOf f n) (f (n + 1)) with h' | h'
    · exact ⟨q, by omega, by rw [h', e]⟩
    · exact ⟨n + 1, le_rfl, h'⟩

theorem maxOf_mem (f : Nat → ℝ) (n : Nat) : ∃ q ≤ n, maxOf f n = f q := by
  induction n with
  | zero => exact ⟨0, le_rfl, rfl⟩
  | succ n ih =>
    obtain ⟨q, h, e⟩ := ih
    rw [maxOf]
    rcases max_choice (maxOf f n) (f (n + 1)) with h' | h'
    · exact ⟨q, by omega, by rw [h', e]⟩
    · exact ⟨n + 1, le_rfl, h'⟩

theorem boxSize_nonneg (nd rs : Nat) (pos : List ℝ) (d : Nat) : 0 ≤ boxSize nd rs pos d := by
  unfold boxSize
  have h1 := minOf_le (at' nd rs pos d) (rs ^ nd - 1) 0 (by omega)
  have h2 := le_maxOf (at' nd rs pos d) (rs ^ nd - 1) 0 (by omega)
  linarith

theorem boxSize_ne {nd rs : Nat} {pos : List ℝ} (h : Spread nd rs pos) {d : Nat} (hd : d < nd) : boxSize nd rs pos d ≠ 0 := by
  obtain ⟨q, hq, q', hq', hne⟩ := h d hd
  intro e
  unfold boxSize at e
  have a1 := minOf_le (at' nd rs pos d) (rs ^ nd - 1) q (by omega)
  have a2 := le_maxOf (at' nd rs pos d) (rs ^ nd - 1) q (by omega)
  have b1 := minOf_le (at' nd rs pos d) (rs ^ nd - 1) q' (by omega)
  have b2 := le_maxOf (at' nd rs pos d) (rs ^ nd - 1) q' (by omega)
  apply hne
  show at' nd rs pos d q = at' nd rs pos d q'
  linarith

/-- Slope and offset of the scaled coordinates. -/
noncomputable def slope (nd rs : Nat) (pos : List ℝ) (d : Fin nd) : ℝ := 1.99 / boxSize nd rs pos d
noncomputable def offset (nd rs : Nat) (pos : List ℝ) (d : Fin nd) : ℝ := -(boxCenter nd rs pos d) * (1.99 / boxSize nd rs pos d)

theorem evaluateTo_eq {nd rs : Nat} {pos : List ℝ} {q b : Nat} : ∀ k, (∀ d < k, boxSize nd rs pos d ≠ 0) →
    evaluateTo nd rs pos q b k = some (∏ d ∈ range k, legendre (((indices nd rs).getD b []).getD d 0) ((at' nd rs pos d q - boxCenter nd rs pos d) / boxSize nd rs pos d * 1.99)) := by
  intro k
  induction k with
  | zero => intro _; simp [evaluateTo]
  | succ k ih =>
    intro h
    rw [evaluateTo, ih fun d hd => h d (by omega), transformed, if_neg (h k (by omega)), Finset.prod_range_succ]
    rfl

theorem mat_eq {nd rs : Nat} {pos : List ℝ} (h : Spread nd rs pos) (q b : Nat) :
    evaluate nd rs pos q b = some (prodLeg (slope nd rs pos) (offset nd rs pos) (fun d => ((indices nd rs).getD b []).getD d 0) (fun d => at' nd rs pos d q)) := by
  unfold evaluate
  rw [evaluateTo_eq nd fun d hd => boxSize_ne h hd, Finset.prod_range]
  congr 1
  apply Finset.prod_congr rfl
  intro d _
  congr 1
  unfold slope offset
  have := boxSize_ne h d.2
  field_simp
  ring

end Hexed.PhysBasis
