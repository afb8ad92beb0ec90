import Verif.Krylov.Spec
import Mathlib.LinearAlgebra.FiniteDimensional.Lemmas
import Mathlib.LinearAlgebra.Dimension.Finite
import Mathlib.LinearAlgebra.Dimension.OrzechProperty
import Mathlib.Analysis.InnerProductSpace.Orthonormal
import Mathlib.Tactic.Linarith
import Mathlib.Tactic.Ring
import Mathlib.Tactic.SplitIfs
import Mathlib.Tactic.Module

set_option autoImplicit false
set_option linter.unusedVariables false

/-!
# GMRES: the algebra of the Arnoldi process, and the loop that carries it out
-/

noncomputable section

open Classical RealInnerProductSpace Finset

namespace Hexed.Krylov

variable {V : Type} [NormedAddCommGroup V] [InnerProductSpace ℝ V]

/-- A vector scaled to length one (zero stays zero). -/
def nrm (w : V) : V := ‖w‖⁻¹ • w

theorem norm_smul_nrm (w : V) : ‖w‖ • nrm w = w := by
  unfold nrm
  by_cases h : w = 0
  · simp [h]
  · rw [smul_smul, mul_inv_cancel₀ (norm_ne_zero_iff.2 h), one_smul]

theorem inner_nrm_self {w : V} (h : w ≠ 0) : ⟪nrm w, nrm w⟫ = 1 := by
  unfold nrm
  rw [real_inner_smul_left, real_inner_smul_right, real_inner_self_eq_norm_sq]
  have : ‖w‖ ≠ 0 := norm_ne_zero_iff.2 h
  field_simp

theorem inner_nrm {v w : V} (h : ⟪v, w⟫ = 0) : ⟪nrm v, nrm w⟫ = 0 := by
  unfold nrm
  rw [real_inner_smul_left, real_inner_smul_right, h]; ring

theorem norm_sum_orth (n : ℕ) (f : ℕ → V) (t : ℕ → ℝ)
    (ho : ∀ i j, i < n → j < n → i ≠ j → ⟪f i, f j⟫ = 0) :
    ‖∑ a ∈ range n, t a • f a‖ ^ 2 = ∑ a ∈ range n, t a ^ 2 * ⟪f a, f a⟫ := by
  rw [← real_inner_self_eq_norm_sq, sum_inner]
  refine sum_congr rfl fun i hi => ?_
  rw [inner_sum, sum_eq_single i]
  · rw [real_inner_smul_left, real_inner_smul_right]; ring
  · intro j hj hne
    rw [real_inner_smul_left, real_inner_smul_right,
      ho i j (mem_range.1 hi) (mem_range.1 hj) (Ne.symm hne)]
    ring
  · intro h; exact absurd hi h

/-- Facts about the first `n` steps of the Arnoldi process started from `ws 0`. -/
structure Arnoldi (A : V →ₗ[ℝ] V) (n : ℕ) (ws : ℕ → V) (h : ℕ → ℕ → ℝ) : Prop where
  nonzero : ∀ i < n, ws i ≠ 0
  orth : ∀ i j, i < j → j ≤ n → ⟪ws i, ws j⟫ = 0
  dec : ∀ j < n, A (nrm (ws j)) = ∑ i ∈ range (j + 1), h i j • nrm (ws i) + ws (j + 1)
  hnorm : ∀ j < n, h (j + 1) j = ‖ws (j + 1)‖
  hzero : ∀ i j, j < n → j + 1 < i → h i j = 0

namespace Arnoldi

variable {A : V →ₗ[ℝ] V} {n : ℕ} {ws : ℕ → V} {h : ℕ → ℕ → ℝ}

theorem orth' (a : Arnoldi A n ws h) {i j : ℕ} (hi : i ≤ n) (hj : j ≤ n) (hne : i ≠ j) :
    ⟪ws i, ws j⟫ = 0 := by
  rcases Nat.lt_or_gt_of_ne hne with hl | hl
  · exact a.orth i j hl hj
  · rw [real_inner_comm]; exact a.orth j i hl hi

theorem dec' (a : Arnoldi A n ws h) {j : ℕ} (hj : j < n) :
    A (nrm (ws j)) = ∑ i ∈ range (n + 1), h i j • nrm (ws i) := by
  rw [a.dec j hj]
  have hsub : range (j + 2) ⊆ range (n + 1) := range_subset_range.2 (by omega)
  rw [← sum_subset hsub, sum_range_succ _ (j + 1), a.hnorm j hj, norm_smul_nrm]
  intro i hi hni
  rw [a.hzero i j hj (by simp at hni; omega), zero_smul]

theorem residual_sq (a : Arnoldi A n ws h) (c : ℕ → ℝ) :
    ‖ws 0 - A (∑ j ∈ range n, c j • nrm (ws j))‖ ^ 2 =
      ∑ i ∈ range (n + 1),
        ((if i = 0 then ‖ws 0‖ else 0) - ∑ j ∈ range n, h i j * c j) ^ 2 := by
  have hv : ws 0 - A (∑ j ∈ range n, c j • nrm (ws j)) =
      ∑ i ∈ range (n + 1),
        ((if i = 0 then ‖ws 0‖ else 0) - ∑ j ∈ range n, h i j * c j) • nrm (ws i) := by
    have h1 : A (∑ j ∈ range n, c j • nrm (ws j)) =
        ∑ i ∈ range (n + 1), (∑ j ∈ range n, h i j * c j) • nrm (ws i) := by
      rw [map_sum]
      calc ∑ j ∈ range n, A (c j • nrm (ws j))
          = ∑ j ∈ range n, ∑ i ∈ range (n + 1), (h i j * c j) • nrm (ws i) := by
            refine sum_congr rfl fun j hj => ?_
            rw [map_smul, a.dec' (mem_range.1 hj), smul_sum]
            refine sum_congr rfl fun i _ => ?_
            rw [smul_smul, mul_comm]
        _ = _ := by
            rw [sum_comm]
            refine sum_congr rfl fun i _ => ?_
            rw [sum_smul]
    have h2 : ws 0 = ∑ i ∈ range (n + 1), (if i = 0 then ‖ws 0‖ else 0) • nrm (ws i) := by
      rw [sum_eq_single 0]
      · rw [if_pos rfl, norm_smul_nrm]
      · intro i _ hi; rw [if_neg hi, zero_smul]
      · intro hh; simp at hh
    conv_lhs => rw [h1, h2]
    rw [← sum_sub_distrib]
    refine sum_congr rfl fun i _ => ?_
    rw [sub_smul]
  rw [hv, norm_sum_orth]
  · refine sum_congr rfl fun i hi => ?_
    have hi' : i ≤ n := by simpa [Nat.lt_succ_iff] using hi
    by_cases hz : ws i = 0
    · have hin : i = n := by
        by_contra hne
        exact a.nonzero i (by omega) hz
      subst hin
      have hcoef : ((if i = 0 then ‖ws 0‖ else 0) - ∑ j ∈ range i, h i j * c j) = 0 := by
        have hs : ∑ j ∈ range i, h i j * c j = 0 := by
          refine sum_eq_zero fun j hj => ?_
          have hj' := mem_range.1 hj
          rcases Nat.lt_or_ge (j + 1) i with hl | hl
          · rw [a.hzero i j hj' hl, zero_mul]
          · have : i = j + 1 := by omega
            have h2 := a.hnorm j hj'
            rw [← this, hz, norm_zero] at h2
            rw [h2, zero_mul]
        rw [hs]
        split_ifs with h0
        · rw [h0] at hz; simp [hz]
        · simp
      rw [hcoef]; ring
    · rw [inner_nrm_self hz, mul_one]
  · intro i j hi hj hne
    exact inner_nrm (a.orth' (by omega) (by omega) hne)

/-- The span of the first `i` basis vectors is the Krylov space. -/
theorem span_eq (a : Arnoldi A n ws h) : ∀ i ≤ n,
    Submodule.span ℝ (Set.range fun j : Fin i => nrm (ws j)) = krylov A (ws 0) i := by
  -- each Krylov vector is in the span of the basis vectors
  have hA : ∀ i, i < n → ∀ y ∈ Submodule.span ℝ (Set.range fun j : Fin i => nrm (ws j)),
      A y ∈ Submodule.span ℝ (Set.range fun j : Fin (i + 1) => nrm (ws j)) := by
    intro i hi y hy
    induction hy using Submodule.span_induction with
    | mem x hx =>
      obtain ⟨j, rfl⟩ := hx
      have hj := j.2
      rw [a.dec j (by omega)]
      refine Submodule.add_mem _ (Submodule.sum_mem _ fun l hl => ?_) ?_
      · refine Submodule.smul_mem _ _ (Submodule.subset_span ⟨⟨l, ?_⟩, rfl⟩)
        have := mem_range.1 hl
        omega
      · rw [← norm_smul_nrm (ws (j + 1))]
        exact Submodule.smul_mem _ _ (Submodule.subset_span ⟨⟨j + 1, by omega⟩, rfl⟩)
    | zero => simp
    | add x y _ _ hx hy => rw [map_add]; exact Submodule.add_mem _ hx hy
    | smul c x _ hx => rw [map_smul]; exact Submodule.smul_mem _ _ hx
  have hmono : ∀ i j, i ≤ j →
      Submodule.span ℝ (Set.range fun l : Fin i => nrm (ws l)) ≤
        Submodule.span ℝ (Set.range fun l : Fin j => nrm (ws l)) := by
    intro i j hij
    refine Submodule.span_mono ?_
    rintro _ ⟨l, rfl⟩
    exact ⟨⟨l, by omega⟩, rfl⟩
  have hpow : ∀ i, i < n → (A ^ i) (ws 0) ∈
      Submodule.span ℝ (Set.range fun j : Fin (i + 1) => nrm (ws j)) := by
    intro i
    induction i with
    | zero =>
      intro _
      rw [pow_zero]
      show ws 0 ∈ _
      rw [← norm_smul_nrm (ws 0)]
      exact Submodule.smul_mem _ _ (Submodule.subset_span ⟨⟨0, by omega⟩, rfl⟩)
    | succ i ih =>
      intro hi
      rw [pow_succ']
      exact hA (i + 1) hi _ (ih (by omega))
  have hkm : ∀ i j, i ≤ j → krylov A (ws 0) i ≤ krylov A (ws 0) j := by
    intro i j hij
    refine Submodule.span_mono ?_
    rintro _ ⟨l, rfl⟩
    exact ⟨⟨l, by omega⟩, rfl⟩
  have hkA : ∀ i, ∀ y ∈ krylov A (ws 0) i, A y ∈ krylov A (ws 0) (i + 1) := by
    intro i y hy
    induction hy using Submodule.span_induction with
    | mem x hx =>
      obtain ⟨j, rfl⟩ := hx
      refine Submodule.subset_span ⟨⟨j + 1, by omega⟩, ?_⟩
      show (A ^ ((j : ℕ) + 1)) (ws 0) = A ((A ^ (j : ℕ)) (ws 0))
      rw [pow_succ']; rfl
    | zero => simp
    | add x y _ _ hx hy => rw [map_add]; exact Submodule.add_mem _ hx hy
    | smul c x _ hx => rw [map_smul]; exact Submodule.smul_mem _ _ hx
  have hq : ∀ i, i < n → nrm (ws i) ∈ krylov A (ws 0) (i + 1) := by
    intro i
    induction i using Nat.strong_induction_on with
    | _ i ih =>
      intro hi
      refine Submodule.smul_mem _ _ ?_
      cases i with
      | zero =>
        refine Submodule.subset_span ⟨⟨0, by omega⟩, ?_⟩
        simp [krylovVec]
      | succ i =>
        have hd := a.dec i (by omega)
        have : ws (i + 1) = A (nrm (ws i)) - ∑ l ∈ range (i + 1), h l i • nrm (ws l) := by
          rw [hd]; abel
        rw [this]
        refine Submodule.sub_mem _ (hkA (i + 1) _ (ih i (by omega) (by omega)))
          (Submodule.sum_mem _ fun l hl => ?_)
        have hl' := mem_range.1 hl
        exact Submodule.smul_mem _ _ (hkm _ _ (by omega) (ih l (by omega) (by omega)))
  intro i hi
  refine le_antisymm ?_ ?_
  · refine Submodule.span_le.2 ?_
    rintro _ ⟨j, rfl⟩
    exact hkm _ _ (by omega) (hq j (by omega))
  · refine Submodule.span_le.2 ?_
    rintro _ ⟨j, rfl⟩
    exact hmono _ _ (by omega) (hpow j (by omega))

/-- The basis vectors are independent. -/
theorem indep (a : Arnoldi A n ws h) : LinearIndependent ℝ (fun j : Fin n => nrm (ws j)) := by
  have : Orthonormal ℝ (fun j : Fin n => nrm (ws j)) := by
    rw [orthonormal_iff_ite]
    intro i j
    split_ifs with hij
    · subst hij; exact inner_nrm_self (a.nonzero i i.2)
    · exact inner_nrm (a.orth' (by omega) (by omega) fun hh => hij (Fin.ext hh))
  exact this.linearIndependent

/-- Without breakdown the Krylov vectors are independent. -/
theorem krylov_indep (a : Arnoldi A n ws h) : LinearIndependent ℝ (krylovVec A (ws 0) n) := by
  rw [linearIndependent_iff_card_eq_finrank_span]
  have h1 := linearIndependent_iff_card_eq_finrank_span.1 a.indep
  rw [h1]
  unfold Set.finrank
  rw [a.span_eq n le_rfl]
  rfl

/-- A breakdown means that the Krylov vectors are dependent. -/
theorem krylov_dep (a : Arnoldi A n ws h) (hz : ws n = 0) {k : ℕ} (hk : n < k) :
    ¬ LinearIndependent ℝ (krylovVec A (ws 0) k) := by
  intro hi
  -- the first n + 1 of them are independent too
  have hi' : LinearIndependent ℝ (krylovVec A (ws 0) (n + 1)) :=
    hi.comp (fun j : Fin (n + 1) => (⟨j, by omega⟩ : Fin k)) fun x y hxy => by
      simpa [Fin.ext_iff] using hxy
  -- the last one is in the span of the others
  have hmem : krylovVec A (ws 0) (n + 1) ⟨n, by omega⟩ ∈ krylov A (ws 0) n := by
    show (A ^ n) (ws 0) ∈ _
    cases n with
    | zero => rw [pow_zero]; show ws 0 ∈ _; rw [hz]; simp
    | succ n =>
      have hl : (A ^ n) (ws 0) ∈ krylov A (ws 0) (n + 1) :=
        Submodule.subset_span ⟨⟨n, by omega⟩, rfl⟩
      rw [← a.span_eq (n + 1) le_rfl] at hl ⊢
      rw [pow_succ']
      show A ((A ^ n) (ws 0)) ∈ _
      generalize (A ^ n) (ws 0) = y at hl ⊢
      induction hl using Submodule.span_induction with
      | mem x hx =>
        obtain ⟨j, rfl⟩ := hx
        have hj := j.2
        rw [a.dec j hj]
        refine Submodule.add_mem _ (Submodule.sum_mem _ fun l hl => ?_) ?_
        · refine Submodule.smul_mem _ _ (Submodule.subset_span ⟨⟨l, ?_⟩, rfl⟩)
          have := mem_range.1 hl
          omega
        · rcases Nat.lt_or_ge ((j : ℕ) + 1) (n + 1) with hlt | hge
          · rw [← norm_smul_nrm (ws (j + 1))]
            exact Submodule.smul_mem _ _ (Submodule.subset_span ⟨⟨j + 1, hlt⟩, rfl⟩)
          · have : (j : ℕ) + 1 = n + 1 := by omega
            rw [this, hz]; exact Submodule.zero_mem _
      | zero => simp
      | add x y _ _ hx hy => rw [map_add]; exact Submodule.add_mem _ hx hy
      | smul c x _ hx => rw [map_smul]; exact Submodule.smul_mem _ _ hx
  refine hi'.notMem_span_image (s := {j | (j : ℕ) < n}) (x := ⟨n, by omega⟩) (by simp) ?_
  refine Submodule.span_mono ?_ hmem
  rintro _ ⟨j, rfl⟩
  exact ⟨⟨j, by omega⟩, by simp, rfl⟩

end Arnoldi

end Hexed.Krylov

end
