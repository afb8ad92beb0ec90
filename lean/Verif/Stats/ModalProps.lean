import Verif.Stats.FilterLimit
import Verif.Stats.Nonsmooth
import Verif.Stats.Props

set_option autoImplicit false
set_option linter.unusedVariables false

/-!
# The modal limiter and the nonsmoothness indicator (C73)
-/

namespace Hexed.Stats
open Hexed.Tensor Hexed.Basis

variable {b : Nodes ℝ} {deg : Nat}

/-! ## `filter_limit` (C73) -/

/-- C73: for a decay rate between 0 and 1, every Legendre mode of total degree `t` of the limited data has magnitude at most
`decay^t` times the norm of the data, and is the original mode scaled down (never up) just enough for this. -/
theorem filter_limit_modes (hb : Rule b deg) (hd : 2 * b.n ≤ deg + 3) (h2 : 2 ≤ b.n) (u : Nat → ℝ) {nd : Nat} (hnd : 1 ≤ nd) (data : Nat → ℝ) {decay : ℝ} (h0 : 0 ≤ decay) :
    ∃ r, filterLimit b u nd data decay = some r ∧ r.size = b.n ^ nd ∧ ∀ d : Fin nd → Fin b.n,
      |mode b (at' r.val) d| = min |mode b (at' data) d| (norm2 b (at' (nd := nd) data) * decay ^ total d) ∧
      ∃ s, 0 ≤ s ∧ s ≤ 1 ∧ mode b (at' r.val) d = s * mode b (at' data) d := by
  obtain ⟨r, r1, r2, r3⟩ := filterLimit_eq hb hd h2 u hnd data decay
  refine ⟨r, r1, r2, fun d => ?_⟩
  have hm : mode b (at' r.val) d = clip (norm2 b (at' (nd := nd) data) * decay ^ total d) (mode b (at' data) d) := by
    rw [show at' r.val = _ from funext r3, mode_sum hb hd]
  have ht : 0 ≤ norm2 b (at' (nd := nd) data) * decay ^ total d := mul_nonneg (Real.sqrt_nonneg _) (pow_nonneg h0 _)
  rw [hm]
  exact ⟨clip_abs ht, clip_scale ht⟩

/-- C73: data whose modes decay fast enough are not changed. -/
theorem filter_limit_keeps (hb : Rule b deg) (hd : 2 * b.n ≤ deg + 3) (h2 : 2 ≤ b.n) (u : Nat → ℝ) {nd : Nat} (hnd : 1 ≤ nd) (data : Nat → ℝ) (decay : ℝ)
    (h : ∀ d : Fin nd → Fin b.n, |mode b (at' data) d| ≤ norm2 b (at' (nd := nd) data) * decay ^ total d) :
    ∃ r, filterLimit b u nd data decay = some r ∧ r.size = b.n ^ nd ∧ ∀ q < b.n ^ nd, r.val q = data q := by
  obtain ⟨r, r1, r2, r3⟩ := filterLimit_eq hb hd h2 u hnd data decay
  refine ⟨r, r1, r2, fun q hq => ?_⟩
  obtain ⟨c, rfl⟩ := idx_surj hb.some q hq
  have := r3 c
  simp only [clip_id (h _)] at this
  rw [← mode_complete hb hd] at this
  exact this

/-- C73: with a decay rate of 1 (or more) the data are never altered. -/
theorem filter_limit_one (hb : Rule b deg) (hd : 2 * b.n ≤ deg + 3) (h2 : 2 ≤ b.n) (u : Nat → ℝ) {nd : Nat} (hnd : 1 ≤ nd) (data : Nat → ℝ) {decay : ℝ} (h1 : 1 ≤ decay) :
    ∃ r, filterLimit b u nd data decay = some r ∧ r.size = b.n ^ nd ∧ ∀ q < b.n ^ nd, r.val q = data q := by
  refine filter_limit_keeps hb hd h2 u hnd data decay fun d => (mode_le_norm hb hd _ d).trans ?_
  exact le_mul_of_one_le_right (Real.sqrt_nonneg _) (one_le_pow₀ h1)

/-- C73: with a decay rate of 0 all modes except that of degree 0 are annihilated: the result is the mean, everywhere. -/
theorem filter_limit_zero (hb : Rule b deg) (hd : 2 * b.n ≤ deg + 3) (h2 : 2 ≤ b.n) (u : Nat → ℝ) {nd : Nat} (hnd : 1 ≤ nd) (data : Nat → ℝ) :
    ∃ r, filterLimit b u nd data 0 = some r ∧ r.size = b.n ^ nd ∧ ∀ q < b.n ^ nd, r.val q = mean b (at' (nd := nd) data) := by
  obtain ⟨r, r1, r2, r3⟩ := filterLimit_eq hb hd h2 u hnd data 0
  refine ⟨r, r1, r2, fun q hq => ?_⟩
  obtain ⟨c, rfl⟩ := idx_surj hb.some q hq
  have := r3 c
  rw [at'] at this
  rw [this, Finset.sum_eq_single (fun _ => ⟨0, hb.some⟩)]
  · have ht : total (fun _ : Fin nd => (⟨0, hb.some⟩ : Fin b.n)) = 0 := by simp [total]
    rw [ht, pow_zero, mul_one, clip_id (mode_le_norm hb hd _ _), mode_zero hb, leg]
    simp [ortho_zero hb]
  · intro d _ hne
    have ht : total d ≠ 0 := by
      intro h
      apply hne
      funext k
      apply Fin.ext
      exact (Finset.sum_eq_zero_iff.1 h) k (Finset.mem_univ _)
    rw [zero_pow ht, mul_zero]
    have h3 := clip_abs (x := mode b (at' data) d) (le_refl (0 : ℝ))
    rw [min_eq_right (abs_nonneg _), abs_eq_zero] at h3
    rw [h3, zero_mul]
  · simp

/-- C73: limiting never changes the mean (it is conservative) and never increases the norm. -/
theorem filter_limit_conserves (hb : Rule b deg) (hd : 2 * b.n ≤ deg + 3) (h2 : 2 ≤ b.n) (u : Nat → ℝ) {nd : Nat} (hnd : 1 ≤ nd) (data : Nat → ℝ) {decay : ℝ} (h0 : 0 ≤ decay) :
    ∃ r, filterLimit b u nd data decay = some r ∧ mean b (at' (nd := nd) r.val) = mean b (at' (nd := nd) data) ∧
      norm2 b (at' (nd := nd) r.val) ≤ norm2 b (at' (nd := nd) data) := by
  obtain ⟨r, r1, r2, r3⟩ := filterLimit_eq hb hd h2 u hnd data decay
  have hm : ∀ d, mode b (at' r.val) d = clip (norm2 b (at' (nd := nd) data) * decay ^ total d) (mode b (at' data) d) := fun d => by
    rw [show at' r.val = _ from funext r3, mode_sum hb hd]
  refine ⟨r, r1, ?_, ?_⟩
  · rw [← mode_zero hb, ← mode_zero hb, hm]
    have ht : total (fun _ : Fin nd => (⟨0, hb.some⟩ : Fin b.n)) = 0 := by simp [total]
    rw [ht, pow_zero, mul_one, clip_id (mode_le_norm hb hd _ _)]
  · rw [norm2_modes hb hd, norm2_modes hb hd (at' data)]
    refine Real.sqrt_le_sqrt (Finset.sum_le_sum fun d _ => ?_)
    have ht : 0 ≤ norm2 b (at' (nd := nd) data) * decay ^ total d := mul_nonneg (Real.sqrt_nonneg _) (pow_nonneg h0 _)
    rw [hm, ← sq_abs, ← sq_abs (mode b (at' data) d), clip_abs ht]
    exact pow_le_pow_left₀ (le_min (abs_nonneg _) ht) (min_le_left _ _) 2

/-- The hypotheses are met: two-point Gauss-Legendre quadrature in three dimensions. -/
example (u data : Nat → ℝ) : ∃ r, filterLimit Spatial.gauss2 u 3 data 0 = some r ∧ r.size = 2 ^ 3 ∧ ∀ q < 2 ^ 3, r.val q = mean Spatial.gauss2 (at' (nd := 3) data) :=
  filter_limit_zero gauss2_rule (by simp [Spatial.gauss2]) (by simp [Spatial.gauss2]) u (by norm_num) data

/-! ## The nonsmoothness indicator (C73) -/

/-- C73: the indicator is the root of the mean, over the dimensions, of the squares of the modes that have the highest degree in that
dimension. -/
theorem nonsmooth_modes (hb : Rule b deg) (hd : 2 * b.n ≤ deg + 3) (u : Nat → ℝ) {nd : Nat} (hnd : 1 ≤ nd) (vals : Nat → ℝ) :
    elemNonsmooth b u nd vals =
      some (√((∑ i : Fin nd, ∑ d ∈ Finset.univ.filter (fun d : Fin nd → Fin b.n => (d i : Nat) = b.n - 1), mode b (at' vals) d ^ 2) / nd)) := by
  obtain ⟨m, rfl⟩ : ∃ m, nd = m + 1 := ⟨nd - 1, by omega⟩
  rw [elemNonsmooth_eq hb]
  congr 4
  funext i
  rw [top_sum hb hd, ← Finset.sum_filter]
  congr 1
  refine Finset.filter_congr fun d _ => ?_
  simp [last, Fin.ext_iff]

theorem nonsmooth_value (hb : Rule b deg) (hd : 2 * b.n ≤ deg + 3) (u : Nat → ℝ) (m : Nat) (vals : Nat → ℝ) :
    elemNonsmooth b u (m + 1) vals = some (√((∑ d : Fin (m + 1) → Fin b.n, ((Finset.univ.filter fun i => (d i : Nat) = b.n - 1).card : ℝ) * mode b (at' vals) d ^ 2) / (m + 1 : Nat))) := by
  rw [elemNonsmooth_eq hb, nonsmooth_sum hb hd]

/-- C73: the indicator is zero exactly for functions that agree, at the quadrature points, with a polynomial of lower than the highest
degree in every variable. -/
theorem nonsmooth_zero_iff (hb : Rule b deg) (hd : 2 * b.n ≤ deg + 3) (h2 : 2 ≤ b.n) (u : Nat → ℝ) {nd : Nat} (hnd : 1 ≤ nd) (vals : Nat → ℝ) :
    elemNonsmooth b u nd vals = some 0 ↔ ∃ p : MvPolynomial (Fin nd) ℝ, (∀ i, p.degreeOf i ≤ b.n - 2) ∧ ∀ c : Fin nd → Fin b.n, vals (idx c) = MvPolynomial.eval (point b c) p := by
  obtain ⟨m, rfl⟩ : ∃ m, nd = m + 1 := ⟨nd - 1, by omega⟩
  rw [nonsmooth_value hb hd, Option.some.injEq]
  have hnn : ∀ d : Fin (m + 1) → Fin b.n, 0 ≤ ((Finset.univ.filter fun i => (d i : Nat) = b.n - 1).card : ℝ) * mode b (at' vals) d ^ 2 := fun d =>
    mul_nonneg (Nat.cast_nonneg _) (sq_nonneg _)
  rw [Real.sqrt_eq_zero (div_nonneg (Finset.sum_nonneg fun d _ => hnn d) (Nat.cast_nonneg _)), div_eq_zero_iff, or_iff_left (by positivity),
    Finset.sum_eq_zero_iff_of_nonneg fun d _ => hnn d]
  constructor
  · intro h
    refine poly_of_modes hb hd (at' vals) (b.n - 2) fun d i hi => ?_
    have hdi : (d i : Nat) = b.n - 1 := by have := (d i).2; omega
    have h3 := (mul_eq_zero.1 (h d (Finset.mem_univ _))).resolve_left (by
      have : 0 < (Finset.univ.filter fun i => (d i : Nat) = b.n - 1).card := Finset.card_pos.2 ⟨i, by simpa using hdi⟩
      exact_mod_cast this.ne')
    exact pow_eq_zero_iff two_ne_zero |>.1 h3
  · rintro ⟨p, hp, hv⟩ d _
    by_cases hex : ∃ i, (d i : Nat) = b.n - 1
    · obtain ⟨i, hi⟩ := hex
      have : at' vals = fun c : Fin (m + 1) → Fin b.n => MvPolynomial.eval (point b c) p := funext hv
      rw [this, mode_poly hb hd p i d (by have := hp i; omega)]; ring
    · push Not at hex
      rw [Finset.filter_false_of_mem fun i _ => hex i]; simp

/-- C73: the indicator is unchanged if a polynomial of lower degree is added, and proportional to the magnitude of the function. -/
theorem nonsmooth_shift_scale (hb : Rule b deg) (hd : 2 * b.n ≤ deg + 3) (u : Nat → ℝ) {nd : Nat} (hnd : 1 ≤ nd) (vals vals' : Nat → ℝ) (k : ℝ)
    (p : MvPolynomial (Fin nd) ℝ) (hp : ∀ i, p.degreeOf i < b.n - 1) (h : ∀ c : Fin nd → Fin b.n, vals' (idx c) = k * vals (idx c) + MvPolynomial.eval (point b c) p) :
    elemNonsmooth b u nd vals' = (elemNonsmooth b u nd vals).map fun x => |k| * x := by
  obtain ⟨m, rfl⟩ : ∃ m, nd = m + 1 := ⟨nd - 1, by omega⟩
  rw [nonsmooth_value hb hd, nonsmooth_value hb hd, Option.map_some, Option.some.injEq, ← Real.sqrt_sq_eq_abs, ← Real.sqrt_mul (sq_nonneg k), ← mul_div_assoc, Finset.mul_sum]
  congr 2
  refine Finset.sum_congr rfl fun d _ => ?_
  by_cases hex : ∃ i, (d i : Nat) = b.n - 1
  · obtain ⟨i, hi⟩ := hex
    have hm : mode b (at' vals') d = k * mode b (at' vals) d := by
      have h0 := mode_poly hb hd p i d (by have := hp i; omega)
      have : mode b (at' vals') d = k * mode b (at' vals) d + mode b (fun c => MvPolynomial.eval (point b c) p) d := by
        simp only [mode, Finset.mul_sum, ← Finset.sum_add_distrib]
        refine Finset.sum_congr rfl fun c _ => ?_
        rw [at', h c, at']; ring
      rw [this, h0, add_zero]
    rw [hm]; ring
  · push Not at hex
    rw [Finset.filter_false_of_mem fun i _ => hex i]; simp

/-- C73: in an element with constant Jacobian determinant, the normalized indicator of a function that is not zero at every quadrature
point is between 0 and 1. -/
theorem normalized_range (hb : Rule b deg) (hd : 2 * b.n ≤ deg + 3) (u : Nat → ℝ) {nd : Nat} (hnd : 1 ≤ nd) {el : Elem} {J : ℝ} (hJ : 0 < J) (hdet : ∀ q < b.n ^ nd, el.det q = J)
    (vals : Nat → ℝ) (hv : ∃ q < b.n ^ nd, vals q ≠ 0) : ∃ x, normalizedNonsmooth b u nd el vals = some x ∧ 0 ≤ x ∧ x ≤ 1 := by
  obtain ⟨m, rfl⟩ : ∃ m, nd = m + 1 := ⟨nd - 1, by omega⟩
  have hdp : ∀ q < b.n ^ (m + 1), 0 < el.det q := fun q hq => by rw [hdet q hq]; exact hJ
  have hp := elemSum_pos hb (m + 1) hdp
  obtain ⟨s, s1, s2, s3⟩ := avg_eq hb.some u (m + 1) 1 el (fun q => ⟨1, fun _ => vals q⟩) 2 (fun _ _ => rfl) hp.ne'
  have hl2 : elemL2 b u (m + 1) 1 el (fun q => ⟨1, fun _ => vals q⟩) = some ⟨s.size, fun i => √(s.val i)⟩ := by
    rw [elemL2, show ((2 : Int)) = ((2 : Nat) : Int) from rfl, s1]; rfl
  have hs : s.val 0 = ∑ c : Fin (m + 1) → Fin b.n, wgt b c * vals (idx c) ^ 2 := by
    rw [s3 0 one_pos]
    have h1 : elemSum b (m + 1) el.det = J := by
      have : elemSum b (m + 1) el.det = J * elemSum b (m + 1) fun _ => 1 := by
        rw [← elemSum_mul]
        exact Finset.sum_congr rfl fun c _ => by rw [hdet _ (idx_lt c), mul_one]
      rw [this]
      have h1 : (elemSum b (m + 1) fun _ => 1) = 1 := by
        have h4 := leg_orthonormal hb hd (fun _ : Fin (m + 1) => (⟨0, hb.some⟩ : Fin b.n)) (fun _ => ⟨0, hb.some⟩)
        rw [if_pos rfl] at h4
        refine Eq.trans ?_ h4
        rw [elemSum]
        refine Finset.sum_congr rfl fun c _ => ?_
        simp [leg, ortho_zero hb, wgt]
      rw [h1, mul_one]
    have h2 : (elemSum b (m + 1) fun q => vals q ^ 2 * el.det q) = J * ∑ c : Fin (m + 1) → Fin b.n, wgt b c * vals (idx c) ^ 2 := by
      rw [elemSum, Finset.mul_sum]
      refine Finset.sum_congr rfl fun c _ => ?_
      rw [hdet _ (idx_lt c), wgt]; ring
    rw [h1, h2, mul_div_cancel_left₀ _ hJ.ne']
  have hpos : 0 < s.val 0 := by
    obtain ⟨q, hq, hvq⟩ := hv
    obtain ⟨c, rfl⟩ := idx_surj hb.some q hq
    rw [hs]
    refine Finset.sum_pos' (fun c _ => mul_nonneg (Finset.prod_nonneg fun k _ => (hb.pos _ (c k).2).le) (sq_nonneg _)) ⟨c, Finset.mem_univ _, ?_⟩
    exact mul_pos (Finset.prod_pos fun k _ => hb.pos _ (c k).2) (by positivity)
  refine ⟨√((∑ d : Fin (m + 1) → Fin b.n, ((Finset.univ.filter fun i => (d i : Nat) = b.n - 1).card : ℝ) * mode b (at' vals) d ^ 2) / (m + 1 : Nat)) / √(s.val 0), ?_, ?_, ?_⟩
  · rw [normalizedNonsmooth, nonsmooth_value hb hd, Option.bind_some, hl2, Option.bind_some]
    dsimp only
    rw [if_neg (Real.sqrt_pos.2 hpos).ne']
  · exact div_nonneg (Real.sqrt_nonneg _) (Real.sqrt_nonneg _)
  · rw [div_le_one (Real.sqrt_pos.2 hpos)]
    refine Real.sqrt_le_sqrt ?_
    rw [div_le_iff₀ (by positivity)]
    have hpv : s.val 0 = ∑ d, mode b (at' (nd := m + 1) vals) d ^ 2 := by rw [hs]; exact parseval hb hd (at' vals)
    rw [hpv, Finset.sum_mul]
    refine Finset.sum_le_sum fun d _ => ?_
    rw [mul_comm]
    refine mul_le_mul_of_nonneg_left ?_ (sq_nonneg _)
    have : (Finset.univ.filter fun i => (d i : Nat) = b.n - 1).card ≤ m + 1 := by
      have := Finset.card_le_univ (Finset.univ.filter fun i => (d i : Nat) = b.n - 1)
      simpa using this
    exact_mod_cast this

/-- The indicator is not always zero: `x` in one dimension with two quadrature points. -/
example (u : Nat → ℝ) : elemNonsmooth Spatial.gauss2 u 1 (fun q => Spatial.gauss2.node q) ≠ some 0 := by
  rw [Ne, nonsmooth_zero_iff gauss2_rule (by simp [Spatial.gauss2]) (by simp [Spatial.gauss2]) u le_rfl]
  rintro ⟨p, hp, hv⟩
  have hC : p = MvPolynomial.C (MvPolynomial.coeff 0 p) := by
    ext s
    rw [MvPolynomial.coeff_C]
    split
    · next h => rw [h]
    · next h =>
      by_contra hne
      have hs := MvPolynomial.mem_support_iff.2 hne
      have h0 := (MvPolynomial.le_degreeOf_of_mem_support 0 hs).trans (hp 0)
      apply h
      refine Finsupp.ext fun i => ?_
      have : i = 0 := Subsingleton.elim _ _
      subst this
      simp [Spatial.gauss2] at h0
      simp [h0]
  have h0 := hv fun _ => (⟨0, by simp [Spatial.gauss2]⟩ : Fin Spatial.gauss2.n)
  have h1 := hv fun _ => (⟨1, by simp [Spatial.gauss2]⟩ : Fin Spatial.gauss2.n)
  rw [hC, MvPolynomial.eval_C] at h0 h1
  have e : Spatial.gauss2.node 0 = Spatial.gauss2.node 1 := by
    have i0 : idx (fun _ : Fin 1 => (⟨0, by simp [Spatial.gauss2]⟩ : Fin Spatial.gauss2.n)) = 0 := by simp [idx, RowIndex.tensorIdx]
    have i1 : idx (fun _ : Fin 1 => (⟨1, by simp [Spatial.gauss2]⟩ : Fin Spatial.gauss2.n)) = 1 := by simp [idx, RowIndex.tensorIdx]
    rw [i0] at h0; rw [i1] at h1
    rw [h0, h1]
  simp only [Spatial.gauss2] at e
  have : (0 : ℝ) < 1 / √3 := by positivity
  norm_num at e
  have h3 : (0 : ℝ) < (√3)⁻¹ := by positivity
  linarith

end Hexed.Stats
