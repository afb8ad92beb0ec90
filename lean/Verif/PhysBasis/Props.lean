import Verif.PhysBasis.Poly
import Mathlib.Data.List.GetD
import Mathlib.Algebra.BigOperators.Fin
set_option autoImplicit false
set_option linter.unusedVariables false

/-!
# C92: the polynomial basis in physical space
-/

namespace Hexed.PhysBasis

open Finset

/-- The basis has one function for each set of exponents whose sum is less than `row_size`, and `size` is their number. -/
theorem indices_complete {nd rs : Nat} (h1 : 1 ≤ nd) (h3 : nd ≤ 3) : (indices nd rs).Nodup ∧ (indices nd rs).length = size nd rs ∧ ∀ l : List Nat, l ∈ indices nd rs ↔ l.length = nd ∧ l.sum < rs :=
  ⟨nodup_indices h1 h3, indices_length nd rs, mem_indices h1 h3⟩

/-- `std::legendre` is only called where it is defined: all arguments are at least 0.005 away from the ends of [-1, 1]. -/
theorem argument_range {nd rs : Nat} {pos : List ℝ} {d q : Nat} (hq : q < rs ^ nd) {t : ℝ} (h : transformed nd rs pos d q = some t) : |t| ≤ 0.995 := by
  unfold transformed at h
  split at h
  · cases h
  · rename_i hne
    cases h
    have hpos : 0 < boxSize nd rs pos d := lt_of_le_of_ne (boxSize_nonneg nd rs pos d) (Ne.symm hne)
    have h1 := minOf_le (at' nd rs pos d) (rs ^ nd - 1) q (by omega)
    have h2 := le_maxOf (at' nd rs pos d) (rs ^ nd - 1) q (by omega)
    have e1 : at' nd rs pos d q - boxCenter nd rs pos d ≤ boxSize nd rs pos d / 2 := by unfold boxCenter boxSize; linarith
    have e2 : -(boxSize nd rs pos d / 2) ≤ at' nd rs pos d q - boxCenter nd rs pos d := by unfold boxCenter boxSize; linarith
    rw [abs_le]
    constructor
    · have : -(1 / 2 : ℝ) ≤ (at' nd rs pos d q - boxCenter nd rs pos d) / boxSize nd rs pos d := by rw [le_div_iff₀ hpos]; linarith
      linarith
    · have : (at' nd rs pos d q - boxCenter nd rs pos d) / boxSize nd rs pos d ≤ 1 / 2 := by rw [div_le_iff₀ hpos]; linarith
      linarith

/-- If the points are not all in a plane of constant coordinate, all basis functions are numbers everywhere. If they are, none is; in particular for `row_size = 1`. -/
theorem evaluate_number {nd rs : Nat} {pos : List ℝ} (hrs : 0 < rs) : (Spread nd rs pos → ∀ q b, (evaluate nd rs pos q b).isSome = true) ∧ (¬Spread nd rs pos → ∀ q b, evaluate nd rs pos q b = none) ∧ (rs = 1 → 0 < nd → ¬Spread nd rs pos) := by
  refine ⟨fun h q b => by rw [mat_eq h]; rfl, fun h q b => ?_, ?_⟩
  · unfold Spread at h
    push Not at h
    obtain ⟨d, hd, hq⟩ := h
    have hz : boxSize nd rs pos d = 0 := by
      obtain ⟨q1, h1, e1⟩ := minOf_mem (at' nd rs pos d) (rs ^ nd - 1)
      obtain ⟨q2, h2, e2⟩ := maxOf_mem (at' nd rs pos d) (rs ^ nd - 1)
      have hp : 0 < rs ^ nd := Nat.pow_pos hrs
      have := hq q1 (by omega) q2 (by omega)
      unfold boxSize
      rw [e1, e2]
      exact sub_eq_zero.2 this.symm
    have key : ∀ k, d < k → evaluateTo nd rs pos q b k = none := by
      intro k
      induction k with
      | zero => intro h; omega
      | succ k ih =>
        intro h
        rw [evaluateTo]
        by_cases e : d = k
        · subst e
          rw [transformed, if_pos hz]
          cases evaluateTo nd rs pos q b d <;> rfl
        · rw [ih (by omega)]; rfl
    exact key nd hd
  · rintro rfl hnd h
    obtain ⟨q, hq, q', hq', hne⟩ := h 0 hnd
    rw [one_pow] at hq hq'
    have e1 : q = 0 := by omega
    have e2 : q' = 0 := by omega
    exact hne (by rw [e1, e2])

/-- The basis spans exactly the polynomials of total degree less than `row_size`. -/
theorem span_iff {nd rs : Nat} {pos : List ℝ} (h1 : 1 ≤ nd) (h3 : nd ≤ 3) (h : Spread nd rs pos) (hrs : 0 < rs) (f : Nat → ℝ) :
    IsPoly nd rs pos f ↔ ∃ c : Nat → ℝ, ∀ q < rs ^ nd, ∃ v : Nat → ℝ, (∀ b < size nd rs, evaluate nd rs pos q b = some (v b)) ∧ f q = ∑ b ∈ range (size nd rs), c b * v b := by
  have ha : ∀ d, slope nd rs pos d ≠ 0 := fun d => div_ne_zero (by norm_num) (boxSize_ne h d.2)
  constructor
  · rintro ⟨P, hP, hf⟩
    have hm := poly_mem (b := offset nd rs pos) ha (N := rs - 1) P (by omega)
    have key : ∀ g : (Fin nd → ℝ) → ℝ, g ∈ legSpan (slope nd rs pos) (offset nd rs pos) (rs - 1) → ∃ c : Nat → ℝ, ∀ q, g (fun d => at' nd rs pos d q) =
        ∑ b ∈ range (size nd rs), c b * prodLeg (slope nd rs pos) (offset nd rs pos) (fun d => ((indices nd rs).getD b []).getD d 0) (fun d => at' nd rs pos d q) := by
      intro g hg
      induction hg using Submodule.span_induction with
      | mem g hg =>
        obtain ⟨J, hJ, rfl⟩ := hg
        have hmem : List.ofFn J ∈ indices nd rs := (mem_indices h1 h3 _).2 ⟨by simp, by rw [List.sum_ofFn]; omega⟩
        obtain ⟨b, hb, e⟩ := List.mem_iff_getElem.1 hmem
        rw [indices_length] at hb
        refine ⟨fun i => if i = b then 1 else 0, fun q => ?_⟩
        rw [Finset.sum_eq_single b]
        · dsimp only
          rw [if_pos rfl, one_mul]
          congr 1
          funext d
          rw [List.getD_eq_getElem (indices nd rs) _ (by rw [indices_length]; exact hb), e, List.getD_eq_getElem _ _ (by simp)]
          simp
        · intro i _ hne; dsimp only; rw [if_neg hne, zero_mul]
        · intro hn; exact absurd (Finset.mem_range.2 hb) hn
      | zero => exact ⟨fun _ => 0, fun q => by simp⟩
      | add f g _ _ hf hg =>
        obtain ⟨c, hc⟩ := hf
        obtain ⟨c', hc'⟩ := hg
        refine ⟨fun i => c i + c' i, fun q => ?_⟩
        rw [Pi.add_apply, hc, hc', ← Finset.sum_add_distrib]
        exact Finset.sum_congr rfl fun i _ => by ring
      | smul k f _ hf =>
        obtain ⟨c, hc⟩ := hf
        refine ⟨fun i => k * c i, fun q => ?_⟩
        rw [Pi.smul_apply, hc, smul_eq_mul, Finset.mul_sum]
        exact Finset.sum_congr rfl fun i _ => by ring
    obtain ⟨c, hc⟩ := key _ hm
    refine ⟨c, fun q hq => ⟨_, fun b _ => mat_eq h q b, ?_⟩⟩
    rw [hf q hq, ← hc q]
    rfl
  · rintro ⟨c, hc⟩
    have hm : (fun x => ∑ b ∈ range (size nd rs), c b * prodLeg (slope nd rs pos) (offset nd rs pos) (fun d => ((indices nd rs).getD b []).getD d 0) x) ∈ legSpan (slope nd rs pos) (offset nd rs pos) (rs - 1) := by
      have e : (fun x => ∑ b ∈ range (size nd rs), c b * prodLeg (slope nd rs pos) (offset nd rs pos) (fun d => ((indices nd rs).getD b []).getD d 0) x) = ∑ b ∈ range (size nd rs), c b • prodLeg (slope nd rs pos) (offset nd rs pos) (fun d => ((indices nd rs).getD b []).getD d 0) := by
        funext x; simp
      rw [e]
      refine Submodule.sum_mem _ fun b hb => Submodule.smul_mem _ _ (Submodule.subset_span ⟨_, ?_, rfl⟩)
      have hb' : b < (indices nd rs).length := by rw [indices_length]; exact Finset.mem_range.1 hb
      have hmem := (mem_indices h1 h3 _).1 (List.getElem_mem hb')
      rw [List.getD_eq_getElem _ _ hb']
      generalize (indices nd rs)[b] = l at hmem
      have : ∑ d : Fin nd, l.getD d 0 = l.sum := by
        rw [← List.sum_ofFn]
        congr 1
        apply List.ext_getElem
        · simp [hmem.1]
        · intro i h1 h2
          simp [List.getD_eq_getElem, h2]
      omega
    obtain ⟨P, hP, he⟩ := mem_poly hm
    refine ⟨P, by omega, fun q hq => ?_⟩
    obtain ⟨v, hv, e⟩ := hc q hq
    rw [e]
    have := he fun d => at' nd rs pos d q
    refine Eq.trans ?_ this
    apply Finset.sum_congr rfl
    intro b hb
    have h2 := hv b (Finset.mem_range.1 hb)
    rw [mat_eq h] at h2
    rw [Option.some.inj h2]

section projection

variable {solve : Nat → Nat → (Nat → Nat → ℝ) → (Nat → ℝ) → Nat → ℝ} (hs : LeastSquares solve) {nd rs : Nat} {pos : List ℝ} (h1 : 1 ≤ nd) (h3 : nd ≤ 3) (h : Spread nd rs pos) (hrs : 0 < rs) {w : Nat → ℝ} (hw : ∀ q < rs ^ nd, 0 ≤ w q)

include h1 h3 h hrs in
/-- The projection is a polynomial of total degree less than `row_size`. -/
theorem projection_poly (p : Nat → ℝ) : IsPoly nd rs pos (projection solve nd rs pos p w) := by
  rw [span_iff h1 h3 h hrs]
  refine ⟨solve (rs ^ nd) (size nd rs) (fun q b => √(w q) * mat nd rs pos q b) fun q => √(w q) * p q, fun q hq => ⟨mat nd rs pos q, fun b _ => ?_, ?_⟩⟩
  · unfold mat; rw [mat_eq h]; rfl
  · unfold projection
    exact Finset.sum_congr rfl fun b _ => by ring

include hs h1 h3 h hrs hw in
/-- What the projection takes away is orthogonal to all those polynomials with respect to the quadrature. -/
theorem projection_orthogonal (p : Nat → ℝ) {g : Nat → ℝ} (hg : IsPoly nd rs pos g) : ∑ q ∈ range (rs ^ nd), w q * (g q * (projection solve nd rs pos p w q - p q)) = 0 := by
  obtain ⟨c, hc⟩ := (span_iff h1 h3 h hrs g).1 hg
  have hg' : ∀ q ∈ range (rs ^ nd), g q = ∑ b ∈ range (size nd rs), c b * mat nd rs pos q b := by
    intro q hq
    obtain ⟨v, hv, e⟩ := hc q (Finset.mem_range.1 hq)
    rw [e]
    refine Finset.sum_congr rfl fun b hb => ?_
    unfold mat
    rw [hv b (Finset.mem_range.1 hb)]
    rfl
  have key : ∀ b ∈ range (size nd rs), ∑ q ∈ range (rs ^ nd), w q * (mat nd rs pos q b * (projection solve nd rs pos p w q - p q)) = 0 := by
    intro b hb
    have := hs (rs ^ nd) (size nd rs) (fun q b => √(w q) * mat nd rs pos q b) (fun q => √(w q) * p q) b (Finset.mem_range.1 hb)
    rw [← this]
    refine Finset.sum_congr rfl fun q hq => ?_
    have sq := Real.mul_self_sqrt (hw q (Finset.mem_range.1 hq))
    have e : ∑ k ∈ range (size nd rs), √(w q) * mat nd rs pos q k * solve (rs ^ nd) (size nd rs) (fun q b => √(w q) * mat nd rs pos q b) (fun q => √(w q) * p q) k = √(w q) * projection solve nd rs pos p w q := by
      unfold projection
      rw [Finset.mul_sum]
      exact Finset.sum_congr rfl fun k _ => by ring
    rw [e]
    linear_combination -(mat nd rs pos q b * (projection solve nd rs pos p w q - p q)) * sq
  calc ∑ q ∈ range (rs ^ nd), w q * (g q * (projection solve nd rs pos p w q - p q))
      = ∑ q ∈ range (rs ^ nd), ∑ b ∈ range (size nd rs), c b * (w q * (mat nd rs pos q b * (projection solve nd rs pos p w q - p q))) := by
        refine Finset.sum_congr rfl fun q hq => ?_
        rw [hg' q hq, Finset.sum_mul, Finset.mul_sum]
        exact Finset.sum_congr rfl fun b _ => by ring
    _ = ∑ b ∈ range (size nd rs), c b * ∑ q ∈ range (rs ^ nd), w q * (mat nd rs pos q b * (projection solve nd rs pos p w q - p q)) := by
        rw [Finset.sum_comm]
        exact Finset.sum_congr rfl fun b _ => by rw [Finset.mul_sum]
    _ = 0 := Finset.sum_eq_zero fun b hb => by rw [key b hb, mul_zero]

theorem IsPoly.sub {nd rs : Nat} {pos : List ℝ} {f g : Nat → ℝ} (hf : IsPoly nd rs pos f) (hg : IsPoly nd rs pos g) : IsPoly nd rs pos (fun q => f q - g q) := by
  obtain ⟨P, h1, h2⟩ := hf
  obtain ⟨Q, k1, k2⟩ := hg
  exact ⟨P - Q, lt_of_le_of_lt (MvPolynomial.totalDegree_sub _ _) (max_lt h1 k1), fun q hq => by dsimp only; rw [h2 q hq, k2 q hq, map_sub]⟩

include hs h1 h3 h hrs hw in
/-- Integrals are kept. -/
theorem projection_integral (p : Nat → ℝ) : ∑ q ∈ range (rs ^ nd), w q * projection solve nd rs pos p w q = ∑ q ∈ range (rs ^ nd), w q * p q := by
  have := projection_orthogonal hs h1 h3 h hrs hw p (g := fun _ => 1) ⟨1, by simpa using hrs, fun q _ => by simp⟩
  rw [← sub_eq_zero, ← Finset.sum_sub_distrib, ← this]
  exact Finset.sum_congr rfl fun q _ => by ring

include hs h1 h3 h hrs hw in
/-- No such polynomial is closer, in the norm of the quadrature. -/
theorem projection_best (p : Nat → ℝ) {g : Nat → ℝ} (hg : IsPoly nd rs pos g) : ∑ q ∈ range (rs ^ nd), w q * (projection solve nd rs pos p w q - p q) ^ 2 ≤ ∑ q ∈ range (rs ^ nd), w q * (g q - p q) ^ 2 := by
  have o := projection_orthogonal hs h1 h3 h hrs hw p (hg.sub (projection_poly h1 h3 h hrs p (solve := solve) (w := w)))
  have e : ∑ q ∈ range (rs ^ nd), w q * (g q - p q) ^ 2 = ∑ q ∈ range (rs ^ nd), w q * (projection solve nd rs pos p w q - p q) ^ 2 + 2 * ∑ q ∈ range (rs ^ nd), w q * ((g q - projection solve nd rs pos p w q) * (projection solve nd rs pos p w q - p q)) + ∑ q ∈ range (rs ^ nd), w q * (g q - projection solve nd rs pos p w q) ^ 2 := by
    rw [Finset.mul_sum, ← Finset.sum_add_distrib, ← Finset.sum_add_distrib]
    exact Finset.sum_congr rfl fun q _ => by ring
  rw [e, o, mul_zero, add_zero]
  have : 0 ≤ ∑ q ∈ range (rs ^ nd), w q * (g q - projection solve nd rs pos p w q) ^ 2 := Finset.sum_nonneg fun q hq => mul_nonneg (hw q (Finset.mem_range.1 hq)) (sq_nonneg _)
  linarith

include hs h1 h3 h hrs in
/-- Polynomials of total degree less than `row_size` are left as they are, at all points with positive weight; so projecting twice is the same as projecting once. -/
theorem projection_exact (hw : ∀ q < rs ^ nd, 0 < w q) {p : Nat → ℝ} (hp : IsPoly nd rs pos p) {q : Nat} (hq : q < rs ^ nd) : projection solve nd rs pos p w q = p q := by
  have o := projection_orthogonal hs h1 h3 h hrs (fun q hq => (hw q hq).le) p ((projection_poly h1 h3 h hrs p (solve := solve) (w := w)).sub hp)
  have z := (Finset.sum_eq_zero_iff_of_nonneg fun q hq => mul_nonneg (hw q (Finset.mem_range.1 hq)).le (mul_self_nonneg _)).1 o q (Finset.mem_range.2 hq)
  rcases mul_eq_zero.1 z with z | z
  · exact absurd z (hw q hq).ne'
  · exact sub_eq_zero.1 (mul_self_eq_zero.1 z)

include hs h1 h3 h hrs in
theorem projection_twice (hw : ∀ q < rs ^ nd, 0 < w q) (p : Nat → ℝ) {q : Nat} (hq : q < rs ^ nd) : projection solve nd rs pos (projection solve nd rs pos p w) w q = projection solve nd rs pos p w q :=
  projection_exact hs h1 h3 h hrs hw (projection_poly h1 h3 h hrs p) hq

end projection

/-- The constructor accepts up to three dimensions and one position for each point and dimension. -/
theorem construct_iff (nd rs : Nat) (pos : List ℝ) : construct nd rs pos = some pos ↔ nd ≤ 3 ∧ pos.length = nd * rs ^ nd := by
  unfold construct
  split
  · refine ⟨fun h => ?_, fun h => ?_⟩
    · cases h
    · omega
  · split
    · rename_i h
      refine ⟨fun h' => ?_, fun h' => absurd h'.2 h⟩
      cases h'
    · rename_i h1 h2; exact ⟨fun _ => ⟨by omega, by omega⟩, fun _ => rfl⟩

end Hexed.PhysBasis
