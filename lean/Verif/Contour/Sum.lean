import Verif.Contour.Table
import Mathlib.Algebra.BigOperators.Ring.Finset
set_option autoImplicit false
set_option linter.unusedVariables false

/-!
# Summation by parts over the samples
-/

open Finset

namespace Hexed.Contour

theorem sum_flatMap_range {α : Type} (m : ℕ) (g : ℕ → List α) (h : α → ℤ) : (((List.range m).flatMap g).map h).sum = ∑ i ∈ range m, ((g i).map h).sum := by
  induction m with
  | zero => rfl
  | succ m ih => rw [List.range_succ, List.flatMap_append, List.map_append, List.sum_append, ih, Finset.sum_range_succ]; simp

theorem sum_map_range {α : Type} (m : ℕ) (g : ℕ → α) (h : α → ℤ) : (((List.range m).map g).map h).sum = ∑ i ∈ range m, h (g i) := by
  induction m with
  | zero => rfl
  | succ m ih => rw [List.range_succ, List.map_append, List.map_append, List.sum_append, ih, Finset.sum_range_succ]; simp

theorem sum_block (a b : ℕ) (H : ℕ → ℤ) : ∑ s ∈ range (a * b), H s = ∑ i ∈ range a, ∑ j ∈ range b, H (i * b + j) := by
  induction a with
  | zero => simp
  | succ a ih => rw [Nat.succ_mul, Finset.sum_range_add, ih, Finset.sum_range_succ]

theorem abel (n : ℕ) (c k : ℕ → ℤ) : ∑ r ∈ range n, (c r - c (r + 1)) * k r = ∑ r ∈ range (n + 1), c r * ((if r < n then k r else 0) - (if 0 < r then k (r - 1) else 0)) := by
  have h1 : ∑ r ∈ range (n + 1), c r * (if r < n then k r else 0) = ∑ r ∈ range n, c r * k r := by
    rw [Finset.sum_range_succ, if_neg (lt_irrefl n), mul_zero, add_zero]
    exact Finset.sum_congr rfl fun r hr => by rw [if_pos (Finset.mem_range.1 hr)]
  have h2 : ∑ r ∈ range (n + 1), c r * (if 0 < r then k (r - 1) else 0) = ∑ r ∈ range n, c (r + 1) * k r := by
    rw [Finset.sum_range_succ', if_neg (lt_irrefl 0), mul_zero, add_zero]
    exact Finset.sum_congr rfl fun r hr => by rw [if_pos (Nat.succ_pos r), Nat.add_sub_cancel]
  simp_rw [mul_sub, sub_mul, Finset.sum_sub_distrib, h1, h2]

/-! ## Rows of samples -/

theorem strideS_pos (d n j : ℕ) : 0 < strideS d n j := Nat.pow_pos (Nat.succ_pos n)

theorem row_mk {d n i o r inn : ℕ} (hr : r ≤ n) (hi : inn < strideS d n i) : row d n ((o * (n + 1) + r) * strideS d n i + inn) i = r := by
  unfold row
  rw [Nat.add_comm, Nat.add_mul_div_right _ _ (strideS_pos d n i), Nat.div_eq_of_lt hi, Nat.zero_add, Nat.add_comm, Nat.add_mul_mod_self_right, Nat.mod_eq_of_lt (by omega)]

theorem stride_le {d n i s : ℕ} (h : 0 < row d n s i) : strideS d n i ≤ s := by
  by_contra hc
  unfold row at h
  rw [Nat.div_eq_of_lt (by omega)] at h
  simp at h

theorem row_sub {d n i s : ℕ} (hid : i < d) (h : 0 < row d n s i) : (∀ j < d, j ≠ i → row d n (s - strideS d n i) j = row d n s j) ∧ row d n (s - strideS d n i) i = row d n s i - 1 := by
  have hle := stride_le h
  have hq : (s - strideS d n i) / strideS d n i = s / strideS d n i - 1 := by
    have := Nat.sub_mul_div s (strideS d n i) 1
    rwa [Nat.mul_one] at this
  set q := s / strideS d n i with hqd
  have hq0 : 0 < q % (n + 1) := h
  have hdm := Nat.div_add_mod q (n + 1)
  have hlt : q % (n + 1) < n + 1 := Nat.mod_lt q (Nat.succ_pos n)
  have hq1 : (q - 1) / (n + 1) = q / (n + 1) ∧ (q - 1) % (n + 1) = q % (n + 1) - 1 := by
    have e : q - 1 = (q % (n + 1) - 1) + (n + 1) * (q / (n + 1)) := by omega
    constructor
    · rw [e, Nat.add_mul_div_left _ _ (Nat.succ_pos n), Nat.div_eq_of_lt (by omega), Nat.zero_add]
    · conv_lhs => rw [e]
      rw [Nat.add_mul_mod_self_left, Nat.mod_eq_of_lt (by omega)]
  constructor
  · intro j hj hne
    unfold row
    rcases lt_or_gt_of_ne hne with hlt' | hgt
    · have e : strideS d n j = strideS d n i * (n + 1) * (n + 1) ^ (i - j - 1) := by
        unfold strideS
        rw [← pow_succ, ← pow_add]
        congr 1
        omega
      rw [e, ← Nat.div_div_eq_div_mul, ← Nat.div_div_eq_div_mul, ← Nat.div_div_eq_div_mul, ← Nat.div_div_eq_div_mul, hq, ← hqd, hq1.1]
    · have e : strideS d n i = strideS d n j * ((n + 1) * (n + 1) ^ (j - i - 1)) := by
        unfold strideS
        rw [← pow_succ', ← pow_add]
        congr 1
        omega
      rw [e, Nat.sub_mul_div, Nat.sub_mul_mod]
      rw [Nat.le_div_iff_mul_le (strideS_pos d n j), Nat.mul_comm, ← e]
      exact hle
  · unfold row
    rw [hq, hq1.2]

variable {R : Type} [Field R] [LinearOrder R]

/-- 1 for samples above the value. -/
def chi (sample : ℕ → R) (value : R) (s : ℕ) : ℤ := if sample s > value then 1 else 0

def sign (i : ℕ) : ℤ := if i = 1 then 1 else -1

/-- The elements in direction `i` at one sample, before they are flipped. -/
def K (d n : ℕ) (F : List ℤ → ℤ) (i s : ℕ) : ℤ := ((elems d false ((List.range (3 ^ (d - 1))).map (vert d n i s))).map F).sum

theorem elems_length {α : Type} [Inhabited α] {d : ℕ} {fl : Bool} {l : List α} : ∀ x ∈ elems d fl l, x.length = 2 ^ (d - 1) := by
  intro x hx
  unfold elems at hx
  obtain ⟨e, _, rfl⟩ := List.mem_map.1 hx
  dsimp only
  split
  · rw [flipElem_length]; simp
  · simp

theorem elems_flip {d : ℕ} {F : List ℤ → ℤ} (hF : ∀ l, l.length = 2 ^ (d - 1) → F (flipElem l) = -F l) (l : List ℤ) : ((elems d true l).map F).sum = -((elems d false l).map F).sum := by
  unfold elems
  rw [sum_map_range, sum_map_range, ← Finset.sum_neg_distrib]
  refine Finset.sum_congr rfl fun e _ => ?_
  exact hF _ (by simp)

theorem facesAt_sum {d n : ℕ} {F : List ℤ → ℤ} (hF : ∀ l, l.length = 2 ^ (d - 1) → F (flipElem l) = -F l) {sample : ℕ → R} {value tol : R} {i s : ℕ}
    (hx : (decide (sample s > value) != decide (sample (s + strideS d n i) > value)) = true → tol < |sample s - sample (s + strideS d n i)|) :
    ((facesAt d n sample value tol (i, s)).map F).sum = sign i * ((chi sample value s - chi sample value (s + strideS d n i)) * K d n F i s) := by
  unfold facesAt crossing flip sign chi K
  dsimp only at hx ⊢
  by_cases h0 : sample s > value <;> by_cases h1 : sample (s + strideS d n i) > value
  · simp [h0, h1]
  · have ht : |sample s - sample (s + strideS d n i)| > tol := hx (by simp [h0, h1])
    by_cases hi : i = 1
    · subst hi; simp [h0, h1, ht]
    · simp [h0, h1, ht, hi, elems_flip hF]
  · have ht : |sample s - sample (s + strideS d n i)| > tol := hx (by simp [h0, h1])
    by_cases hi : i = 1
    · subst hi; simp [h0, h1, ht, elems_flip hF]
    · simp [h0, h1, ht, hi]
  · simp [h0, h1]

/-- The sum over everything that belongs to one sample. -/
def P (d n : ℕ) (F : List ℤ → ℤ) (s : ℕ) : ℤ := ∑ i ∈ range d, sign i * ((if row d n s i < n then K d n F i s else 0) - (if 0 < row d n s i then K d n F i (s - strideS d n i) else 0))

theorem total {d n : ℕ} {F : List ℤ → ℤ} (hF : ∀ l, l.length = 2 ^ (d - 1) → F (flipElem l) = -F l) {sample : ℕ → R} {value tol : R}
    (hx : ∀ e ∈ edges d n, (decide (sample e.2 > value) != decide (sample (e.2 + strideS d n e.1) > value)) = true → tol < |sample e.2 - sample (e.2 + strideS d n e.1)|) :
    (((edges d n).flatMap (facesAt d n sample value tol)).map F).sum = ∑ s ∈ range ((n + 1) ^ d), chi sample value s * P d n F s := by
  have e1 : (((edges d n).flatMap (facesAt d n sample value tol)).map F).sum = ((edges d n).map fun e => ((facesAt d n sample value tol e).map F).sum).sum := by
    induction edges d n with
    | nil => rfl
    | cons e l ih => rw [List.flatMap_cons, List.map_append, List.sum_append, ih, List.map_cons, List.sum_cons]
  have e2 : ((edges d n).map fun e => ((facesAt d n sample value tol e).map F).sum) = (edges d n).map fun e => sign e.1 * ((chi sample value e.2 - chi sample value (e.2 + strideS d n e.1)) * K d n F e.1 e.2) :=
    List.map_congr_left fun e he => facesAt_sum hF (hx e he)
  rw [e1, e2]
  unfold edges
  rw [sum_flatMap_range]
  simp_rw [P, Finset.mul_sum]
  rw [Finset.sum_comm]
  refine Finset.sum_congr rfl fun i hi => ?_
  have hid := Finset.mem_range.1 hi
  have hN : (n + 1) ^ d = (n + 1) ^ i * (n + 1) * strideS d n i := by
    unfold strideS
    rw [← pow_succ, ← pow_add]
    congr 1
    omega
  have hout : (n + 1) ^ d / strideS d n i / (n + 1) = (n + 1) ^ i := by
    rw [hN, Nat.mul_div_cancel _ (strideS_pos d n i), Nat.mul_div_cancel _ (Nat.succ_pos n)]
  rw [hout, sum_flatMap_range, hN, sum_block, sum_block]
  refine Finset.sum_congr rfl fun o ho => ?_
  rw [sum_flatMap_range, Finset.sum_comm]
  refine Finset.sum_congr rfl fun inn hinn => ?_
  rw [sum_map_range]
  have ha := abel n (fun r => chi sample value ((o * (n + 1) + r) * strideS d n i + inn)) (fun r => K d n F i ((o * (n + 1) + r) * strideS d n i + inn))
  have ha' := congrArg (fun x => sign i * x) ha
  rw [Finset.mul_sum, Finset.mul_sum] at ha'
  refine Eq.trans (Finset.sum_congr rfl fun r hr => ?_) (ha'.trans (Finset.sum_congr rfl fun r hr => ?_))
  · dsimp only
    have : (o * (n + 1) + r) * strideS d n i + inn + strideS d n i = (o * (n + 1) + (r + 1)) * strideS d n i + inn := by ring
    rw [this]
  · have hr' : r ≤ n := by have := Finset.mem_range.1 hr; omega
    rw [row_mk hr' (Finset.mem_range.1 hinn)]
    have : 0 < r → (o * (n + 1) + (r - 1)) * strideS d n i + inn = (o * (n + 1) + r) * strideS d n i + inn - strideS d n i := by
      intro h0
      obtain ⟨r, rfl⟩ : ∃ r', r = r' + 1 := ⟨r - 1, by omega⟩
      rw [Nat.add_sub_cancel]
      have : (o * (n + 1) + (r + 1)) * strideS d n i + inn = (o * (n + 1) + r) * strideS d n i + inn + strideS d n i := by ring
      rw [this, Nat.add_sub_cancel]
    by_cases h0 : 0 < r
    · rw [if_pos h0, if_pos h0, this h0]; ring
    · rw [if_neg h0, if_neg h0]; ring

end Hexed.Contour
