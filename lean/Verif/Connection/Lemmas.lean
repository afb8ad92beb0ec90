import Verif.Connection.Spec
import Mathlib.Tactic.Ring
import Mathlib.Tactic.FinCases
import Mathlib.Tactic.IntervalCases
import Mathlib.Tactic.Linarith
import Mathlib.LinearAlgebra.Matrix.Notation
set_option autoImplicit false
set_option linter.unusedVariables false

namespace Hexed.Connection
open Matrix

def sg (b : Bool) : ℤ := if b then 1 else -1

/-- The candidate frames: `e` is the sign of the exchanged tangential axis. -/
def frameG (d : Dir) (e : ℤ) : Matrix (Fin 3) (Fin 3) ℤ := fun k m =>
  if d.i0 = d.i1 then (if k = m then (if k = d.i0 then -(sg d.s0 * sg d.s1) else 1) else 0)
  else if m = d.i0 then (if k = d.i1 then -(sg d.s0 * sg d.s1) else 0)
  else if m = d.i1 then (if k = d.i0 then e else 0)
  else if k = m then 1 else 0

def frameOf (d : Dir) : Matrix (Fin 3) (Fin 3) ℤ := frameG d (sg d.s0 * sg d.s1)

theorem forall_dir {P : Dir → Prop} (h : ∀ (i0 i1 : Fin 3) (s0 s1 : Bool), P ⟨i0, i1, s0, s1⟩) (d : Dir) : P d := h _ _ _ _

theorem mulVec_unit (R : Matrix (Fin 3) (Fin 3) ℤ) (m k : Fin 3) : (R *ᵥ unit m) k = R k m := by
  simp [unit]

theorem frameG_det (d : Dir) (e : ℤ) : (frameG d e).det = if d.i0 = d.i1 then -(sg d.s0 * sg d.s1) else e * (sg d.s0 * sg d.s1) := by
  revert d
  refine forall_dir ?_
  intro i0 i1 s0 s1
  rw [Matrix.det_fin_three]
  fin_cases i0 <;> fin_cases i1 <;> cases s0 <;> cases s1 <;> simp [frameG, sg]

theorem frame_unique {d : Dir} {R : Matrix (Fin 3) (Fin 3) ℤ} (h : IsFrame d R) : R = frameOf d := by
  have hn : ∀ k, R k d.i0 = if k = d.i1 then -(sg d.s0 * sg d.s1) else 0 := by
    intro k
    have h1 := congrFun h.normal k
    have h2 := mulVec_unit R d.i0 k
    cases hs0 : d.s0 <;> cases hs1 : d.s1 <;> simp [outward, hs0, hs1, Matrix.mulVec_neg] at h1 <;> rw [h2] at h1 <;>
      by_cases hk : k = d.i1 <;> simp [unit, hk, sg, Pi.single_apply] at h1 ⊢ <;> (try subst hk) <;> omega
  have ho : ∀ m, m ≠ d.i0 → m ≠ d.i1 → ∀ k, R k m = if k = m then 1 else 0 := by
    intro m h1 h2 k
    have h3 := congrFun (h.other m h1 h2) k
    rw [mulVec_unit] at h3
    rw [h3]; simp [unit, Pi.single_apply]
  by_cases hd : d.i0 = d.i1
  · ext k m
    by_cases hm : m = d.i0
    · subst hm
      rw [hn k, ← hd]
      simp only [frameOf, frameG, hd, if_true]
      by_cases hk : k = d.i1 <;> simp [hk]
    · have hm' : m ≠ d.i1 := hd ▸ hm
      rw [ho m hm hm' k]
      simp only [frameOf, frameG, hd, if_true]
      by_cases hk : k = m
      · subst hk; simp [hm']
      · simp [hk]
  · have hsw : ∃ e, ∀ k, R k d.i1 = if k = d.i0 then e else 0 := by
      rcases h.swap hd with h1 | h1
      · refine ⟨1, fun k => ?_⟩
        have h2 := congrFun h1 k
        rw [mulVec_unit] at h2
        rw [h2]; simp [unit, Pi.single_apply]
      · refine ⟨-1, fun k => ?_⟩
        have h2 := congrFun h1 k
        rw [mulVec_unit] at h2
        rw [h2]; simp only [Pi.neg_apply, unit, Pi.single_apply]; split <;> simp
    obtain ⟨e, he⟩ := hsw
    have hR : R = frameG d e := by
      ext k m
      simp only [frameG, hd, if_false]
      by_cases hm : m = d.i0
      · subst hm; simp [hn k]
      · by_cases hm' : m = d.i1
        · subst hm'; simp [Ne.symm hd, he k]
        · simp [hm, hm', ho m hm hm' k]
    have hdet := h.det
    rw [hR, frameG_det, if_neg hd] at hdet
    rw [hR, frameOf]
    congr 1
    cases hs0 : d.s0 <;> cases hs1 : d.s1 <;> simp [hs0, hs1, sg] at hdet ⊢ <;> omega

theorem frameOf_isFrame {nd : Nat} {d : Dir} (h : Legal nd d) : IsFrame d (frameOf d) := by
  obtain ⟨_, _, hl⟩ := h
  refine ⟨?_, ?_, ?_, ?_⟩
  · clear * - hl; obtain ⟨i0, i1, s0, s1⟩ := d; revert i0 i1 s0 s1; decide +kernel
  · clear * - hl; obtain ⟨i0, i1, s0, s1⟩ := d; revert i0 i1 s0 s1; decide +kernel
  · clear * - hl; obtain ⟨i0, i1, s0, s1⟩ := d; revert i0 i1 s0 s1; decide +kernel
  · rw [frameOf, frameG_det]
    split
    · rename_i hd
      have : d.s0 ≠ d.s1 := by rcases hl with h | h; exact absurd hd h; exact h
      cases hs0 : d.s0 <;> cases hs1 : d.s1 <;> simp_all [sg]
    · cases hs0 : d.s0 <;> cases hs1 : d.s1 <;> simp [sg]

/-! ## Lists and blocks -/

theorem foldl_permBlock {K : Type} (size : Nat) (π : Nat → Nat) (hπ : ∀ k, k < size → π k < size) (mem : Nat → K) : ∀ (nvar j : Nat),
    (List.range nvar).foldl (fun mem i => permBlock (i * size) size π mem) mem j =
      if j < nvar * size then mem ((j / size) * size + π (j % size)) else mem j
  | 0, j => by simp
  | nvar + 1, j => by
    rw [List.range_succ, List.foldl_append]
    simp only [List.foldl_cons, List.foldl_nil, permBlock]
    have ih := foldl_permBlock size π hπ mem nvar
    by_cases h1 : nvar * size ≤ j
    · by_cases h2 : j < nvar * size + size
      · have hs : 0 < size := by omega
        obtain ⟨r, rfl⟩ := Nat.exists_eq_add_of_le h1
        have hr : r < size := by omega
        have e1 : (nvar * size + r) / size = nvar := by
          rw [Nat.add_comm, Nat.add_mul_div_right _ _ hs, Nat.div_eq_of_lt hr]; omega
        have e2 : (nvar * size + r) % size = r := by
          rw [Nat.add_comm, Nat.add_mul_mod_self_right, Nat.mod_eq_of_lt hr]
        have e3 : nvar * size + r < (nvar + 1) * size := by rw [Nat.add_mul]; omega
        rw [if_pos ⟨h1, h2⟩, if_pos e3, ih, e1, e2, Nat.add_sub_cancel_left]
        rw [if_neg (by omega)]
      · have e3 : ¬ j < (nvar + 1) * size := by rw [Nat.add_mul]; omega
        rw [if_neg (by omega), if_neg e3, ih, if_neg (by omega)]
    · have e3 : j < (nvar + 1) * size := by rw [Nat.add_mul]; omega
      rw [if_neg (by omega), if_pos e3, ih, if_pos (by omega)]

/-- The index permutation of one variable's face data performed by `transposeData`. -/
def tπ (nd n : Nat) (d : Dir) (k : Nat) : Nat := if d.transpose ∧ nd = 3 then (k % n) * n + k / n else k
/-- The index permutation performed by `flipData`. -/
def fπ (nd n : Nat) (d : Dir) (k : Nat) : Nat :=
  if d.flipTangential then
    if nd = 3 then
      if decide ((d.i0.val : Int) > 3 - d.i0.val - d.i1.val) != d.transpose then (k / n) * n + (n - 1 - k % n) else (n - 1 - k / n) * n + k % n
    else if nd = 2 then n - 1 - k else k
  else k

theorem rev_lt {n a : Nat} (h : a < n) : n - 1 - a < n := by omega
theorem rev_rev {n a : Nat} (h : a < n) : n - 1 - (n - 1 - a) = a := by omega

theorem lt_sq {n a b : Nat} (ha : a < n) (hb : b < n) : a * n + b < n * n := by
  have : a * n ≤ (n - 1) * n := Nat.mul_le_mul_right _ (by omega)
  have h2 : (n - 1) * n + n = n * n := by rw [← Nat.succ_mul]; congr 1; omega
  omega

theorem divmod_lt {n k : Nat} (hk : k < n * n) : 0 < n ∧ k / n < n ∧ k % n < n := by
  have hn : 0 < n := by by_contra h; simp at h; subst h; simp at hk
  exact ⟨hn, Nat.div_lt_of_lt_mul hk, Nat.mod_lt _ hn⟩

theorem tπ_lt (nd n : Nat) (hnd : 1 ≤ nd ∧ nd ≤ 3) (d : Dir) (k : Nat) (hk : k < n ^ (nd - 1)) : tπ nd n d k < n ^ (nd - 1) := by
  unfold tπ
  split
  · rename_i h
    rw [h.2] at hk ⊢
    simp only [Nat.add_one_sub_one, pow_two] at hk ⊢
    obtain ⟨h1, h2, h3⟩ := divmod_lt hk
    exact lt_sq h3 h2
  · exact hk

theorem fπ_lt (nd n : Nat) (hnd : 1 ≤ nd ∧ nd ≤ 3) (d : Dir) (k : Nat) (hk : k < n ^ (nd - 1)) : fπ nd n d k < n ^ (nd - 1) := by
  unfold fπ
  split
  · split
    · rename_i h; subst h
      simp only [Nat.add_one_sub_one, pow_two] at hk ⊢
      obtain ⟨h1, h2, h3⟩ := divmod_lt hk
      split
      · exact lt_sq h2 (by omega)
      · exact lt_sq (rev_lt h2) h3
    · split
      · rename_i h; subst h; simp at hk ⊢; omega
      · exact hk
  · exact hk

theorem transposeData_eq {K : Type} (nd n nvar : Nat) (hnd : 1 ≤ nd ∧ nd ≤ 3) (d : Dir) (mem : Nat → K) (j : Nat) :
    transposeData nd n nvar d mem j = if j < nvar * n ^ (nd - 1) then mem ((j / n ^ (nd - 1)) * n ^ (nd - 1) + tπ nd n d (j % n ^ (nd - 1))) else mem j := by
  have triv : (if j < nvar * n ^ (nd - 1) then mem ((j / n ^ (nd - 1)) * n ^ (nd - 1) + j % n ^ (nd - 1)) else mem j) = mem j := by
    rw [Nat.div_add_mod']; simp
  unfold transposeData tπ
  by_cases ht : d.transpose
  · by_cases h3 : nd = 3
    · subst h3
      simp only [ht, if_true, true_and, Nat.add_one_sub_one, pow_two]
      refine foldl_permBlock (n * n) _ ?_ mem nvar j
      intro k hk
      obtain ⟨h1, h2, h3⟩ := divmod_lt hk
      exact lt_sq h3 h2
    · simp [ht, h3, triv]
  · simp [ht, triv]

theorem flipData_eq {K : Type} (nd n nvar : Nat) (hnd : 1 ≤ nd ∧ nd ≤ 3) (d : Dir) (mem : Nat → K) (j : Nat) :
    flipData nd n nvar d mem j = if j < nvar * n ^ (nd - 1) then mem ((j / n ^ (nd - 1)) * n ^ (nd - 1) + fπ nd n d (j % n ^ (nd - 1))) else mem j := by
  have triv : (if j < nvar * n ^ (nd - 1) then mem ((j / n ^ (nd - 1)) * n ^ (nd - 1) + j % n ^ (nd - 1)) else mem j) = mem j := by
    rw [Nat.div_add_mod']; simp
  unfold flipData fπ
  by_cases ht : d.flipTangential
  · simp only [ht, if_true]
    by_cases h3 : nd = 3
    · subst h3
      simp only [if_true, Nat.add_one_sub_one, pow_two]
      split
      · refine foldl_permBlock (n * n) _ ?_ mem nvar j
        intro k hk
        obtain ⟨h1, h2, h3⟩ := divmod_lt hk
        exact lt_sq h2 (by omega)
      · refine foldl_permBlock (n * n) _ ?_ mem nvar j
        intro k hk
        obtain ⟨h1, h2, h3⟩ := divmod_lt hk
        exact lt_sq (rev_lt h2) h3
    · simp only [h3, if_false]
      by_cases h2 : nd = 2
      · subst h2
        simp [permBlock, Nat.mul_comm]
      · simp [h2, triv]
  · simp [ht, triv]

theorem tπ_tπ (nd n : Nat) (d : Dir) (k : Nat) (hk : k < n ^ (nd - 1)) : tπ nd n d (tπ nd n d k) = k := by
  unfold tπ
  split
  · rename_i h
    rw [h.2] at hk
    simp only [Nat.add_one_sub_one, pow_two] at hk
    obtain ⟨h1, h2, h3⟩ := divmod_lt hk
    have e1 : (k % n * n + k / n) % n = k / n := by rw [Nat.add_comm, Nat.add_mul_mod_self_right, Nat.mod_eq_of_lt h2]
    have e2 : (k % n * n + k / n) / n = k % n := by rw [Nat.add_comm, Nat.add_mul_div_right _ _ h1, Nat.div_eq_of_lt h2]; omega
    rw [e1, e2, Nat.div_add_mod']
  · rfl

theorem fπ_fπ (nd n : Nat) (d : Dir) (k : Nat) (hk : k < n ^ (nd - 1)) : fπ nd n d (fπ nd n d k) = k := by
  unfold fπ
  split
  · split
    · rename_i h; subst h
      simp only [Nat.add_one_sub_one, pow_two] at hk
      obtain ⟨h1, h2, h3⟩ := divmod_lt hk
      split
      · have h4 : n - 1 - k % n < n := by omega
        have e1 : (k / n * n + (n - 1 - k % n)) % n = n - 1 - k % n := by rw [Nat.add_comm, Nat.add_mul_mod_self_right, Nat.mod_eq_of_lt h4]
        have e2 : (k / n * n + (n - 1 - k % n)) / n = k / n := by rw [Nat.add_comm, Nat.add_mul_div_right _ _ h1, Nat.div_eq_of_lt h4]; omega
        rw [e1, e2]
        have : n - 1 - (n - 1 - k % n) = k % n := by omega
        rw [this, Nat.div_add_mod']
      · have e1 : ((n - 1 - k / n) * n + k % n) % n = k % n := by rw [Nat.add_comm, Nat.add_mul_mod_self_right, Nat.mod_eq_of_lt h3]
        have e2 : ((n - 1 - k / n) * n + k % n) / n = n - 1 - k / n := by rw [Nat.add_comm, Nat.add_mul_div_right _ _ h1, Nat.div_eq_of_lt h3]; omega
        rw [e1, e2]
        have : n - 1 - (n - 1 - k / n) = k / n := rev_rev h2
        rw [this, Nat.div_add_mod']
    · split
      · rename_i h; subst h; simp at hk; omega
      · rfl
  · rfl

end Hexed.Connection
