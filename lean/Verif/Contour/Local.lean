import Verif.Contour.Sum
import Mathlib.Tactic.IntervalCases
import Mathlib.Tactic.Positivity
set_option autoImplicit false
set_option linter.unusedVariables false

/-!
# What belongs to one sample
-/

open Finset

namespace Hexed.Contour

/-- The point of the block where the sample `s` is. -/
def base (d n s : ℕ) : ℤ := ∑ j ∈ range d, (row d n s j * 2 * strideB d n j : ℤ)

/-- How far one can go to lower and higher rows. -/
def lo (d n s j : ℕ) : ℤ := if row d n s j = 0 then 0 else 1
def hi (d n s j : ℕ) : ℤ := if row d n s j = n then 0 else 1

def clamp (d n s j : ℕ) (x : ℤ) : ℤ := (if inside d n s j x then 1 else 0) * x

theorem clamp_neg (d n s j : ℕ) : clamp d n s j (-1) = -lo d n s j := by
  unfold clamp inside lo
  by_cases h : row d n s j = 0 <;> simp [h]
theorem clamp_zero (d n s j : ℕ) : clamp d n s j 0 = 0 := by unfold clamp; ring
theorem clamp_pos (d n s j : ℕ) : clamp d n s j 1 = hi d n s j := by
  unfold clamp inside hi
  by_cases h : row d n s j = n <;> simp [h]

theorem vert_eq (d n i s v : ℕ) : vert d n i s v = base d n s + strideB d n i + ∑ j ∈ range d, if j = i then 0 else clamp d n s j (incr d v (kdim i j)) * strideB d n j := by
  unfold vert block base clamp
  ring

theorem vert_sub {d n i s : ℕ} (hid : i < d) (h : 0 < row d n s i) (v : ℕ) : vert d n i (s - strideS d n i) v = vert d n i s v - 2 * strideB d n i := by
  obtain ⟨h1, h2⟩ := row_sub hid h
  rw [vert_eq, vert_eq]
  have hb : base d n (s - strideS d n i) = base d n s - 2 * strideB d n i := by
    unfold base
    have : ∀ j ∈ range d, (row d n (s - strideS d n i) j * 2 * strideB d n j : ℤ) = row d n s j * 2 * strideB d n j - if j = i then 2 * (strideB d n i : ℤ) else 0 := by
      intro j hj
      by_cases e : j = i
      · subst e
        rw [h2, if_pos rfl, Nat.cast_sub (by omega)]
        push_cast
        ring
      · rw [h1 j (Finset.mem_range.1 hj) e, if_neg e]
        ring
    rw [Finset.sum_congr rfl this, Finset.sum_sub_distrib, Finset.sum_ite_eq', if_pos (Finset.mem_range.2 hid)]
  have hs : ∀ j ∈ range d, (if j = i then (0 : ℤ) else clamp d n (s - strideS d n i) j (incr d v (kdim i j)) * strideB d n j) = if j = i then 0 else clamp d n s j (incr d v (kdim i j)) * strideB d n j := by
    intro j hj
    by_cases e : j = i
    · rw [if_pos e, if_pos e]
    · rw [if_neg e, if_neg e]
      unfold clamp inside
      rw [h1 j (Finset.mem_range.1 hj) e]
  rw [hb, Finset.sum_congr rfl hs]
  ring

/-! ## Coordinates of vertices -/

theorem mix (B : ℤ) (hB : 0 < B) : ∀ (d : ℕ) (a : ℕ → ℤ), (∀ j < d, 0 ≤ a j ∧ a j < B) →
    (∀ j < d, (∑ k ∈ range d, a k * B ^ (d - 1 - k)) / B ^ (d - 1 - j) % B = a j) ∧ 0 ≤ ∑ k ∈ range d, a k * B ^ (d - 1 - k) ∧ ∑ k ∈ range d, a k * B ^ (d - 1 - k) < B ^ d := by
  intro d
  induction d with
  | zero => intro a h; exact ⟨fun j hj => absurd hj (Nat.not_lt_zero j), by simp, by simp⟩
  | succ d ih =>
    intro a h
    obtain ⟨h1, h2, h3⟩ := ih a fun j hj => h j (by omega)
    have e : ∑ k ∈ range (d + 1), a k * B ^ (d + 1 - 1 - k) = a d + B * ∑ k ∈ range d, a k * B ^ (d - 1 - k) := by
      rw [Finset.sum_range_succ, Finset.mul_sum]
      rw [show d + 1 - 1 - d = 0 by omega, pow_zero, mul_one, add_comm]
      congr 1
      refine Finset.sum_congr rfl fun k hk => ?_
      have := Finset.mem_range.1 hk
      rw [show d + 1 - 1 - k = (d - 1 - k) + 1 by omega, pow_succ]
      ring
    rw [e]
    obtain ⟨hd0, hd1⟩ := h d (by omega)
    set Y := ∑ k ∈ range d, a k * B ^ (d - 1 - k) with hY
    have hdiv : (a d + B * Y) / B = Y := by
      rw [Int.add_mul_ediv_left _ _ hB.ne', Int.ediv_eq_zero_of_lt hd0 hd1, zero_add]
    refine ⟨?_, by positivity, ?_⟩
    · intro j hj
      by_cases ej : j = d
      · subst ej
        rw [show j + 1 - 1 - j = 0 by omega, pow_zero, Int.ediv_one, Int.add_mul_emod_self_left, Int.emod_eq_of_lt hd0 hd1]
      · rw [show d + 1 - 1 - j = (d - 1 - j) + 1 by omega, pow_succ', ← Int.ediv_ediv_of_nonneg hB.le, hdiv]
        exact h1 j (by omega)
    · rw [pow_succ']
      nlinarith

theorem coord_mk {d n : ℕ} {a : ℕ → ℤ} (h : ∀ j < d, 0 ≤ a j ∧ a j ≤ 2 * n) : (∀ j < d, coord d n (∑ k ∈ range d, a k * strideB d n k) j = a j) ∧ 0 ≤ ∑ k ∈ range d, a k * strideB d n k ∧ ∑ k ∈ range d, a k * (strideB d n k : ℤ) < (2 * n + 1) ^ d := by
  have := mix (2 * n + 1) (by omega) d a fun j hj => ⟨(h j hj).1, by have := (h j hj).2; omega⟩
  unfold coord strideB
  push_cast
  exact this

theorem lo_hi {d n s j : ℕ} : 0 ≤ 2 * (row d n s j : ℤ) - lo d n s j ∧ 2 * (row d n s j : ℤ) + hi d n s j ≤ 2 * n := by
  have : row d n s j < n + 1 := Nat.mod_lt _ (Nat.succ_pos n)
  unfold lo hi
  constructor
  · split <;> omega
  · split <;> omega

theorem lo_cases (d n s j : ℕ) : (lo d n s j = 0 ∧ row d n s j = 0) ∨ (lo d n s j = 1 ∧ 0 < row d n s j) := by
  unfold lo
  by_cases h : row d n s j = 0
  · exact Or.inl ⟨if_pos h, h⟩
  · exact Or.inr ⟨if_neg h, by omega⟩

theorem hi_cases (d n s j : ℕ) : (hi d n s j = 0 ∧ row d n s j = n) ∨ (hi d n s j = 1 ∧ row d n s j < n) := by
  have : row d n s j < n + 1 := Nat.mod_lt _ (Nat.succ_pos n)
  unfold hi
  by_cases h : row d n s j = n
  · exact Or.inl ⟨if_pos h, h⟩
  · exact Or.inr ⟨if_neg h, by omega⟩

/-- The point with the given distances from a sample. -/
def at' (d n s : ℕ) (δ : ℕ → ℤ) : ℤ := base d n s + ∑ j ∈ range d, δ j * strideB d n j

theorem coord_at {d n s : ℕ} {δ : ℕ → ℤ} (h : ∀ j < d, -lo d n s j ≤ δ j ∧ δ j ≤ hi d n s j) : (∀ j < d, coord d n (at' d n s δ) j = 2 * row d n s j + δ j) ∧ 0 ≤ at' d n s δ ∧ at' d n s δ < (2 * n + 1) ^ d := by
  have e : at' d n s δ = ∑ j ∈ range d, (2 * row d n s j + δ j : ℤ) * strideB d n j := by
    unfold at' base
    rw [← Finset.sum_add_distrib]
    exact Finset.sum_congr rfl fun j _ => by ring
  rw [e]
  exact coord_mk fun j hj => by
    have h1 := lo_hi (d := d) (n := n) (s := s) (j := j)
    have h2 := h j hj
    constructor <;> linarith [h1.1, h1.2, h2.1, h2.2]

/-- The cancellation at a corner. -/
theorem corner {l h l' h' : ℤ} (hl : l = 0 ∨ l = 1) (hh : h = 0 ∨ h = 1) (hl' : l' = 0 ∨ l' = 1) (hh' : h' = 0 ∨ h' = 1) (E : ℤ → ℤ → ℤ)
    (z : l = 0 ∨ h = 0 → ∀ b, -l' ≤ b → b ≤ h' → E 0 b = 0) (z' : l' = 0 ∨ h' = 0 → ∀ a, -l ≤ a → a ≤ h → E a 0 = 0) :
    h * (E 1 h' - E 1 (-l')) - l * (E (-1) h' - E (-1) (-l')) = h' * (E h 1 - E (-l) 1) - l' * (E h (-1) - E (-l) (-1)) := by
  have z1 : l = 0 ∨ h = 0 → E 0 h' = 0 ∧ E 0 (-l') = 0 := fun c => ⟨z c h' (by omega) le_rfl, z c (-l') le_rfl (by omega)⟩
  have z2 : l' = 0 ∨ h' = 0 → E h 0 = 0 ∧ E (-l) 0 = 0 := fun c => ⟨z' c h (by omega) le_rfl, z' c (-l) le_rfl (by omega)⟩
  clear z z'
  rcases hl with rfl | rfl <;> rcases hh with rfl | rfl <;> rcases hl' with rfl | rfl <;> rcases hh' with rfl | rfl <;> simp at z1 z2 <;> simp <;> first | done | (simp only [z1, z2]; done) | (simp [z1, z2]; done) | linarith | (obtain ⟨z1, z1'⟩ := z1; obtain ⟨z2, z2'⟩ := z2; linarith) | (obtain ⟨z1, z1'⟩ := z1; linarith) | (obtain ⟨z2, z2'⟩ := z2; linarith)

/-! ## Two dimensions -/

/-- The boundary of a segment, as seen by a function of vertices. -/
def bd2 (g : ℤ → ℤ) : List ℤ → ℤ
  | [a, b] => g b - g a
  | _ => 0

theorem flip2 (g : ℤ → ℤ) (l : List ℤ) (h : l.length = 2 ^ (2 - 1)) : bd2 g (flipElem l) = -bd2 g l := by
  match l, h with
  | [a, b], _ => simp [flipElem, bd2]

theorem elems2 (v : ℕ → ℤ) : elems 2 false ((List.range (3 ^ (2 - 1))).map v) = [[v 0, v 1], [v 1, v 2]] := rfl

theorem K2 (n : ℕ) (g : ℤ → ℤ) (i s : ℕ) : K 2 n (bd2 g) i s = g (vert 2 n i s 2) - g (vert 2 n i s 0) := by
  unfold K
  rw [elems2]
  simp [bd2]

def V2 (n s : ℕ) (a b : ℤ) : ℤ := at' 2 n s fun j => if j = 0 then a else b

theorem vert2_0 (n s v : ℕ) : vert 2 n 0 s v = V2 n s 1 (clamp 2 n s 1 (incr 2 v 0)) := by
  rw [vert_eq, V2, at']
  simp [Finset.sum_range_succ, kdim]
  ring
theorem vert2_1 (n s v : ℕ) : vert 2 n 1 s v = V2 n s (clamp 2 n s 0 (incr 2 v 0)) 1 := by
  rw [vert_eq, V2, at']
  simp [Finset.sum_range_succ, kdim]
  ring

theorem V2_sub0 (n s : ℕ) (b : ℤ) : V2 n s 1 b - 2 * strideB 2 n 0 = V2 n s (-1) b := by
  simp [V2, at', Finset.sum_range_succ]; ring
theorem V2_sub1 (n s : ℕ) (a : ℤ) : V2 n s a 1 - 2 * strideB 2 n 1 = V2 n s a (-1) := by
  simp [V2, at', Finset.sum_range_succ]; ring

theorem ite_hi (d n s i : ℕ) (x : ℤ) : (if row d n s i < n then x else 0) = hi d n s i * x := by
  rcases hi_cases d n s i with ⟨h, h'⟩ | ⟨h, h'⟩
  · rw [h, if_neg (by omega)]; ring
  · rw [h, if_pos h']; ring
theorem ite_lo (d n s i : ℕ) (x y : ℤ) (hxy : 0 < row d n s i → x = y) : (if 0 < row d n s i then x else 0) = lo d n s i * y := by
  rcases lo_cases d n s i with ⟨h, h'⟩ | ⟨h, h'⟩
  · rw [h, if_neg (by omega)]; ring
  · rw [h, if_pos h', hxy h']; ring

theorem P2 {n : ℕ} {g : ℤ → ℤ} (hg : ∀ v, (∃ j < 2, coord 2 n v j = 0 ∨ coord 2 n v j = 2 * n) → g v = 0) (s : ℕ) : P 2 n (bd2 g) s = 0 := by
  have i0 : incr 2 0 0 = -1 := rfl
  have i2 : incr 2 2 0 = 1 := rfl
  have k0 : K 2 n (bd2 g) 0 s = g (V2 n s 1 (hi 2 n s 1)) - g (V2 n s 1 (-lo 2 n s 1)) := by
    rw [K2, vert2_0, vert2_0, i0, i2, clamp_neg, clamp_pos]
  have k1 : K 2 n (bd2 g) 1 s = g (V2 n s (hi 2 n s 0) 1) - g (V2 n s (-lo 2 n s 0) 1) := by
    rw [K2, vert2_1, vert2_1, i0, i2, clamp_neg, clamp_pos]
  have m0 : 0 < row 2 n s 0 → K 2 n (bd2 g) 0 (s - strideS 2 n 0) = g (V2 n s (-1) (hi 2 n s 1)) - g (V2 n s (-1) (-lo 2 n s 1)) := by
    intro h
    rw [K2, vert_sub (by norm_num) h, vert_sub (by norm_num) h, vert2_0, vert2_0, i0, i2, clamp_neg, clamp_pos, V2_sub0, V2_sub0]
  have m1 : 0 < row 2 n s 1 → K 2 n (bd2 g) 1 (s - strideS 2 n 1) = g (V2 n s (hi 2 n s 0) (-1)) - g (V2 n s (-lo 2 n s 0) (-1)) := by
    intro h
    rw [K2, vert_sub (by norm_num) h, vert_sub (by norm_num) h, vert2_1, vert2_1, i0, i2, clamp_neg, clamp_pos, V2_sub1, V2_sub1]
  unfold P
  rw [Finset.sum_range_succ, Finset.sum_range_succ, Finset.sum_range_zero, ite_hi, ite_hi, ite_lo _ _ _ _ _ _ m0, ite_lo _ _ _ _ _ _ m1, k0, k1]
  have hl := fun j => (lo_cases 2 n s j).imp And.left And.left
  have hh := fun j => (hi_cases 2 n s j).imp And.left And.left
  have hrow : ∀ j, lo 2 n s j = 0 ∨ hi 2 n s j = 0 → (2 * row 2 n s j : ℤ) = 0 ∨ (2 * row 2 n s j : ℤ) = 2 * n := by
    intro j h
    rcases lo_cases 2 n s j with ⟨_, h'⟩ | ⟨e, h'⟩
    · left; rw [h']; rfl
    · rcases hi_cases 2 n s j with ⟨_, h''⟩ | ⟨e', _⟩
      · right; rw [h'']
      · omega
  have hc := corner (hl 0) (hh 0) (hl 1) (hh 1) (fun a b => g (V2 n s a b)) ?_ ?_
  · have s0 : sign 0 = -1 := rfl
    have s1 : sign 1 = 1 := rfl
    rw [s0, s1]
    linarith
  · intro h b hb hb'
    refine hg _ ⟨0, by norm_num, ?_⟩
    have := (coord_at (d := 2) (n := n) (s := s) (δ := fun j => if j = 0 then 0 else b) ?_).1 0 (by norm_num)
    · rw [V2, this]
      simpa using hrow 0 h
    · intro j hj
      interval_cases j
      · rcases hl 0 with e | e <;> rcases hh 0 with e' | e' <;> rw [e, e'] <;> simp
      · exact ⟨hb, hb'⟩
  · intro h a ha ha'
    refine hg _ ⟨1, by norm_num, ?_⟩
    have := (coord_at (d := 2) (n := n) (s := s) (δ := fun j => if j = 0 then a else 0) ?_).1 1 (by norm_num)
    · rw [V2, this]
      simpa using hrow 1 h
    · intro j hj
      interval_cases j
      · exact ⟨ha, ha'⟩
      · rcases hl 1 with e | e <;> rcases hh 1 with e' | e' <;> rw [e, e'] <;> simp

end Hexed.Contour
