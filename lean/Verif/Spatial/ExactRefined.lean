import Verif.Spatial.ExactFace
set_option autoImplicit false
set_option linter.unusedVariables false

/-!
# Refined faces on polynomial data
-/

namespace Hexed.Spatial
open Polynomial
open Hexed.Connection (strAt)

theorem strAt_false (i : Nat) : strAt (false, false) i = false := by
  rw [strAt]; split <;> rfl

theorem iHalf_false (nd l i : Nat) : iHalf nd (false, false) l i = i / 2 ^ (nd - 2 - l) % 2 := by
  rw [iHalf, strAt_false]; simp

theorem nFace_false {nd : Nat} (h : 1 ≤ nd ∧ nd ≤ 3) : nFace nd (false, false) = 2 ^ (nd - 1) := by
  obtain rfl | rfl | rfl : nd = 1 ∨ nd = 2 ∨ nd = 3 := by omega
  all_goals rfl

theorem dims_false (nd n : Nat) (mats : Nat → Nat → Nat → ℝ) (fac : ℝ) (i base : Nat) (mem : Mem) :
    dimsInPlace nd n mats fac (false, false) i base mem =
      (List.range (nd - 1)).foldl (fun mem l => dimInPlace n (mats (i / 2 ^ (nd - 2 - l) % 2)) (n ^ (nd - 1)) (n ^ (nd - 2 - l)) base mem) mem := by
  rw [dimsInPlace]
  simp only [strAt_false, iHalf_false, Bool.false_eq_true, if_false]

/-- Prolongation of a face on which a polynomial is sampled gives samples of the polynomial on the quarter. -/
theorem prolong_face {bs : BasisData} {b : Basis.Nodes ℝ} (hof : bs.IsOf b) (hb : b.Distinct) (hn : 0 < b.n) {nd m : Nat} (hm : m ≤ b.n) {f : Field} (hf : PolyIn nd m f) {d : Nat} (hd : d < nd)
    (c : ℝ) (o : Nat → ℝ) (h : ℝ) (fac : ℝ) (i base : Nat) (mem : Mem) (hmem : ∀ k < b.n ^ (nd - 1), mem (base + k) = f (facePos b nd d c o h k)) :
    ∀ k < b.n ^ (nd - 1), dimsInPlace nd bs.n bs.prolong fac (false, false) i base mem (base + k) = f (facePos b nd d c (fineOrigin nd d o h i) (h / 2) k) := by
  rw [dims_false]
  let O : Nat → Nat → ℝ := fun J a => if a ≠ d ∧ without d a < J then o a + h / 2 * ((i / 2 ^ (nd - 2 - without d a) % 2 : Nat) : ℝ) else o a
  let H : Nat → Nat → ℝ := fun J a => if a ≠ d ∧ without d a < J then h / 2 else h
  have key : ∀ J ≤ nd - 1, ∀ k < b.n ^ (nd - 1), (List.range J).foldl (fun mem l => dimInPlace bs.n (bs.prolong (i / 2 ^ (nd - 2 - l) % 2)) (bs.n ^ (nd - 1)) (bs.n ^ (nd - 2 - l)) base mem) mem (base + k) =
      f (gridPos b nd d c (O J) (H J) k) := by
    intro J
    induction J with
    | zero =>
      intro _ k hk
      rw [List.range_zero, List.foldl_nil, hmem k hk, facePos_grid]
      congr 2
      · funext a; simp [O]
      · funext a; simp [H]
    | succ J ih =>
      intro hJ k hk
      rw [List.range_succ, List.foldl_append, List.foldl_cons, List.foldl_nil]
      have hw := without_coord d J
      refine prolong_dim hof hb hn hm hf hd (by omega) c (O J) (H J) (O (J + 1)) (H (J + 1)) ?_ (Nat.mod_lt _ (by omega)) ?_ ?_ base _ (ih (by omega)) k hk
      · intro a ha
        simp only [O, H]
        by_cases had : a = d
        · simp [had]
        · have h1 : without d a ≠ J := fun e => ha (by rw [← e, coord_without had])
          by_cases hlt : without d a < J
          · rw [if_pos ⟨had, by omega⟩, if_pos ⟨had, hlt⟩, if_pos ⟨had, by omega⟩, if_pos ⟨had, hlt⟩]; exact ⟨rfl, rfl⟩
          · rw [if_neg fun h => by omega, if_neg fun h => hlt h.2, if_neg fun h => by omega, if_neg fun h => hlt h.2]; exact ⟨rfl, rfl⟩
      · simp only [O, H, hw.1]
        rw [if_pos ⟨hw.2, by omega⟩, if_neg (by omega), if_neg (by omega)]
      · simp only [H, hw.1]
        rw [if_pos ⟨hw.2, by omega⟩, if_neg (by omega)]
  intro k hk
  rw [key (nd - 1) le_rfl k hk]
  congr 1
  funext a
  rw [gridPos, facePos]
  by_cases had : a = d
  · rw [if_pos had, if_pos had]
  · rw [if_neg had, if_neg had]
    by_cases han : a < nd
    · have h2 : without d a < nd - 1 := by rw [without]; split_ifs <;> omega
      rw [if_pos han, if_pos han]
      simp only [O, H, fineOrigin]
      rw [if_pos ⟨had, h2⟩, if_pos ⟨had, h2⟩]
    · rw [if_neg han, if_neg han]

theorem dimInPlace_add {n : Nat} (hn : 0 < n) (A : Nat → Nat → ℝ) (nd base : Nat) {l : Nat} (hl : l < nd - 1) (m1 m2 m3 : Mem) (h : ∀ k < n ^ (nd - 1), m1 (base + k) + m2 (base + k) = m3 (base + k)) :
    ∀ k < n ^ (nd - 1), dimInPlace n A (n ^ (nd - 1)) (n ^ (nd - 2 - l)) base m1 (base + k) + dimInPlace n A (n ^ (nd - 1)) (n ^ (nd - 2 - l)) base m2 (base + k) =
      dimInPlace n A (n ^ (nd - 1)) (n ^ (nd - 2 - l)) base m3 (base + k) := by
  intro k hk
  obtain ⟨k, hk', i, hi, rfl⟩ := pt_surj (nd := nd - 1) (id := l) hn hl hk
  rw [show nd - 1 - 1 = nd - 2 by omega] at hk'
  rw [dim_at n hn _ nd base hl _ hk' hi, dim_at n hn _ nd base hl _ hk' hi, dim_at n hn _ nd base hl _ hk' hi, ← Finset.sum_add_distrib]
  refine Finset.sum_congr rfl fun j hj => ?_
  rw [← h _ (by have := pt_lt (nd := nd - 1) (id := l) (k := k) hn hl (by rwa [show nd - 1 - 1 = nd - 2 by omega]) (Finset.mem_range.1 hj); exact this)]
  ring

/-- Restriction of quarters on which a polynomial is sampled gives samples of the polynomial on the whole face. -/
theorem restrict_face {bs : BasisData} {b : Basis.Nodes ℝ} {deg : Nat} (hof : bs.IsOf b) (hb : b.Exact deg) (hn : 0 < b.n) {nd m : Nat} (hnd : 1 ≤ nd ∧ nd ≤ 3) (h1m : 0 < m) (hm : m + b.n ≤ deg + 2) {f : Field}
    (hf : PolyIn nd m f) {d : Nat} (hd : d < nd) (c : ℝ) (o : Nat → ℝ) (h : ℝ) (fac : ℝ) (base : Nat) (mem : Nat → Mem)
    (hmem : ∀ i < 2 ^ (nd - 1), ∀ k < b.n ^ (nd - 1), mem i (base + k) = f (facePos b nd d c (fineOrigin nd d o h i) (h / 2) k)) :
    ∀ k < b.n ^ (nd - 1), ∑ i ∈ Finset.range (2 ^ (nd - 1)), dimsInPlace nd bs.n bs.restrict fac (false, false) i base (mem i) (base + k) = f (facePos b nd d c o h k) := by
  simp only [dims_false]
  intro k hk
  obtain rfl | rfl | rfl : nd = 1 ∨ nd = 2 ∨ nd = 3 := by omega
  · have hd0 : d = 0 := by omega
    subst hd0
    simp only [Nat.sub_self, List.range_zero, List.foldl_nil, pow_zero, Finset.sum_range_one] at hk ⊢
    rw [hmem 0 (by norm_num) k (by simpa using hk)]
    congr 1
    funext a
    rw [facePos, facePos]
    by_cases ha : a = 0
    · rw [if_pos ha, if_pos ha]
    · rw [if_neg ha, if_neg ha, if_neg (by omega), if_neg (by omega)]
  · have h0 := restrict_dim hof hb hn h1m hm hf hd (l := 0) (by omega) c o (fun _ => h) (fun half a => if a = coordOf d 0 then o a + h / 2 * (half : Nat) else o a)
      (fun a => if a = coordOf d 0 then h / 2 else h) (by intro a ha; simp [ha]) (by intro half _; simp) (by simp) base mem ?_ k hk
    · rw [facePos_grid, ← h0]
      simp only [Finset.sum_range_succ, Finset.sum_range_zero, List.range_succ, List.range_zero, List.nil_append, List.foldl_cons, List.foldl_nil, pow_one, zero_add, pow_zero, Nat.div_one, Nat.sub_zero,
        Nat.reduceSub, Nat.reduceMod]
    · intro half hh k hk
      rw [hmem half (by simpa using hh) k hk]
      congr 1
      funext a
      rw [facePos, gridPos]
      by_cases had : a = d
      · rw [if_pos had, if_pos had]
      · rw [if_neg had, if_neg had]
        by_cases han : a < 2
        · have hw : without d a = 0 := by rw [without]; split_ifs <;> omega
          have ha : a = coordOf d 0 := by rw [← hw, coord_without had]
          simp only [fineOrigin, hw]
          rw [if_pos han, if_pos han, if_pos ha, if_pos ha]
          simp [Nat.mod_eq_of_lt hh]
        · rw [if_neg han, if_neg han]
  · have hc01 : coordOf d 0 ≠ coordOf d 1 := fun e => by
      have h0 := (without_coord d 0).1
      rw [e, (without_coord d 1).1] at h0; omega
    -- first dimension, for each half of the second
    let O1 : Nat → Nat → ℝ := fun half a => if a = coordOf d 1 then o a + h / 2 * (half : Nat) else o a
    let H1 : Nat → ℝ := fun a => if a = coordOf d 1 then h / 2 else h
    have first : ∀ h1 < 2, ∀ k < b.n ^ (3 - 1), dimInPlace bs.n (bs.restrict 0) (bs.n ^ (3 - 1)) (bs.n ^ (3 - 2 - 0)) base (mem (2 * 0 + h1)) (base + k) +
        dimInPlace bs.n (bs.restrict 1) (bs.n ^ (3 - 1)) (bs.n ^ (3 - 2 - 0)) base (mem (2 * 1 + h1)) (base + k) = f (gridPos b 3 d c (O1 h1) H1 k) := by
      intro h1 hh1
      refine restrict_dim hof hb hn h1m hm hf hd (l := 0) (by omega) c (O1 h1) H1 (fun half a => if a = coordOf d 0 then o a + h / 2 * (half : Nat) else O1 h1 a)
        (fun a => if a = coordOf d 0 then h / 2 else H1 a) ?_ ?_ ?_ base (fun half => mem (2 * half + h1)) ?_
      · intro a ha; simp [ha]
      · intro half _; simp [O1, H1, hc01]
      · simp [H1, hc01]
      · intro half hh k hk
        rw [hmem (2 * half + h1) (by norm_num; omega) k hk]
        congr 1
        funext a
        rw [facePos, gridPos]
        by_cases had : a = d
        · rw [if_pos had, if_pos had]
        · rw [if_neg had, if_neg had]
          by_cases han : a < 3
          · rw [if_pos han, if_pos han]
            have hw : without d a < 2 := by rw [without]; split_ifs <;> omega
            obtain hw | hw : without d a = 0 ∨ without d a = 1 := by omega
            · have ha : a = coordOf d 0 := by rw [← hw, coord_without had]
              simp only [fineOrigin, hw]
              rw [if_pos ha, if_pos ha]
              have : (2 * half + h1) / 2 ^ (3 - 2 - 0) % 2 = half := by norm_num; omega
              rw [this]
            · have ha : a = coordOf d 1 := by rw [← hw, coord_without had]
              have ha0 : a ≠ coordOf d 0 := fun e => hc01 (e.symm.trans ha)
              simp only [fineOrigin, hw, O1, H1]
              rw [if_neg ha0, if_neg ha0, if_pos ha, if_pos ha]
              have : (2 * half + h1) / 2 ^ (3 - 2 - 1) % 2 = h1 := by norm_num; omega
              rw [this]
          · rw [if_neg han, if_neg han]
    -- second dimension
    let M : Nat → Mem := fun h1 a => dimInPlace bs.n (bs.restrict 0) (bs.n ^ (3 - 1)) (bs.n ^ (3 - 2 - 0)) base (mem (2 * 0 + h1)) a +
        dimInPlace bs.n (bs.restrict 1) (bs.n ^ (3 - 1)) (bs.n ^ (3 - 2 - 0)) base (mem (2 * 1 + h1)) a
    have second := restrict_dim hof hb hn h1m hm hf hd (l := 1) (by omega) c o (fun _ => h) O1 H1 (by intro a ha; simp [O1, H1, ha]) (by intro half _; simp [O1]) (by simp [H1]) base M first k hk
    have hn' : 0 < bs.n := by rw [hof.n]; exact hn
    have add := fun h1 => dimInPlace_add hn' (bs.restrict h1) 3 base (l := 1) (by omega) (dimInPlace bs.n (bs.restrict 0) (bs.n ^ (3 - 1)) (bs.n ^ (3 - 2 - 0)) base (mem (2 * 0 + h1)))
      (dimInPlace bs.n (bs.restrict 1) (bs.n ^ (3 - 1)) (bs.n ^ (3 - 2 - 0)) base (mem (2 * 1 + h1))) (M h1) (fun _ _ => rfl) k (by rw [hof.n]; exact hk)
    rw [facePos_grid, ← second, ← add 0, ← add 1]
    simp only [Finset.sum_range_succ, Finset.sum_range_zero, List.range_succ, List.range_zero, List.nil_append, List.cons_append, List.foldl_cons, List.foldl_nil, zero_add, pow_zero, Nat.div_one, Nat.sub_zero,
        Nat.reduceSub, Nat.reduceMod, Nat.reduceDiv, Nat.reduceMul, Nat.mul_zero, Nat.reducePow, Nat.reduceAdd, pow_one, Nat.zero_mod, Nat.zero_div]
    ring

end Hexed.Spatial
