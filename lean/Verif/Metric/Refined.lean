import Verif.Spatial.ExactRefined
set_option autoImplicit false
set_option linter.unusedVariables false

/-!
# Refined faces with stretched dimensions
-/

namespace Hexed.Metric
open Hexed.Spatial
open Hexed.Connection (strAt)

/-- The factor by which stretched dimensions multiply data. -/
noncomputable def strFac (nd : Nat) (fac : ℝ) (str : Bool × Bool) : ℝ := ((List.range (nd - 1)).map fun l => if strAt str l then fac else 1).prod

/-- Origin of fine face `i` of a face with origin `o` and edge lengths `h`: stretched dimensions are not divided. -/
noncomputable def strOrigin (nd d : Nat) (str : Bool × Bool) (o h : Nat → ℝ) (i : Nat) : Nat → ℝ :=
  fun a => if a ≠ d ∧ strAt str (without d a) = false then o a + h a / 2 * (iHalf nd str (without d a) i : Nat) else o a

/-- Edge lengths of the fine faces. -/
noncomputable def strLength (d : Nat) (str : Bool × Bool) (h : Nat → ℝ) : Nat → ℝ :=
  fun a => if a ≠ d ∧ strAt str (without d a) = false then h a / 2 else h a

/-- The loop over dimensions is linear, and does not depend on where the data is. -/
theorem dims_lin {nd n : Nat} (hn : 0 < n) (mats : Nat → Nat → Nat → ℝ) (fac : ℝ) (str : Bool × Bool) (i base J : Nat) (base' : Nat → Nat) (F : Nat → ℝ) (mem : Mem) (mem' : Nat → Mem)
    (h : ∀ k < n ^ (nd - 1), mem (base + k) = ∑ j ∈ Finset.range J, F j * mem' j (base' j + k)) :
    ∀ k < n ^ (nd - 1), dimsInPlace nd n mats fac str i base mem (base + k) = ∑ j ∈ Finset.range J, F j * dimsInPlace nd n mats fac str i (base' j) (mem' j) (base' j + k) := by
  simp only [dimsInPlace]
  have key : ∀ L ≤ nd - 1, ∀ k < n ^ (nd - 1), (List.range L).foldl (fun mem i_dim =>
      if strAt str i_dim then fun a => if base ≤ a ∧ a < base + n ^ (nd - 1) then mem a * fac else mem a
      else dimInPlace n (mats (iHalf nd str i_dim i)) (n ^ (nd - 1)) (n ^ (nd - 2 - i_dim)) base mem) mem (base + k) =
      ∑ j ∈ Finset.range J, F j * (List.range L).foldl (fun mem i_dim =>
      if strAt str i_dim then fun a => if base' j ≤ a ∧ a < base' j + n ^ (nd - 1) then mem a * fac else mem a
      else dimInPlace n (mats (iHalf nd str i_dim i)) (n ^ (nd - 1)) (n ^ (nd - 2 - i_dim)) (base' j) mem) (mem' j) (base' j + k) := by
    intro L
    induction L with
    | zero => intro _ k hk; simpa using h k hk
    | succ L ih =>
      intro hL k hk
      simp only [List.range_succ, List.foldl_append, List.foldl_cons, List.foldl_nil]
      by_cases hs : strAt str L = true
      · simp only [hs, if_true]
        rw [if_pos ⟨by omega, by omega⟩, ih (by omega) k hk, Finset.sum_mul]
        refine Finset.sum_congr rfl fun j _ => ?_
        rw [if_pos ⟨by omega, by omega⟩]; ring
      · simp only [hs, Bool.false_eq_true, if_false]
        have hl : L < nd - 1 := by omega
        obtain ⟨k, hk', a, ha, rfl⟩ := pt_surj (nd := nd - 1) (id := L) hn hl hk
        have hk2 : k < n ^ (nd - 2) := by rwa [show nd - 1 - 1 = nd - 2 by omega] at hk'
        rw [dim_at n hn _ nd base hl _ hk2 ha]
        have e : ∀ x ∈ Finset.range n, mats (iHalf nd str L i) a x * (List.range L).foldl (fun mem i_dim =>
            if strAt str i_dim then fun a => if base ≤ a ∧ a < base + n ^ (nd - 1) then mem a * fac else mem a
            else dimInPlace n (mats (iHalf nd str i_dim i)) (n ^ (nd - 1)) (n ^ (nd - 2 - i_dim)) base mem) mem (base + pt (nd - 1) n L k x) = _ :=
          fun x hx => by rw [ih (by omega) _ (pt_lt (nd := nd - 1) hn hl hk' (Finset.mem_range.1 hx)), Finset.mul_sum]
        rw [Finset.sum_congr rfl e, Finset.sum_comm]
        refine Finset.sum_congr rfl fun j _ => ?_
        rw [dim_at n hn _ nd (base' j) hl _ hk2 ha, Finset.mul_sum]
        exact Finset.sum_congr rfl fun x _ => by ring
  exact key _ le_rfl

/-- Prolongation of a face on which a polynomial is sampled. -/
theorem prolong_str {bs : BasisData} {b : Basis.Nodes ℝ} (hof : bs.IsOf b) (hb : b.Distinct) (hn : 0 < b.n) {nd m : Nat} (hm : m ≤ b.n) {f : Field} (hf : PolyIn nd m f) {d : Nat} (hd : d < nd)
    (c : ℝ) (o h : Nat → ℝ) (fac : ℝ) (str : Bool × Bool) (i base : Nat) (mem : Mem) (hmem : ∀ k < b.n ^ (nd - 1), mem (base + k) = f (gridPos b nd d c o h k)) :
    ∀ k < b.n ^ (nd - 1), dimsInPlace nd bs.n bs.prolong fac str i base mem (base + k) = strFac nd fac str * f (gridPos b nd d c (strOrigin nd d str o h i) (strLength d str h) k) := by
  let O : Nat → Nat → ℝ := fun J a => if a ≠ d ∧ without d a < J then strOrigin nd d str o h i a else o a
  let H : Nat → Nat → ℝ := fun J a => if a ≠ d ∧ without d a < J then strLength d str h a else h a
  have key : ∀ J ≤ nd - 1, ∀ k < b.n ^ (nd - 1), (List.range J).foldl (fun mem i_dim =>
      if strAt str i_dim then fun a => if base ≤ a ∧ a < base + bs.n ^ (nd - 1) then mem a * fac else mem a
      else dimInPlace bs.n (bs.prolong (iHalf nd str i_dim i)) (bs.n ^ (nd - 1)) (bs.n ^ (nd - 2 - i_dim)) base mem) mem (base + k) =
      ((List.range J).map fun l => if strAt str l then fac else 1).prod * f (gridPos b nd d c (O J) (H J) k) := by
    intro J
    induction J with
    | zero =>
      intro _ k hk
      rw [List.range_zero, List.foldl_nil, hmem k hk, List.map_nil, List.prod_nil, one_mul]
      congr 2
      · funext a; simp [O]
      · funext a; simp [H]
    | succ J ih =>
      intro hJ k hk
      rw [List.range_succ, List.foldl_append, List.foldl_cons, List.foldl_nil, List.map_append, List.prod_append, List.map_singleton, List.prod_singleton]
      have hw := without_coord d J
      by_cases hs : strAt str J = true
      · rw [if_pos hs, if_pos hs]
        beta_reduce
        rw [if_pos ⟨by omega, by rw [hof.n]; omega⟩, ih (by omega) k hk]
        have : gridPos b nd d c (O (J + 1)) (H (J + 1)) k = gridPos b nd d c (O J) (H J) k := by
          congr 1
          · funext a; simp only [O, strOrigin]
            by_cases had : a = d
            · simp [had]
            · rcases Nat.lt_trichotomy (without d a) J with h1 | h1 | h1
              · simp [h1, Nat.lt_succ_of_lt h1]
              · simp [h1, hs]
              · simp [show ¬ without d a < J by omega, show ¬ without d a < J + 1 by omega]
          · funext a; simp only [H, strLength]
            by_cases had : a = d
            · simp [had]
            · rcases Nat.lt_trichotomy (without d a) J with h1 | h1 | h1
              · simp [h1, Nat.lt_succ_of_lt h1]
              · simp [h1, hs]
              · simp [show ¬ without d a < J by omega, show ¬ without d a < J + 1 by omega]
        rw [this]; ring
      · rw [if_neg hs, if_neg hs, mul_one]
        set P := ((List.range J).map fun l => if strAt str l then fac else 1).prod
        have hs' : strAt str J = false := by simpa using hs
        have hPf : PolyIn nd m fun x => P * f x := by
          intro a ha x
          obtain ⟨Q, h1, h2⟩ := hf a ha x
          refine ⟨Polynomial.C P * Q, lt_of_le_of_lt ?_ h1, fun t => by simp [h2]⟩
          by_cases hP : P = 0
          · simp [hP]
          · rw [Polynomial.degree_C_mul hP]
        refine prolong_dim (f := fun x => P * f x) hof hb hn hm hPf hd (by omega) c (O J) (H J) (O (J + 1)) (H (J + 1)) ?_ (half := iHalf nd str J i) (Nat.mod_lt _ (by omega)) ?_ ?_ base _ (ih (by omega)) k hk
        · intro a ha
          simp only [O, H]
          by_cases had : a = d
          · simp [had]
          · have h1 : without d a ≠ J := fun e => ha (by rw [← e, coord_without had])
            by_cases hlt : without d a < J
            · rw [if_pos ⟨had, by omega⟩, if_pos ⟨had, hlt⟩, if_pos ⟨had, by omega⟩, if_pos ⟨had, hlt⟩]; exact ⟨rfl, rfl⟩
            · rw [if_neg fun h => by omega, if_neg fun h => hlt h.2, if_neg fun h => by omega, if_neg fun h => hlt h.2]; exact ⟨rfl, rfl⟩
        · simp only [O, H, strOrigin, hw.1]
          rw [if_pos ⟨hw.2, by omega⟩, if_pos ⟨hw.2, hs'⟩, if_neg (by omega), if_neg (by omega)]
        · simp only [H, strLength, hw.1]
          rw [if_pos ⟨hw.2, by omega⟩, if_pos ⟨hw.2, hs'⟩, if_neg (by omega)]
  intro k hk
  rw [dimsInPlace, key (nd - 1) le_rfl k hk, strFac]
  congr 2
  funext a
  rw [gridPos, gridPos]
  by_cases had : a = d
  · rw [if_pos had, if_pos had]
  · rw [if_neg had, if_neg had]
    by_cases han : a < nd
    · have h2 : without d a < nd - 1 := by rw [without]; split_ifs <;> omega
      rw [if_pos han, if_pos han]
      simp only [O, H]
      rw [if_pos ⟨had, h2⟩, if_pos ⟨had, h2⟩]
    · rw [if_neg han, if_neg han]

/-- Restriction of the fine faces on which a polynomial times `g` is sampled, where `g` undoes the factor of the stretched dimensions. -/
theorem restrict_str {bs : BasisData} {b : Basis.Nodes ℝ} {deg : Nat} (hof : bs.IsOf b) (hb : b.Exact deg) (hn : 0 < b.n) {nd m : Nat} (hnd : 1 ≤ nd ∧ nd ≤ 3) (h1m : 0 < m) (hm : m + b.n ≤ deg + 2) {f : Field}
    (hf : PolyIn nd m f) {d : Nat} (hd : d < nd) (c : ℝ) (o : Nat → ℝ) (h : ℝ) (fac g : ℝ) (str : Bool × Bool) (hg : strFac nd fac str * g = 1) (base : Nat) (mem : Nat → Mem)
    (hmem : ∀ i < nFace nd str, ∀ k < b.n ^ (nd - 1), mem i (base + k) = g * f (gridPos b nd d c (strOrigin nd d str o (fun _ => h) i) (strLength d str fun _ => h) k)) :
    ∀ k < b.n ^ (nd - 1), ∑ i ∈ Finset.range (nFace nd str), dimsInPlace nd bs.n bs.restrict fac str i base (mem i) (base + k) = f (facePos b nd d c o h k) := by
  have hgf : PolyIn nd m fun x => g * f x := by
    intro a ha x
    obtain ⟨Q, h1, h2⟩ := hf a ha x
    refine ⟨Polynomial.C g * Q, lt_of_le_of_lt ?_ h1, fun t => by simp [h2]⟩
    by_cases hP : g = 0
    · simp [hP]
    · rw [Polynomial.degree_C_mul hP]
  have hff : ∀ (hstr : str = (false, false)) (k : Nat), k < b.n ^ (nd - 1) → ∑ i ∈ Finset.range (nFace nd str), dimsInPlace nd bs.n bs.restrict fac str i base (mem i) (base + k) = f (facePos b nd d c o h k) := by
    rintro rfl k hk
    have hg1 : g = 1 := by simpa [strFac, strAt_false] using hg
    have := restrict_face hof hb hn hnd h1m hm hf hd c o h fac base mem ?_ k hk
    · rw [nFace_false hnd]; exact this
    · intro i hi k hk
      rw [hmem i (by rwa [nFace_false hnd]) k hk, hg1, one_mul]
      congr 1
      funext a
      rw [gridPos, facePos]
      by_cases had : a = d
      · rw [if_pos had, if_pos had]
      · rw [if_neg had, if_neg had]
        simp only [strOrigin, strLength, strAt_false, and_true, fineOrigin, iHalf_false]
        rw [if_pos had, if_pos had]
  intro k hk
  have hn' := hof.n
  obtain rfl | rfl | rfl : nd = 1 ∨ nd = 2 ∨ nd = 3 := by omega
  · have hd0 : d = 0 := by omega
    subst hd0
    have hg1 : g = 1 := by simpa [strFac] using hg
    have hN : nFace 1 str = 1 := by simp [nFace]
    rw [hN, Finset.sum_range_one, dimsInPlace]
    simp only [Nat.sub_self, List.range_zero, List.foldl_nil]
    rw [hmem 0 (by omega) k hk, hg1, one_mul]
    congr 1
    funext a
    rw [gridPos, facePos]
    by_cases ha : a = 0
    · rw [if_pos ha, if_pos ha]
    · rw [if_neg ha, if_neg ha, if_neg (by omega), if_neg (by omega)]
  · obtain ⟨s0, s1⟩ := str
    cases s0 with
    | false =>
      have hN : nFace 2 (false, s1) = 2 := by simp [nFace, strAt]
      have hg1 : g = 1 := by simpa [strFac, strAt] using hg
      have e : ∀ i, dimsInPlace 2 bs.n bs.restrict fac (false, s1) i base (mem i) (base + k) = dimsInPlace 2 bs.n bs.restrict fac (false, false) i base (mem i) (base + k) := by
        intro i; simp [dimsInPlace, strAt, iHalf]
      simp only [hN, e]
      have := restrict_face hof hb hn hnd h1m hm hf hd c o h fac base mem ?_ k hk
      · simpa using this
      · intro i hi k hk
        rw [hmem i (by rw [hN]; simpa using hi) k hk, hg1, one_mul]
        congr 1
        funext a
        rw [gridPos, facePos]
        by_cases had : a = d
        · rw [if_pos had, if_pos had]
        · rw [if_neg had, if_neg had]
          by_cases han : a < 2
          · have hw : without d a = 0 := by rw [without]; split_ifs <;> omega
            rw [if_pos han, if_pos han]
            simp only [strOrigin, strLength, fineOrigin, hw]
            simp [had, strAt, iHalf]
          · rw [if_neg han, if_neg han]
    | true =>
      have hN : nFace 2 (true, s1) = 1 := by simp [nFace, strAt]
      have hg1 : fac * g = 1 := by simpa [strFac, strAt] using hg
      rw [hN, Finset.sum_range_one, dimsInPlace]
      simp only [show List.range (2 - 1) = [0] from rfl, List.foldl_cons, List.foldl_nil]
      simp only [show strAt (true, s1) 0 = true from rfl, if_true]
      rw [if_pos ⟨by omega, by rw [hn']; omega⟩, hmem 0 (by omega) k hk, mul_right_comm, mul_comm g, hg1, one_mul]
      congr 1
      funext a
      rw [gridPos, facePos]
      by_cases had : a = d
      · rw [if_pos had, if_pos had]
      · rw [if_neg had, if_neg had]
        by_cases han : a < 2
        · have hw : without d a = 0 := by rw [without]; split_ifs <;> omega
          rw [if_pos han, if_pos han]
          simp only [strOrigin, strLength, hw]
          simp [strAt]
        · rw [if_neg han, if_neg han]
  · obtain ⟨s0, s1⟩ := str
    have hc01 : coordOf d 0 ≠ coordOf d 1 := fun e => by
      have h0 := (without_coord d 0).1
      rw [e, (without_coord d 1).1] at h0; omega
    have hcase : ∀ a, a ≠ d → a < 3 → (without d a = 0 ∧ a = coordOf d 0 ∧ a ≠ coordOf d 1) ∨ (without d a = 1 ∧ a = coordOf d 1 ∧ a ≠ coordOf d 0) := by
      intro a had han
      have hw : without d a < 2 := by rw [without]; split_ifs <;> omega
      obtain hw | hw : without d a = 0 ∨ without d a = 1 := by omega
      · have ha : a = coordOf d 0 := by rw [← hw, coord_without had]
        exact Or.inl ⟨hw, ha, fun e => hc01 (ha.symm.trans e)⟩
      · have ha : a = coordOf d 1 := by rw [← hw, coord_without had]
        exact Or.inr ⟨hw, ha, fun e => hc01 (e.symm.trans ha)⟩
    cases s0 with
    | false =>
      cases s1 with
      | false => exact hff rfl k hk
      | true =>
        have hN : nFace 3 (false, true) = 2 := by decide
        have hg1 : fac * g = 1 := by simpa [strFac, strAt, List.range_succ] using hg
        have h0 := restrict_dim hof hb hn h1m hm hgf hd (l := 0) (by omega) c o (fun _ => h) (fun half a => if a = coordOf d 0 then o a + h / 2 * (half : Nat) else o a)
          (fun a => if a = coordOf d 0 then h / 2 else h) (by intro a ha; simp [ha]) (by intro half _; simp) (by simp) base mem ?_ k hk
        · rw [hN]
          simp only [Finset.sum_range_succ, Finset.sum_range_zero, zero_add, dimsInPlace]
          simp only [show List.range (3 - 1) = [0, 1] from rfl, List.foldl_cons, List.foldl_nil, show strAt (false, true) 0 = false from rfl, show strAt (false, true) 1 = true from rfl, if_true, Bool.false_eq_true,
            if_false, show iHalf 3 (false, true) 0 0 = 0 from rfl, show iHalf 3 (false, true) 0 1 = 1 from rfl]
          have hin : base ≤ base + k ∧ base + k < base + bs.n ^ (3 - 1) := ⟨by omega, by rw [hn']; omega⟩
          rw [if_pos hin, if_pos hin, ← add_mul, h0, facePos_grid]
          rw [mul_right_comm, mul_comm g, hg1, one_mul]
        · intro half hh k hk
          rw [hmem half (by omega) k hk]
          congr 2
          funext a
          rw [gridPos, gridPos]
          by_cases had : a = d
          · rw [if_pos had, if_pos had]
          · rw [if_neg had, if_neg had]
            by_cases han : a < 3
            · rw [if_pos han, if_pos han]
              rcases hcase a had han with ⟨hw, ha, ha'⟩ | ⟨hw, ha, ha'⟩
              · simp only [strOrigin, strLength, hw]
                rw [if_pos ha, if_pos ha]
                simp [had, strAt, iHalf, Nat.mod_eq_of_lt hh]
              · simp only [strOrigin, strLength, hw]
                rw [if_neg ha', if_neg ha']
                simp [strAt]
            · rw [if_neg han, if_neg han]
    | true =>
      cases s1 with
      | false =>
        have hN : nFace 3 (true, false) = 2 := by decide
        have hg1 : fac * g = 1 := by simpa [strFac, strAt, List.range_succ] using hg
        have h0 := restrict_dim hof hb hn h1m hm hf hd (l := 1) (by omega) c o (fun _ => h) (fun half a => if a = coordOf d 1 then o a + h / 2 * (half : Nat) else o a)
          (fun a => if a = coordOf d 1 then h / 2 else h) (by intro a ha; simp [ha]) (by intro half _; simp) (by simp) base
          (fun i a => if base ≤ a ∧ a < base + bs.n ^ (3 - 1) then mem i a * fac else mem i a) ?_ k hk
        · rw [hN]
          simp only [Finset.sum_range_succ, Finset.sum_range_zero, zero_add, dimsInPlace]
          simp only [show List.range (3 - 1) = [0, 1] from rfl, List.foldl_cons, List.foldl_nil, show strAt (true, false) 0 = true from rfl, show strAt (true, false) 1 = false from rfl, if_true, Bool.false_eq_true,
            if_false, show iHalf 3 (true, false) 1 0 = 0 from rfl, show iHalf 3 (true, false) 1 1 = 1 from rfl]
          exact h0
        · intro half hh k hk
          have hin : base ≤ base + k ∧ base + k < base + bs.n ^ (3 - 1) := ⟨by omega, by rw [hn']; omega⟩
          beta_reduce
          rw [if_pos hin, hmem half (by omega) k hk, mul_right_comm, mul_comm g, hg1, one_mul]
          congr 1
          funext a
          rw [gridPos, gridPos]
          by_cases had : a = d
          · rw [if_pos had, if_pos had]
          · rw [if_neg had, if_neg had]
            by_cases han : a < 3
            · rw [if_pos han, if_pos han]
              rcases hcase a had han with ⟨hw, ha, ha'⟩ | ⟨hw, ha, ha'⟩
              · simp only [strOrigin, strLength, hw]
                rw [if_neg ha', if_neg ha']
                simp [strAt]
              · simp only [strOrigin, strLength, hw]
                rw [if_pos ha, if_pos ha]
                simp [had, strAt, iHalf, Nat.mod_eq_of_lt hh]
            · rw [if_neg han, if_neg han]
      | true =>
        have hN : nFace 3 (true, true) = 1 := by decide
        have hg1 : fac * fac * g = 1 := by simpa [strFac, strAt, List.range_succ] using hg
        rw [hN, Finset.sum_range_one, dimsInPlace]
        simp only [show List.range (3 - 1) = [0, 1] from rfl, List.foldl_cons, List.foldl_nil]
        simp only [show strAt (true, true) 0 = true from rfl, show strAt (true, true) 1 = true from rfl, if_true]
        have hin : base ≤ base + k ∧ base + k < base + bs.n ^ (3 - 1) := ⟨by omega, by rw [hn']; omega⟩
        rw [if_pos hin, if_pos hin, hmem 0 (by omega) k hk]
        have : g * f (gridPos b 3 d c (strOrigin 3 d (true, true) o (fun _ => h) 0) (strLength d (true, true) fun _ => h) k) * fac * fac = f (gridPos b 3 d c (strOrigin 3 d (true, true) o (fun _ => h) 0) (strLength d (true, true) fun _ => h) k) := by
          linear_combination f (gridPos b 3 d c (strOrigin 3 d (true, true) o (fun _ => h) 0) (strLength d (true, true) fun _ => h) k) * hg1
        rw [this]
        congr 1
        funext a
        rw [gridPos, facePos]
        by_cases had : a = d
        · rw [if_pos had, if_pos had]
        · rw [if_neg had, if_neg had]
          by_cases han : a < 3
          · rw [if_pos han, if_pos han]
            rcases hcase a had han with ⟨hw, ha, ha'⟩ | ⟨hw, ha, ha'⟩ <;> simp [strOrigin, strLength, hw, strAt]
          · rw [if_neg han, if_neg han]

end Hexed.Metric
