import Verif.Spatial.ExactPoint
import Verif.Spatial.Refined
set_option autoImplicit false
set_option linter.unusedVariables false

/-!
# Positions of points, and exactness of the one-dimensional operations on polynomial data
-/

namespace Hexed.Spatial
open Polynomial
open Hexed.Connection (strAt)
open Hexed.RowIndex (RowIndex)

/-! ## Digits of point numbers -/

/-- The other digits of a point are the digits of its row. -/
theorem pt_digit {nd n d k j i : Nat} (hn : 0 < n) (hd : d < nd) (hi : i < nd) (hj : j < n) (hid : i ≠ d) :
    pt nd n d k j / n ^ (nd - 1 - i) % n = k / n ^ (nd - 2 - without d i) % n := by
  have hp : 0 < n ^ (nd - 1 - d) := Nat.pow_pos hn
  rw [pt]
  rcases Nat.lt_or_gt_of_ne hid with h | h
  · rw [without, if_pos h, show nd - 1 - i = (nd - 1 - d) + 1 + (d - i - 1) by omega, show nd - 2 - i = (nd - 1 - d) + (d - i - 1) by omega, pow_add, pow_succ, pow_add,
      ← Nat.div_div_eq_div_mul, ← Nat.div_div_eq_div_mul, ← Nat.div_div_eq_div_mul]
    set s := n ^ (nd - 1 - d)
    rw [Nat.add_comm, Nat.add_mul_div_right _ _ hp, Nat.div_eq_of_lt (Nat.mod_lt _ hp), Nat.zero_add, Nat.add_comm, Nat.add_mul_div_right _ _ hn, Nat.div_eq_of_lt hj, Nat.zero_add]
  · rw [without, if_neg (by omega), show nd - 2 - (i - 1) = nd - 1 - i by omega]
    have ht : 0 < n ^ (nd - 1 - i) := Nat.pow_pos hn
    have hs : n ^ (nd - 1 - d) = n ^ (i - d - 1) * n * n ^ (nd - 1 - i) := by
      rw [← pow_succ, ← pow_add]; congr 1; omega
    have e : ∀ K, (K * n ^ (nd - 1 - d) + k % n ^ (nd - 1 - d)) / n ^ (nd - 1 - i) % n = k % n ^ (nd - 1 - d) / n ^ (nd - 1 - i) % n := by
      intro K
      rw [show K * n ^ (nd - 1 - d) = (K * n ^ (i - d - 1) * n) * n ^ (nd - 1 - i) by rw [hs]; ring, Nat.add_comm, Nat.add_mul_div_right _ _ ht, Nat.add_mul_mod_self_right]
    rw [e, ← e (k / n ^ (nd - 1 - d)), Nat.div_add_mod']

theorem pt_digit_self {nd n d k j : Nat} (hn : 0 < n) (hj : j < n) : pt nd n d k j / n ^ (nd - 1 - d) % n = j := by
  have := (rowOf_pt (nd := nd) (d := d) (k := k) hn hj).2
  rwa [nodeOf] at this

/-! ## Positions -/

/-- The points of row `k` along `d`. -/
theorem elemPos_pt {b : Basis.Nodes ℝ} {nd d k i : Nat} (hn : 0 < b.n) (hd : d < nd) (o : Nat → ℝ) (h : ℝ) {j : Nat} (hj : j < b.n) (c : ℝ) :
    Function.update (elemPos b nd o h (pt nd b.n d k j)) d c = facePos b nd d c o h k := by
  funext l
  rw [Function.update_apply, facePos, elemPos]
  by_cases hl : l = d
  · rw [if_pos hl, if_pos hl]
  · rw [if_neg hl, if_neg hl]
    by_cases hln : l < nd
    · rw [if_pos hln, if_pos hln, pt_digit hn hd hln hj hl]
    · rw [if_neg hln, if_neg hln]

theorem elemPos_row {b : Basis.Nodes ℝ} {nd d q : Nat} (hn : 0 < b.n) (hd : d < nd) (o : Nat → ℝ) (h : ℝ) (c : ℝ) :
    facePos b nd d c o h (rowOf nd b.n d q) = Function.update (elemPos b nd o h q) d c := by
  rw [← elemPos_pt (i := 0) hn hd o h (nodeOf_lt nd hn d q) c, pt_row hn]

theorem elemPos_row_pt {b : Basis.Nodes ℝ} {nd d q : Nat} (hn : 0 < b.n) (hd : d < nd) (o : Nat → ℝ) (h : ℝ) {j : Nat} (hj : j < b.n) :
    elemPos b nd o h (pt nd b.n d (rowOf nd b.n d q) j) = Function.update (elemPos b nd o h q) d (o d + h * b.node j) := by
  rw [← elemPos_row hn hd, ← elemPos_pt (i := 0) hn hd o h hj]
  funext l
  rw [Function.update_apply]
  split
  · next hl => rw [hl, elemPos, if_pos hd, pt_digit_self hn hj]
  · rfl

/-! ## Polynomials along a line -/

theorem natDegree_of {P : ℝ[X]} {m : Nat} (hm : 0 < m) (hP : P.degree < m) : P.natDegree < m := by
  by_cases h : P = 0
  · rw [h, natDegree_zero]; exact hm
  · exact (natDegree_lt_iff_degree_lt h).2 hP

/-- A polynomial after an affine change of the variable. -/
theorem affine_degree {P : ℝ[X]} {m : Nat} (hP : P.degree < m) (a h : ℝ) : (P.comp (C a + C h * X)).degree < m := by
  rcases Nat.eq_zero_or_pos m with rfl | hm
  · have : P = 0 := by
      by_contra h0
      rw [degree_eq_natDegree h0] at hP
      exact absurd (Nat.cast_lt.1 hP) (by omega)
    rw [this, zero_comp, degree_zero]; exact WithBot.bot_lt_coe _
  · rw [degree_lt_iff_coeff_zero]
    intro k hk
    refine coeff_eq_zero_of_natDegree_lt (lt_of_lt_of_le ?_ hk)
    have h1 : P.natDegree < m := natDegree_of hm hP
    refine lt_of_le_of_lt natDegree_comp_le ?_
    have h2 : (C a + C h * X : ℝ[X]).natDegree ≤ 1 := by
      refine (natDegree_add_le _ _).trans (max_le (by rw [natDegree_C]; omega) ((natDegree_C_mul_le _ _).trans natDegree_X_le))
    calc P.natDegree * _ ≤ P.natDegree * 1 := Nat.mul_le_mul_left _ h2
      _ < m := by omega

theorem affine_eval (P : ℝ[X]) (a h s : ℝ) : (P.comp (C a + C h * X)).eval s = P.eval (a + h * s) := by simp

/-- The derivative along a row with the values at both ends is the partial derivative times the edge length. -/
theorem line_exact {bs : BasisData} {b : Basis.Nodes ℝ} (hof : bs.IsOf b) (hb : b.Distinct) {nd m : Nat} (hm : m ≤ b.n) {f : Field} (hf : PolyIn nd m f) {d : Nat} (hd : d < nd) (x : Nat → ℝ) (o h : ℝ)
    {i : Nat} (hi : i < b.n) (hx : x d = o + h * b.node i) (row bound : Nat → Nat → ℝ) (v : Nat) (hrow : ∀ j < b.n, row j v = f (Function.update x d (o + h * b.node j)))
    (hbound : ∀ s < 2, bound s v = f (Function.update x d (o + h * (s : Nat)))) : deriv2 bs row bound i v = h * partialD d f x := by
  obtain ⟨P, hP, hPf⟩ := hf d hd x
  have h1 := Basis.deriv_exact hb hof.mats (P.comp (C o + C h * X)) (lt_of_lt_of_le (affine_degree hP o h) (by exact_mod_cast hm)) hi
  have h2 : deriv2 bs row bound i v = Basis.deriv b.n b.weight bs.diff bs.bound (fun j => (P.comp (C o + C h * X)).eval (b.node j)) (fun s => (P.comp (C o + C h * X)).eval (s : ℝ)) i := by
    rw [deriv2, hof.n, hof.weight, Basis.deriv, Basis.deriv]
    simp only [Basis.range_sum]
    have e1 : ∀ j ∈ Finset.range b.n, row j v = (P.comp (C o + C h * X)).eval (b.node j) := fun j hj => by rw [hrow j (Finset.mem_range.1 hj), hPf, affine_eval]
    congr 1
    · exact Finset.sum_congr rfl fun j hj => by rw [e1 j hj]
    · refine Finset.sum_congr rfl fun s hs => ?_
      rw [hbound s (Finset.mem_range.1 hs), hPf, affine_eval, Finset.sum_congr rfl fun j hj => by rw [e1 j hj]]
  rw [h2, h1, partialD, hx]
  simp only [hPf]
  rw [Polynomial.deriv, Polynomial.derivative_comp]
  simp

/-- The same without values at the ends (their contribution being zero). -/
theorem interior_exact {bs : BasisData} {b : Basis.Nodes ℝ} (hof : bs.IsOf b) (hb : b.Distinct) {nd m : Nat} (hm : m ≤ b.n) {f : Field} (hf : PolyIn nd m f) {d : Nat} (hd : d < nd) (x : Nat → ℝ) (o h : ℝ)
    {i : Nat} (hi : i < b.n) (hx : x d = o + h * b.node i) (row : Nat → ℝ) (hrow : ∀ j < b.n, row j = f (Function.update x d (o + h * b.node j))) :
    Basis.derivInterior bs.n bs.diff row i = h * partialD d f x := by
  obtain ⟨P, hP, hPf⟩ := hf d hd x
  have h1 := Basis.derivative_exact hb (P.comp (C o + C h * X)) (lt_of_lt_of_le (affine_degree hP o h) (by exact_mod_cast hm)) hi
  have h2 : Basis.derivInterior bs.n bs.diff row i = ∑ j ∈ Finset.range b.n, Basis.derivative b i j * (P.comp (C o + C h * X)).eval (b.node j) := by
    rw [Basis.derivInterior, hof.n]
    simp only [Basis.range_sum]
    refine Finset.sum_congr rfl fun j hj => ?_
    have hj := Finset.mem_range.1 hj
    rw [hrow j hj, hPf, affine_eval, hof.mats.diff_eq hi hj]
  rw [h2, h1, partialD, hx]
  simp only [hPf]
  rw [Polynomial.deriv, Polynomial.derivative_comp]
  simp

/-- Extrapolation of a row to the ends. -/
theorem extrap_exact {bs : BasisData} {b : Basis.Nodes ℝ} (hof : bs.IsOf b) (hb : b.Distinct) {nd m : Nat} (hm : m ≤ b.n) {f : Field} (hf : PolyIn nd m f) {d : Nat} (hd : d < nd) (x : Nat → ℝ) (o h : ℝ)
    (row : Nat → Nat → ℝ) (v : Nat) (hrow : ∀ j < b.n, row j v = f (Function.update x d (o + h * b.node j))) {s : Nat} (hs : s < 2) :
    matRow bs.n bs.bound row s v = f (Function.update x d (o + h * (s : ℝ))) := by
  obtain ⟨P, hP, hPf⟩ := hf d hd x
  have h1 := hof.mats.extrap hb hs (P.comp (C o + C h * X)) (lt_of_lt_of_le (affine_degree hP o h) (by exact_mod_cast hm))
  rw [affine_eval] at h1
  rw [hPf, ← h1, matRow, hof.n, Basis.range_sum]
  refine Finset.sum_congr rfl fun j hj => ?_
  rw [hrow j (Finset.mem_range.1 hj), hPf, affine_eval]

/-! ## Faces -/

/-- The coordinate with number `l` among those other than `d`. -/
def coordOf (d l : Nat) : Nat := if l < d then l else l + 1

theorem without_coord (d l : Nat) : without d (coordOf d l) = l ∧ coordOf d l ≠ d := by
  rw [without, coordOf]; split_ifs <;> omega

theorem coord_without {d i : Nat} (h : i ≠ d) : coordOf d (without d i) = i := by
  rw [without, coordOf]; split_ifs <;> omega

/-- Points of a face with different origin and length in each direction. -/
def gridPos (b : Basis.Nodes ℝ) (nd d : Nat) (c : ℝ) (o h : Nat → ℝ) (k : Nat) : Nat → ℝ :=
  fun i => if i = d then c else if i < nd then o i + h i * b.node (k / b.n ^ (nd - 2 - without d i) % b.n) else 0

theorem facePos_grid (b : Basis.Nodes ℝ) (nd d : Nat) (c : ℝ) (o : Nat → ℝ) (h : ℝ) (k : Nat) : facePos b nd d c o h k = gridPos b nd d c o (fun _ => h) k := rfl

/-- The points of one row of a face. -/
theorem gridPos_pt {b : Basis.Nodes ℝ} {nd d l : Nat} (hn : 0 < b.n) (hd : d < nd) (hl : l < nd - 1) (c : ℝ) (o h o' h' : Nat → ℝ) (ho : ∀ i, i ≠ coordOf d l → o' i = o i ∧ h' i = h i)
    (k : Nat) {i j : Nat} (hi : i < b.n) (hj : j < b.n) :
    gridPos b nd d c o h (pt (nd - 1) b.n l k j) = Function.update (gridPos b nd d c o' h' (pt (nd - 1) b.n l k i)) (coordOf d l) (o (coordOf d l) + h (coordOf d l) * b.node j) := by
  funext a
  rw [Function.update_apply, gridPos, gridPos]
  have hw := without_coord d l
  by_cases ha : a = coordOf d l
  · subst ha
    have : coordOf d l < nd := by rw [coordOf]; split_ifs <;> omega
    rw [if_pos rfl, if_neg hw.2, if_pos this, hw.1]
    have := pt_digit_self (nd := nd - 1) (d := l) (k := k) hn hj
    rw [show nd - 1 - 1 - l = nd - 2 - l by omega] at this
    rw [this]
  · rw [if_neg ha]
    by_cases had : a = d
    · rw [if_pos had, if_pos had]
    · rw [if_neg had, if_neg had]
      by_cases han : a < nd
      · rw [if_pos han, if_pos han, (ho a ha).1, (ho a ha).2]
        have h1 : without d a ≠ l := fun e => ha (by rw [← e, coord_without had])
        have h2 : without d a < nd - 1 := by rw [without]; split_ifs <;> omega
        have e1 := pt_digit (nd := nd - 1) (k := k) hn hl h2 hj h1
        have e2 := pt_digit (nd := nd - 1) (k := k) hn hl h2 hi h1
        rw [show nd - 1 - 1 - without d a = nd - 2 - without d a by omega] at e1 e2
        rw [e1, e2]
      · rw [if_neg han, if_neg han]

theorem gridPos_coord {b : Basis.Nodes ℝ} {nd d l : Nat} (hn : 0 < b.n) (hd : d < nd) (hl : l < nd - 1) (c : ℝ) (o h : Nat → ℝ) (k : Nat) {i : Nat} (hi : i < b.n) :
    gridPos b nd d c o h (pt (nd - 1) b.n l k i) (coordOf d l) = o (coordOf d l) + h (coordOf d l) * b.node i := by
  conv_lhs => rw [gridPos_pt hn hd hl c o h o h (fun _ _ => ⟨rfl, rfl⟩) k hi hi]
  rw [Function.update_self]

/-- One dimension of `dimsInPlace` at a point of a face. -/
theorem dim_at (n : Nat) (hn : 0 < n) (A : Nat → Nat → ℝ) (nd base : Nat) {l : Nat} (hl : l < nd - 1) (mem : Mem) {k i : Nat} (hk : k < n ^ (nd - 2)) (hi : i < n) :
    dimInPlace n A (n ^ (nd - 1)) (n ^ (nd - 2 - l)) base mem (base + pt (nd - 1) n l k i) = ∑ j ∈ Finset.range n, A i j * mem (base + pt (nd - 1) n l k j) := by
  have hp : 0 < n ^ (nd - 2 - l) := Nat.pow_pos hn
  have e : ∀ j, base + pt (nd - 1) n l k j = addr n (n ^ (nd - 2 - l)) base (k / n ^ (nd - 2 - l)) (k % n ^ (nd - 2 - l)) j := by
    intro j; rw [pt, addr, show nd - 1 - 1 - l = nd - 2 - l by omega]
  simp only [e]
  refine (dimInPlace_apply n A (n ^ (nd - 1)) (n ^ (nd - 2 - l)) base mem).1 _ ?_ _ (Nat.mod_lt _ hp) i hi
  rw [outer_count n hn nd l hl, Nat.div_lt_iff_lt_mul hp, ← pow_add]
  rwa [show l + (nd - 2 - l) = nd - 2 by omega]

/-- Prolongation along one dimension of a face. -/
theorem prolong_dim {bs : BasisData} {b : Basis.Nodes ℝ} (hof : bs.IsOf b) (hb : b.Distinct) (hn : 0 < b.n) {nd m : Nat} (hm : m ≤ b.n) {f : Field} (hf : PolyIn nd m f) {d l : Nat} (hd : d < nd) (hl : l < nd - 1)
    (c : ℝ) (o h o' h' : Nat → ℝ) (ho : ∀ i, i ≠ coordOf d l → o' i = o i ∧ h' i = h i) {half : Nat} (hh : half < 2)
    (ho' : o' (coordOf d l) = o (coordOf d l) + h (coordOf d l) / 2 * (half : ℝ)) (hh' : h' (coordOf d l) = h (coordOf d l) / 2)
    (base : Nat) (mem : Mem) (hmem : ∀ k < b.n ^ (nd - 1), mem (base + k) = f (gridPos b nd d c o h k)) :
    ∀ k < b.n ^ (nd - 1), dimInPlace bs.n (bs.prolong half) (bs.n ^ (nd - 1)) (bs.n ^ (nd - 2 - l)) base mem (base + k) = f (gridPos b nd d c o' h' k) := by
  intro k hk
  obtain ⟨k, hk', i, hi, rfl⟩ := pt_surj (nd := nd - 1) (id := l) hn hl hk
  rw [show nd - 1 - 1 = nd - 2 by omega] at hk'
  have hc : coordOf d l < nd := by rw [coordOf]; split_ifs <;> omega
  obtain ⟨P, hP, hPf⟩ := hf (coordOf d l) hc (gridPos b nd d c o' h' (pt (nd - 1) b.n l k i))
  have h1 := Basis.prolong_exact hb (P.comp (C (o (coordOf d l)) + C (h (coordOf d l)) * X)) (lt_of_lt_of_le (affine_degree hP _ _) (by exact_mod_cast hm)) hi half
  rw [affine_eval] at h1
  rw [hof.n, dim_at b.n hn _ nd base hl mem hk' hi]
  have h2 : f (gridPos b nd d c o' h' (pt (nd - 1) b.n l k i)) = P.eval (o (coordOf d l) + h (coordOf d l) * ((b.node i + half) / 2)) := by
    conv_lhs => rw [gridPos_pt hn hd hl c o' h' o' h' (fun _ _ => ⟨rfl, rfl⟩) k hi hi]
    rw [hPf, ho', hh']; congr 1; ring
  rw [h2, ← h1]
  refine Finset.sum_congr rfl fun j hj => ?_
  have hj := Finset.mem_range.1 hj
  rw [hmem _ (by have := pt_lt (nd := nd - 1) (id := l) (k := k) hn hl (by rwa [show nd - 1 - 1 = nd - 2 by omega]) hj; exact this),
    gridPos_pt hn hd hl c o h o' h' ho k hi hj, hPf, affine_eval]
  congr 1
  have := hof.prolong half hh i hi j hj
  rw [(Basis.tables_exact b hi hj).2.2.1 half hh] at this
  exact (Option.some.inj this).symm

/-- Restriction along one dimension of a face, from both halves. -/
theorem restrict_dim {bs : BasisData} {b : Basis.Nodes ℝ} {deg : Nat} (hof : bs.IsOf b) (hb : b.Exact deg) (hn : 0 < b.n) {nd m : Nat} (h1m : 0 < m) (hm : m + b.n ≤ deg + 2) {f : Field} (hf : PolyIn nd m f)
    {d l : Nat} (hd : d < nd) (hl : l < nd - 1) (c : ℝ) (o h : Nat → ℝ) (o' : Nat → Nat → ℝ) (h' : Nat → ℝ) (ho : ∀ i, i ≠ coordOf d l → (∀ half, o' half i = o i) ∧ h' i = h i)
    (ho' : ∀ half < 2, o' half (coordOf d l) = o (coordOf d l) + h (coordOf d l) / 2 * (half : ℕ)) (hh' : h' (coordOf d l) = h (coordOf d l) / 2)
    (base : Nat) (mem : Nat → Mem) (hmem : ∀ half < 2, ∀ k < b.n ^ (nd - 1), mem half (base + k) = f (gridPos b nd d c (o' half) h' k)) :
    ∀ k < b.n ^ (nd - 1), dimInPlace bs.n (bs.restrict 0) (bs.n ^ (nd - 1)) (bs.n ^ (nd - 2 - l)) base (mem 0) (base + k) +
      dimInPlace bs.n (bs.restrict 1) (bs.n ^ (nd - 1)) (bs.n ^ (nd - 2 - l)) base (mem 1) (base + k) = f (gridPos b nd d c o h k) := by
  intro k hk
  obtain ⟨k, hk', i, hi, rfl⟩ := pt_surj (nd := nd - 1) (id := l) hn hl hk
  rw [show nd - 1 - 1 = nd - 2 by omega] at hk'
  have hc : coordOf d l < nd := by rw [coordOf]; split_ifs <;> omega
  obtain ⟨P, hP, hPf⟩ := hf (coordOf d l) hc (gridPos b nd d c o h (pt (nd - 1) b.n l k i))
  have hdeg : (P.comp (C (o (coordOf d l)) + C (h (coordOf d l)) * X)).natDegree < m := natDegree_of h1m (affine_degree hP _ _)
  have h1 := Basis.restrict_exact hb (P.comp (C (o (coordOf d l)) + C (h (coordOf d l)) * X)) (by omega) hi
  rw [affine_eval, ← gridPos_coord hn hd hl c o h k hi, ← hPf, Function.update_eq_self, Finset.sum_range_succ, Finset.sum_range_one] at h1
  rw [hof.n, dim_at b.n hn _ nd base hl _ hk' hi, dim_at b.n hn _ nd base hl _ hk' hi, ← h1]
  have e : ∀ half < 2, ∑ j ∈ Finset.range b.n, bs.restrict half i j * mem half (base + pt (nd - 1) b.n l k j) =
      ∑ j ∈ Finset.range b.n, Basis.restrict b i j half * (P.comp (C (o (coordOf d l)) + C (h (coordOf d l)) * X)).eval ((b.node j + (half : Nat)) / 2) := by
    intro half hh
    refine Finset.sum_congr rfl fun j hj => ?_
    have hj := Finset.mem_range.1 hj
    rw [hmem half hh _ (by have := pt_lt (nd := nd - 1) (id := l) (k := k) hn hl (by rwa [show nd - 1 - 1 = nd - 2 by omega]) hj; exact this),
      gridPos_pt hn hd hl c (o' half) h' o h (fun a ha => ⟨((ho a ha).1 half).symm, (ho a ha).2.symm⟩) k hi hj, hPf, affine_eval, ho' half hh, hh']
    congr 1
    · have := hof.restrict half hh i hi j hj
      rw [(Basis.tables_exact b hi hj).2.2.2 half hh] at this
      exact (Option.some.inj this).symm
    · congr 1; ring
  rw [e 0 (by omega), e 1 (by omega)]

end Hexed.Spatial
