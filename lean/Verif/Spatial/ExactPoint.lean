import Verif.Spatial.ExactSpec
import Verif.Spatial.Local
set_option autoImplicit false
set_option linter.unusedVariables false

/-!
# The element kernel point by point
-/

namespace Hexed.Spatial
open Hexed.RowIndex (RowIndex rows)

/-- The row along `d` through point `q`. -/
def rowOf (nd n d q : Nat) : Nat := q / n ^ (nd - 1 - d) / n * n ^ (nd - 1 - d) + q % n ^ (nd - 1 - d)
/-- The number of point `q` in that row. -/
def nodeOf (nd n d q : Nat) : Nat := q / n ^ (nd - 1 - d) % n

theorem nodeOf_lt (nd : Nat) {n : Nat} (hn : 0 < n) (d q : Nat) : nodeOf nd n d q < n := Nat.mod_lt _ hn

theorem rowOf_lt {nd n d q : Nat} (hn : 0 < n) (hd : d < nd) (hq : q < n ^ nd) : rowOf nd n d q < n ^ (nd - 1) := by
  have hp : 0 < n ^ (nd - 1 - d) := Nat.pow_pos hn
  have h1 : q / n ^ (nd - 1 - d) / n < n ^ d := by
    rw [Nat.div_div_eq_div_mul, Nat.div_lt_iff_lt_mul (Nat.mul_pos hp hn), ← pow_succ, ← pow_add]
    rwa [show d + (nd - 1 - d + 1) = nd by omega]
  have h2 := Nat.mod_lt q hp
  calc rowOf nd n d q < q / n ^ (nd - 1 - d) / n * n ^ (nd - 1 - d) + n ^ (nd - 1 - d) := by rw [rowOf]; omega
    _ = (q / n ^ (nd - 1 - d) / n + 1) * n ^ (nd - 1 - d) := by ring
    _ ≤ n ^ d * n ^ (nd - 1 - d) := Nat.mul_le_mul_right _ h1
    _ = n ^ (nd - 1) := by rw [← pow_add]; congr 1; omega

theorem pt_row {nd n d q : Nat} (hn : 0 < n) : pt nd n d (rowOf nd n d q) (nodeOf nd n d q) = q := by
  have hp : 0 < n ^ (nd - 1 - d) := Nat.pow_pos hn
  rw [pt, rowOf, nodeOf]
  set s := n ^ (nd - 1 - d)
  have e1 : (q / s / n * s + q % s) / s = q / s / n := by
    rw [Nat.add_comm, Nat.add_mul_div_right _ _ hp, Nat.div_eq_of_lt (Nat.mod_lt _ hp), Nat.zero_add]
  have e2 : (q / s / n * s + q % s) % s = q % s := by rw [Nat.add_comm, Nat.add_mul_mod_self_right, Nat.mod_mod]
  rw [e1, e2, Nat.div_add_mod', Nat.div_add_mod']

theorem rowOf_pt {nd n d k i : Nat} (hn : 0 < n) (hi : i < n) : rowOf nd n d (pt nd n d k i) = k ∧ nodeOf nd n d (pt nd n d k i) = i :=
  pt_inj hn (nodeOf_lt nd hn d _) hi (pt_row hn)

theorem writeRow_at {nd n d k q : Nat} (hn : 0 < n) (hd : d < nd) (nvar : Nat) (w : Nat → Nat → ℝ) (m : Arr) (base : Nat) (coef : ℝ) (u : Nat) :
    writeRow nvar w m base (RowIndex.after nd n d k) coef (u, q) =
      if rowOf nd n d q = k ∧ base ≤ u ∧ u < base + nvar then coef * m (u, q) + w (nodeOf nd n d q) (u - base) else m (u, q) := by
  have hf := after_fields nd n d hn hd k
  obtain ⟨r1, r2⟩ := writeRow_apply nvar w m base (RowIndex.after nd n d k) coef (by
      intro i hi j hj e
      rw [hf.2.1] at hi hj
      rw [qpoint_pt nd n d hn hd, qpoint_pt nd n d hn hd] at e
      exact (pt_inj hn hi hj e).2)
  by_cases h : rowOf nd n d q = k ∧ base ≤ u ∧ u < base + nvar
  · rw [if_pos h]
    have := r1 (u - base) (by omega) (nodeOf nd n d q) (by rw [hf.2.1]; exact nodeOf_lt nd hn d q)
    rw [qpoint_pt nd n d hn hd, ← h.1, pt_row hn, Nat.add_sub_cancel' h.2.1] at this
    rw [← h.1]; exact this
  · rw [if_neg h]
    refine r2 _ fun v hv i hi e => h ?_
    rw [hf.2.1] at hi
    rw [qpoint_pt nd n d hn hd] at e
    obtain ⟨e1, e2⟩ := Prod.mk.inj e
    rw [e2, (rowOf_pt hn hi).1]; exact ⟨rfl, by omega, by omega⟩

/-- Contributions of rows to one point add up to one contribution for each dimension. -/
theorem dk_sum {nd n q : Nat} (hn : 0 < n) (hq : q < n ^ nd) (g : Nat → ℝ) :
    ((dk nd n).map fun p => if rowOf nd n p.1 q = p.2 then g p.1 else 0).sum = ∑ d ∈ Finset.range nd, g d := by
  rw [sum_dk nd n fun d k => if rowOf nd n d q = k then g d else 0]
  refine Finset.sum_congr rfl fun d hd => ?_
  rw [Finset.sum_ite_eq, if_pos (Finset.mem_range.2 (rowOf_lt hn (Finset.mem_range.1 hd) hq))]

/-- The residual at one point: for each dimension the derivative of the flux along the row through the point. -/
theorem residual_at (p : Pde) (bs : BasisData) (hn : 0 < bs.n) (nd : Nat) (flux vs : Nat → Arr) (faces : Nat → Mem) (acc : Arr × (Nat → Mem)) {q : Nat} (hq : q < bs.n ^ nd) (u : Nat) :
    (overRows nd bs.n (residualRow p bs flux vs faces) acc).1 (u, q) = acc.1 (u, q) + ∑ d ∈ Finset.range nd,
      ((if p.hasConv = true ∧ u < p.nUpdate then
          -deriv2 bs (readRow (flux d) 0 (RowIndex.after nd bs.n d (rowOf nd bs.n d q))) (readBound faces (RowIndex.after nd bs.n d (rowOf nd bs.n d q))) (nodeOf nd bs.n d q) u else 0) +
       if p.hasDiff = true ∧ p.blockSize ≤ u ∧ u < p.blockSize + p.nUpdate then
          -Basis.derivInterior bs.n bs.diff (fun j => readRow (vs d) 0 (RowIndex.after nd bs.n d (rowOf nd bs.n d q)) j (u - p.blockSize)) (nodeOf nd bs.n d q) else 0) := by
  rw [← dk_sum hn hq, overRows_eq nd bs.n hn]
  have : ∀ (l : List (Nat × Nat)) (acc : Arr × (Nat → Mem)), (∀ x ∈ l, x.1 < nd ∧ x.2 < bs.n ^ (nd - 1)) →
      (l.foldl (fun a x => residualRow p bs flux vs faces a x.1 (RowIndex.after nd bs.n x.1 x.2)) acc).1 (u, q) = acc.1 (u, q) +
      (l.map fun x => if rowOf nd bs.n x.1 q = x.2 then ((if p.hasConv = true ∧ u < p.nUpdate then
          -deriv2 bs (readRow (flux x.1) 0 (RowIndex.after nd bs.n x.1 (rowOf nd bs.n x.1 q))) (readBound faces (RowIndex.after nd bs.n x.1 (rowOf nd bs.n x.1 q))) (nodeOf nd bs.n x.1 q) u else 0) +
       if p.hasDiff = true ∧ p.blockSize ≤ u ∧ u < p.blockSize + p.nUpdate then
          -Basis.derivInterior bs.n bs.diff (fun j => readRow (vs x.1) 0 (RowIndex.after nd bs.n x.1 (rowOf nd bs.n x.1 q)) j (u - p.blockSize)) (nodeOf nd bs.n x.1 q) else 0) else 0).sum := by
    intro l
    induction l with
    | nil => intro acc _; simp
    | cons x l ih =>
      intro acc hl
      rw [List.foldl_cons, ih _ fun y hy => hl y (by simp [hy]), List.map_cons, List.sum_cons, ← add_assoc]
      congr 1
      obtain ⟨hx, -⟩ := hl x (by simp)
      obtain ⟨d, k⟩ := x
      simp only at hx ⊢
      rw [residualRow]
      cases hC : p.hasConv <;> cases hD : p.hasDiff <;> simp only [Bool.false_eq_true, if_false, if_true, false_and, true_and, writeRow_at hn hx, Nat.zero_le, Nat.zero_add, Nat.sub_zero, one_mul]
      all_goals by_cases hk : rowOf nd bs.n d q = k
      all_goals first
        | (subst hk; simp only [true_and, if_true, add_zero])
        | simp only [false_and, if_false, hk, add_zero]
      all_goals split_ifs <;> ring
  exact this _ _ fun x hx => mem_dk.1 hx

/-- The gradient at one point of a Cartesian element. -/
theorem gradient_at (p : Pde) (bs : BasisData) (hn : 0 < bs.n) (nd : Nat) {e : ElemRec} (he : e.geom = none) (state : Arr) (visc : Nat → Mem) {d : Nat} (hd : d < nd) {q : Nat} (hq : q < bs.n ^ nd)
    {u : Nat} (hu : u < p.nExtrap) :
    gradient p bs nd e state visc d (u, q) = deriv2 bs (readRow (fun k => p.fetchExtrap (fun v => state (v, k.2)) k.1) 0 (RowIndex.after nd bs.n d (rowOf nd bs.n d q)))
      (readBound visc (RowIndex.after nd bs.n d (rowOf nd bs.n d q))) (nodeOf nd bs.n d q) u / e.size := by
  rw [gradient, overRows_eq nd bs.n hn]
  simp only [he]
  have : ∀ (l : List (Nat × Nat)) (gr : Nat → Arr), (∀ x ∈ l, x.1 < nd ∧ x.2 < bs.n ^ (nd - 1)) →
      ((d, rowOf nd bs.n d q) ∈ l ∨ gr d (u, q) = deriv2 bs (readRow (fun k => p.fetchExtrap (fun v => state (v, k.2)) k.1) 0 (RowIndex.after nd bs.n d (rowOf nd bs.n d q)))
        (readBound visc (RowIndex.after nd bs.n d (rowOf nd bs.n d q))) (nodeOf nd bs.n d q) u / e.size) →
      (l.foldl (fun (gr : Nat → Arr) (x : Nat × Nat) => fun d' => if d' = x.1 then writeRow p.nExtrap (fun i v => deriv2 bs (readRow (fun k => p.fetchExtrap (fun v => state (v, k.2)) k.1) 0 (RowIndex.after nd bs.n x.1 x.2))
        (readBound visc (RowIndex.after nd bs.n x.1 x.2)) i v / e.size) (gr d') 0 (RowIndex.after nd bs.n x.1 x.2) 0 else gr d') gr) d (u, q) =
      deriv2 bs (readRow (fun k => p.fetchExtrap (fun v => state (v, k.2)) k.1) 0 (RowIndex.after nd bs.n d (rowOf nd bs.n d q)))
        (readBound visc (RowIndex.after nd bs.n d (rowOf nd bs.n d q))) (nodeOf nd bs.n d q) u / e.size := by
    intro l
    induction l with
    | nil => intro gr _ h; exact h.resolve_left (by simp)
    | cons x l ih =>
      intro gr hl h
      rw [List.foldl_cons]
      refine ih _ (fun y hy => hl y (by simp [hy])) ?_
      obtain ⟨hx, -⟩ := hl x (by simp)
      obtain ⟨d', k⟩ := x
      simp only at hx ⊢
      by_cases hxd : d = d'
      · subst hxd
        rw [if_pos rfl, writeRow_at hn hx]
        by_cases hk : rowOf nd bs.n d q = k
        · subst hk
          right
          rw [if_pos ⟨rfl, by omega, by omega⟩]; simp
        · rw [if_neg fun h => hk h.1]
          rcases h with h | h
          · left
            rcases List.mem_cons.1 h with h | h
            · exact absurd (Prod.mk.inj h).2 hk
            · exact h
          · exact Or.inr h
      · rw [if_neg hxd]
        rcases h with h | h
        · left
          rcases List.mem_cons.1 h with h | h
          · exact absurd (Prod.mk.inj h).1 hxd
          · exact h
        · exact Or.inr h
  exact this _ _ (fun x hx => mem_dk.1 hx) (Or.inl (mem_dk.2 ⟨hd, rowOf_lt hn hd hq⟩))

end Hexed.Spatial
