import Verif.Split.Line
set_option autoImplicit false
set_option linter.unusedVariables false

/-!
# Lemmas: adjustments and vertices of the two parts of an element
-/

namespace Hexed.Split
open Hexed.Spatial Hexed.Metric
noncomputable section

theorem naIndex_inj {N : Nat} {f : Face} {s s' : Bool} {q q' : Nat} (hq : q < N) (hq' : q' < N) (h : naIndex N f s q = naIndex N f s' q') : s = s' ∧ q = q' := by
  obtain ⟨e1, e2⟩ := RowIndex.div_mod_unique hq hq' h
  refine ⟨?_, e2⟩
  rcases f with ⟨e, i, sg⟩
  revert e1
  cases s <;> cases s' <;> cases sg <;> simp

theorem adjStep_closed {N : Nat} {f : Face} {o : ℝ} {t : Nat} (ht : t < N) (a : Mem × Mem) :
    (∀ x, (adjStep N f o a t).1 x = if x = naIndex N f true t then (o * a.1 (naIndex N f false t) + (1 - o) * a.1 (naIndex N f true t)) / (1 - o)
      else if x = naIndex N f false t then a.1 (naIndex N f false t) / (1 - o) else a.1 x) ∧
    ∀ x, (adjStep N f o a t).2 x = if x = naIndex N f true t then a.1 (naIndex N f true t) / o
      else if x = naIndex N f false t then (o * a.1 (naIndex N f false t) + (1 - o) * a.1 (naIndex N f true t)) / o else a.2 x := by
  have hft : naIndex N f false t ≠ naIndex N f true t := fun h => by simpa using (naIndex_inj ht ht h).1
  constructor <;>
  · intro x
    simp only [adjStep]
    generalize naIndex N f true t = T at *
    generalize naIndex N f false t = F at *
    by_cases h1 : x = T
    · subst h1
      simp [Function.update_apply, hft, hft.symm]
    · by_cases h2 : x = F
      · subst h2; simp [Function.update_apply, h1]
      · simp [Function.update_apply, h1, h2]

theorem splitAdj_closed (N : Nat) (f : Face) (o : ℝ) (a : Mem × Mem) :
    (∀ q < N, (splitAdj N f o a).1 (naIndex N f false q) = a.1 (naIndex N f false q) / (1 - o) ∧
      (splitAdj N f o a).1 (naIndex N f true q) = (o * a.1 (naIndex N f false q) + (1 - o) * a.1 (naIndex N f true q)) / (1 - o) ∧
      (splitAdj N f o a).2 (naIndex N f false q) = (o * a.1 (naIndex N f false q) + (1 - o) * a.1 (naIndex N f true q)) / o ∧
      (splitAdj N f o a).2 (naIndex N f true q) = a.1 (naIndex N f true q) / o) ∧
    ∀ x, (∀ q < N, ∀ s, x ≠ naIndex N f s q) → (splitAdj N f o a).1 x = a.1 x ∧ (splitAdj N f o a).2 x = a.2 x := by
  have main : ∀ t ≤ N, ∀ r : Mem × Mem, r = (List.range t).foldl (adjStep N f o) a →
      (∀ q < t, r.1 (naIndex N f false q) = a.1 (naIndex N f false q) / (1 - o) ∧
        r.1 (naIndex N f true q) = (o * a.1 (naIndex N f false q) + (1 - o) * a.1 (naIndex N f true q)) / (1 - o) ∧
        r.2 (naIndex N f false q) = (o * a.1 (naIndex N f false q) + (1 - o) * a.1 (naIndex N f true q)) / o ∧
        r.2 (naIndex N f true q) = a.1 (naIndex N f true q) / o) ∧
      ∀ x, (∀ q < t, ∀ s, x ≠ naIndex N f s q) → r.1 x = a.1 x ∧ r.2 x = a.2 x := by
    intro t
    induction t with
    | zero => rintro _ r rfl; exact ⟨fun q hq => absurd hq (by omega), fun x _ => ⟨rfl, rfl⟩⟩
    | succ t ih =>
      intro ht r hr
      rw [List.range_succ, List.foldl_append, List.foldl_cons, List.foldl_nil] at hr
      obtain ⟨i1, i2⟩ := ih (by omega) _ rfl
      set r0 := (List.range t).foldl _ a with hr0
      have hft : naIndex N f false t ≠ naIndex N f true t := fun h => by simpa using (naIndex_inj (by omega) (by omega) h).1
      have old : ∀ s, r0.1 (naIndex N f s t) = a.1 (naIndex N f s t) ∧ r0.2 (naIndex N f s t) = a.2 (naIndex N f s t) := fun s =>
        i2 _ fun q hq s' h => by have := (naIndex_inj (show t < N by omega) (show q < N by omega) h).2; omega
      obtain ⟨e0, e1⟩ := adjStep_closed (f := f) (o := o) (show t < N by omega) r0
      rw [← hr] at e0 e1
      constructor
      · intro q hq
        by_cases hqt : q = t
        · subst hqt
          rw [e0, e0, e1, e1, if_neg hft, if_pos rfl, if_pos rfl, if_neg hft, if_pos rfl, if_pos rfl, (old false).1, (old true).1]
          exact ⟨rfl, rfl, rfl, rfl⟩
        · have hne : ∀ s s', naIndex N f s q ≠ naIndex N f s' t := fun s s' h => hqt (naIndex_inj (by omega) (by omega) h).2
          rw [e0, e0, e1, e1]
          simp only [if_neg (hne _ _)]
          exact i1 q (by omega)
      · intro x hx
        rw [e0, e1, if_neg (hx t (by omega) true), if_neg (hx t (by omega) false), if_neg (hx t (by omega) true), if_neg (hx t (by omega) false)]
        exact i2 x fun q hq s => hx q (by omega) s
  exact main N le_rfl _ rfl

/-- The faces in other directions keep their adjustments. -/
theorem splitAdj_other {N : Nat} {f : Face} (o : ℝ) (a : Mem × Mem) {j σ k : Nat} (hj : j ≠ f.i_dim) (hσ : σ < 2) (hk : k < N) :
    (splitAdj N f o a).1 ((2 * j + σ) * N + k) = a.1 ((2 * j + σ) * N + k) ∧ (splitAdj N f o a).2 ((2 * j + σ) * N + k) = a.2 ((2 * j + σ) * N + k) := by
  refine (splitAdj_closed N f o a).2 _ fun q hq s h => ?_
  have := (RowIndex.div_mod_unique hk hq h).1
  have hs : (s == f.sign).toNat < 2 := Bool.toNat_lt _
  omega

/-- The two parts of a line. -/
theorem line_parts {b : Basis.Nodes ℝ} {nd : Nat} (f : Face) (hi : f.i_dim < nd) {k : Nat} (hk : k < b.n ^ (nd - 1)) {o : ℝ} (h0 : o ≠ 0) (h1 : o ≠ 1) (a : Mem × Mem) (vert vert0 vert1 : Nat → ℝ)
    (hfar0 : ∀ l < 2 ^ (nd - 1), vert0 (pt nd 2 f.i_dim l (!f.sign).toNat) = vert (pt nd 2 f.i_dim l (!f.sign).toNat))
    (hmid0 : ∀ l < 2 ^ (nd - 1), vert0 (pt nd 2 f.i_dim l f.sign.toNat) = (1 - o) * vert (pt nd 2 f.i_dim l f.sign.toNat) + o * vert (pt nd 2 f.i_dim l (!f.sign).toNat))
    (hmid1 : ∀ l < 2 ^ (nd - 1), vert1 (pt nd 2 f.i_dim l (!f.sign).toNat) = (1 - o) * vert (pt nd 2 f.i_dim l f.sign.toNat) + o * vert (pt nd 2 f.i_dim l (!f.sign).toNat))
    (hnear1 : ∀ l < 2 ^ (nd - 1), vert1 (pt nd 2 f.i_dim l f.sign.toNat) = vert (pt nd 2 f.i_dim l f.sign.toNat)) (t : ℝ) :
    line b nd f.i_dim k (splitAdj (b.n ^ (nd - 1)) f o a).1 vert0 (atDist f.sign t) = line b nd f.i_dim k a.1 vert (atDist f.sign (o + (1 - o) * t)) ∧
    line b nd f.i_dim k (splitAdj (b.n ^ (nd - 1)) f o a).2 vert1 (atDist f.sign t) = line b nd f.i_dim k a.1 vert (atDist f.sign (o * t)) := by
  have c := (splitAdj_closed (b.n ^ (nd - 1)) f o a).1 k hk
  have e1 := endPt_congr (b := b) (k := k) hfar0
  have e2 := endPt_comb (b := b) (k := k) o hmid0
  have e3 := endPt_comb (b := b) (k := k) o hmid1
  have e4 := endPt_congr (b := b) (k := k) hnear1
  have ho : (1 - o) ≠ 0 := fun h => h1 (by linarith)
  rcases f with ⟨e, i, sg⟩
  simp only at hi e1 e2 e3 e4 c ⊢
  cases sg
  · simp only [naIndex, Bool.not_false, Bool.toNat_true, Bool.toNat_false, beq_self_eq_true, Nat.add_zero] at c e1 e2 e3 e4
    rw [show (true == false) = false from rfl, Bool.toNat_false, add_zero] at c
    simp only [line_eq hi, c.1, c.2.1, c.2.2.1, c.2.2.2, e1, e2, e3, e4, atDist, Bool.false_eq_true, if_false]
    constructor <;> · field_simp; ring
  · simp only [naIndex, Bool.not_true, Bool.toNat_true, Bool.toNat_false, beq_self_eq_true, Nat.add_zero] at c e1 e2 e3 e4
    rw [show (false == true) = false from rfl, Bool.toNat_false, add_zero] at c
    simp only [line_eq hi, c.1, c.2.1, c.2.2.1, c.2.2.2, e1, e2, e3, e4, atDist, if_true]
    constructor <;> · field_simp; ring

end
end Hexed.Split
