import Verif.Metric.Surface
import Verif.Metric.Uniform
import Mathlib.Analysis.Calculus.Deriv.Shift
set_option autoImplicit false
set_option linter.unusedVariables false

/-!
# Both sides of a connection have the same normal
-/

namespace Hexed.Metric
open Hexed.Spatial Hexed.Solver
open Hexed.Connection (Dir IsFrame partCenter strAt Legal frameOf frameG sg frameOf_isFrame faceIdx point Corresponds match_index corresponding_exists tπ fπ tπ_tπ fπ_fπ tπ_lt fπ_lt divmod_of faceIdx_20 faceIdx_21 faceIdx_30 faceIdx_31 faceIdx_32)
open MvPolynomial
noncomputable section

/-- A row of the change of axes. -/
theorem frame_row {R : Type} [CommRing R] (d : Dir) (v : Fin 3 → R) {k : Fin 3} (hk : k ≠ d.i1) :
    ∑ l : Fin 3, ((frameOf d k l : ℤ) : R) * v l = if d.i0 = d.i1 then v k else if k = d.i0 then ((sg d.s0 * sg d.s1 : ℤ) : R) * v d.i1 else v k := by
  obtain ⟨i0, i1, s0, s1⟩ := d
  simp only at hk ⊢
  by_cases hd : i0 = i1
  · subst hd
    rw [if_pos rfl, Finset.sum_eq_single k]
    · simp [frameOf, frameG, hk]
    · intro b _ hb; simp [frameOf, frameG, Ne.symm hb]
    · simp
  · rw [if_neg hd]
    by_cases hk0 : k = i0
    · subst hk0
      rw [if_pos rfl, Finset.sum_eq_single i1]
      · simp [frameOf, frameG, hd, Ne.symm hd]
      · intro b _ hb
        by_cases hbk : b = k
        · subst hbk; simp [frameOf, frameG, hd]
        · simp [frameOf, frameG, hd, hb, hbk, Ne.symm hbk]
      · simp
    · rw [if_neg hk0, Finset.sum_eq_single k]
      · simp [frameOf, frameG, hd, hk0, hk]
      · intro b _ hb
        by_cases hb0 : b = i0
        · subst hb0; simp [frameOf, frameG, hd, hk]
        · by_cases hb1 : b = i1
          · subst hb1; simp [frameOf, frameG, hd, hb0, hk0]
          · simp [frameOf, frameG, hd, hb0, hb1, Ne.symm hb]
      · simp

/-- The coordinates on side 1 of the point with coordinates `ξ` on side 0. -/
def opposite (d : Dir) (ξ : Nat → ℝ) : Nat → ℝ :=
  if d.i0 = d.i1 then ξ else fun a => if a = d.i0.val then (if d.s0 = d.s1 then ξ d.i1.val else 1 - ξ d.i1.val) else if a = d.i1.val then ξ d.i0.val else ξ a

theorem opposite_frame (d : Dir) (ξ : Nat → ℝ) {k : Fin 3} (hk : k ≠ d.i1) : 2 * opposite d ξ k.val - 1 = ∑ l : Fin 3, (frameOf d k l : ℝ) * (2 * ξ l.val - 1) := by
  rw [frame_row d (fun l : Fin 3 => 2 * ξ l.val - 1) hk, opposite]
  by_cases hd : d.i0 = d.i1
  · rw [if_pos hd, if_pos hd]
  · rw [if_neg hd, if_neg hd]
    by_cases hk0 : k = d.i0
    · rw [if_pos hk0, hk0, if_pos rfl]
      cases d.s0 <;> cases d.s1 <;> simp [sg] <;> ring
    · rw [if_neg hk0, if_neg fun e => hk0 (Fin.ext e), if_neg fun e => hk (Fin.ext e)]

/-! ## A face does not depend on the coordinate normal to it -/

theorem surface_off {s : Shape} (X : Nat → Nat → MvPolynomial ℕ ℝ) {B : Buf} {e f : Nat} (hB : s.kernel.faceOf B = some (e, f)) {ξ η : Nat → ℝ} (h : ∀ a, a ≠ f / 2 → ξ a = η a) (r : Nat) : surface s X B r ξ = surface s X B r η := by
  have : refPoint s B ξ = refPoint s B η := by
    funext a
    cases B with
    | elem e' f' =>
      simp only [refPoint, hB, Function.update_apply]
      split_ifs with ha
      · rfl
      · exact h a ha
    | mortar r i =>
      simp only [refPoint, hB]
      split_ifs with ha
      · rfl
      · rw [h a ha]
    | ghost g => simp [Mesh.faceOf] at hB
  simp only [surface, hB, this]

theorem normal_def {s : Shape} (X : Nat → Nat → MvPolynomial ℕ ℝ) {B : Buf} {e f : Nat} (hB : s.kernel.faceOf B = some (e, f)) (j : Nat) (ξ : Nat → ℝ) :
    surfaceNormal s X B j ξ = jacMinor s.nd (fun r c => partialD c (surface s X B r) ξ / s.kernel.bufSize B) (f / 2) j := by
  simp only [surfaceNormal, hB]; rfl

theorem normal_off {s : Shape} (X : Nat → Nat → MvPolynomial ℕ ℝ) {B : Buf} {e f : Nat} (hB : s.kernel.faceOf B = some (e, f)) {ξ η : Nat → ℝ} (h : ∀ a, a ≠ f / 2 → ξ a = η a) (j : Nat) : surfaceNormal s X B j ξ = surfaceNormal s X B j η := by
  rw [normal_def X hB, normal_def X hB]
  refine minor_congr fun r hr c hc hcd => ?_
  congr 1
  rw [partialD, partialD, h c hcd]
  congr 1
  funext t
  refine surface_off X hB (fun a ha => ?_) r
  rw [Function.update_apply, Function.update_apply, h a ha]

/-! ## The two sides -/

theorem flipSign_eq (d : Dir) (sd : Bool) : flipSign d sd = if d.flipNormal sd then -1 else 1 := by
  rw [flipSign]; cases d.flipNormal sd <;> norm_num

theorem flipSign_sq (d : Dir) (sd : Bool) : flipSign d sd * flipSign d sd = 1 := by rw [flipSign_eq]; split_ifs <;> norm_num

theorem flip_opposite (s0 s1 : Bool) (h : s0 ≠ s1) : (s0 == false) = (s1 == true) := by cases s0 <;> cases s1 <;> simp_all

theorem flip_product (s0 s1 : Bool) : (if s0 == false then (-1 : ℝ) else 1) * -(if s0 = s1 then (1 : ℝ) else -1) = if s1 == true then (-1 : ℝ) else 1 := by
  cases s0 <;> cases s1 <;> simp

/-- Corresponding points of faces that meet have the same normal, except for the signs that `calc_jacobian` uses. -/
theorem normal_meet {s : Shape} {b : Basis.Nodes ℝ} {bs : BasisData} {m : Nat} {X : Nat → Nat → MvPolynomial ℕ ℝ} (hm : s.kernel.Ok bs) (hX : InSpace s b m X) {c : ConRec} (hc : c ∈ s.cons) (hg : (c.side true).isGhost = false) (j : Nat) (ξ : Nat → ℝ) :
    flipSign c.dir false * surfaceNormal s X (c.side false) j ξ = flipSign c.dir true * surfaceNormal s X (c.side true) j (opposite c.dir ξ) := by
  obtain ⟨e0, h0⟩ := hm.face c hc false (hm.ghost c hc)
  obtain ⟨e1, h1⟩ := hm.face c hc true hg
  obtain ⟨hleg, _⟩ := hm.legal c hc
  have hsz := hm.sizes c hc hg
  have heq : ∀ r < s.nd, ∀ ξ, surface s X (c.side false) r ξ = surface s X (c.side true) r (opposite c.dir ξ) := fun r hr ξ =>
    hX.meet c hc hg (frameOf c.dir) (frameOf_isFrame hleg) ξ _ (fun k _ hk => opposite_frame c.dir ξ hk) r hr
  have b0 := Bool.toNat_lt c.dir.s0
  have b1 := Bool.toNat_lt c.dir.s1
  have f0 : (2 * (c.dir.iDim false).val + (c.dir.faceSign false).toNat) / 2 = c.dir.i0.val := by
    show (2 * c.dir.i0.val + c.dir.s0.toNat) / 2 = _; omega
  have f1 : (2 * (c.dir.iDim true).val + (c.dir.faceSign true).toNat) / 2 = c.dir.i1.val := by
    show (2 * c.dir.i1.val + c.dir.s1.toNat) / 2 = _; omega
  rw [normal_def X h0, normal_def X h1, f0, f1, hsz]
  obtain ⟨g0, g1, g2⟩ := hleg
  by_cases hd : c.dir.i0 = c.dir.i1
  · have hop : ∀ ξ, opposite c.dir ξ = ξ := fun ξ => by rw [opposite, if_pos hd]
    have hs : c.dir.s0 ≠ c.dir.s1 := g2.resolve_left fun h => h hd
    have e : flipSign c.dir false = flipSign c.dir true := by
      rw [flipSign_eq, flipSign_eq]
      exact congrArg (fun b : Bool => if b then (-1 : ℝ) else 1) (flip_opposite _ _ hs)
    rw [e, hop, ← hd]
    congr 1
    refine minor_congr fun r hr a ha had => ?_
    congr 1
    rw [partialD, partialD]
    congr 1
    funext t
    rw [heq r hr, hop]
  · have hdv : c.dir.i0.val ≠ c.dir.i1.val := fun e => hd (Fin.ext e)
    have hop : ∀ ξ a, opposite c.dir ξ a = if a = c.dir.i0.val then (if c.dir.s0 = c.dir.s1 then ξ c.dir.i1.val else 1 - ξ c.dir.i1.val) else if a = c.dir.i1.val then ξ c.dir.i0.val else ξ a := fun ξ a => by rw [opposite, if_neg hd]
    set σ : ℝ := if c.dir.s0 = c.dir.s1 then 1 else -1 with hσ
    rw [minor_swap (J' := fun r a => partialD a (surface s X (c.side true) r) (opposite c.dir ξ) / s.kernel.bufSize (c.side true)) (show c.dir.i0.val < s.nd from g0) (show c.dir.i1.val < s.nd from g1) hdv σ ?_ ?_]
    · have e : flipSign c.dir false * -σ = flipSign c.dir true := by
        rw [flipSign_eq, flipSign_eq, hσ]
        exact flip_product _ _
      rw [← mul_assoc, e]
    · intro r hr
      beta_reduce
      rw [← mul_div_assoc]
      congr 1
      rw [partialD, partialD]
      have hl : (fun t => surface s X (c.side false) r (Function.update ξ c.dir.i1.val t)) = fun t => surface s X (c.side true) r (Function.update (opposite c.dir ξ) c.dir.i0.val (if c.dir.s0 = c.dir.s1 then t else 1 - t)) := by
        funext t
        rw [heq r hr]
        congr 1
        funext a
        rw [hop, Function.update_apply (opposite c.dir ξ), hop]
        by_cases ha : a = c.dir.i0.val
        · rw [if_pos ha, if_pos ha, Function.update_self]
        · rw [if_neg ha, if_neg ha, if_neg ha]
          by_cases ha1 : a = c.dir.i1.val
          · rw [if_pos ha1, if_pos ha1, Function.update_of_ne hdv]
          · rw [if_neg ha1, if_neg ha1, Function.update_of_ne ha1]
      rw [hl, hop ξ c.dir.i0.val, if_pos rfl, hσ]
      by_cases hss : c.dir.s0 = c.dir.s1
      · simp only [if_pos hss, one_mul]
      · simp only [if_neg hss]
        rw [deriv_comp_const_sub (f := fun t => surface s X (c.side true) r (Function.update (opposite c.dir ξ) c.dir.i0.val t)), neg_one_mul]
    · intro r hr a ha ha0 ha1
      beta_reduce
      congr 1
      rw [partialD, partialD, hop, if_neg ha0, if_neg ha1]
      congr 1
      funext t
      rw [heq r hr]
      congr 1
      funext a'
      rw [hop, Function.update_apply (opposite c.dir ξ), hop]
      by_cases h2 : a' = a
      · rw [if_pos h2, h2, if_neg ha0, if_neg ha1, Function.update_self]
      · rw [if_neg h2]
        rw [Function.update_of_ne h2, Function.update_of_ne (Ne.symm ha1), Function.update_of_ne (Ne.symm ha0)]

/-! ## The quadrature points -/

/-- The digits of the index of a face point. -/
def faceDigits (nd n d k : Nat) : Fin 3 → Nat := fun a => if a.val < nd ∧ a.val ≠ d then k / n ^ (nd - 2 - without d a.val) % n else 0

theorem faceIdx_digits {nd n : Nat} (hnd : 1 ≤ nd ∧ nd ≤ 3) {d : Fin 3} (hd : d.val < nd) {k : Nat} (hk : k < n ^ (nd - 1)) : faceIdx nd n d (faceDigits nd n d.val k) = k := by
  obtain rfl | rfl | rfl : nd = 1 ∨ nd = 2 ∨ nd = 3 := by omega
  · have : d = 0 := Fin.ext (by have : (0 : Fin 3).val = 0 := rfl; omega)
    subst this
    simp at hk
    subst hk; rfl
  · have hk : k < n := by simpa using hk
    have : d = 0 ∨ d = 1 := by revert d; decide
    rcases this with rfl | rfl
    · rw [faceIdx_20]; simp [faceDigits, without, Nat.mod_eq_of_lt hk]
    · rw [faceIdx_21]; simp [faceDigits, without, Nat.mod_eq_of_lt hk]
  · have hk : k < n * n := by simpa [pow_two] using hk
    have h1 : k / n < n := Nat.div_lt_of_lt_mul hk
    have h2 : k / n * n + k % n = k := by rw [Nat.mul_comm]; exact Nat.div_add_mod k n
    have : d = 0 ∨ d = 1 ∨ d = 2 := by revert d; decide
    rcases this with rfl | rfl | rfl
    · rw [faceIdx_30]; simp [faceDigits, without, Nat.mod_eq_of_lt h1, h2]
    · rw [faceIdx_31]; simp [faceDigits, without, Nat.mod_eq_of_lt h1, h2]
    · rw [faceIdx_32]; simp [faceDigits, without, Nat.mod_eq_of_lt h1, h2]

theorem digit_faceIdx {nd n : Nat} (hnd : 1 ≤ nd ∧ nd ≤ 3) {d a : Fin 3} (hd : d.val < nd) (ha : a.val < nd) (had : a ≠ d) {y : Fin 3 → Nat} (hy : ∀ k, y k < n) :
    faceIdx nd n d y / n ^ (nd - 2 - without d.val a.val) % n = y a := by
  obtain rfl | rfl | rfl : nd = 1 ∨ nd = 2 ∨ nd = 3 := by omega
  · exact absurd (Fin.ext (by omega)) had
  · have : (d = 0 ∧ a = 1) ∨ (d = 1 ∧ a = 0) := by revert d a; decide
    rcases this with ⟨rfl, rfl⟩ | ⟨rfl, rfl⟩
    · rw [faceIdx_20]; simp [without, Nat.mod_eq_of_lt (hy _)]
    · rw [faceIdx_21]; simp [without, Nat.mod_eq_of_lt (hy _)]
  · have : (d = 0 ∧ a = 1) ∨ (d = 0 ∧ a = 2) ∨ (d = 1 ∧ a = 0) ∨ (d = 1 ∧ a = 2) ∨ (d = 2 ∧ a = 0) ∨ (d = 2 ∧ a = 1) := by revert d a; decide
    rcases this with ⟨rfl, rfl⟩ | ⟨rfl, rfl⟩ | ⟨rfl, rfl⟩ | ⟨rfl, rfl⟩ | ⟨rfl, rfl⟩ | ⟨rfl, rfl⟩
    · rw [faceIdx_30]; simp [without, (divmod_of (hy 2)).1, Nat.mod_eq_of_lt (hy _)]
    · rw [faceIdx_30]; simp [without, Nat.mod_eq_of_lt (hy _)]
    · rw [faceIdx_31]; simp [without, (divmod_of (hy 2)).1, Nat.mod_eq_of_lt (hy _)]
    · rw [faceIdx_31]; simp [without, Nat.mod_eq_of_lt (hy _)]
    · rw [faceIdx_32]; simp [without, (divmod_of (hy 1)).1, Nat.mod_eq_of_lt (hy _)]
    · rw [faceIdx_32]; simp [without, Nat.mod_eq_of_lt (hy _)]

/-- Quadrature points which the face permutation matches correspond. -/
theorem match_points {b : Basis.Nodes ℝ} {nd : Nat} (hnd : 1 ≤ nd ∧ nd ≤ 3) (hn : 0 < b.n) (hsym : ∀ i < b.n, b.node (b.n - 1 - i) = 1 - b.node i) {d : Dir} (hleg : Legal nd d) (c0 c1 : ℝ) {k : Nat} (hk : k < b.n ^ (nd - 1)) {a : Nat} (ha : a ≠ d.i1.val) :
    opposite d (facePos b nd d.i0.val c0 (fun _ => 0) 1 (fπ nd b.n d (tπ nd b.n d k))) a = facePos b nd d.i1.val c1 (fun _ => 0) 1 k a := by
  set k' := fπ nd b.n d (tπ nd b.n d k) with hk'
  have hk'lt : k' < b.n ^ (nd - 1) := fπ_lt nd b.n hnd d _ (tπ_lt nd b.n hnd d k hk)
  have hg := hleg
  obtain ⟨g0, g1, g2⟩ := hg
  set x := faceDigits nd b.n d.i0.val k' with hxdef
  have hx : ∀ a, x a < b.n := fun a => by rw [hxdef, faceDigits]; split_ifs; exacts [Nat.mod_lt _ hn, hn]
  obtain ⟨y, hy, hcor⟩ := corresponding_exists hnd hleg (frameOf_isFrame hleg) hx
  have hidx := (match_index hnd hleg hx hy hcor).2
  rw [hxdef, faceIdx_digits hnd g0 hk'lt, hk', fπ_fπ nd b.n d _ (tπ_lt nd b.n hnd d k hk), tπ_tπ nd b.n d k hk] at hidx
  by_cases han : a < nd
  · have hy1 : facePos b nd d.i1.val c1 (fun _ => 0) 1 k a = b.node (y ⟨a, by omega⟩) := by
      rw [facePos, if_neg ha, if_pos han, zero_add, one_mul, hidx]
      congr 1
      exact digit_faceIdx hnd (a := ⟨a, by omega⟩) g1 han (fun e => ha (congrArg Fin.val e)) hy
    have hx1 : ∀ l : Fin 3, l.val < nd → l ≠ d.i0 → facePos b nd d.i0.val c0 (fun _ => 0) 1 k' l.val = b.node (x l) := by
      intro l hl hl0
      have hlv : l.val ≠ d.i0.val := fun e => hl0 (Fin.ext e)
      rw [facePos, if_neg hlv, if_pos hl, zero_add, one_mul, hxdef, faceDigits, if_pos ⟨hl, hlv⟩]
    rw [hy1]
    have hc := hcor ⟨a, by omega⟩ han (fun e => ha (congrArg Fin.val e))
    have hrow := frame_row (R := ℤ) d (point nd b.n x) (k := ⟨a, by omega⟩) (fun e => ha (congrArg Fin.val e))
    simp only [Int.cast_id] at hrow
    rw [Matrix.mulVec, dotProduct, hrow] at hc
    have hpt : ∀ (z : Fin 3 → Nat) (l : Fin 3), l.val < nd → point nd b.n z l = 2 * (z l : ℤ) - (b.n - 1) := fun z l hl => by rw [point, if_pos hl]
    rw [hpt y _ han] at hc
    rw [opposite]
    by_cases hd : d.i0 = d.i1
    · rw [if_pos hd] at hc ⊢
      rw [hpt x _ han] at hc
      rw [hx1 ⟨a, by omega⟩ han (fun e => ha (by rw [← hd]; exact congrArg Fin.val e))]
      congr 1; omega
    · rw [if_neg hd] at hc ⊢
      by_cases ha0 : a = d.i0.val
      · rw [if_pos ha0]
        rw [if_pos (Fin.ext ha0), hpt x _ g1] at hc
        rw [hx1 d.i1 g1 (Ne.symm hd)]
        have hlt := hx d.i1
        by_cases hss : d.s0 = d.s1
        · rw [if_pos hss]
          have e : sg d.s0 * sg d.s1 = 1 := by rw [hss]; cases d.s1 <;> rfl
          rw [e, one_mul] at hc
          congr 1; omega
        · rw [if_neg hss, ← hsym _ hlt]
          have e : sg d.s0 * sg d.s1 = -1 := by revert hss; cases d.s0 <;> cases d.s1 <;> simp [sg]
          rw [e] at hc
          congr 1; omega
      · rw [if_neg ha0, if_neg ha]
        rw [if_neg fun e => ha0 (congrArg Fin.val e), hpt x _ han] at hc
        rw [hx1 ⟨a, by omega⟩ han fun e => ha0 (congrArg Fin.val e)]
        congr 1; omega
  · have h0 : facePos b nd d.i1.val c1 (fun _ => 0) 1 k a = 0 := by rw [facePos, if_neg ha, if_neg han]
    have h1 : facePos b nd d.i0.val c0 (fun _ => 0) 1 k' a = 0 := by rw [facePos, if_neg (by omega), if_neg han]
    rw [h0, opposite]
    by_cases hd : d.i0 = d.i1
    · rw [if_pos hd, h1]
    · rw [if_neg hd, if_neg (by omega), if_neg ha, h1]

end
end Hexed.Metric
