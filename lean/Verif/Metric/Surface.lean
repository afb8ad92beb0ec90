import Verif.Metric.Spec
import Verif.Metric.Poly
import Verif.Metric.Refined
import Verif.Connection.Props
set_option autoImplicit false
set_option linter.unusedVariables false

/-!
# Normals of faces that meet
-/

namespace Hexed.Metric
open Hexed.Spatial
open Hexed.Connection (Dir IsFrame partCenter strAt Legal frameOf frameOf_isFrame)
open MvPolynomial
noncomputable section

/-! ## Determinants -/

theorem minor_congr {nd : Nat} {J J' : Nat → Nat → ℝ} {d j : Nat} (h : ∀ r < nd, ∀ c < nd, c ≠ d → J r c = J' r c) : jacMinor nd J d j = jacMinor nd J' d j := by
  rw [jacMinor, jacMinor, jacDet, jacDet]
  congr 1
  ext r c
  simp only [Matrix.of_apply]
  by_cases hc : c.val = d
  · rw [if_pos hc, if_pos hc]
  · rw [if_neg hc, if_neg hc, h r.val r.isLt c.val c.isLt hc]

theorem minor_scale (nd : Nat) (J : Nat → Nat → ℝ) (κ : Nat → ℝ) (d j : Nat) :
    jacMinor nd (fun r c => κ c * J r c) d j = (∏ c : Fin nd, if c.val = d then 1 else κ c.val) * jacMinor nd J d j := by
  rw [jacMinor, jacMinor, jacDet, jacDet, ← Matrix.det_mul_row]
  congr 1
  ext r c
  simp only [Matrix.of_apply]
  by_cases hc : c.val = d <;> simp [hc]

/-- Exchanging two columns. -/
theorem minor_swap {nd : Nat} {J J' : Nat → Nat → ℝ} {a b j : Nat} (ha : a < nd) (hb : b < nd) (hab : a ≠ b) (σ : ℝ) (h1 : ∀ r < nd, J r b = σ * J' r a)
    (h2 : ∀ r < nd, ∀ c < nd, c ≠ a → c ≠ b → J r c = J' r c) : jacMinor nd J a j = -σ * jacMinor nd J' b j := by
  have e1 : jacMinor nd J a j = jacMinor nd (fun r c => (if c = b then σ else 1) * (if c = b then J' r a else J' r c)) a j := by
    refine minor_congr fun r hr c hc hca => ?_
    beta_reduce
    by_cases hcb : c = b
    · rw [if_pos hcb, if_pos hcb, hcb, h1 r hr]
    · rw [if_neg hcb, if_neg hcb, one_mul, h2 r hr c hc hca hcb]
  rw [e1, minor_scale nd (fun r c => if c = b then J' r a else J' r c) (fun c => if c = b then σ else 1)]
  have e2 : (∏ c : Fin nd, if c.val = a then (1 : ℝ) else if c.val = b then σ else 1) = σ := by
    rw [Finset.prod_eq_single (⟨b, hb⟩ : Fin nd)]
    · rw [if_neg (fun e => hab (by simpa using e.symm)), if_pos rfl]
    · intro c _ hc
      by_cases hca : c.val = a
      · rw [if_pos hca]
      · rw [if_neg hca, if_neg fun e => hc (Fin.ext e)]
    · intro h; exact absurd (Finset.mem_univ _) h
  rw [e2, neg_mul, ← mul_neg]
  congr 1
  rw [jacMinor, jacMinor, jacDet, jacDet]
  have hne : (⟨a, ha⟩ : Fin nd) ≠ ⟨b, hb⟩ := fun e => hab (by simpa using e)
  have := Matrix.det_permute' (Equiv.swap (⟨a, ha⟩ : Fin nd) ⟨b, hb⟩) (Matrix.of fun r c : Fin nd => if c.val = b then (if r.val = j then (1 : ℝ) else 0) else J' r.val c.val)
  rw [Equiv.Perm.sign_swap hne] at this
  have e3 : ((((-1 : ℤˣ) : ℤ) : ℝ)) = -1 := by simp
  rw [e3, neg_one_mul] at this
  rw [← this]
  congr 1
  ext r c
  simp only [Matrix.submatrix_apply, id, Matrix.of_apply]
  by_cases hca : c.val = a
  · have : c = ⟨a, ha⟩ := Fin.ext hca
    subst this
    rw [Equiv.swap_apply_left]; simp
  · by_cases hcb : c.val = b
    · have : c = ⟨b, hb⟩ := Fin.ext hcb
      subst this
      rw [Equiv.swap_apply_right]
      simp [hab, hab.symm]
    · rw [Equiv.swap_apply_of_ne_of_ne (fun e => hca (by rw [e])) fun e => hcb (by rw [e])]
      simp [hca, hcb]

/-- If the determinant is not zero then some cofactor of every column is not. -/
theorem minor_nonzero {nd : Nat} {J : Nat → Nat → ℝ} {d : Nat} (hd : d < nd) (h : jacDet nd J ≠ 0) : ∃ j < nd, jacMinor nd J d j ≠ 0 := by
  by_contra hno
  push Not at hno
  apply h
  rw [jacDet]
  have : (Matrix.of fun r c : Fin nd => J r.val c.val) = Matrix.updateCol (Matrix.of fun r c : Fin nd => J r.val c.val) ⟨d, hd⟩ (∑ j : Fin nd, J j.val d • (Pi.single j (1 : ℝ))) := by
    ext r c
    rw [Matrix.updateCol_apply]
    by_cases hc : c = ⟨d, hd⟩
    · rw [if_pos hc, hc, Finset.sum_apply]
      simp [Pi.single_apply]
    · rw [if_neg hc]
  rw [this]
  rw [← Matrix.cramer_apply, map_sum, Finset.sum_apply]
  refine Finset.sum_eq_zero fun j _ => ?_
  rw [map_smul, Pi.smul_apply, Matrix.cramer_apply]
  have h2 := hno j.val j.isLt
  rw [jacMinor, jacDet] at h2
  have e : (Matrix.updateCol (Matrix.of fun r c : Fin nd => J r.val c.val) ⟨d, hd⟩ (Pi.single j (1 : ℝ))) = Matrix.of fun r c : Fin nd => if c.val = d then (if r.val = j.val then 1 else 0) else J r.val c.val := by
    ext r c
    rw [Matrix.updateCol_apply]
    simp only [Matrix.of_apply, Fin.ext_iff, Pi.single_apply]
  rw [e, h2, smul_zero]

/-! ## Faces -/

/-- The derivative of the position, in units of the size of the element. -/
def grad (s : Shape) (X : Nat → Nat → MvPolynomial ℕ ℝ) (e r c : Nat) : MvPolynomial ℕ ℝ := pderiv c (C (s.elem e).size⁻¹ * X e r)

/-- Component `j` of the normal of surfaces of constant coordinate `d` inside an element. -/
def inNormal (s : Shape) (X : Nat → Nat → MvPolynomial ℕ ℝ) (e d j : Nat) : MvPolynomial ℕ ℝ := polyMinor s.nd (grad s X e) d j

theorem grad_eval (s : Shape) (X : Nat → Nat → MvPolynomial ℕ ℝ) (e r c : Nat) (x : Nat → ℝ) : eval x (grad s X e r c) = partialD c (fieldOf (X e r)) x / (s.elem e).size := by
  rw [grad, partialD_field, pderiv_C_mul, map_mul, eval_C, div_eq_inv_mul]

theorem normal_elem (s : Shape) (X : Nat → Nat → MvPolynomial ℕ ℝ) (e f j : Nat) (ξ : Nat → ℝ) :
    surfaceNormal s X (.elem e f) j ξ = eval (Function.update ξ (f / 2) ((f % 2 : Nat) : ℝ)) (inNormal s X e (f / 2) j) := by
  rw [inNormal, eval_minor]
  show jacMinor s.nd (fun r c => partialD c (surface s X (.elem e f) r) ξ / (s.elem e).size) (f / 2) j = _
  refine minor_congr fun r hr c hc hcd => ?_
  rw [grad_eval]
  congr 1
  rw [partialD, partialD, Function.update_of_ne hcd]
  congr 1
  funext t
  show eval (Function.update (Function.update ξ c t) (f / 2) ((f % 2 : Nat) : ℝ)) (X e r) = eval _ (X e r)
  rw [Function.update_comm hcd]

theorem without_lt {nd d a : Nat} (ha : a < nd) (hd : d < nd) (had : a ≠ d) : without d a < nd - 1 := by rw [without]; split_ifs <;> omega

theorem iHalf_cases (nd : Nat) (str : Bool × Bool) (l i : Nat) : iHalf nd str l i = 0 ∨ iHalf nd str l i = 1 := by
  have : iHalf nd str l i < 2 := Nat.mod_lt _ (by omega)
  omega

theorem part2 : ∀ (s0 s1 : Bool) (i : Fin 4) (d a : Fin 3), d.val < 2 → a.val < 2 → a ≠ d → i.val < nFace 2 (s0, s1) →
    partCenter 2 d (s0, s1) i.val a = if strAt (s0, s1) (without d.val a.val) then 0 else 2 * (iHalf 2 (s0, s1) (without d.val a.val) i.val : ℤ) - 1 := by decide +kernel

theorem part3 : ∀ (s0 s1 : Bool) (i : Fin 4) (d a : Fin 3), a ≠ d → i.val < nFace 3 (s0, s1) →
    partCenter 3 d (s0, s1) i.val a = if strAt (s0, s1) (without d.val a.val) then 0 else 2 * (iHalf 3 (s0, s1) (without d.val a.val) i.val : ℤ) - 1 := by decide +kernel

/-- The position of the parts of a face as `Prolong_refined` sees it. -/
theorem partCoord_eq {nd d a : Nat} (hnd : 1 ≤ nd ∧ nd ≤ 3) (hd : d < nd) (ha : a < nd) (had : a ≠ d) (str : Bool × Bool) {i : Nat} (hi : i < nFace nd str) (t : ℝ) :
    partCoord nd d str i a t = strOrigin nd d str (fun _ => 0) (fun _ => 1) i a + strLength d str (fun _ => 1) a * t := by
  have hc : partCenter nd ⟨d, by omega⟩ str i ⟨a, by omega⟩ = if strAt str (without d a) then 0 else 2 * (iHalf nd str (without d a) i : ℤ) - 1 := by
    obtain ⟨s0, s1⟩ := str
    have hi4 : i < 4 := by
      refine lt_of_lt_of_le hi ?_
      revert hnd; clear * -; rintro ⟨h1, h2⟩
      obtain rfl | rfl | rfl : nd = 1 ∨ nd = 2 ∨ nd = 3 := by omega
      all_goals cases s0 <;> cases s1 <;> decide
    obtain ⟨h1, h2⟩ := hnd
    obtain rfl | rfl | rfl : nd = 1 ∨ nd = 2 ∨ nd = 3 := by omega
    · omega
    · exact part2 s0 s1 ⟨i, hi4⟩ ⟨d, by omega⟩ ⟨a, by omega⟩ hd ha (fun e => had (by simpa using e)) hi
    · exact part3 s0 s1 ⟨i, hi4⟩ ⟨d, by omega⟩ ⟨a, by omega⟩ (fun e => had (by simpa using e)) hi
  rw [partCoord, dif_pos ⟨by omega, by omega⟩, hc, strOrigin, strLength]
  cases hs : strAt str (without d a)
  · simp only [Bool.false_eq_true, if_false, had, ne_eq, not_false_eq_true, true_and, if_true]
    rcases iHalf_cases nd str (without d a) i with h | h <;> rw [h] <;> norm_num <;> ring
  · simp

/-- Factors by which tangents of parts of a face differ from those of the face. -/
theorem strFac_prod {nd d : Nat} (hnd : 1 ≤ nd ∧ nd ≤ 3) (hd : d < nd) (str : Bool × Bool) :
    (∏ c : Fin nd, if c.val = d then (1 : ℝ) else if strAt str (without d c.val) then 2 else 1) = strFac nd 2 str := by
  obtain ⟨h1, h2⟩ := hnd
  obtain rfl | rfl | rfl : nd = 1 ∨ nd = 2 ∨ nd = 3 := by omega
  · obtain rfl : d = 0 := by omega
    simp [strFac]
  · obtain rfl | rfl : d = 0 ∨ d = 1 := by omega
    all_goals simp [strFac, Fin.prod_univ_two, without]
  · obtain rfl | rfl | rfl : d = 0 ∨ d = 1 ∨ d = 2 := by omega
    all_goals simp [strFac, Fin.prod_univ_three, without, List.range_succ]

theorem normal_mortar {s : Shape} (hnd : 1 ≤ s.nd ∧ s.nd ≤ 3) (X : Nat → Nat → MvPolynomial ℕ ℝ) {r : Nat} {rr : RefRec} (hr : s.refs[r]? = some rr) {e f : Nat} (hco : rr.coarse = .elem e f) (hf : f < 2 * s.nd) {i : Nat}
    (hi : i < nFace s.nd rr.str) (j : Nat) (ξ : Nat → ℝ) (hz : ∀ a, s.nd ≤ a → ξ a = 0) (hs : (s.elem e).size ≠ 0) :
    surfaceNormal s X (.mortar r i) j ξ = strFac s.nd 2 rr.str * eval (fun a => if a = f / 2 then ((f % 2 : Nat) : ℝ) else if a < s.nd then
      strOrigin s.nd (f / 2) rr.str (fun _ => 0) (fun _ => 1) i a + strLength (f / 2) rr.str (fun _ => 1) a * ξ a else 0) (inNormal s X e (f / 2) j) := by
  have hfo : s.kernel.faceOf (.mortar r i) = some (e, f) := by simp [Mesh.faceOf, Shape.kernel, hr, hco]
  have hsz : s.kernel.bufSize (.mortar r i) = (s.elem e).size / 2 := by simp only [Mesh.bufSize, hfo]; rfl
  have hd : f / 2 < s.nd := by omega
  have hrp : ∀ η : Nat → ℝ, (∀ a, s.nd ≤ a → η a = 0) → refPoint s (.mortar r i) η = fun a => if a = f / 2 then ((f % 2 : Nat) : ℝ) else if a < s.nd then
      strOrigin s.nd (f / 2) rr.str (fun _ => 0) (fun _ => 1) i a + strLength (f / 2) rr.str (fun _ => 1) a * η a else 0 := by
    intro η hη
    funext a
    simp only [refPoint, hfo, hr, Option.elim_some]
    by_cases ha : a = f / 2
    · rw [if_pos ha, if_pos ha]
    · rw [if_neg ha, if_neg ha]
      by_cases han : a < s.nd
      · rw [if_pos han, partCoord_eq hnd hd han ha rr.str hi]
      · rw [if_neg han, hη a (by omega), partCoord]
        by_cases h3 : f / 2 < 3 ∧ a < 3
        · rw [dif_pos h3]
          have : partCenter s.nd ⟨f / 2, h3.1⟩ rr.str i ⟨a, h3.2⟩ = 0 := by
            rw [partCenter]
            refine if_neg fun hin => han ?_
            obtain ⟨p, hp, hpa⟩ := List.mem_map.1 hin
            have h1 := List.fst_mem_of_mem_zipIdx (List.mem_filter.1 hp).1
            rw [Hexed.Connection.faceAxes] at h1
            have h2 := (List.mem_filter.1 h1).2
            rw [hpa] at h2
            simp only [decide_eq_true_eq] at h2
            exact h2.1
          simp [this]
        · rw [dif_neg h3]
  have hsurf : ∀ q, surface s X (.mortar r i) q = fun η => eval (refPoint s (.mortar r i) η) (X e q) := by intro q; funext η; rw [surface, hfo]
  rw [surfaceNormal, hfo]
  simp only [hsz]
  rw [← strFac_prod hnd hd rr.str, inNormal, eval_minor, ← minor_scale s.nd _ fun c => if strAt rr.str (without (f / 2) c) then 2 else 1]
  show jacMinor s.nd (fun q c => partialD c (surface s X (.mortar r i) q) ξ / ((s.elem e).size / 2)) (f / 2) j = _
  refine minor_congr fun q hq c hc hcd => ?_
  rw [grad_eval]
  set x : Nat → ℝ := fun a => if a = f / 2 then ((f % 2 : Nat) : ℝ) else if a < s.nd then
      strOrigin s.nd (f / 2) rr.str (fun _ => 0) (fun _ => 1) i a + strLength (f / 2) rr.str (fun _ => 1) a * ξ a else 0 with hx
  have hline : (fun t => surface s X (.mortar r i) q (Function.update ξ c t)) = fun t => fieldOf (X e q) (Function.update x c (strOrigin s.nd (f / 2) rr.str (fun _ => 0) (fun _ => 1) i c + strLength (f / 2) rr.str (fun _ => 1) c * t)) := by
    funext t
    rw [hsurf]
    beta_reduce
    rw [hrp _ (fun a ha => by rw [Function.update_of_ne (by omega)]; exact hz a ha), fieldOf]
    congr 2
    funext a
    by_cases hac : a = c
    · subst hac; rw [Function.update_self, Function.update_self, if_neg hcd, if_pos hc]
    · rw [Function.update_of_ne hac, Function.update_of_ne hac, hx]
  have hxc : x c = strOrigin s.nd (f / 2) rr.str (fun _ => 0) (fun _ => 1) i c + strLength (f / 2) rr.str (fun _ => 1) c * ξ c := by rw [hx]; beta_reduce; rw [if_neg hcd, if_pos hc]
  rw [partialD, hline]
  have hder : _root_.deriv (fun t => fieldOf (X e q) (Function.update x c (strOrigin s.nd (f / 2) rr.str (fun _ => 0) (fun _ => 1) i c + strLength (f / 2) rr.str (fun _ => 1) c * t))) (ξ c) =
      strLength (f / 2) rr.str (fun _ => 1) c * partialD c (fieldOf (X e q)) x := by
    set o := strOrigin s.nd (f / 2) rr.str (fun _ => 0) (fun _ => 1) i c
    set h := strLength (f / 2) rr.str (fun _ => 1) c
    have e1 : (fun t => fieldOf (X e q) (Function.update x c (o + h * t))) = fun t => ((lineOf c x (X e q)).comp (Polynomial.C o + Polynomial.C h * Polynomial.X)).eval t := by
      funext t; rw [Polynomial.eval_comp, line_eval]; simp [fieldOf]
    rw [e1, Polynomial.deriv, partialD_field, Polynomial.derivative_comp, line_deriv, Polynomial.eval_mul, Polynomial.eval_comp]
    simp only [Polynomial.eval_add, Polynomial.eval_mul, Polynomial.eval_C, Polynomial.eval_X, Polynomial.derivative_add, Polynomial.derivative_C, Polynomial.derivative_mul, Polynomial.derivative_X, zero_add, zero_mul, mul_one, add_zero]
    rw [← hxc, line_eval, Function.update_eq_self]
  rw [hder, strLength]
  cases hst : strAt rr.str (without (f / 2) c)
  · simp only [hcd, ne_eq, not_false_eq_true, true_and, if_true, Bool.false_eq_true, if_false]
    field_simp
  · simp only [hcd, ne_eq, not_false_eq_true, true_and, if_true, Bool.true_eq_false, if_false]
    field_simp

end
end Hexed.Metric
