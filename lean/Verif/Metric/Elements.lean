import Verif.Metric.Meet
import Verif.Basis.Sharp
set_option autoImplicit false
set_option linter.unusedVariables false

/-!
# The metric inside elements
-/

namespace Hexed.Metric
open Hexed.Spatial Hexed.Solver
open MvPolynomial
noncomputable section

variable {bs : BasisData} {b : Basis.Nodes ℝ} {deg : Nat}

/-- `diff_mat` differentiates polynomials. -/
theorem diff_field (hof : bs.IsOf b) (hb : b.Distinct) (hn : 0 < b.n) {nd : Nat} {P : MvPolynomial ℕ ℝ} (hP : ∀ i < nd, degreeOf i P < b.n) {d : Nat} (hd : d < nd) (q : Nat) :
    ∑ i ∈ Finset.range bs.n, bs.diff (nodeOf nd bs.n d q) i * eval (elemPos b nd (fun _ => 0) 1 (pt nd bs.n d (rowOf nd bs.n d q) i)) P = eval (elemPos b nd (fun _ => 0) 1 q) (pderiv d P) := by
  have hx : elemPos b nd (fun _ => 0) 1 q d = 0 + 1 * b.node (nodeOf nd b.n d q) := by rw [elemPos, if_pos hd]; rfl
  have := interior_exact hof hb le_rfl (polyIn_field hP) hd (elemPos b nd (fun _ => 0) 1 q) 0 1 (nodeOf_lt nd hn d q) hx
    (fun i => eval (elemPos b nd (fun _ => 0) 1 (pt nd bs.n d (rowOf nd bs.n d q) i)) P) (fun j hj => by rw [hof.n, elemPos_row_pt hn hd _ _ hj]; rfl)
  rw [one_mul, partialD_field] at this
  rw [← this, Basis.derivInterior, Basis.range_sum, hof.n]

/-- `Derivative` with exact boundary values, as far as the quadrature reaches. -/
theorem deriv_field (hof : bs.IsOf b) (hb : b.Exact deg) (hn : 0 < b.n) (hdeg : 2 * b.n ≤ deg + 3) {nd : Nat} {P : MvPolynomial ℕ ℝ} {d : Nat} (hd : d < nd) (hP : degreeOf d P + b.n ≤ deg + 2) (q : Nat)
    {row bound : Nat → Nat → ℝ} (hr : ∀ i < bs.n, row i 0 = eval (elemPos b nd (fun _ => 0) 1 (pt nd bs.n d (rowOf nd bs.n d q) i)) P)
    (hbd : ∀ s < 2, bound s 0 = eval (facePos b nd d s (fun _ => 0) 1 (rowOf nd bs.n d q)) P) :
    deriv2 bs row bound (nodeOf nd bs.n d q) 0 = eval (elemPos b nd (fun _ => 0) 1 q) (pderiv d P) := by
  have hdeg' := line_degree d (elemPos b nd (fun _ => 0) 1 q) P
  have key := Basis.deriv_exact_sharp hb hdeg hof.mats (lineOf d (elemPos b nd (fun _ => 0) 1 q) P) (by omega) (nodeOf_lt nd hn d q)
  rw [line_deriv, line_eval, show b.node (nodeOf nd b.n d q) = elemPos b nd (fun _ => 0) 1 q d by rw [elemPos, if_pos hd, zero_add, one_mul]; rfl, Function.update_eq_self] at key
  rw [← key, hof.n] at *
  rw [deriv2, hof.n, Basis.deriv, Basis.deriv, hof.weight]
  have hr' : ∀ i < b.n, row i 0 = (lineOf d (elemPos b nd (fun _ => 0) 1 q) P).eval (b.node i) := by
    intro i hi
    rw [hr i hi, elemPos_row_pt hn hd _ _ hi, line_eval, zero_add, one_mul]
  have hb' : ∀ s < 2, bound s 0 = (lineOf d (elemPos b nd (fun _ => 0) 1 q) P).eval (s : ℝ) := by
    intro s hs
    rw [hbd s hs, line_eval, elemPos_row hn hd]
  simp only [Basis.range_sum]
  rw [Finset.sum_congr rfl fun i hi => by rw [hr' i (Finset.mem_range.1 hi)]]
  congr 1
  refine Finset.sum_congr rfl fun s hs => ?_
  rw [hb' s (Finset.mem_range.1 hs), Finset.sum_congr rfl fun i hi => by rw [hr' i (Finset.mem_range.1 hi)]]

/-- `boundary` extrapolates polynomials. -/
theorem bound_field (hof : bs.IsOf b) (hb : b.Distinct) (hn : 0 < b.n) {nd : Nat} {P : MvPolynomial ℕ ℝ} (hP : ∀ i < nd, degreeOf i P < b.n) {d : Nat} (hd : d < nd) (k : Nat) {s : Nat} (hs : s < 2) :
    ∑ i ∈ Finset.range bs.n, bs.bound s i * eval (elemPos b nd (fun _ => 0) 1 (pt nd bs.n d k i)) P = eval (facePos b nd d s (fun _ => 0) 1 k) P := by
  have e : ∀ j < b.n, elemPos b nd (fun _ => 0) 1 (pt nd b.n d k j) = Function.update (facePos b nd d 0 (fun _ => 0) 1 k) d (0 + 1 * b.node j) := by
    intro j hj
    rw [← elemPos_pt (i := 0) hn hd (fun _ => 0) 1 hj 0, Function.update_idem]
    funext l
    rw [Function.update_apply]
    split_ifs with hl
    · subst hl; rw [elemPos, if_pos hd, pt_digit_self hn hj]
    · rfl
  have := extrap_exact hof hb le_rfl (polyIn_field hP) hd (facePos b nd d 0 (fun _ => 0) 1 k) 0 1 (fun i _ => eval (elemPos b nd (fun _ => 0) 1 (pt nd bs.n d k i)) P) 0 (fun j hj => by rw [hof.n, e j hj]; rfl) hs
  rw [matRow, Basis.range_sum] at this
  rw [this, zero_add, one_mul, fieldOf]
  congr 2
  funext l
  rw [Function.update_apply, facePos, facePos]
  split_ifs <;> rfl

variable {s : Shape} {m : Nat} {X : Nat → Nat → MvPolynomial ℕ ℝ}

theorem grad_degree (hX : InSpace s b m X) {e : Nat} (he : e ∈ s.elems) {r c i : Nat} (hr : r < s.nd) (hi : i < s.nd) : degreeOf i (grad s X e r c) < m := by
  refine lt_of_le_of_lt (degreeOf_pderiv_le c i _) (lt_of_le_of_lt (Nat.sub_le _ _) (lt_of_le_of_lt (degreeOf_C_mul_le _ _ _) (hX.poly e he r hr i hi)))

theorem jac_exact (hof : bs.IsOf b) (hb : b.Distinct) (hn : 0 < b.n) (hmn : m ≤ b.n) (hX : InSpace s b m X) {e : Nat} (he : e ∈ s.elems) {q r c : Nat} (hq : q < b.n ^ s.nd) (hr : r < s.nd) (hc : c < s.nd) :
    (s.elem e).jac b bs s.nd q r c = eval (elemPos b s.nd (fun _ => 0) 1 q) (grad s X e r c) := by
  rw [ElemShape.jac, grad_eval, partialD_field]
  congr 1
  rw [← diff_field hof hb hn (fun i hi => lt_of_lt_of_le (hX.poly e he r hr i hi) hmn) hc q]
  refine Finset.sum_congr rfl fun k hk => ?_
  rw [hX.points e he _ ?_ r hr]
  have := pt_lt (nd := s.nd) (id := c) hn hc (rowOf_lt hn hc hq) (by rw [hof.n] at hk; exact Finset.mem_range.1 hk)
  rwa [hof.n]

theorem faceJac_exact (hof : bs.IsOf b) (hb : b.Distinct) (hn : 0 < b.n) (hmn : m ≤ b.n) (hX : InSpace s b m X) {e : Nat} (he : e ∈ s.elems) {f k r c : Nat} (hf : f < 2 * s.nd) (hk : k < b.n ^ (s.nd - 1)) (hr : r < s.nd) (hc : c < s.nd) :
    (s.elem e).faceJac b bs s.nd f k r c = eval (facePos b s.nd (f / 2) ((f % 2 : Nat) : ℝ) (fun _ => 0) 1 k) (grad s X e r c) := by
  rw [ElemShape.faceJac, ← bound_field hof hb hn (fun i hi => lt_of_lt_of_le (grad_degree hX he hr hi) hmn) (by omega : f / 2 < s.nd) k (Nat.mod_lt f (by omega))]
  refine Finset.sum_congr rfl fun i hi => ?_
  rw [jac_exact hof hb hn hmn hX he ?_ hr hc]
  have := pt_lt (nd := s.nd) (id := f / 2) hn (by omega) hk (by rw [hof.n] at hi; exact Finset.mem_range.1 hi)
  rwa [hof.n]

/-- Normals of a cube. -/
theorem minor_id {nd d j : Nat} (hd : d < nd) (hj : j < nd) {J : Nat → Nat → ℝ} (h : ∀ r < nd, ∀ c < nd, J r c = if r = c then 1 else 0) : jacMinor nd J d j = if d = j then 1 else 0 := by
  rw [minor_congr (J' := fun r c => if r = c then 1 else 0) fun r hr c hc _ => h r hr c hc, jacMinor, jacDet]
  have e : (Matrix.of fun r c : Fin nd => if c.val = d then (if r.val = j then (1 : ℝ) else 0) else if r.val = c.val then 1 else 0) = Matrix.updateCol (1 : Matrix (Fin nd) (Fin nd) ℝ) ⟨d, hd⟩ (Pi.single ⟨j, hj⟩ 1) := by
    ext r c
    rw [Matrix.updateCol_apply]
    simp only [Matrix.of_apply, Fin.ext_iff, Pi.single_apply, Matrix.one_apply]
  rw [e, ← Matrix.cramer_apply, Matrix.cramer_one]
  simp [Pi.single_apply, Fin.ext_iff]

theorem cart_grad (hX : InSpace s b m X) {e : Nat} (he : e ∈ s.elems) (hcart : (s.elem e).deformed = false) (hsz : (s.elem e).size ≠ 0) {r c : Nat} (hr : r < s.nd) (x : Nat → ℝ) : eval x (grad s X e r c) = if r = c then 1 else 0 := by
  rw [grad_eval]
  have : fieldOf (X e r) = fun ξ => (s.elem e).corner r + (s.elem e).size * ξ r := by funext ξ; exact hX.cart e he hcart r hr ξ
  rw [this, partialD]
  by_cases h : r = c
  · subst h
    have e1 : (fun t => (s.elem e).corner r + (s.elem e).size * Function.update x r t r) = fun t => (Polynomial.C ((s.elem e).corner r) + Polynomial.C (s.elem e).size * Polynomial.X).eval t := by funext t; simp
    rw [e1, Polynomial.deriv]
    simp [hsz]
  · have e1 : (fun t => (s.elem e).corner r + (s.elem e).size * Function.update x c t r) = fun t => (s.elem e).corner r + (s.elem e).size * x r := by funext t; rw [Function.update_of_ne h]
    rw [e1, deriv_const, zero_div, if_neg h]

theorem cart_normal (hX : InSpace s b m X) {e : Nat} (he : e ∈ s.elems) (hcart : (s.elem e).deformed = false) (hsz : (s.elem e).size ≠ 0) {d j : Nat} (hd : d < s.nd) (hj : j < s.nd) (x : Nat → ℝ) :
    eval x (inNormal s X e d j) = if d = j then 1 else 0 := by
  rw [inNormal, eval_minor]
  exact minor_id hd hj fun r hr c hc => cart_grad hX he hcart hsz hr x

/-- Where quadrature point `k` of a face is. -/
def facePoint (b : Basis.Nodes ℝ) (nd f k : Nat) : Nat → ℝ := facePos b nd (f / 2) ((f % 2 : Nat) : ℝ) (fun _ => 0) 1 k

theorem facePoint_self (b : Basis.Nodes ℝ) (nd f k : Nat) : Function.update (facePoint b nd f k) (f / 2) ((f % 2 : Nat) : ℝ) = facePoint b nd f k := by
  funext a
  rw [Function.update_apply]
  split_ifs with h
  · rw [facePoint, facePos, if_pos h]
  · rfl

/-- What elements write to their faces are the normals of the faces. -/
theorem faceNormal_exact (hof : bs.IsOf b) (hb : b.Distinct) (hn : 0 < b.n) (hmn : m ≤ b.n) (hX : InSpace s b m X) {e : Nat} (he : e ∈ s.elems) (hsz : (s.elem e).size ≠ 0) {f k j : Nat} (hf : f < 2 * s.nd) (hk : k < b.n ^ (s.nd - 1)) (hj : j < s.nd) :
    (s.elem e).faceNormal b bs s.nd f j k = surfaceNormal s X (.elem e f) j (facePoint b s.nd f k) := by
  rw [normal_elem, facePoint_self, ElemShape.faceNormal]
  cases hdef : (s.elem e).deformed
  · rw [cart_normal hX he hdef hsz (by omega) hj]; rfl
  · rw [if_pos rfl, inNormal, eval_minor]
    exact minor_congr fun r hr c hc _ => faceJac_exact hof hb hn hmn hX he hf hk hr hc

theorem inNormal_degree (hnd : 1 ≤ s.nd ∧ s.nd ≤ 3) (hm1 : 1 ≤ m) (hX : InSpace s b m X) {e : Nat} (he : e ∈ s.elems) {d j i : Nat} (hd : d < s.nd) (hj : j < s.nd) (hi : i < s.nd) :
    degreeOf i (inNormal s X e d j) ≤ (s.nd - 1) * (m - 1) - if i = d then 0 else 1 :=
  minor_degree hnd hm1 (P := fun r => C (s.elem e).size⁻¹ * X e r) (fun r hr i hi => lt_of_le_of_lt (degreeOf_C_mul_le _ _ _) (hX.poly e he r hr i hi)) hd hj hi

end
end Hexed.Metric
