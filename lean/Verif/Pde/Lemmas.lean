import Mathlib.Analysis.Calculus.Deriv.Mul
import Mathlib.Analysis.Calculus.Deriv.Inv
import Mathlib.Analysis.Calculus.Deriv.Add
import Mathlib.Analysis.Calculus.Deriv.Pow
import Mathlib.Algebra.BigOperators.Field
import Mathlib.LinearAlgebra.Matrix.Determinant.Basic
import Mathlib.Tactic.FieldSimp
import Mathlib.Tactic.Ring
import Mathlib.Tactic.Linarith
import Mathlib.Tactic.LinearCombination
import Mathlib.Algebra.Order.BigOperators.Ring.Finset
import Verif.Pde.Spec
set_option autoImplicit false
set_option linter.unusedVariables false

namespace Hexed.Pde
noncomputable section

theorem sumN_eq (nd : Nat) (f : Nat → ℝ) : sumN nd f = ∑ i ∈ Finset.range nd, f i := rfl

theorem dot_comm (nd : Nat) (a b : Nat → ℝ) : dotN nd a b = dotN nd b a := Finset.sum_congr rfl fun _ _ => mul_comm _ _

theorem dot_add_left (nd : Nat) (a b c : Nat → ℝ) : dotN nd (fun i => a i + b i) c = dotN nd a c + dotN nd b c := by
  simp only [dotN, add_mul, Finset.sum_add_distrib]

theorem dot_sub_left (nd : Nat) (a b c : Nat → ℝ) : dotN nd (fun i => a i - b i) c = dotN nd a c - dotN nd b c := by
  simp only [dotN, sub_mul, Finset.sum_sub_distrib]

theorem dot_smul_left (nd : Nat) (k : ℝ) (a c : Nat → ℝ) : dotN nd (fun i => k * a i) c = k * dotN nd a c := by
  simp only [dotN, mul_assoc, Finset.mul_sum]

theorem dot_smul_right' (nd : Nat) (k : ℝ) (a c : Nat → ℝ) : dotN nd (fun i => a i * k) c = k * dotN nd a c := by
  rw [← dot_smul_left]; congr 1; funext i; ring

theorem dot_div_left (nd : Nat) (k : ℝ) (a c : Nat → ℝ) : dotN nd (fun i => a i / k) c = dotN nd a c / k := by
  simp only [dotN, Finset.sum_div]; exact Finset.sum_congr rfl fun _ _ => by ring

theorem dot_neg_left (nd : Nat) (a c : Nat → ℝ) : dotN nd (fun i => -a i) c = -dotN nd a c := by
  simp only [dotN, neg_mul, Finset.sum_neg_distrib]

theorem dot_congr {nd : Nat} {a a' b b' : Nat → ℝ} (h : ∀ i < nd, a i = a' i) (h' : ∀ i < nd, b i = b' i) : dotN nd a b = dotN nd a' b' :=
  Finset.sum_congr rfl fun i hi => by rw [h i (Finset.mem_range.1 hi), h' i (Finset.mem_range.1 hi)]

theorem dot_self_nonneg (nd : Nat) (a : Nat → ℝ) : 0 ≤ dotN nd a a := Finset.sum_nonneg fun _ _ => mul_self_nonneg _

theorem cauchy (nd : Nat) (a b : Nat → ℝ) : (dotN nd a b) ^ 2 ≤ dotN nd a a * dotN nd b b := by
  have := Finset.sum_mul_sq_le_sq_mul_sq (Finset.range nd) a b
  simpa only [dotN, ← pow_two] using this

theorem norm_eq (nd : Nat) (a : Nat → ℝ) : norm nd a = √(dotN nd a a) := rfl

theorem norm_mul_self (nd : Nat) (a : Nat → ℝ) : norm nd a * norm nd a = dotN nd a a := Real.mul_self_sqrt (dot_self_nonneg nd a)

/-! ## Pressure and flux -/

theorem pressure_eq (nd : Nat) (u : Nat → ℝ) : pressure nd u = Pres nd u := by
  have : sumN nd (fun i => u i * u i) = dotN nd u u := rfl
  rw [pressure, kinEner, Pres, this, heatRat]
  by_cases h : u nd = 0
  · rw [h]; norm_num
  · field_simp; ring

theorem fluxConv_eq (nd : Nat) (u n : Nat → ℝ) (hm : u nd ≠ 0) (v : Nat) (hv : v < nd + 2) : fluxConv nd u n v = Euler nd u n v := by
  have : (sumN nd fun j => u j * n j) = dotN nd u n := rfl
  have e : dotN nd (Vel nd u) n = dotN nd u n / u nd := dot_div_left nd _ _ _
  simp only [fluxConv, this, Euler, e, pressure_eq]
  by_cases h1 : v < nd
  · rw [if_pos h1, if_pos h1]; ring
  · rw [if_neg h1, if_neg h1]
    by_cases h2 : v = nd
    · rw [if_pos h2, if_pos h2, h2]; field_simp; ring
    · rw [if_neg h2, if_neg h2]
      obtain rfl : v = nd + 1 := by omega
      ring

/-! ## The derivative of the Euler flux -/

/-- The Euler flux as a function of the few scalars it depends on. -/
theorem euler_deriv (nd : Nat) (u n d : Nat → ℝ) (hm : u nd ≠ 0) (v : Nat) :
    HasDerivAt (fun t => Euler nd (fun i => u i + t * d i) n v)
      ((dotN nd d n / u nd - dotN nd (Vel nd u) n * d nd / u nd) * u v + dotN nd (Vel nd u) n * d v +
        (let dp := 2 / 5 * (d (nd + 1) - dotN nd (Vel nd u) d + dotN nd (Vel nd u) (Vel nd u) * d nd / 2)
         if v < nd then dp * n v else if v = nd then 0 else dp * dotN nd (Vel nd u) n + Pres nd u * (dotN nd d n / u nd - dotN nd (Vel nd u) n * d nd / u nd))) 0 := by
  have hr : HasDerivAt (fun t : ℝ => u nd + t * d nd) (d nd) 0 := by simpa using ((hasDerivAt_id (0 : ℝ)).mul_const (d nd)).const_add (u nd)
  have hr0 : u nd + 0 * d nd ≠ 0 := by simpa using hm
  have he : HasDerivAt (fun t : ℝ => u (nd + 1) + t * d (nd + 1)) (d (nd + 1)) 0 := by simpa using ((hasDerivAt_id (0 : ℝ)).mul_const (d (nd + 1))).const_add (u (nd + 1))
  have hv : HasDerivAt (fun t : ℝ => u v + t * d v) (d v) 0 := by simpa using ((hasDerivAt_id (0 : ℝ)).mul_const (d v)).const_add (u v)
  have ha : HasDerivAt (fun t : ℝ => dotN nd u n + t * dotN nd d n) (dotN nd d n) 0 := by simpa using ((hasDerivAt_id (0 : ℝ)).mul_const (dotN nd d n)).const_add (dotN nd u n)
  have hb : HasDerivAt (fun t : ℝ => dotN nd u u + t * (2 * dotN nd u d) + t ^ 2 * dotN nd d d) (2 * dotN nd u d) 0 := by
    have h1 := ((hasDerivAt_id (0 : ℝ)).mul_const (2 * dotN nd u d)).const_add (dotN nd u u)
    have h2 := ((hasDerivAt_pow 2 (0 : ℝ)).mul_const (dotN nd d d))
    have := h1.fun_add h2
    simpa using this
  have e1 : ∀ t : ℝ, dotN nd (Vel nd fun i => u i + t * d i) n = (dotN nd u n + t * dotN nd d n) / (u nd + t * d nd) := by
    intro t
    have : dotN nd (fun i => u i + t * d i) n = dotN nd u n + t * dotN nd d n := by rw [dot_add_left, dot_smul_left]
    rw [← this]; exact dot_div_left nd _ _ _
  have e2 : ∀ t : ℝ, dotN nd (fun i => u i + t * d i) (fun i => u i + t * d i) = dotN nd u u + t * (2 * dotN nd u d) + t ^ 2 * dotN nd d d := by
    intro t
    simp only [dotN, Finset.mul_sum, ← Finset.sum_add_distrib]
    exact Finset.sum_congr rfl fun i _ => by ring
  have hvn := ha.fun_div hr hr0
  have hp : HasDerivAt (fun t : ℝ => Pres nd fun i => u i + t * d i) (2 / 5 * (d (nd + 1) - dotN nd (Vel nd u) d + dotN nd (Vel nd u) (Vel nd u) * d nd / 2)) 0 := by
    have h := (he.fun_sub (hb.fun_div (hr.const_mul 2) (by simpa using hm))).const_mul (2 / 5 : ℝ)
    have ef : (fun t : ℝ => Pres nd fun i => u i + t * d i) = fun t => 2 / 5 * (u (nd + 1) + t * d (nd + 1) - (dotN nd u u + t * (2 * dotN nd u d) + t ^ 2 * dotN nd d d) / (2 * (u nd + t * d nd))) := by
      funext t; rw [Pres, e2]
    rw [ef]
    refine h.congr_deriv ?_
    have a1 : dotN nd (Vel nd u) d = dotN nd u d / u nd := dot_div_left nd _ _ _
    have a2 : dotN nd (Vel nd u) (Vel nd u) = dotN nd u u / u nd / u nd := by
      have : dotN nd (Vel nd u) (Vel nd u) = dotN nd u (Vel nd u) / u nd := dot_div_left nd _ _ _
      rw [this, dot_comm]
      congr 1; exact dot_div_left nd _ _ _
    rw [a1, a2]
    field_simp
    ring
  have hflux := hvn.fun_mul hv
  have a1 : dotN nd (Vel nd u) n = dotN nd u n / u nd := dot_div_left nd _ _ _
  by_cases h1 : v < nd
  · have ef : (fun t : ℝ => Euler nd (fun i => u i + t * d i) n v) = fun t => (dotN nd u n + t * dotN nd d n) / (u nd + t * d nd) * (u v + t * d v) + (Pres nd fun i => u i + t * d i) * n v := by
      funext t; simp only [Euler, e1, if_pos h1]
    rw [ef]
    refine (hflux.fun_add (hp.mul_const (n v))).congr_deriv ?_
    simp only [if_pos h1, a1]
    field_simp
    ring
  · by_cases h2 : v = nd
    · have ef : (fun t : ℝ => Euler nd (fun i => u i + t * d i) n v) = fun t => (dotN nd u n + t * dotN nd d n) / (u nd + t * d nd) * (u v + t * d v) := by
        funext t; simp only [Euler, e1, if_neg h1, if_pos h2, add_zero]
      rw [ef]
      refine hflux.congr_deriv ?_
      simp only [if_neg h1, if_pos h2, a1]
      field_simp
      all_goals ring
    · have ef : (fun t : ℝ => Euler nd (fun i => u i + t * d i) n v) = fun t => (dotN nd u n + t * dotN nd d n) / (u nd + t * d nd) * (u v + t * d v) + (Pres nd fun i => u i + t * d i) * ((dotN nd u n + t * dotN nd d n) / (u nd + t * d nd)) := by
        funext t; simp only [Euler, e1, if_neg h1, if_neg h2]
      rw [ef]
      refine (hflux.fun_add (hp.fun_mul hvn)).congr_deriv ?_
      simp only [if_neg h1, if_neg h2, a1, zero_mul, add_zero]
      field_simp

end
end Hexed.Pde
