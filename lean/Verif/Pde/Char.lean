import Verif.Pde.Lemmas
import Mathlib.LinearAlgebra.Matrix.NonsingularInverse
import Mathlib.LinearAlgebra.Matrix.Notation
set_option autoImplicit false
set_option linter.unusedVariables false

/-!
# The characteristic decomposition (C33) and the estimated wave speed (C34)
-/

namespace Hexed.Pde
noncomputable section

/-- The unit vector along `n`. -/
def Unit (nd : Nat) (n : Nat → ℝ) (i : Nat) : ℝ := n i / √(dotN nd n n)

theorem unit_dot (nd : Nat) (n : Nat → ℝ) (h : 0 < dotN nd n n) : dotN nd (Unit nd n) (Unit nd n) = 1 := by
  have : dotN nd (Unit nd n) (Unit nd n) = dotN nd n (Unit nd n) / √(dotN nd n n) := dot_div_left nd _ _ _
  rw [this, dot_comm]
  have : dotN nd (Unit nd n) n = dotN nd n n / √(dotN nd n n) := dot_div_left nd _ _ _
  rw [this, div_div, Real.mul_self_sqrt h.le, div_self h.ne']

section
variable (nd : Nat) (u n : Nat → ℝ)

theorem char_dir : (Characteristics.new nd u n).dir = Unit nd n := rfl
theorem char_veloc : (Characteristics.new nd u n).veloc = Vel nd u := rfl

theorem char_pres : 2 / 5 * (u (nd + 1) - 1 / 2 * u nd * dotN nd (Vel nd u) (Vel nd u)) = Pres nd u := by
  have a2 : dotN nd (Vel nd u) (Vel nd u) = dotN nd u u / u nd / u nd := by
    have : dotN nd (Vel nd u) (Vel nd u) = dotN nd u (Vel nd u) / u nd := dot_div_left nd _ _ _
    rw [this, dot_comm]
    congr 1; exact dot_div_left nd _ _ _
  rw [a2, Pres]
  by_cases h : u nd = 0
  · simp [h]
  · field_simp

theorem char_new (hu : Admissible nd u) :
    (Characteristics.new nd u n).vals = ![dotN nd (Unit nd n) (Vel nd u) - Sound nd u, dotN nd (Unit nd n) (Vel nd u) + Sound nd u, dotN nd (Unit nd n) (Vel nd u)] ∧
    (Characteristics.new nd u n).vecs =
      !![dotN nd (Unit nd n) (Vel nd u) - Sound nd u, dotN nd (Unit nd n) (Vel nd u) + Sound nd u, dotN nd (Unit nd n) (Vel nd u);
         1, 1, 1;
         7 / 2 * Pres nd u / u nd + dotN nd (Vel nd u) (Vel nd u) / 2 - dotN nd (Unit nd n) (Vel nd u) * Sound nd u,
         7 / 2 * Pres nd u / u nd + dotN nd (Vel nd u) (Vel nd u) / 2 + dotN nd (Unit nd n) (Vel nd u) * Sound nd u,
         dotN nd (Vel nd u) (Vel nd u) / 2] := by
  have e1 : ∀ x, nrml nd (fun i => n i / norm nd n) x = dotN nd (Unit nd n) x := fun x => rfl
  have e2 : (sumN nd fun i => u i / u nd * (u i / u nd)) = dotN nd (Vel nd u) (Vel nd u) := rfl
  have e3 : max (Pres nd u) 0 = Pres nd u := max_eq_left hu.pres.le
  have hm := hu.mass.ne'
  have e4 : (fun i => u i / u nd) = Vel nd u := rfl
  have e5 : √(7 / 5 * Pres nd u / u nd) = Sound nd u := rfl
  constructor
  · simp only [Characteristics.new, e1, e2, e4, char_pres, e3, e5]
  · ext i j
    simp only [Characteristics.new, e1, e2, e4, char_pres, e3, e5]
    fin_cases i <;> fin_cases j <;> simp <;> field_simp <;> ring

theorem vecs_det (hu : Admissible nd u) : (Characteristics.new nd u n).vecs.det ≠ 0 := by
  rw [(char_new nd u n hu).2, Matrix.det_fin_three]
  have hc : 0 < Sound nd u := Real.sqrt_pos.2 (div_pos (mul_pos (by norm_num) hu.pres) hu.mass)
  have hk : 0 < 7 * Pres nd u / u nd * Sound nd u := mul_pos (div_pos (mul_pos (by norm_num) hu.pres) hu.mass) hc
  simp only [Matrix.of_apply, Matrix.cons_val', Matrix.cons_val_zero, Matrix.cons_val_one, Matrix.cons_val, Matrix.cons_val_fin_one]
  refine ne_of_gt (lt_of_lt_of_eq hk ?_)
  ring

end

/-- C33, first half: the three parts of any state add up to it. -/
theorem characteristic_sum (nd : Nat) (u n : Nat → ℝ) (hu : Admissible nd u) (hn : 0 < dotN nd n n) (s : Nat → ℝ) (v : Nat) (hv : v < nd + 2) :
    ∑ j : Fin 3, (Characteristics.new nd u n).decomp nd s v j = s v := by
  have hunit := unit_dot nd n hn
  set ch := Characteristics.new nd u n with hch
  set corr := fun i => tang nd ch.dir s i - s nd * tang nd ch.dir ch.veloc i with hcorr
  set st : Fin 3 → ℝ := ![nrml nd ch.dir s, s nd, s (nd + 1) - sumN nd fun i => ch.veloc i * corr i] with hst
  set al := ch.vecs⁻¹.mulVec st with hal
  have hsol : ch.vecs.mulVec al = st := by
    rw [hal, Matrix.mulVec_mulVec, Matrix.mul_nonsing_inv _ (isUnit_iff_ne_zero.2 (vecs_det nd u n hu)), Matrix.one_mulVec]
  have hrow : ∀ i : Fin 3, ∑ j, ch.vecs i j * al j = st i := fun i => congrFun hsol i
  have r1 : ∑ j, al j = s nd := by
    have h := hrow 1
    rw [hch, (char_new nd u n hu).2] at h
    rw [Fin.sum_univ_three] at h ⊢
    simpa [hst] using h
  have hdec : ∀ j, ch.decomp nd s v j = if v < nd then ch.dir v * (ch.vecs 0 j * al j) + tang nd ch.dir ch.veloc v * al j + (if j = 2 then corr v else 0)
      else if v = nd then ch.vecs 1 j * al j else ch.vecs 2 j * al j + (if j = 2 then (sumN nd fun i => ch.veloc i * corr i) else 0) := fun j => rfl
  simp only [hdec]
  by_cases h1 : v < nd
  · simp only [if_pos h1, Finset.sum_add_distrib, ← Finset.mul_sum, hrow 0, r1, Finset.sum_ite_eq', Finset.mem_univ, if_true]
    simp only [hst, hcorr, Matrix.cons_val_zero, tang]
    ring
  · by_cases h2 : v = nd
    · simp only [if_neg h1, if_pos h2, hrow 1]; rw [h2, hst]; simp
    · obtain rfl : v = nd + 1 := by omega
      simp only [if_neg h1, if_neg h2, Finset.sum_add_distrib, hrow 2, Finset.sum_ite_eq', Finset.mem_univ, if_true, hst]
      simp

/-- C33, second half: each part is an eigenvector of the flux Jacobian along the normal, with eigenvalue `v_n - c`, `v_n + c`, `v_n`. -/
theorem characteristic_eigen (nd : Nat) (u n : Nat → ℝ) (hu : Admissible nd u) (hn : 0 < dotN nd n n) (s : Nat → ℝ) (j : Fin 3) :
    (Characteristics.new nd u n).vals j = ![dotN nd (Vel nd u) (Unit nd n) - Sound nd u, dotN nd (Vel nd u) (Unit nd n) + Sound nd u, dotN nd (Vel nd u) (Unit nd n)] j ∧
    IsEigen nd u (Unit nd n) (fun v => (Characteristics.new nd u n).decomp nd s v j) ((Characteristics.new nd u n).vals j) := by
  have hunit := unit_dot nd n hn
  have hvals := (char_new nd u n hu).1
  have hvecs := (char_new nd u n hu).2
  refine ⟨by rw [hvals, dot_comm], ?_⟩
  have hdir : (Characteristics.new nd u n).dir = Unit nd n := rfl
  have hvel : (Characteristics.new nd u n).veloc = Vel nd u := rfl
  set ch := Characteristics.new nd u n with hch
  set N := Unit nd n with hN
  set V := Vel nd u with hV
  set corr := fun i => tang nd ch.dir s i - s nd * tang nd ch.dir ch.veloc i with hcorr
  set st : Fin 3 → ℝ := ![nrml nd ch.dir s, s nd, s (nd + 1) - sumN nd fun i => ch.veloc i * corr i] with hst
  set al := (ch.vecs⁻¹.mulVec st) j with hal
  have hdec : ∀ v, ch.decomp nd s v j = if v < nd then ch.dir v * (ch.vecs 0 j * al) + tang nd ch.dir ch.veloc v * al + (if j = 2 then corr v else 0)
      else if v = nd then ch.vecs 1 j * al else ch.vecs 2 j * al + (if j = 2 then (sumN nd fun i => ch.veloc i * corr i) else 0) := fun v => rfl
  -- the part, written with the wave speed
  set lam : ℝ := ![-Sound nd u, Sound nd u, 0] j with hlam
  set cr : Nat → ℝ := fun i => if j = 2 then corr i else 0 with hcr
  have hval : ch.vals j = dotN nd V N + lam := by
    rw [hvals, dot_comm nd V N]; fin_cases j <;> simp [hlam, sub_eq_add_neg]
  have hv0 : ch.vecs 0 j = dotN nd V N + lam := by
    rw [hvecs, dot_comm nd V N]; fin_cases j <;> simp [hlam, sub_eq_add_neg]
  have hv1 : ch.vecs 1 j = 1 := by rw [hvecs]; fin_cases j <;> simp
  have hv2 : ch.vecs 2 j = (if j = 2 then 0 else 7 / 2 * Pres nd u / u nd) + dotN nd V V / 2 + dotN nd V N * lam := by
    rw [hvecs, dot_comm nd V N]; fin_cases j <;> simp [hlam, sub_eq_add_neg]
  have hnv : nrml nd N V = dotN nd V N := dot_comm nd N V
  have hmom : ∀ i < nd, ch.decomp nd s i j = al * V i + al * lam * N i + cr i := by
    intro i hi
    rw [hdec, if_pos hi, hv0, hdir, hvel, tang, hnv]
    simp only [hcr]; ring
  have hmass : ch.decomp nd s nd j = al := by
    rw [hdec, if_neg (by omega), if_pos rfl, hv1, one_mul]
  have hcrd : sumN nd (fun i => ch.veloc i * corr i) = dotN nd V corr := rfl
  have hen : ch.decomp nd s (nd + 1) j = al * ((if j = 2 then 0 else 7 / 2 * Pres nd u / u nd) + dotN nd V V / 2 + dotN nd V N * lam) + dotN nd V cr := by
    rw [hdec, if_neg (by omega), if_neg (by omega), hv2, hcrd, hcr]
    by_cases h : j = 2
    · simp only [if_pos h]; ring
    · simp only [if_neg h]
      have : dotN nd V (fun _ => 0) = 0 := by simp [dotN]
      rw [this]; ring
  have hcrN : dotN nd cr N = 0 := by
    have hc : dotN nd corr N = 0 := by
      have t : ∀ x, dotN nd (tang nd N x) N = 0 := by
        intro x
        have : dotN nd (tang nd N x) N = dotN nd x N - dotN nd (fun i => N i * nrml nd N x) N := dot_sub_left nd x _ N
        rw [this, dot_smul_right', hunit, mul_one]
        have : nrml nd N x = dotN nd x N := dot_comm nd N x
        rw [this, sub_self]
      have : dotN nd corr N = dotN nd (tang nd N s) N - dotN nd (fun i => s nd * tang nd N V i) N := dot_sub_left nd (tang nd N s) _ N
      rw [this, dot_smul_left, t, t]; ring
    rw [hcr]
    by_cases h : j = 2
    · simp only [if_pos h]; exact hc
    · simp [if_neg h, dotN]
  have dN : dotN nd (fun v => ch.decomp nd s v j) N = al * (dotN nd V N + lam) := by
    rw [dot_congr (a' := fun i => al * V i + al * lam * N i + cr i) hmom (fun _ _ => rfl), dot_add_left, dot_add_left, dot_smul_left, dot_smul_left, hunit, hcrN]; ring
  have dV : dotN nd V (fun v => ch.decomp nd s v j) = al * dotN nd V V + al * lam * dotN nd V N + dotN nd V cr := by
    rw [dot_comm, dot_congr (a' := fun i => al * V i + al * lam * N i + cr i) hmom (fun _ _ => rfl), dot_add_left, dot_add_left, dot_smul_left, dot_smul_left, dot_comm nd N V, dot_comm nd cr V]
  have hm := hu.mass.ne'
  have hc2 : Sound nd u * Sound nd u = 7 / 5 * Pres nd u / u nd := Real.mul_self_sqrt (div_pos (mul_pos (by norm_num) hu.pres) hu.mass).le
  have hl2 : lam * lam = if j = 2 then 0 else 7 / 5 * Pres nd u / u nd := by
    fin_cases j <;> simp [hlam, hc2]
  intro v hv
  refine (euler_deriv nd u N _ hm v).congr_deriv ?_
  rw [← hV]
  simp only [dN, dV, hmass, hen]
  have hpd : 2 / 5 * (al * ((if j = 2 then 0 else 7 / 2 * Pres nd u / u nd) + dotN nd V V / 2 + dotN nd V N * lam) + dotN nd V cr - (al * dotN nd V V + al * lam * dotN nd V N + dotN nd V cr) + dotN nd V V * al / 2)
      = al * (lam * lam) := by
    rw [hl2]; by_cases h : j = 2
    · simp only [if_pos h]; ring
    · simp only [if_neg h]; ring
  rw [hpd, hval]
  by_cases h1 : v < nd
  · simp only [if_pos h1, hmom v h1]
    have hcrz : lam * cr v = 0 := by
      rw [hcr]; by_cases h : j = 2
      · have : lam = 0 := by rw [hlam, h]; rfl
        rw [this, zero_mul]
      · simp [if_neg h]
    have hVv : u v = V v * u nd := by rw [hV, Vel]; field_simp
    rw [hVv]
    field_simp
    linear_combination (-1 : ℝ) * hcrz
  · by_cases h2 : v = nd
    · subst h2
      simp only [lt_irrefl, if_false, if_true, hmass]
      field_simp; ring
    · obtain rfl : v = nd + 1 := by omega
      simp only [if_neg h1, if_neg h2, hen]
      have hE : u (nd + 1) = 5 / 2 * Pres nd u + 1 / 2 * u nd * dotN nd V V := by rw [← char_pres]; ring
      have hcrz : lam * dotN nd V cr = 0 := by
        rw [hcr]; by_cases h : j = 2
        · have : lam = 0 := by rw [hlam, h]; rfl
          rw [this, zero_mul]
        · simp [if_neg h, dotN]
      have hk : lam * (if j = 2 then 0 else 7 / 2 * Pres nd u / u nd) = lam * (7 / 2 * Pres nd u / u nd) := by
        by_cases h : j = 2
        · have : lam = 0 := by rw [hlam, h]; rfl
          rw [this, zero_mul, zero_mul]
        · rw [if_neg h]
      have goal2 : (al * (dotN nd V N + lam) / u nd - dotN nd V N * al / u nd) * (5 / 2 * Pres nd u + 1 / 2 * u nd * dotN nd V V) + Pres nd u * (al * (dotN nd V N + lam) / u nd - dotN nd V N * al / u nd)
          = al * lam * (7 / 2 * Pres nd u / u nd) + al * lam * dotN nd V V / 2 := by
        field_simp; ring
      rw [hE]
      linear_combination goal2 - al * hk - hcrz

/-! ## C34 -/

/-- The estimated speed is at least the speed of the fastest physical wave. -/
theorem char_speed_bound (nd : Nat) (u : Nat → ℝ) (hm : 0 < u nd) (hp : 0 ≤ Pres nd u) : Speed nd u + Sound nd u ≤ charSpeed nd u := by
  have h1 : Speed nd u = norm nd u / u nd := by
    have a2 : dotN nd (Vel nd u) (Vel nd u) = dotN nd u u / u nd / u nd := by
      have : dotN nd (Vel nd u) (Vel nd u) = dotN nd u (Vel nd u) / u nd := dot_div_left nd _ _ _
      rw [this, dot_comm]
      congr 1; exact dot_div_left nd _ _ _
    rw [Speed, a2, div_div, Real.sqrt_div (dot_self_nonneg nd u), Real.sqrt_mul_self hm.le]; rfl
  have h2 : Sound nd u ≤ √(heatRat * (heatRat - 1) * u (nd + 1) / u nd) := by
    refine Real.sqrt_le_sqrt ?_
    rw [div_le_div_iff_of_pos_right hm, heatRat]
    have : Pres nd u ≤ 2 / 5 * u (nd + 1) := by
      rw [Pres]
      have : 0 ≤ dotN nd u u / (2 * u nd) := div_nonneg (dot_self_nonneg nd u) (by linarith)
      linarith
    nlinarith
  rw [charSpeed, ← h1]; linarith

/-- No characteristic, in any direction, travels faster than the estimate. -/
theorem char_speed_eigenvalues (nd : Nat) (u n : Nat → ℝ) (hu : Admissible nd u) (hn : 0 < dotN nd n n) (j : Fin 3) :
    abs ((Characteristics.new nd u n).vals j) ≤ charSpeed nd u := by
  have hb := char_speed_bound nd u hu.mass hu.pres.le
  have hc : 0 ≤ Sound nd u := Real.sqrt_nonneg _
  have hvn : abs (dotN nd (Unit nd n) (Vel nd u)) ≤ Speed nd u := by
    refine Real.abs_le_sqrt ?_
    have := cauchy nd (Unit nd n) (Vel nd u)
    rwa [unit_dot nd n hn, one_mul] at this
  have h := abs_le.1 hvn
  rw [(char_new nd u n hu).1]
  fin_cases j
  · simp only [Fin.zero_eta, Matrix.cons_val_zero]; rw [abs_le]; constructor <;> linarith [h.1, h.2]
  · simp only [Fin.mk_one, Matrix.cons_val_one, Matrix.cons_val_zero]; rw [abs_le]; constructor <;> linarith [h.1, h.2]
  · simp only [Fin.reduceFinMk, Matrix.cons_val]; rw [abs_le]; constructor <;> linarith [h.1, h.2]

/-! ## Non-vacuity -/

/-- Air moving with momentum (100, 50) in two dimensions. -/
def exState (i : Nat) : ℝ := match i with | 0 => 100 | 1 => 50 | 2 => 1 | _ => 250000

theorem exState_admissible : Admissible 2 exState := by
  constructor
  · simp [exState]
  · norm_num [Pres, dotN, exState, Finset.sum_range_succ]

example (s : Nat → ℝ) : ∑ j : Fin 3, (Characteristics.new 2 exState fun i => if i = 0 then 3 else 4).decomp 2 s 0 j = s 0 :=
  characteristic_sum 2 exState _ exState_admissible (by norm_num [dotN, Finset.sum_range_succ]) s 0 (by norm_num)
example : abs ((Characteristics.new 2 exState fun i => if i = 0 then 3 else 4).vals 1) ≤ charSpeed 2 exState :=
  char_speed_eigenvalues 2 exState _ exState_admissible (by norm_num [dotN, Finset.sum_range_succ]) 1

end
end Hexed.Pde
