import Verif.Pde.Char
set_option autoImplicit false
set_option linter.unusedVariables false

/-!
# The numerical flux is upwind (C54)
-/

namespace Hexed.Pde
open Hexed.Spatial (numFlux)
noncomputable section

theorem adm_add {nd : Nat} {a b : Nat → ℝ} (ha : Admissible nd a) (hb : Admissible nd b) : Admissible nd fun v => a v + b v := by
  refine ⟨add_pos ha.mass hb.mass, ?_⟩
  have hra := ha.mass
  have hrb := hb.mass
  have key : dotN nd (fun v => a v + b v) (fun v => a v + b v) / (2 * (a nd + b nd)) ≤ dotN nd a a / (2 * a nd) + dotN nd b b / (2 * b nd) := by
    simp only [dotN, Finset.sum_div]
    rw [← Finset.sum_add_distrib]
    refine Finset.sum_le_sum fun i _ => ?_
    have : a i * a i / (2 * a nd) + b i * b i / (2 * b nd) - (a i + b i) * (a i + b i) / (2 * (a nd + b nd)) = (a i * b nd - b i * a nd) ^ 2 / (2 * a nd * b nd * (a nd + b nd)) := by
      field_simp; ring
    have h0 : 0 ≤ (a i * b nd - b i * a nd) ^ 2 / (2 * a nd * b nd * (a nd + b nd)) := by positivity
    linarith
  have h1 := ha.pres
  have h2 := hb.pres
  simp only [Pres] at h1 h2 ⊢
  linarith

theorem adm_smul {nd : Nat} {a : Nat → ℝ} (ha : Admissible nd a) {k : ℝ} (hk : 0 < k) : Admissible nd fun v => k * a v := by
  refine ⟨mul_pos hk ha.mass, ?_⟩
  have hra := ha.mass
  have h1 : Pres nd (fun v => k * a v) = k * Pres nd a := by
    simp only [Pres, dotN]
    have : ∑ i ∈ Finset.range nd, k * a i * (k * a i) = k * k * ∑ i ∈ Finset.range nd, a i * a i := by
      rw [Finset.mul_sum]; exact Finset.sum_congr rfl fun i _ => by ring
    rw [this]; field_simp
  rw [h1]; exact mul_pos hk ha.pres

theorem adm_congr {nd : Nat} {a b : Nat → ℝ} (h : ∀ v < nd + 2, a v = b v) (ha : Admissible nd a) : Admissible nd b := by
  have e : ∀ i < nd, b i = a i := fun i hi => (h i (by omega)).symm
  refine ⟨by rw [← h nd (by omega)]; exact ha.mass, ?_⟩
  rw [Pres, dot_congr e e, ← h nd (by omega), ← h (nd + 1) (by omega)]
  exact ha.pres

/-- Half of a Lax-Friedrichs flux: the state plus or minus the flux divided by the signal speed is physical. -/
theorem split_admissible (nd : Nat) (u n : Nat → ℝ) (hu : Admissible nd u) (hn : 0 < dotN nd n n) {a : ℝ} (ha : (Speed nd u + Sound nd u) * norm nd n ≤ a) {s : ℝ} (hs : s = 1 ∨ s = -1) :
    0 < a ∧ Admissible nd fun v => u v + s * Euler nd u n v / a := by
  have hm := hu.mass
  have hp := hu.pres
  set N := norm nd n with hN
  have hNN : N * N = dotN nd n n := norm_mul_self nd n
  have hN0 : 0 < N := by rw [hN, norm_eq]; exact Real.sqrt_pos.2 hn
  have hc : 0 < Sound nd u := Real.sqrt_pos.2 (by positivity)
  have hcc : Sound nd u * Sound nd u = 7 / 5 * Pres nd u / u nd := Real.mul_self_sqrt (by positivity)
  have hsp : 0 ≤ Speed nd u := Real.sqrt_nonneg _
  set vn := dotN nd (Vel nd u) n with hvn
  have hvb : abs vn ≤ Speed nd u * N := by
    refine abs_le_of_sq_le_sq ?_ (by positivity)
    have h1 := cauchy nd (Vel nd u) n
    have h2 : Speed nd u * Speed nd u = dotN nd (Vel nd u) (Vel nd u) := Real.mul_self_sqrt (dot_self_nonneg _ _)
    calc vn ^ 2 ≤ dotN nd (Vel nd u) (Vel nd u) * dotN nd n n := h1
      _ = (Speed nd u * N) ^ 2 := by rw [← h2, ← hNN]; ring
  have ha0 : 0 < a := lt_of_lt_of_le (by positivity) ha
  have hss : s * s = 1 := by rcases hs with rfl | rfl <;> norm_num
  have hka : Sound nd u * N ≤ a + s * vn := by
    have h := abs_le.1 hvb
    rcases hs with rfl | rfl <;> nlinarith
  set k := 1 + s * vn / a with hk
  have hkeq : k * a = a + s * vn := by rw [hk]; field_simp
  have hk0 : 0 < k := by
    have : 0 < k * a := by rw [hkeq]; exact lt_of_lt_of_le (by positivity) hka
    exact pos_of_mul_pos_left this ha0.le
  have hmass : u nd + s * Euler nd u n nd / a = k * u nd := by
    simp only [Euler, lt_irrefl, if_false, if_true, add_zero, ← hvn, hk]; ring
  have hmom : ∀ i < nd, u i + s * Euler nd u n i / a = k * u i + s * Pres nd u / a * n i := by
    intro i hi
    simp only [Euler, hi, if_true, ← hvn, hk]; ring
  have hen : u (nd + 1) + s * Euler nd u n (nd + 1) / a = k * u (nd + 1) + s * Pres nd u / a * vn := by
    simp only [Euler, Nat.not_succ_lt_self, if_false, Nat.succ_ne_self, ← hvn, hk]; ring
  have hun : dotN nd u n = u nd * vn := by
    rw [hvn]; simp only [dotN, Vel, Finset.mul_sum]
    exact Finset.sum_congr rfl fun i _ => by field_simp
  refine ⟨ha0, ?_, ?_⟩
  · rw [hmass]; positivity
  · rw [Pres, dot_congr hmom hmom, hmass, hen]
    have hdot : dotN nd (fun i => k * u i + s * Pres nd u / a * n i) (fun i => k * u i + s * Pres nd u / a * n i) =
        k * k * dotN nd u u + 2 * k * (s * Pres nd u / a) * (u nd * vn) + (Pres nd u / a) ^ 2 * (N * N) := by
      rw [hNN, ← hun]
      have : (Pres nd u / a) ^ 2 = (s * Pres nd u / a) ^ 2 := by
        have : (s * Pres nd u / a) ^ 2 = (s * s) * (Pres nd u / a) ^ 2 := by ring
        rw [this, hss, one_mul]
      rw [this]
      simp only [dotN, Finset.mul_sum]
      rw [← Finset.sum_add_distrib, ← Finset.sum_add_distrib]
      exact Finset.sum_congr rfl fun i _ => by ring
    rw [hdot]
    have hP : Pres nd u = 2 / 5 * (u (nd + 1) - dotN nd u u / (2 * u nd)) := rfl
    have e : 2 / 5 * (k * u (nd + 1) + s * Pres nd u / a * vn - (k * k * dotN nd u u + 2 * k * (s * Pres nd u / a) * (u nd * vn) + (Pres nd u / a) ^ 2 * (N * N)) / (2 * (k * u nd)))
        = k * (2 / 5 * (u (nd + 1) - dotN nd u u / (2 * u nd))) - Pres nd u ^ 2 * (N * N) / (5 * k * u nd * a ^ 2) := by
      field_simp; ring
    rw [e, ← hP, sub_pos, div_lt_iff₀ (by positivity)]
    have h2 : (Sound nd u * N) * (Sound nd u * N) ≤ (k * a) * (k * a) := by
      rw [hkeq]; exact mul_le_mul hka hka (by positivity) (le_trans (by positivity) hka)
    have h3 : 7 / 5 * Pres nd u * (N * N) ≤ u nd * ((k * a) * (k * a)) := by
      have : u nd * ((Sound nd u * N) * (Sound nd u * N)) = 7 / 5 * Pres nd u * (N * N) := by
        have : u nd * ((Sound nd u * N) * (Sound nd u * N)) = u nd * (Sound nd u * Sound nd u) * (N * N) := by ring
        rw [this, hcc]; field_simp
      rw [← this]; exact mul_le_mul_of_nonneg_left h2 hm.le
    have h4 : Pres nd u * (7 / 5 * Pres nd u * (N * N)) ≤ Pres nd u * (u nd * ((k * a) * (k * a))) := mul_le_mul_of_nonneg_left h3 hp.le
    have h5 : 0 < Pres nd u ^ 2 * (N * N) := by positivity
    nlinarith

/-- The numerical flux between two physical states keeps density and pressure positive: a state that gives off the numerical flux and receives its own flux stays physical
if `lam` times the signal speed times the area is at most 1. -/
theorem flux_keeps_admissible (nd : Nat) (visc : Bool) (mu kappa : Transport) (n u0 u1 : Nat → ℝ) (h0 : Admissible nd u0) (h1 : Admissible nd u1) (hn : 0 < dotN nd n n) {lam : ℝ} (hl : 0 ≤ lam)
    (hlam : lam * (max (charSpeed nd u0) (charSpeed nd u1) * norm nd n) ≤ 1) :
    Admissible nd (fun v => u0 v - lam * (numFlux (ns nd visc mu kappa) nd n u0 u1 v - Euler nd u0 n v)) := by
  set S := max (charSpeed nd u0) (charSpeed nd u1) with hS
  have hN0 : 0 ≤ norm nd n := Real.sqrt_nonneg _
  have b0 : (Speed nd u0 + Sound nd u0) * norm nd n ≤ S * norm nd n := mul_le_mul_of_nonneg_right ((char_speed_bound nd u0 h0.mass h0.pres.le).trans (le_max_left _ _)) hN0
  have b1 : (Speed nd u1 + Sound nd u1) * norm nd n ≤ S * norm nd n := mul_le_mul_of_nonneg_right ((char_speed_bound nd u1 h1.mass h1.pres.le).trans (le_max_right _ _)) hN0
  obtain ⟨ha, s0⟩ := split_admissible nd u0 n h0 hn b0 (s := 1) (Or.inl rfl)
  obtain ⟨-, s1⟩ := split_admissible nd u1 n h1 hn b1 (s := -1) (Or.inr rfl)
  set a := S * norm nd n with haS
  have cs : ∀ u : Nat → ℝ, charSpeed nd (fetchExtrapState nd u) = charSpeed nd u := by
    intro u
    have hx : ∀ v < nd + 2, fetchExtrapState nd u v = u v := fun v hv => by rw [fetchExtrapState, if_pos hv]
    rw [charSpeed, charSpeed, norm_eq, norm_eq, dot_congr (fun i hi => hx i (by omega)) (fun i hi => hx i (by omega)), hx nd (by omega), hx (nd + 1) (by omega)]
  have cf : ∀ u : Nat → ℝ, u nd ≠ 0 → ∀ v < nd + 2, fluxConv nd (fetchExtrapState nd u) n v = Euler nd u n v := by
    intro u hu v hv
    have hx : ∀ v < nd + 2, fetchExtrapState nd u v = u v := fun v hv => by rw [fetchExtrapState, if_pos hv]
    rw [fluxConv_eq nd _ n (by rw [hx nd (by omega)]; exact hu) v hv]
    have hv' : dotN nd (Vel nd (fetchExtrapState nd u)) n = dotN nd (Vel nd u) n := dot_congr (fun i hi => by rw [Vel, Vel, hx i (by omega), hx nd (by omega)]) fun _ _ => rfl
    have hp' : Pres nd (fetchExtrapState nd u) = Pres nd u := by
      rw [Pres, Pres, dot_congr (fun i hi => hx i (by omega)) (fun i hi => hx i (by omega)), hx nd (by omega), hx (nd + 1) (by omega)]
    rw [Euler, Euler, hv', hp', hx v hv]
  have heq : ∀ v < nd + 2, numFlux (ns nd visc mu kappa) nd n u0 u1 v = 1 / 2 * (Euler nd u0 n v + Euler nd u1 n v + a * (u0 v - u1 v)) := by
    intro v hv
    show 1 / 2 * (fluxConv nd (fetchExtrapState nd u0) n v + fluxConv nd (fetchExtrapState nd u1) n v + max (charSpeed nd (fetchExtrapState nd u0)) (charSpeed nd (fetchExtrapState nd u1)) * norm nd n *
      (fetchExtrapState nd u0 v - fetchExtrapState nd u1 v)) = _
    rw [cs, cs, cf u0 h0.mass.ne' v hv, cf u1 h1.mass.ne' v hv, fetchExtrapState, if_pos hv, fetchExtrapState, if_pos hv]
  rcases hl.eq_or_lt with rfl | hl
  · simpa using h0
  have hmid := adm_smul (adm_add s0 s1) (k := lam * a / 2) (by positivity)
  rcases hlam.eq_or_lt with he | hlt
  · refine adm_congr (fun v hv => ?_) hmid
    rw [heq v hv]
    have : lam = 1 / a := by field_simp; exact he
    rw [this]; field_simp; ring
  · refine adm_congr (fun v hv => ?_) (adm_add (adm_smul h0 (k := 1 - lam * a) (by linarith)) hmid)
    beta_reduce
    rw [heq v hv]; field_simp; ring

/-- The numerical flux of the advection equation never decreases when the advected quantity inside increases and never increases when the one outside increases, wherever the
quadrature nodes lie in [-1, 1]. -/
theorem advection_monotone (nd rs : Nat) (nodes : Nat → ℝ) (len : ℝ) (hnodes : ∀ i < rs, abs (nodes i) ≤ 1) (n u0 u1 u0' u1' : Nat → ℝ) (hv0 : ∀ i < nd, u0' i = u0 i) (hv1 : ∀ i < nd, u1' i = u1 i)
    {i : Nat} (hi : i < rs) (h0 : u0 (nd + i) ≤ u0' (nd + i)) (h1 : u1' (nd + i) ≤ u1 (nd + i)) :
    numFlux (advection nd rs nodes len) nd n u0 u1 i ≤ numFlux (advection nd rs nodes len) nd n u0' u1' i := by
  have hnn : norm nd u0' = norm nd u0 := by rw [norm_eq, norm_eq, dot_congr hv0 hv0]
  have hnn1 : norm nd u1' = norm nd u1 := by rw [norm_eq, norm_eq, dot_congr hv1 hv1]
  set S := max (max 1 (norm nd u0)) (max 1 (norm nd u1)) with hS
  have e : ∀ a b : Nat → ℝ, norm nd a = norm nd u0 → norm nd b = norm nd u1 → numFlux (advection nd rs nodes len) nd n a b i =
      1 / 2 * (nodes i * dotN nd a n * a (nd + i) + nodes i * dotN nd b n * b (nd + i) + S * norm nd n * (a (nd + i) - b (nd + i))) := by
    intro a b ha hb
    show 1 / 2 * (nodes i * dotN nd a n * a (nd + i) + nodes i * dotN nd b n * b (nd + i) + max (max 1 (norm nd a)) (max 1 (norm nd b)) * norm nd n * (a (nd + i) - b (nd + i))) = _
    rw [ha, hb]
  rw [e _ _ rfl rfl, e _ _ hnn hnn1, dot_congr hv0 (fun _ _ => rfl), dot_congr hv1 (fun _ _ => rfl)]
  have hN : 0 ≤ norm nd n := Real.sqrt_nonneg _
  have bound : ∀ a : Nat → ℝ, norm nd a ≤ S → abs (nodes i * dotN nd a n) ≤ S * norm nd n := by
    intro a ha
    have h1 : abs (dotN nd a n) ≤ norm nd a * norm nd n := by
      refine abs_le_of_sq_le_sq ?_ (mul_nonneg (Real.sqrt_nonneg _) hN)
      have := cauchy nd a n
      rw [mul_pow, sq (norm nd a), sq (norm nd n), norm_mul_self, norm_mul_self]; exact this
    rw [abs_mul]
    calc abs (nodes i) * abs (dotN nd a n) ≤ 1 * (norm nd a * norm nd n) := mul_le_mul (hnodes i hi) h1 (abs_nonneg _) (by norm_num)
      _ ≤ S * norm nd n := by rw [one_mul]; exact mul_le_mul_of_nonneg_right ha hN
  have b0 := abs_le.1 (bound u0 ((le_max_right _ _).trans (le_max_left _ _)))
  have b1 := abs_le.1 (bound u1 ((le_max_right _ _).trans (le_max_right _ _)))
  have p0 : 0 ≤ (nodes i * dotN nd u0 n + S * norm nd n) * (u0' (nd + i) - u0 (nd + i)) := mul_nonneg (by linarith [b0.1]) (by linarith)
  have p1 : 0 ≤ (S * norm nd n - nodes i * dotN nd u1 n) * (u1 (nd + i) - u1' (nd + i)) := mul_nonneg (by linarith [b1.2]) (by linarith)
  nlinarith

/-! ## Non-vacuity -/

/-- Air at rest, much thinner and colder. -/
def exState2 (i : Nat) : ℝ := match i with | 0 => 0 | 1 => 0 | 2 => 1 / 100 | _ => 1

theorem exState2_admissible : Admissible 2 exState2 := by
  constructor
  · simp [exState2]
  · norm_num [Pres, dotN, exState2, Finset.sum_range_succ]

example (mu kappa : Transport) : ∃ lam > 0, Admissible 2 (fun v => exState v - lam * (numFlux (ns 2 true mu kappa) 2 (fun i => if i = 0 then 3 else 4) exState exState2 v - Euler 2 exState (fun i => if i = 0 then 3 else 4) v)) := by
  set n : Nat → ℝ := fun i => if i = 0 then 3 else 4 with hn
  have h1 : 0 < charSpeed 2 exState := by
    have := char_speed_bound 2 exState exState_admissible.mass exState_admissible.pres.le
    have h2 : 0 < Sound 2 exState := Real.sqrt_pos.2 (div_pos (mul_pos (by norm_num) exState_admissible.pres) exState_admissible.mass)
    have h3 : 0 ≤ Speed 2 exState := Real.sqrt_nonneg _
    linarith
  have hd : 0 < dotN 2 n n := by norm_num [dotN, Finset.sum_range_succ, hn]
  have h4 : 0 < max (charSpeed 2 exState) (charSpeed 2 exState2) * norm 2 n := mul_pos (lt_max_of_lt_left h1) (Real.sqrt_pos.2 hd)
  exact ⟨1 / (max (charSpeed 2 exState) (charSpeed 2 exState2) * norm 2 n), by positivity,
    flux_keeps_admissible 2 true mu kappa n exState exState2 exState_admissible exState2_admissible hd (by positivity) (by rw [one_div, inv_mul_cancel₀ h4.ne'])⟩
example (n : Nat → ℝ) (a b c : ℝ) (h : a ≤ b) : numFlux (advection 1 2 (fun i => if i = 0 then -1 / 2 else 1 / 2) 1) 1 n (fun i => if i = 0 then 3 else a) (fun _ => c) 1 ≤
    numFlux (advection 1 2 (fun i => if i = 0 then -1 / 2 else 1 / 2) 1) 1 n (fun i => if i = 0 then 3 else b) (fun _ => c) 1 :=
  advection_monotone 1 2 _ 1 (fun i _ => by split <;> norm_num [abs_le]) n _ _ _ _ (fun i hi => by simp [show i = 0 by omega]) (fun _ _ => rfl) (by norm_num) (by simpa using h) le_rfl

end
end Hexed.Pde
