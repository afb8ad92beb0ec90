import Verif.Exact.Fields
import Mathlib.Analysis.SpecialFunctions.Sqrt
set_option autoImplicit false
set_option linter.unusedVariables false

/-!
# Simple analytic fields (C82)
-/

namespace Hexed.Exact
open Hexed.Force Hexed.Flow
noncomputable section

/-- A doublet in three dimensions that leaves out the axial velocity: entropy is not that of the freestream. Here the pressure is computed with all momentum. -/
theorem doublet_axial_refuted : ∃ (fs u : Nat → ℝ), doublet 3 fs 2 0 0 1 1 0 = some u ∧ 0 < fs 3 ∧ 0 < (2 - 1) * (fs 4 - (fs 0 ^ 2 + fs 1 ^ 2 + fs 2 ^ 2) / (2 * fs 3)) ∧
    (2 - 1) * (u 4 - (u 0 ^ 2 + u 1 ^ 2 + u 2 ^ 2) / (2 * u 3)) / u 3 ^ 2 ≠ (2 - 1) * (fs 4 - (fs 0 ^ 2 + fs 1 ^ 2 + fs 2 ^ 2) / (2 * fs 3)) / fs 3 ^ 2 := by
  have hv : doubletVeloc 1 0 1 0 0 1 1 0 = (0, 0) := by
    rw [doubletVeloc_eq (Or.inl one_ne_zero)]; norm_num
  let fs : Nat → ℝ := fun i => if i = 0 then 1 else if i = 1 then 0 else if i = 2 then 1 else if i = 3 then 1 else 3 / 2
  refine ⟨fs, fun i => if i = 0 then 0 else if i = 1 then 0 else if i = 3 then 5 / 4 else if i = 4 then 25 / 16 else fs i, ?_, ?_, ?_, ?_⟩
  · have h0 : fs 0 = 1 := rfl
    have h1 : fs 1 = 0 := rfl
    have h3 : fs 3 = 1 := rfl
    have h4 : fs 4 = 3 / 2 := rfl
    unfold doublet
    simp only [show 3 + 2 - 2 = 3 from rfl, show 3 + 2 - 1 = 4 from rfl, h0, h1, h3, h4, hv]
    norm_num [quot, power, Real.rpow_one]
  · norm_num [fs]
  · norm_num [fs]
  · norm_num [fs]

/-- The state of Sod's problem: gas at rest with density and pressure 1 on the left of 1/2, and density 1/8 and pressure 1/10 on the right. -/
theorem sod_exact {hr : ℝ} (h : hr ≠ 1) (x : ℝ) (pos : List ℝ) :
    ∃ u e, sod hr (x :: pos) = some u ∧ u.length = pos.length + 3 ∧ (∀ i < pos.length + 1, u[i]? = some 0) ∧ u[pos.length + 1]? = some (if x < 1 / 2 then 1 else 1 / 8) ∧
      u[pos.length + 2]? = some e ∧ (hr - 1) * e = if x < 1 / 2 then 1 else 1 / 10 := by
  have h1 : hr - 1 ≠ 0 := sub_ne_zero.2 h
  refine ⟨(x :: pos).map (fun _ => 0) ++ [if x < 1 / 2 then 1 else 125 / 1000] ++ [(if x < 1 / 2 then 1 else 1 / 10) / (hr - 1)], (if x < 1 / 2 then 1 else 1 / 10) / (hr - 1), ?_, ?_, ?_, ?_, ?_, ?_⟩
  rotate_left
  · simp
  · intro i hi
    rw [List.append_assoc, List.getElem?_append_left (by simpa using hi), List.getElem?_map, List.getElem?_eq_getElem (by simpa using hi)]; rfl
  · rw [List.append_assoc, List.getElem?_append_right (by simp)]
    norm_num
  · rw [List.getElem?_append_right (by simp)]
    simp only [List.length_append, List.length_map, List.length_cons, List.length_nil, Nat.zero_add, Nat.sub_self, List.getElem?_cons_zero]
  · rw [mul_div_cancel₀ _ h1]
  · simp [sod, at?, quot, h1]

theorem gaussian_fold (dev pos : List ℝ) (hd : dev ≠ []) (h0 : ∀ d ∈ dev, d ≠ 0) (l : List Nat) (hl : ∀ i ∈ l, i < pos.length) (a : ℝ) :
    l.foldlM (fun (r : ℝ) i => (at? pos i).bind fun x => (at? dev (min i (dev.length - 1))).bind fun d => (quot x d).bind fun y => some (r + y * y)) a =
      some (a + (l.map fun i => (pos.getD i 0 / dev.getD (min i (dev.length - 1)) 0) ^ 2).sum) := by
  induction l generalizing a with
  | nil => simp
  | cons i l ih =>
    have hi := hl i (by simp)
    have hpos : 0 < dev.length := List.length_pos_iff.2 hd
    have hm : min i (dev.length - 1) < dev.length := by omega
    have hd0 := h0 _ (List.getElem_mem hm)
    simp only [List.foldlM_cons, at?, List.getElem?_eq_getElem hi, List.getElem?_eq_getElem hm, Option.bind_some, quot, if_neg hd0, Option.bind_eq_bind, List.map_cons, List.sum_cons,
      List.getD_eq_getElem?_getD, Option.getD_some]
    have := ih (fun j hj => hl j (by simp [hj])) (a + pos[i] / dev[min i (dev.length - 1)] * (pos[i] / dev[min i (dev.length - 1)]))
    simp only [at?, quot, List.getD_eq_getElem?_getD] at this
    rw [this]
    congr 1
    ring

theorem gaussian_value {dev pos : List ℝ} (hd : dev ≠ []) (h0 : ∀ d ∈ dev, d ≠ 0) :
    spatialGaussian dev pos = some [Real.exp (-((List.range pos.length).map fun i => (pos.getD i 0 / dev.getD (min i (dev.length - 1)) 0) ^ 2).sum / 2)] := by
  rw [spatialGaussian, if_neg hd, gaussian_fold dev pos hd h0 _ (fun i hi => List.mem_range.1 hi) 0]
  simp

/-- A Gaussian is the product of the normal distributions of each coordinate, up to the factor that makes it 1 at the origin: it is 1 there and nowhere else,
and less than 1 but positive elsewhere. Deviations that are not given are the last one given. -/
theorem gaussian_exact {dev pos : List ℝ} (hd : dev ≠ []) (h0 : ∀ d ∈ dev, d ≠ 0) :
    ∃ y, spatialGaussian dev pos = some [y] ∧ y = ((List.range pos.length).map fun i => Real.exp (-(pos.getD i 0) ^ 2 / (2 * (dev ++ List.replicate pos.length (dev.getLast hd)).getD i 0 ^ 2))).prod ∧
      0 < y ∧ y ≤ 1 ∧ (y = 1 ↔ ∀ x ∈ pos, x = 0) := by
  have hlen : 0 < dev.length := List.length_pos_iff.2 hd
  have hs : ∀ v ∈ (List.range pos.length).map (fun i => (pos.getD i 0 / dev.getD (min i (dev.length - 1)) 0) ^ 2), 0 ≤ v := by
    intro v hv
    obtain ⟨i, -, rfl⟩ := List.mem_map.1 hv
    exact sq_nonneg _
  have hsum := List.sum_nonneg hs
  refine ⟨_, gaussian_value hd h0, ?_, Real.exp_pos _, ?_, ?_⟩
  · rw [show ∀ s : ℝ, -s / 2 = -1 / 2 * s from fun s => by ring, ← List.sum_map_mul_left, Real.exp_list_sum, List.map_map]
    congr 1
    refine List.map_congr_left fun i hi => ?_
    have hi := List.mem_range.1 hi
    have : (dev ++ List.replicate pos.length (dev.getLast hd)).getD i 0 = dev.getD (min i (dev.length - 1)) 0 := by
      simp only [List.getD_eq_getElem?_getD]
      rcases Nat.lt_or_ge i dev.length with h | h
      · rw [List.getElem?_append_left h, min_eq_left (by omega)]
      · rw [List.getElem?_append_right h, min_eq_right (by omega), List.getElem?_replicate, if_pos (by omega), List.getLast_eq_getElem, List.getElem?_eq_getElem (by omega)]
    simp only [Function.comp]
    rw [this, div_pow]
    congr 1
    ring
  · exact Real.exp_le_one_iff.2 (by linarith)
  · rw [Real.exp_eq_one_iff]
    constructor
    · intro h x hx
      have hz : ((List.range pos.length).map fun i => (pos.getD i 0 / dev.getD (min i (dev.length - 1)) 0) ^ 2).sum = 0 := by linarith
      obtain ⟨i, hi, rfl⟩ := List.getElem_of_mem hx
      have hm : min i (dev.length - 1) < dev.length := by omega
      have hle := List.single_le_sum hs ((pos.getD i 0 / dev.getD (min i (dev.length - 1)) 0) ^ 2) (List.mem_map.2 ⟨i, List.mem_range.2 hi, rfl⟩)
      rw [hz] at hle
      have := pow_eq_zero_iff two_ne_zero |>.1 (le_antisymm hle (sq_nonneg _))
      rcases div_eq_zero_iff.1 this with h | h
      · simpa [List.getD_eq_getElem?_getD, List.getElem?_eq_getElem hi] using h
      · rw [List.getD_eq_getElem?_getD, List.getElem?_eq_getElem hm] at h
        exact absurd h (h0 _ (List.getElem_mem hm))
    · intro h
      have : ((List.range pos.length).map fun i => (pos.getD i 0 / dev.getD (min i (dev.length - 1)) 0) ^ 2) = (List.range pos.length).map fun _ => 0 := by
        refine List.map_congr_left fun i hi => ?_
        have hi := List.mem_range.1 hi
        rw [show pos.getD i 0 = 0 by rw [List.getD_eq_getElem?_getD, List.getElem?_eq_getElem hi]; exact h _ (List.getElem_mem hi)]
        simp
      rw [this]
      simp

theorem gaussian_empty (pos : List ℝ) : spatialGaussian [] pos = none := rfl

/-- The state in an annulus: no momentum, given energy, and density the logarithm of the distance from the origin relative to a radius. -/
theorem annular_value {v r e : ℝ} (hr : 0 < r) {pos : List ℝ} (hp : 0 < (pos.map fun p => p * p).sum) :
    annular v r e pos = some (pos.map (fun _ => 0) ++ [v * Real.log (√((pos.map fun p => p * p).sum) / r), e]) := by
  have h : 0 < √((pos.map fun p => p * p).sum) / r := div_pos (Real.sqrt_pos.2 hp) hr
  simp [annular, quot, hr.ne', not_le.2 h]

theorem log_deriv {X : ℝ → ℝ} {X' s v r : ℝ} (hr : 0 < r) (hX : HasDerivAt X X' s) (h0 : 0 < X s) : HasDerivAt (fun s => v * Real.log (√(X s) / r)) (v * X' / (2 * X s)) s := by
  have h := ((((hX.sqrt h0.ne').div_const r).log (div_pos (Real.sqrt_pos.2 h0) hr).ne').const_mul v)
  refine h.congr_deriv ?_
  have h1 := Real.sqrt_pos.2 h0
  have h2 := Real.mul_self_sqrt h0.le
  generalize √(X s) = q at *
  rw [← h2]
  field_simp

theorem sumsq_pos {x y : ℝ} (h : x ≠ 0 ∨ y ≠ 0) : 0 < x * x + y * y := by
  rcases h with h | h
  · nlinarith [mul_self_pos.2 h, mul_self_nonneg y]
  · nlinarith [mul_self_pos.2 h, mul_self_nonneg x]

/-- In two dimensions the state in an annulus is a steady solution of Laplacian diffusion, variable by variable. -/
theorem annular_exact {v r e : ℝ} (hr : 0 < r) : ∃ f : ℝ → ℝ → ℝ, (∀ x y, (x ≠ 0 ∨ y ≠ 0) → annular v r e [x, y] = some [0, 0, f x y, e]) ∧ Harmonic f ∧
    ∀ x y, x ^ 2 + y ^ 2 = r ^ 2 → f x y = 0 := by
  refine ⟨fun x y => v * Real.log (√(x * x + y * y) / r), ?_, ?_, ?_⟩
  · intro x y h
    have := annular_value (v := v) (e := e) hr (pos := [x, y]) (by simpa using sumsq_pos h)
    simpa using this
  · refine ⟨fun x y => v * (2 * x) / (2 * (x * x + y * y)), fun x y => v * (2 * y) / (2 * (x * x + y * y)), ?_⟩
    intro x y h
    have hp := sumsq_pos h
    have hx : HasDerivAt (fun s : ℝ => s * s + y * y) (2 * x) x := (((hasDerivAt_id x).fun_mul (hasDerivAt_id x)).add_const (y * y)).congr_deriv (by simp; ring)
    have hy : HasDerivAt (fun s : ℝ => x * x + s * s) (2 * y) y := (((hasDerivAt_id y).fun_mul (hasDerivAt_id y)).const_add (x * x)).congr_deriv (by simp; ring)
    have nx : HasDerivAt (fun s : ℝ => v * (2 * s)) (v * (2 * 1)) x := ((hasDerivAt_id x).const_mul 2).const_mul v
    have ny : HasDerivAt (fun s : ℝ => v * (2 * s)) (v * (2 * 1)) y := ((hasDerivAt_id y).const_mul 2).const_mul v
    refine ⟨log_deriv hr hx hp, log_deriv hr hy hp, _, _, nx.fun_div (hx.const_mul 2) (by positivity), ny.fun_div (hy.const_mul 2) (by positivity), ?_⟩
    field_simp
    ring
  · intro x y h
    have : √(x * x + y * y) = r := by rw [show x * x + y * y = r ^ 2 by rw [← h]; ring, Real.sqrt_sq hr.le]
    simp only [this, div_self hr.ne', Real.log_one, mul_zero]

theorem zip_sum (a b : List ℝ) : (List.zipWith (fun c p => c * p) a b).sum = ((List.range (min a.length b.length)).map fun i => a.getD i 0 * b.getD i 0).sum := by
  congr 1
  refine List.ext_getElem (by simp) fun i h1 h2 => ?_
  simp only [List.length_zipWith] at h1
  simp [List.getElem?_eq_getElem (show i < a.length by omega), List.getElem?_eq_getElem (show i < b.length by omega)]

/-- A linear function is the sum of coefficient times coordinate, where the longer list is cut off. -/
theorem linear_exact (coefs pos : List ℝ) : linear coefs pos = [((List.range (min coefs.length pos.length)).map fun i => coefs.getD i 0 * pos.getD i 0).sum] := by
  rw [linear, zip_sum]
  simp only [List.length_take, Nat.min_assoc]
  congr 2
  have e : min (min (min coefs.length pos.length) coefs.length) (min (min coefs.length pos.length) pos.length) = min coefs.length pos.length := by omega
  have e' : min (min coefs.length pos.length) (min coefs.length (min (min coefs.length pos.length) pos.length)) = min coefs.length pos.length := by omega
  first
    | rw [e']
    | rw [e]
    | skip
  refine List.ext_getElem (by simp) fun i h1 h2 => ?_
  simp at h1 h2 ⊢
  simp [List.getElem?_take, h2]

/-- The documented range of a random value. -/
def RandomRange (m v y : ℝ) : Prop := m - v / 2 ≤ y ∧ y ≤ m + v / 2

theorem mapM_some {α β : Type} {f : α → Option β} {g : α → β} : ∀ {l : List α}, (∀ a ∈ l, f a = some (g a)) → l.mapM f = some (l.map g) := by
  intro l
  induction l with
  | nil => intro _; rfl
  | cons a l ih =>
    intro h
    rw [List.mapM_cons, h a (by simp), ih fun b hb => h b (by simp [hb])]
    rfl

theorem random_value {m v : List ℝ} {gran : Nat} (hg : gran ≠ 0) (hv : m.length ≤ v.length) (rand : Nat → Nat) :
    random m v gran rand = some ((List.range m.length).map fun i => m.getD i 0 + ((rand i % gran : Nat) : ℝ) * v.getD i 0 / 2 / gran) := by
  rw [random]
  refine mapM_some fun i hi => ?_
  have hi := List.mem_range.1 hi
  simp [at?, List.getElem?_eq_getElem hi, List.getElem?_eq_getElem (show i < v.length by omega), hg]

/-- Random values are within the documented range, as many as there are means. -/
theorem random_range {m v : List ℝ} {gran : Nat} (hg : gran ≠ 0) (hv : v.length = m.length) (h0 : ∀ x ∈ v, 0 ≤ x) (rand : Nat → Nat) :
    ∃ u, random m v gran rand = some u ∧ u.length = m.length ∧ ∀ i (h : i < m.length), ∃ y, u[i]? = some y ∧ RandomRange m[i] (v[i]'(by omega)) y := by
  refine ⟨_, random_value hg hv.ge rand, by simp, fun i h => ?_⟩
  have hv' : i < v.length := by omega
  refine ⟨_, by rw [List.getElem?_map, List.getElem?_range h]; rfl, ?_⟩
  simp only [List.getD_eq_getElem?_getD, List.getElem?_eq_getElem h, List.getElem?_eq_getElem hv', Option.getD_some]
  have hx := h0 _ (List.getElem_mem hv')
  have hg' : (0 : ℝ) < gran := by exact_mod_cast Nat.pos_of_ne_zero hg
  have hr : ((rand i % gran : Nat) : ℝ) / gran ≤ 1 := by
    rw [div_le_one hg']; exact_mod_cast (Nat.mod_lt _ (Nat.pos_of_ne_zero hg)).le
  have hr0 : 0 ≤ ((rand i % gran : Nat) : ℝ) / gran := by positivity
  have e : ((rand i % gran : Nat) : ℝ) * v[i] / 2 / gran = ((rand i % gran : Nat) : ℝ) / gran * v[i] / 2 := by ring
  rw [e, RandomRange]
  constructor
  · nlinarith [mul_nonneg hr0 hx]
  · nlinarith

/-- Means are not mean values, and half of the documented range is never reached: all values are at least the mean. -/
theorem random_mean_refuted {m v : List ℝ} {gran : Nat} (hg : gran ≠ 0) (hv : v.length = m.length) (h0 : ∀ x ∈ v, 0 ≤ x) (rand : Nat → Nat) :
    ∃ u, random m v gran rand = some u ∧ ∀ i (h : i < m.length), ∃ y, u[i]? = some y ∧ m[i] ≤ y := by
  refine ⟨_, random_value hg hv.ge rand, fun i h => ?_⟩
  have hv' : i < v.length := by omega
  refine ⟨_, by rw [List.getElem?_map, List.getElem?_range h]; rfl, ?_⟩
  simp only [List.getD_eq_getElem?_getD, List.getElem?_eq_getElem h, List.getElem?_eq_getElem hv', Option.getD_some]
  have hx := h0 _ (List.getElem_mem hv')
  have : 0 ≤ ((rand i % gran : Nat) : ℝ) * v[i] / 2 / gran := by positivity
  linarith

/-- Every value of the upper half range that the granularity allows is drawn. -/
theorem random_onto {m v : ℝ} {gran k : Nat} (hk : k < gran) : ∃ rand, random [m] [v] gran rand = some [m + k * v / 2 / gran] := by
  refine ⟨fun _ => k, ?_⟩
  rw [random_value (by omega) (by simp)]
  simp [Nat.mod_eq_of_lt hk]

end
end Hexed.Exact
