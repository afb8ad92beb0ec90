import Verif.Flow.Lemmas
import Verif.MathFn.IntProps
set_option autoImplicit false
set_option linter.unusedVariables false

/-!
# Functions of the flow return what they are named after (C81)
-/

namespace Hexed.Flow
open Hexed.Force
noncomputable section
variable {g rho p : ℝ} {v pos : List ℝ} {time : ℝ}

theorem mapM_quot (hr : rho ≠ 0) (v : List ℝ) : (v.map fun x => rho * x).mapM (fun m => quot m rho) = some v := by
  induction v with
  | nil => rfl
  | cons x l ih =>
    rw [List.map_cons, List.mapM_cons, ih]
    simp [quot, hr]

/-- `Velocity`, `Mass` and `Pressure` of a gas are its velocity, density and pressure. -/
theorem flow_exact (hg : g ≠ 1) (hr : rho ≠ 0) (hpos : pos.length = v.length) :
    velocity pos time (gas g v rho p) = some v ∧ mass pos time (gas g v rho p) = some [rho] ∧ pressure g pos time (gas g v rho p) = some [p] := by
  refine ⟨?_, ?_, ?_⟩
  · rw [velocity, dims_gas, Option.bind_some, gas_mass, Option.bind_some, gas_take]
    exact mapM_quot hr v
  · rw [mass, hpos, gas_mass]; rfl
  · rw [pressure, kinPres_gas hg hr]; rfl

/-- `Mach` is the speed over the speed of sound. -/
theorem mach_exact (hg : g ≠ 1) (hg0 : 0 < g) (hr : 0 < rho) (hp : 0 < p) (hpos : pos.length = v.length) :
    mach g pos time (gas g v rho p) = some [speed v / √(g * p / rho)] := by
  have h0 : g * p * rho ≠ 0 := by positivity
  have h1 : rho ^ 2 * speed v ^ 2 / (g * p * rho) = speed v ^ 2 / (g * p / rho) := by field_simp
  have h2 : ¬ speed v ^ 2 / (g * p / rho) < 0 := not_lt.2 (by positivity)
  rw [mach]
  simp only [hpos]
  rw [gas_mass, Option.bind_some, kinPres_gas hg hr.ne', Option.bind_some, squares_gas, quot, if_neg h0, Option.bind_some, ← speed_sq, h1, root, if_neg h2, Option.bind_some,
    Real.sqrt_div (sq_nonneg _), Real.sqrt_sq (show 0 ≤ speed v from Real.sqrt_nonneg _)]

/-- `Stag_pres` is the pressure of the gas after it has been brought to rest without losses. -/
theorem stag_exact (hg : 1 < g) (hr : 0 < rho) (hp : 0 < p) {rho0 p0 : ℝ} (h : BroughtToRest g v rho p rho0 p0) : stagPres g pos time (gas g v rho p) = some [p0] := by
  have hg0 : 0 < g := by linarith
  have hg1 : 0 < g - 1 := by linarith
  obtain ⟨hr0, hp0, hs, hh⟩ := h
  rw [stagPres, kinPres_gas hg.ne' hr.ne', Option.bind_some]
  simp only
  have he : p / (g - 1) + 1 / 2 * rho * speed v ^ 2 + p - 1 / 2 * rho * speed v ^ 2 = g / (g - 1) * p := by field_simp; ring
  have he0 : 0 < g / (g - 1) * p := by positivity
  have hst : p / (g - 1) + 1 / 2 * rho * speed v ^ 2 + p = rho * (g / (g - 1) * p0 / rho0) := by rw [hh]; field_simp; ring
  rw [he, hst, quot, if_neg he0.ne', Option.bind_some, quot, if_neg hg1.ne', Option.bind_some]
  have hrat : rho * (g / (g - 1) * p0 / rho0) / (g / (g - 1) * p) = (rho0 / rho) ^ (g - 1) := by
    have hx : 0 < rho0 / rho := by positivity
    rw [Real.rpow_sub_one hx.ne', Real.div_rpow hr0.le hr.le]
    have a : 0 < rho0 ^ g := Real.rpow_pos_of_pos hr0 g
    have b : 0 < rho ^ g := Real.rpow_pos_of_pos hr g
    rw [div_eq_div_iff a.ne' b.ne'] at hs
    field_simp
    linarith
  have hx : 0 < rho0 / rho := by positivity
  have hpow : 0 < (rho0 / rho) ^ (g - 1) := Real.rpow_pos_of_pos hx _
  rw [hrat, power, if_neg (not_lt.2 hpow.le), if_neg (fun h => hpow.ne' h.1), Option.bind_some, ← Real.rpow_mul hx.le, mul_div_cancel₀ _ hg1.ne', Real.div_rpow hr0.le hr.le]
  have a : 0 < rho0 ^ g := Real.rpow_pos_of_pos hr0 g
  have b : 0 < rho ^ g := Real.rpow_pos_of_pos hr g
  rw [div_eq_div_iff a.ne' b.ne'] at hs
  congr 2
  field_simp
  linarith

/-- A gas can always be brought to rest. -/
theorem rest_exists (hg : 1 < g) (hr : 0 < rho) (hp : 0 < p) (v : List ℝ) : ∃ rho0 p0, BroughtToRest g v rho p rho0 p0 := by
  have hg0 : 0 < g := by linarith
  have hg1 : 0 < g - 1 := by linarith
  have hr1 : 0 < 1 + (g - 1) / (2 * g) * (rho / p) * speed v ^ 2 := by positivity
  set r := 1 + (g - 1) / (2 * g) * (rho / p) * speed v ^ 2 with hrd
  set x := r ^ (1 / (g - 1)) with hxd
  have hx : 0 < x := Real.rpow_pos_of_pos hr1 _
  have hxr : x ^ (g - 1) = r := by rw [hxd, ← Real.rpow_mul hr1.le, one_div_mul_cancel hg1.ne', Real.rpow_one]
  have hxg : x ^ g = r * x := by rw [← hxr, ← Real.rpow_add_one hx.ne']; congr 1; ring
  refine ⟨rho * x, p * (r * x), ⟨by positivity, by positivity, ?_, ?_⟩⟩
  · rw [Real.mul_rpow hr.le hx.le, hxg]
    have b : 0 < rho ^ g := Real.rpow_pos_of_pos hr g
    field_simp
  · rw [hrd]; field_simp

/-- Stagnation pressure is at least the pressure, and larger if the gas moves. -/
theorem stag_ge (hg : 1 < g) (hr : 0 < rho) (hp : 0 < p) : ∃ p0, stagPres g pos time (gas g v rho p) = some [p0] ∧ p ≤ p0 ∧ (p0 = p ↔ speed v = 0) := by
  have hg1 : 0 < g - 1 := by linarith
  have hg0 : 0 < g := by linarith
  refine ⟨p * ((1 + (g - 1) / (2 * g) * (rho / p) * speed v ^ 2) ^ (g / (g - 1))), ?_, ?_⟩
  · rw [stagPres, kinPres_gas hg.ne' hr.ne', Option.bind_some]
    simp only
    have he : p / (g - 1) + 1 / 2 * rho * speed v ^ 2 + p - 1 / 2 * rho * speed v ^ 2 = g / (g - 1) * p := by field_simp; ring
    have he0 : 0 < g / (g - 1) * p := by positivity
    have hrat : (p / (g - 1) + 1 / 2 * rho * speed v ^ 2 + p) / (g / (g - 1) * p) = 1 + (g - 1) / (2 * g) * (rho / p) * speed v ^ 2 := by field_simp; ring
    have hpos : 0 < 1 + (g - 1) / (2 * g) * (rho / p) * speed v ^ 2 := by positivity
    rw [he, quot, if_neg he0.ne', Option.bind_some, quot, if_neg hg1.ne', Option.bind_some, hrat, power, if_neg (not_lt.2 hpos.le), if_neg (fun h => hpos.ne' h.1), Option.bind_some]
  · have he : 0 < g / (g - 1) := by positivity
    have h1 : (1 : ℝ) ≤ 1 + (g - 1) / (2 * g) * (rho / p) * speed v ^ 2 := le_add_of_nonneg_right (by positivity)
    refine ⟨le_mul_of_one_le_right hp.le (Real.one_le_rpow h1 he.le), fun h => ?_, fun h => ?_⟩
    · by_contra hv
      have h2 : (1 : ℝ) < 1 + (g - 1) / (2 * g) * (rho / p) * speed v ^ 2 := lt_add_of_pos_right _ (by positivity)
      have := Real.one_lt_rpow h2 he
      nlinarith
    · rw [h]; simp

/-- Squared difference: entry by entry, where both functions return as many values. -/
theorem diff_sq_exact {f0 f1 : DomainFn} {state r0 r1 : List ℝ} (h0 : f0 pos time state = some r0) (h1 : f1 pos time state = some r1) (hl : r0.length = r1.length) :
    ∃ r, diffSq f0 f1 pos time state = some r ∧ r.length = r0.length ∧ ∀ (i : Nat) (h : i < r.length) (h0 : i < r0.length) (h1 : i < r1.length), r[i] = (r0[i] - r1[i]) ^ 2 := by
  refine ⟨_, by rw [diffSq, h0, Option.bind_some, h1, Option.bind_some, if_neg (by omega)], by simp [hl], fun i h h0 h1 => ?_⟩
  rw [List.getElem_zipWith]
  ring

/-- The error is zero exactly where the state is the correct one. -/
theorem error_zero_iff {correct : List ℝ → ℝ → Option (List ℝ)} {state c : List ℝ} (hc : correct pos time = some c) (hl : c.length = state.length) :
    ∃ r, errorFn correct pos time state = some r ∧ r.length = state.length ∧ ((∀ x ∈ r, 0 ≤ x) ∧ ((∀ x ∈ r, x = 0) ↔ state = c)) := by
  obtain ⟨r, h1, h2, h3⟩ := diff_sq_exact (f0 := fun pos time _ => correct pos time) (f1 := stateVariables) (pos := pos) (time := time) (state := state) hc rfl hl
  refine ⟨r, h1, by omega, fun x hx => ?_, fun h => ?_, fun h x hx => ?_⟩
  · obtain ⟨i, hi, rfl⟩ := List.getElem_of_mem hx
    rw [h3 i hi (by omega) (by omega)]; positivity
  · refine List.ext_getElem (by omega) fun i hi hi' => ?_
    have := h3 i (by omega) hi' hi
    rw [h _ (List.getElem_mem _)] at this
    have := pow_eq_zero_iff (two_ne_zero) |>.1 this.symm
    linarith
  · obtain ⟨i, hi, rfl⟩ := List.getElem_of_mem hx
    rw [h3 i hi (by omega) (by omega)]
    subst h
    simp

/-- The state at a quadrature point is that of the point. -/
theorem qpoint_state (f : DomainFn) {n_var nq : Nat} {state : Nat → ℝ} {pos : Nat → List ℝ} {q : Nat} {u : List ℝ} (hl : u.length = n_var)
    (h : ∀ (i : Nat) (hi : i < u.length), state (i * nq + q) = u[i]) : atQpoint f n_var nq state pos time q = f (pos q) time u := by
  rw [atQpoint]
  congr 1
  refine List.ext_getElem (by simp [hl]) fun i h1 h2 => ?_
  simp [h i h2]

/-- `Physical_residual`: where the stored residual is a rate of change times the local time step, it is the rate of change. -/
theorem residual_exact {n_var nq q : Nat} {cache tss : Nat → ℝ} {rate : List ℝ} (hl : rate.length = n_var) (ht : tss q ≠ 0)
    (h : ∀ (i : Nat) (hi : i < rate.length), cache (i * nq + q) = rate[i] * tss q) : physicalResidual n_var nq cache tss q = some rate := by
  have : ∀ l : List Nat, l.mapM (fun v => quot (cache (v * nq + q)) (tss q)) = some (l.map fun v => cache (v * nq + q) / tss q) := by
    intro l
    induction l with
    | nil => rfl
    | cons a l ih => rw [List.mapM_cons, ih, quot, if_neg ht]; rfl
  rw [physicalResidual, this]
  congr 1
  refine List.ext_getElem (by simp [hl]) fun i h1 h2 => ?_
  rw [List.getElem_map, List.getElem_range, h i h2, mul_div_cancel_right₀ _ ht]

section Combinators
variable {α : Type} {nd : Nat} {args : α}

theorem concatNVar_eq (fs : List (Func α)) (nd : Nat) : concatNVar fs nd = (fs.map fun f => f.nVar nd).sum := by
  have : ∀ (l : List (Func α)) a, l.foldl (fun nv f => nv + f.nVar nd) a = a + (l.map fun f => f.nVar nd).sum := by
    intro l
    induction l with
    | nil => intro a; simp
    | cons f l ih => intro a; rw [List.foldl_cons, ih]; simp; omega
  rw [concatNVar, this, Nat.zero_add]

theorem concatEval_cons (f : Func α) (fs : List (Func α)) (args : α) : concatEval (f :: fs) args = (f.eval args).bind fun x => (concatEval fs args).bind fun y => some (x ++ y) := by
  have : ∀ (l : List (Func α)) a, l.foldlM (fun (r : List ℝ) f => (f.eval args).bind fun x => some (r ++ x)) a = (concatEval l args).bind fun y => some (a ++ y) := by
    intro l
    induction l with
    | nil => intro a; simp [concatEval]
    | cons f l ih =>
      intro a
      rw [concatEval, List.foldlM_cons, List.foldlM_cons]
      cases hf : f.eval args with
      | none => simp
      | some x =>
        simp only [Option.bind_some, Option.bind_eq_bind, List.nil_append]
        rw [ih, ih]
        cases concatEval l args <;> simp
  rw [concatEval, List.foldlM_cons]
  cases hf : f.eval args with
  | none => simp
  | some x => simp only [Option.bind_some, Option.bind_eq_bind, List.nil_append]; rw [this]

/-- Concatenated functions: there are as many values as all functions have together, and the values of each function (with their names) follow those of
the functions before it. -/
theorem concat_exact {fs : List (Func α)} {r : List ℝ} (h : (concat fs).eval args = some r) (hok : ∀ f ∈ fs, f.Ok nd args) :
    r.length = (concat fs).nVar nd ∧ ∀ (k : Nat) (f : Func α) (x : List ℝ) (i : Nat), fs[k]? = some f → f.eval args = some x → i < f.nVar nd →
      r[((fs.take k).map fun f => f.nVar nd).sum + i]? = x[i]? ∧ (concat fs).name nd (((fs.take k).map fun f => f.nVar nd).sum + i) = f.name nd i := by
  show r.length = concatNVar fs nd ∧ ∀ (k : Nat) (f : Func α) (x : List ℝ) (i : Nat), fs[k]? = some f → f.eval args = some x → i < f.nVar nd →
      r[((fs.take k).map fun f => f.nVar nd).sum + i]? = x[i]? ∧ concatName fs nd (((fs.take k).map fun f => f.nVar nd).sum + i) = f.name nd i
  rw [concatNVar_eq]
  replace h : concatEval fs args = some r := h
  induction fs generalizing r with
  | nil =>
    simp only [concatEval, List.foldlM_nil, Option.pure_def, Option.some.injEq] at h
    subst h
    exact ⟨rfl, fun k f x i hk => by simp at hk⟩
  | cons f fs ih =>
    rw [concatEval_cons] at h
    obtain ⟨x, hx, h⟩ := Option.bind_eq_some_iff.1 h
    obtain ⟨y, hy, h⟩ := Option.bind_eq_some_iff.1 h
    obtain rfl := Option.some.inj h
    obtain ⟨h1, h2⟩ := ih (fun f hf => hok f (List.mem_cons_of_mem _ hf)) hy
    have hlx := hok f List.mem_cons_self x hx
    refine ⟨by simp [hlx, h1], fun k f' x' i hk hx' hi => ?_⟩
    cases k with
    | zero =>
      simp only [List.getElem?_cons_zero, Option.some.injEq] at hk
      subst hk
      obtain rfl : x = x' := Option.some.inj (hx.symm.trans hx')
      simp only [List.take_zero, List.map_nil, List.sum_nil, Nat.zero_add]
      exact ⟨List.getElem?_append_left (by omega), by rw [concatName, if_neg (by omega)]⟩
    | succ k =>
      rw [List.getElem?_cons_succ] at hk
      obtain ⟨g1, g2⟩ := h2 k f' x' i hk hx' hi
      simp only [List.take_succ_cons, List.map_cons, List.sum_cons]
      refine ⟨?_, ?_⟩
      · rw [List.getElem?_append_right (by omega), ← g1]
        congr 1
        omega
      · rw [concatName, if_pos (by omega), ← g2]
        congr 1
        omega

/-- Names past the number of variables do not exist (the code reads outside of the vector of functions). -/
theorem concat_name_bound (fs : List (Func α)) (nd i : Nat) (h : (concat fs).nVar nd ≤ i) : (concat fs).name nd i = none := by
  show concatName fs nd i = none
  replace h : concatNVar fs nd ≤ i := h
  rw [concatNVar_eq] at h
  induction fs generalizing i with
  | nil => rfl
  | cons f fs ih =>
    simp only [List.map_cons, List.sum_cons] at h
    rw [concatName, if_pos (by omega)]
    exact ih _ (by omega)

/-- `Component` picks one value with its name, `Scaled` maps the bounds to 0 and 1 by a linear function, `Pow` raises each value to the power. -/
theorem component_exact {f : Func α} {x : List ℝ} (h : f.eval args = some x) (i : Nat) (hi : i < x.length) :
    (component f i).eval args = some [x[i]] ∧ ∀ j, (component f i).name nd j = f.name nd i := by
  refine ⟨?_, fun _ => rfl⟩
  simp [component, h, at?, hi]

theorem scaled_exact {f : Func α} {x : ℝ} {l : List ℝ} (h : f.eval args = some (x :: l)) {b0 b1 : ℝ} (hb : b0 < b1) :
    ∃ y, (scaled f b0 b1).eval args = some [y] ∧ x = b0 + y * (b1 - b0) ∧ (b0 ≤ x ∧ x ≤ b1 ↔ 0 ≤ y ∧ y ≤ 1) := by
  have hd : 0 < b1 - b0 := by linarith
  refine ⟨(x - b0) / (b1 - b0), by simp [scaled, h, at?, quot, hd.ne'], by field_simp; ring, ?_⟩
  rw [le_div_iff₀ hd, div_le_iff₀ hd]
  constructor <;> rintro ⟨a, b⟩ <;> constructor <;> linarith

theorem pow_exact {f : Func α} {x : List ℝ} (h : f.eval args = some x) (e : ℤ) (he : 0 ≤ e ∨ ∀ a ∈ x, a ≠ 0) : (pow f e).eval args = some (x.map fun a => a ^ e) := by
  show (f.eval args).bind (fun r => r.mapM fun x => intPow x e) = _
  rw [h, Option.bind_some]
  clear h
  induction x with
  | nil => rfl
  | cons a l ih =>
    rw [List.mapM_cons, ih (he.imp id fun h b hb => h b (List.mem_cons_of_mem _ hb)), intPow, if_neg, MathFn.pow_field]
    · rfl
    · rintro ⟨h1, h2⟩
      rcases he with he | he
      · omega
      · exact he a List.mem_cons_self h2

end Combinators

end
end Hexed.Flow
