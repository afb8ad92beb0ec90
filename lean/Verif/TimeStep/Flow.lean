import Verif.Pde.Char
import Verif.TimeStep.Props
set_option autoImplicit false
set_option linter.unusedVariables false

/-! # Time steps of the flow equations -/

namespace Hexed.TimeStep
open Hexed.Pde

/-- Elements have positive size and the flow in them is admissible. -/
def Flowing (b : Basis) (n_dim : Nat) (es : List Elem) : Prop :=
  ∀ e ∈ es, (∀ i < 2 ^ n_dim, 0 < e.vertex_spacing i) ∧ ∀ q < b.row_size ^ n_dim, Admissible n_dim (fetchState n_dim (e.data q))

theorem charSpeed_pos {n_dim : Nat} {u : Nat → ℝ} (hu : Admissible n_dim u) : 0 < charSpeed n_dim u := by
  have h := char_speed_bound n_dim u hu.mass hu.pres.le
  have h1 : 0 < Sound n_dim u := Real.sqrt_pos.2 (by have := hu.mass; have := hu.pres; positivity)
  have h2 : 0 ≤ Speed n_dim u := Real.sqrt_nonneg _
  linarith

theorem diffusivity_nonneg {n_dim : Nat} {u : Nat → ℝ} (hu : Admissible n_dim u) {mu kappa : Transport} (hmu : ∀ s, 0 ≤ mu.coefficient s) :
    0 ≤ diffusivity n_dim mu kappa u := by
  have := hu.mass
  have := hmu (sqrtTemp n_dim u)
  unfold diffusivity
  have : 0 ≤ abs (abs (u (n_dim + 2))) + mu.coefficient (sqrtTemp n_dim u) / u n_dim := by positivity
  have := le_max_of_le_left (c := kappa.coefficient (sqrtTemp n_dim u) * (heatRat - 1) / gasAir / u n_dim) this
  have := abs_nonneg (abs (u (n_dim + 3)))
  linarith

theorem flowing_ready {b : Basis} {n_dim : Nat} (visc : Bool) {mu kappa : Transport} (hmu : ∀ s, 0 ≤ mu.coefficient s) {es : List Elem}
    (h : Flowing b n_dim es) : Ready b n_dim (navierStokes n_dim visc mu kappa) es := by
  intro e he
  refine ⟨(h e he).1, fun q hq => ?_⟩
  have hu := (h e he).2 q hq
  exact ⟨fun _ => (charSpeed_pos hu).le, fun _ => diffusivity_nonneg hu hmu, .inl ⟨rfl, charSpeed_pos hu⟩⟩

/-- C67: during any time step of `update`, no wave of the flow, in any direction, gets farther than `max_safety` times the
largest stable CFL number times the local mesh spacing. -/
theorem update_waves {b : Basis} (hb : b.Good) {n_dim : Nat} (visc : Bool) (mu kappa : Transport) (hmu : ∀ s, 0 ≤ mu.coefficient s)
    (p : Params) (hs : 0 < p.max_safety) (ht : 0 < p.max_time_step) (advance : Mesh → ℝ → Mesh × Bool) (r : Run) (h0 : r.trace = [])
    (m : Mesh) (nominal dt : ℝ) (hm : (m, nominal, dt) ∈ (update b n_dim (navierStokes n_dim visc mu kappa) p advance r).trace)
    (hf : Flowing b n_dim m.elems) (e : Elem) (he : e ∈ m.elems) (q : Nat) (hq : q < b.row_size ^ n_dim) (dir : Nat → ℝ)
    (hd : 0 < dotN n_dim dir dir) (j : Fin 3) :
    |(Characteristics.new n_dim (fetchState n_dim (e.data q)) dir).vals j| * (dt * e.tss q) ≤
      p.max_safety * (b.max_cfl * spacing b n_dim e q) := by
  obtain ⟨-, h⟩ := update_stable hb p hs ht advance r h0 m nominal dt hm (flowing_ready visc hmu hf)
  obtain ⟨-, hdt, htss, hc, -⟩ := h e he q hq
  have hsp := spacing_pos hb (hf e he).1 q
  have hcfl := hb.cfl
  have hu := (hf e he).2 q hq
  have h1 := char_speed_eigenvalues n_dim _ dir hu hd j
  simp only [convective, navierStokes, if_true] at hc
  rw [div_le_iff₀ (by positivity)] at hc
  refine le_trans ?_ hc
  rw [mul_comm]
  exact mul_le_mul_of_nonneg_left h1 (by positivity)

/-- C67: without viscosity the local time step is given by the wave speed alone. -/
theorem euler_local {b : Basis} (hb : b.Good) {n_dim : Nat} (mu kappa : Transport) (hmu : ∀ s, 0 ≤ mu.coefficient s) (sc sd : ℝ)
    (hsc : 0 < sc) (hsd : 0 < sd) (m : Mesh) (hf : Flowing b n_dim m.elems) (e : Elem)
    (he : e ∈ (maxDt b n_dim (navierStokes n_dim false mu kappa) true sc sd m).1.elems) (q : Nat) (hq : q < b.row_size ^ n_dim) :
    e.tss q * charSpeed n_dim (fetchState n_dim (e.data q)) = sc * (b.max_cfl * spacing b n_dim e q) := by
  obtain ⟨-, -, h⟩ := max_dt_local hb sc sd hsc hsd m (flowing_ready false hmu hf)
  obtain ⟨-, h⟩ := h e he q hq
  obtain ⟨e', he', rfl⟩ := mem_maxDt he
  have hsp : 0 < spacing b n_dim (withTss b n_dim (navierStokes n_dim false mu kappa) true sc sd e') q :=
    spacing_pos hb (hf e' he').1 q
  have hcfl := hb.cfl
  simp only [convective, diffusive] at h
  rw [if_pos (by simp [navierStokes]), if_neg (by simp [navierStokes]), zero_div, add_zero, div_div, div_eq_one_iff_eq (by positivity)] at h
  rw [show sc * (b.max_cfl * _) = b.max_cfl * spacing b n_dim _ q * sc by ring]
  exact h

/-- C67: with viscosity both terms of the documented limit count. -/
theorem viscous_local {b : Basis} (hb : b.Good) {n_dim : Nat} (mu kappa : Transport) (hmu : ∀ s, 0 ≤ mu.coefficient s) (sc sd : ℝ)
    (hsc : 0 < sc) (hsd : 0 < sd) (m : Mesh) (hf : Flowing b n_dim m.elems) (e : Elem)
    (he : e ∈ (maxDt b n_dim (navierStokes n_dim true mu kappa) true sc sd m).1.elems) (q : Nat) (hq : q < b.row_size ^ n_dim) :
    e.tss q * (charSpeed n_dim (fetchState n_dim (e.data q)) / (sc * b.max_cfl * spacing b n_dim e q) +
      diffusivity n_dim mu kappa (fetchState n_dim (e.data q)) / (sd * (2 / -b.min_eig) * spacing b n_dim e q ^ 2)) = 1 := by
  obtain ⟨-, -, h⟩ := max_dt_local hb sc sd hsc hsd m (flowing_ready true hmu hf)
  obtain ⟨-, h⟩ := h e he q hq
  simp only [convective, diffusive, navierStokes, if_true] at h
  rw [← h]
  ring

/-- The hypotheses of the theorems above are met by moving air. -/
theorem exFlowing : Flowing exBasis 2 [⟨fun i => 1 / (i + 1), fun _ => exState, fun _ => 0⟩] := by
  intro e he
  rw [List.mem_singleton] at he
  subst he
  refine ⟨fun i _ => by positivity, fun q _ => ?_⟩
  constructor
  · simp [fetchState, exState]
  · norm_num [Pres, dotN, fetchState, exState, Finset.sum_range_succ]

example : ∀ s, 0 ≤ (Transport.constant (1 / 10)).coefficient s := by
  intro s; simp [Transport.coefficient, Transport.constant]

end Hexed.TimeStep
