import Verif.Force.Spec
import Verif.Stats.Props
import Verif.Solver.Props
set_option autoImplicit false
set_option linter.unusedVariables false

/-!
# Evaluating surface quantities
-/

namespace Hexed.Force
open Hexed.Pde Hexed.Tensor
noncomputable section

def surfaceNames : List String := ["normal0", "normal1", "normal2", "visc_stress0", "visc_stress1", "visc_stress2", "momentum0", "momentum1", "momentum2",
  "density", "energy", "mass_flux", "heat_flux"]

theorem hilSurface_eq {nd : Nat} (hnd : 1 ≤ nd ∧ nd ≤ 3) (nfq : Nat) (viscous : Bool) (f : Face) (q : Nat) (space : Vars) (hmag : f.mag nd nfq q ≠ 0) :
    ∃ s, hilSurface nd nfq viscous f q space = some s ∧
      (∀ i < 3, s (suffixed "normal" i) = some (if i < nd then f.nrml nfq q i * f.nrmlSign / f.mag nd nfq q else 0) ∧
        s (suffixed "visc_stress" i) = some (if i < nd then (if 1 / 1000 < f.mag nd nfq q ∧ viscous = true then -f.flux (i * nfq + q) * f.nrmlSign / f.mag nd nfq q else 0) else 0) ∧
        s (suffixed "momentum" i) = some (if i < nd then f.state (i * nfq + q) else 0)) ∧
      s "density" = some (f.state (nd * nfq + q)) ∧ s "energy" = some (f.state ((nd + 1) * nfq + q)) ∧
      s "mass_flux" = some (if 1 / 1000 < f.mag nd nfq q ∧ viscous = true then -f.flux (nd * nfq + q) * f.nrmlSign / f.mag nd nfq q else 0) ∧
      s "heat_flux" = some (if 1 / 1000 < f.mag nd nfq q ∧ viscous = true then -f.flux ((nd + 1) * nfq + q) * f.nrmlSign / f.mag nd nfq q else 0) ∧
      ∀ name, name ∉ surfaceNames → s name = space name := by
  refine ⟨_, by rw [hilSurface]; exact if_neg hmag, ?_⟩
  have sn : ∀ i, i = 0 ∨ i = 1 ∨ i = 2 → (suffixed "normal" i = if i = 0 then "normal0" else if i = 1 then "normal1" else "normal2") ∧
      (suffixed "visc_stress" i = if i = 0 then "visc_stress0" else if i = 1 then "visc_stress1" else "visc_stress2") ∧
      (suffixed "momentum" i = if i = 0 then "momentum0" else if i = 1 then "momentum1" else "momentum2") := by
    rintro i (rfl | rfl | rfl) <;> refine ⟨?_, ?_, ?_⟩ <;> decide
  obtain ⟨a0, b0, c0⟩ := sn 0 (by simp)
  obtain ⟨a1, b1, c1⟩ := sn 1 (by simp)
  obtain ⟨a2, b2, c2⟩ := sn 2 (by simp)
  simp only [if_true, one_ne_zero, if_false, OfNat.ofNat_ne_zero, OfNat.ofNat_ne_one] at a0 b0 c0 a1 b1 c1 a2 b2 c2
  obtain ⟨h1, h3⟩ := hnd
  have hr : nd = 1 ∨ nd = 2 ∨ nd = 3 := by omega
  rcases hr with rfl | rfl | rfl <;>
  · refine ⟨fun i hi => ?_, ?_, ?_, ?_, ?_, fun name hn => ?_⟩
    · have : i = 0 ∨ i = 1 ∨ i = 2 := by omega
      rcases this with rfl | rfl | rfl <;> refine ⟨?_, ?_, ?_⟩ <;>
        simp [List.range_succ, Vars.assign, a0, a1, a2, b0, b1, b2, c0, c1, c2]
    · simp [List.range_succ, Vars.assign, a0, a1, a2, b0, b1, b2, c0, c1, c2]
    · simp [List.range_succ, Vars.assign, a0, a1, a2, b0, b1, b2, c0, c1, c2]
    · simp [List.range_succ, Vars.assign, a0, a1, a2, b0, b1, b2, c0, c1, c2]
    · simp [List.range_succ, Vars.assign, a0, a1, a2, b0, b1, b2, c0, c1, c2]
    · simp only [surfaceNames, List.mem_cons, List.not_mem_nil, or_false, not_or] at hn
      simp [List.range_succ, Vars.assign, a0, a1, a2, b0, b1, b2, c0, c1, c2, hn]

theorem suffix_cases : suffixed "normal" 0 = "normal0" ∧ suffixed "normal" 1 = "normal1" ∧ suffixed "normal" 2 = "normal2" ∧
    suffixed "visc_stress" 0 = "visc_stress0" ∧ suffixed "visc_stress" 1 = "visc_stress1" ∧ suffixed "visc_stress" 2 = "visc_stress2" ∧
    suffixed "momentum" 0 = "momentum0" ∧ suffixed "momentum" 1 = "momentum1" ∧ suffixed "momentum" 2 = "momentum2" ∧
    suffixed "velocity" 0 = "velocity0" ∧ suffixed "velocity" 1 = "velocity1" ∧ suffixed "velocity" 2 = "velocity2" ∧
    suffixed "stress" 0 = "stress0" ∧ suffixed "stress" 1 = "stress1" ∧ suffixed "stress" 2 = "stress2" := by decide

/-- The expressions of `compute_force` in an environment that has the variables they need. -/
theorem exprs_eq {s : Vars} {m n v : Nat → ℝ} {rho E hr : ℝ} (hm : ∀ i < 3, s (suffixed "momentum" i) = some (m i)) (hn : ∀ i < 3, s (suffixed "normal" i) = some (n i))
    (hv : ∀ i < 3, s (suffixed "visc_stress" i) = some (v i)) (hd : s "density" = some rho) (he : s "energy" = some E) (hhr : s "heat_rat" = some hr) (hrho : rho ≠ 0) :
    ∃ r, ((velocityExpr s).bind fun s => (speedExpr s).bind fun s => (pressureExpr s).bind fun s => (stressExpr s).bind fun s => collect forceNames s) = some r ∧ r.size = 8 ∧
      (∀ i < 3, r.val i = m i / rho) ∧ r.val 3 = √((m 0 / rho) ^ 2 + (m 1 / rho) ^ 2 + (m 2 / rho) ^ 2) ∧
      r.val 4 = (hr - 1) * (E - 1 / 2 * rho * ((m 0 / rho) ^ 2 + (m 1 / rho) ^ 2 + (m 2 / rho) ^ 2)) ∧
      ∀ i < 3, r.val (5 + i) = -((hr - 1) * (E - 1 / 2 * rho * ((m 0 / rho) ^ 2 + (m 1 / rho) ^ 2 + (m 2 / rho) ^ 2))) * n i + v i := by
  obtain ⟨a0, a1, a2, b0, b1, b2, c0, c1, c2, d0, d1, d2, e0, e1, e2⟩ := suffix_cases
  have m0 := hm 0 (by omega); have m1 := hm 1 (by omega); have m2 := hm 2 (by omega)
  have n0 := hn 0 (by omega); have n1 := hn 1 (by omega); have n2 := hn 2 (by omega)
  have v0 := hv 0 (by omega); have v1 := hv 1 (by omega); have v2 := hv 2 (by omega)
  rw [c0] at m0; rw [c1] at m1; rw [c2] at m2; rw [a0] at n0; rw [a1] at n1; rw [a2] at n2; rw [b0] at v0; rw [b1] at v1; rw [b2] at v2
  have h1 : velocityExpr s = some (((s.assign "velocity0" (m 0 / rho)).assign "velocity1" (m 1 / rho)).assign "velocity2" (m 2 / rho)) := by
    simp [velocityExpr, c0, c1, c2, d0, d1, d2, m0, m1, m2, hd, quot, hrho, Vars.assign]
  have hpos : ¬ (m 0 / rho) ^ 2 + (m 1 / rho) ^ 2 + (m 2 / rho) ^ 2 < 0 := not_lt.2 (by positivity)
  have hsq : √((m 0 / rho) ^ 2 + (m 1 / rho) ^ 2 + (m 2 / rho) ^ 2) ^ 2 = (m 0 / rho) ^ 2 + (m 1 / rho) ^ 2 + (m 2 / rho) ^ 2 := Real.sq_sqrt (not_lt.1 hpos)
  rw [h1, Option.bind_some]
  generalize hV : √((m 0 / rho) ^ 2 + (m 1 / rho) ^ 2 + (m 2 / rho) ^ 2) = V at hsq
  have h2 : speedExpr (((s.assign "velocity0" (m 0 / rho)).assign "velocity1" (m 1 / rho)).assign "velocity2" (m 2 / rho)) =
      some ((((s.assign "velocity0" (m 0 / rho)).assign "velocity1" (m 1 / rho)).assign "velocity2" (m 2 / rho)).assign "speed" V) := by
    simp [speedExpr, Vars.assign, root, ← hV]
    rw [if_neg hpos]; rfl
  rw [h2, Option.bind_some]
  generalize hP : (hr - 1) * (E - 1 / 2 * rho * ((m 0 / rho) ^ 2 + (m 1 / rho) ^ 2 + (m 2 / rho) ^ 2)) = P
  have h3 : pressureExpr ((((s.assign "velocity0" (m 0 / rho)).assign "velocity1" (m 1 / rho)).assign "velocity2" (m 2 / rho)).assign "speed" V) =
      some (((((s.assign "velocity0" (m 0 / rho)).assign "velocity1" (m 1 / rho)).assign "velocity2" (m 2 / rho)).assign "speed" V).assign "pressure" P) := by
    rw [← hP, ← hsq]
    simp [pressureExpr, Vars.assign, hhr, he, hd]
  rw [h3, Option.bind_some]
  generalize hQ : ((((s.assign "velocity0" (m 0 / rho)).assign "velocity1" (m 1 / rho)).assign "velocity2" (m 2 / rho)).assign "speed" V).assign "pressure" P = Q
  have h4 : stressExpr Q = some (((Q.assign "stress0" (-P * n 0 + v 0)).assign "stress1" (-P * n 1 + v 1)).assign "stress2" (-P * n 2 + v 2)) := by
    rw [← hQ]
    simp [stressExpr, e0, e1, e2, a0, a1, a2, b0, b1, b2, Vars.assign, n0, n1, n2, v0, v1, v2]
  rw [h4, Option.bind_some]
  refine ⟨⟨8, fun i => [m 0 / rho, m 1 / rho, m 2 / rho, V, P, -P * n 0 + v 0, -P * n 1 + v 1, -P * n 2 + v 2].getD i 0⟩, ?_, rfl, ?_, rfl, rfl, ?_⟩
  · rw [← hQ]
    simp [collect, forceNames, Vars.assign]
  · intro i hi
    have : i = 0 ∨ i = 1 ∨ i = 2 := by omega
    rcases this with rfl | rfl | rfl <;> rfl
  · intro i hi
    have : i = 0 ∨ i = 1 ∨ i = 2 := by omega
    rcases this with rfl | rfl | rfl <;> rfl

theorem nrmlSign_cases (f : Face) : f.nrmlSign = -(if f.sign then (1 : ℝ) else -1) := by
  rw [Face.nrmlSign]; split <;> norm_num

theorem nrmlSign_sq (f : Face) : f.nrmlSign * f.nrmlSign = 1 := by
  rw [nrmlSign_cases]; split <;> norm_num

theorem mag_sq (nd nfq : Nat) (f : Face) (q : Nat) : f.mag nd nfq q * f.mag nd nfq q = dotN nd (f.nrml nfq q) (f.nrml nfq q) := by
  rw [Face.mag, Pde.norm]; exact Real.mul_self_sqrt (by rw [sumN_eq]; exact Finset.sum_nonneg fun i _ => mul_self_nonneg _)

theorem mag_pos {nd nfq : Nat} {f : Face} {q : Nat} (h : dotN nd (f.nrml nfq q) (f.nrml nfq q) ≠ 0) : 0 < f.mag nd nfq q := by
  have h0 : 0 ≤ f.mag nd nfq q := Real.sqrt_nonneg _
  rcases h0.lt_or_eq with h1 | h1
  · exact h1
  · exact absurd (by rw [← mag_sq, ← h1, mul_zero]) h

theorem sum3 {nd : Nat} (hnd : 1 ≤ nd ∧ nd ≤ 3) (u : Nat → ℝ) (r : ℝ) :
    ((if 0 < nd then u 0 else 0) / r) ^ 2 + ((if 1 < nd then u 1 else 0) / r) ^ 2 + ((if 2 < nd then u 2 else 0) / r) ^ 2 = dotN nd u u / r ^ 2 := by
  obtain ⟨h1, h3⟩ := hnd
  have hr : nd = 1 ∨ nd = 2 ∨ nd = 3 := by omega
  rcases hr with rfl | rfl | rfl <;> simp [dotN, Finset.sum_range_succ] <;> ring

/-- The values of the integrand of `compute_force` at a point. -/
theorem forceIntegrand_eq {nd : Nat} (hnd : 1 ≤ nd ∧ nd ≤ 3) (nfq : Nat) (viscous : Bool) (space : Vars) (hhr : space "heat_rat" = some (7 / 5)) (f : Face) (q : Nat)
    (hmag : dotN nd (f.nrml nfq q) (f.nrml nfq q) ≠ 0) (hrho : f.state (nd * nfq + q) ≠ 0) :
    ∃ r, forceIntegrand nd nfq viscous space f q = some r ∧ r.size = 8 ∧ r.val 4 = Pres nd (stateAt nfq f q) ∧
      ∀ i < 3, r.val (5 + i) = if i < nd then -Pres nd (stateAt nfq f q) * (f.nrml nfq q i * f.nrmlSign / f.mag nd nfq q) +
        (if 1 / 1000 < f.mag nd nfq q ∧ viscous = true then -f.flux (i * nfq + q) * f.nrmlSign / f.mag nd nfq q else 0) else 0 := by
  obtain ⟨s, h1, h2, h3, h4, h5, h6, h7⟩ := hilSurface_eq hnd nfq viscous f q space (mag_pos hmag).ne'
  obtain ⟨r, g1, g2, g3, g4, g5, g6⟩ := exprs_eq (fun i hi => (h2 i hi).2.2) (fun i hi => (h2 i hi).1) (fun i hi => (h2 i hi).2.1) h3 h4 ((h7 "heat_rat" (by decide)).trans hhr) hrho
  have hp : (7 / 5 - 1 : ℝ) * (f.state ((nd + 1) * nfq + q) - 1 / 2 * f.state (nd * nfq + q) * (((if 0 < nd then f.state (0 * nfq + q) else 0) / f.state (nd * nfq + q)) ^ 2 +
      ((if 1 < nd then f.state (1 * nfq + q) else 0) / f.state (nd * nfq + q)) ^ 2 + ((if 2 < nd then f.state (2 * nfq + q) else 0) / f.state (nd * nfq + q)) ^ 2)) = Pres nd (stateAt nfq f q) := by
    have := sum3 hnd (stateAt nfq f q) (f.state (nd * nfq + q))
    simp only [stateAt] at this
    rw [this, Pres]
    simp only [stateAt]
    field_simp
    ring
  refine ⟨r, ?_, g2, ?_, fun i hi => ?_⟩
  · rw [forceIntegrand, h1, Option.bind_some]; exact g1
  · rw [g5]; exact hp
  · rw [g6 i hi, hp]
    split
    · rfl
    · ring

/-- The value of the integrand of `compute_heating` at a point. -/
theorem heatIntegrand_eq {nd : Nat} (hnd : 1 ≤ nd ∧ nd ≤ 3) (nfq : Nat) (viscous : Bool) (space : Vars) (f : Face) (q : Nat) (hmag : dotN nd (f.nrml nfq q) (f.nrml nfq q) ≠ 0) :
    ∃ r, heatIntegrand nd nfq viscous space f q = some r ∧ r.size = 1 ∧
      r.val 0 = if 1 / 1000 < f.mag nd nfq q ∧ viscous = true then -f.flux ((nd + 1) * nfq + q) * f.nrmlSign / f.mag nd nfq q else 0 := by
  obtain ⟨s, h1, h2, h3, h4, h5, h6, h7⟩ := hilSurface_eq hnd nfq viscous f q space (mag_pos hmag).ne'
  refine ⟨⟨1, fun i => [if 1 / 1000 < f.mag nd nfq q ∧ viscous = true then -f.flux ((nd + 1) * nfq + q) * f.nrmlSign / f.mag nd nfq q else 0].getD i 0⟩, ?_, rfl, ?_⟩
  · rw [heatIntegrand, h1, Option.bind_some, collect]; simp [h6]
  · rfl

theorem collect_size (names : List String) (s : Vars) (r : Vec ℝ) (h : collect names s = some r) : r.size = names.length := by
  have gen : ∀ (names : List String) (l0 l : List ℝ), names.foldlM (fun (l : List ℝ) n => (s n).bind fun x => some (l ++ [x])) l0 = some l → l.length = l0.length + names.length := by
    intro names
    induction names with
    | nil => intro l0 l h; simp at h; simp [h]
    | cons n t ih =>
      intro l0 l h
      rw [List.foldlM_cons] at h
      obtain ⟨l1, h1, h2⟩ := Option.bind_eq_some_iff.1 h
      obtain ⟨x, h3, h4⟩ := Option.bind_eq_some_iff.1 h1
      cases h4
      rw [ih _ _ h2]; simp; omega
  rw [collect] at h
  obtain ⟨l, h1, h2⟩ := Option.bind_eq_some_iff.1 h
  cases h2
  simpa using gen names [] l h1

theorem forceIntegrand_size (nd nfq : Nat) (viscous : Bool) (space : Vars) (f : Face) (q : Nat) (r : Vec ℝ) (h : forceIntegrand nd nfq viscous space f q = some r) : r.size = 8 := by
  rw [forceIntegrand] at h
  obtain ⟨s1, _, h⟩ := Option.bind_eq_some_iff.1 h
  obtain ⟨s2, _, h⟩ := Option.bind_eq_some_iff.1 h
  obtain ⟨s3, _, h⟩ := Option.bind_eq_some_iff.1 h
  obtain ⟨s4, _, h⟩ := Option.bind_eq_some_iff.1 h
  obtain ⟨s5, _, h⟩ := Option.bind_eq_some_iff.1 h
  exact collect_size _ _ _ h

theorem heatIntegrand_size (nd nfq : Nat) (viscous : Bool) (space : Vars) (f : Face) (q : Nat) (r : Vec ℝ) (h : heatIntegrand nd nfq viscous space f q = some r) : r.size = 1 := by
  rw [heatIntegrand] at h
  obtain ⟨s1, _, h⟩ := Option.bind_eq_some_iff.1 h
  exact collect_size _ _ _ h

/-- Integrals over a surface of an expression that has a value everywhere on it. -/
theorem integrate_eq {b : Basis.Nodes ℝ} (hb : 0 < b.n) (u : Nat → ℝ) {nd : Nat} (hnd : 1 ≤ nd) (nv : Nat) (ids : List Nat) (con : Nat → Stats.BoundCon) (val : Nat → Nat → Option (Vec ℝ)) (sn : Nat)
    (hsz : ∀ c q x, val c q = some x → x.size = nv) (g : Nat → Nat → Nat → ℝ) (hr : ∀ c ∈ ids, (con c).bc = sn → ∀ q < b.n ^ (nd - 1), ∃ x, val c q = some x ∧ ∀ v < nv, x.val v = g c q v) :
    ∃ t, integrate b u nd nv ids con val sn = some t ∧ t.size = nv ∧ ∀ v < nv, t.val v = ((ids.filter fun c => (con c).bc = sn).map fun c => (con c).size ^ (nd - 1) *
      ∑ k ∈ Finset.range (b.n ^ (nd - 1)), Spatial.qw b.weight b.n (nd - 1) k * (g c k v * √(∑ i ∈ Finset.range nd, (con c).normal (i * b.n ^ (nd - 1) + k) ^ 2))).sum := by
  have hsome : ∀ c ∈ ids, (con c).bc = sn → ∀ q < b.n ^ (nd - 1), (val c q).isSome := fun c hc hs q hq => by obtain ⟨x, hx, _⟩ := hr c hc hs q hq; rw [hx]; rfl
  rw [integrate, if_pos hsome]
  obtain ⟨t, h1, h2, h3⟩ := Stats.integralSurface_eq hb u hnd nv ids con (fun c q => (val c q).getD ⟨nv, fun _ => 0⟩) sn (by
    intro c _ q _
    cases hv : val c q with
    | none => rfl
    | some x => exact hsz c q x hv)
  refine ⟨t, h1, h2, fun v hv => ?_⟩
  rw [h3 v hv]
  congr 1
  refine List.map_congr_left fun c hc => ?_
  obtain ⟨hc, hs⟩ := List.mem_filter.1 hc
  have hs : (con c).bc = sn := by simpa using hs
  congr 1
  rw [Stats.elemSum, Stats.sum_idx hb]
  refine Finset.sum_congr rfl fun d _ => ?_
  obtain ⟨x, hx, hg⟩ := hr c hc hs (idx d) (idx_lt _)
  rw [hx, Option.getD_some, hg v hv, Stats.qw_idx _ hb]

end
end Hexed.Force
