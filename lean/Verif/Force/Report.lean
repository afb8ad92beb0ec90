import Verif.Force.Budget
set_option autoImplicit false
set_option linter.unusedVariables false

/-!
# Drag, lift and side force; where reports are wrong (C79)
-/

namespace Hexed.Force
open Hexed.Pde Hexed.Spatial Hexed.Solver Hexed.Tensor
noncomputable section

/-! ## Components of the force -/

/-- Three perpendicular unit vectors. -/
structure Triad (a b c : Fin 3 → ℝ) : Prop where
  unit : ∑ i, a i * a i = 1 ∧ ∑ i, b i * b i = 1 ∧ ∑ i, c i * c i = 1
  perp : ∑ i, a i * b i = 0 ∧ ∑ i, a i * c i = 0 ∧ ∑ i, b i * c i = 0

/-- What `compute_force` is given. -/
structure Given (s : Vars) (d : Fin 3 → ℝ) (rho V : ℝ) : Prop where
  direction : s "freestream_direction0" = some (d 0) ∧ s "freestream_direction1" = some (d 1) ∧ s "freestream_direction2" = some (d 2)
  density : s "freestream_density" = some rho
  speed : s "freestream_speed" = some V
  dynamic : rho ≠ 0 ∧ V ≠ 0

theorem dynamic_ne {rho V : ℝ} (h : rho ≠ 0 ∧ V ≠ 0) : (1 / 2 * rho * V ^ 2 : ℝ) ≠ 0 := mul_ne_zero (mul_ne_zero (by norm_num) h.1) (pow_ne_zero _ h.2)

/-- The variables that `compute_force` sets. -/
structure Sets (t : Vars) (F : Nat → ℝ) (q drag lift side : ℝ) : Prop where
  force : t "force0" = some (F 0) ∧ t "force1" = some (F 1) ∧ t "force2" = some (F 2)
  axes : t "drag" = some drag ∧ t "lift" = some lift ∧ t "side_force" = some side
  drag_coef : t "drag_coef" = some (drag / q)
  lift_coef : t "lift_coef" = some (lift / q)
  side_coef : t "side_force_coef" = some (side / q)

theorem get_assign (s : Vars) (name n : String) (x : ℝ) : s.assign name x n = if n = name then some x else s n := rfl

theorem coefStep_eq {name : String} {s : Vars} {x rho V : ℝ} (h : s name = some x) (hr : s "freestream_density" = some rho) (hv : s "freestream_speed" = some V) (hd : rho ≠ 0 ∧ V ≠ 0) :
    coefStep name s = some (s.assign (name ++ "_coef") (x / (1 / 2 * rho * V ^ 2))) := by
  rw [coefStep, h, hr, hv]
  simp only [Option.bind_some, quot, if_neg (dynamic_ne hd)]

theorem readForces_eq {s : Vars} {F : Nat → ℝ} {d : Fin 3 → ℝ} (hf : s "force0" = some (F 0) ∧ s "force1" = some (F 1) ∧ s "force2" = some (F 2))
    (hd : s "freestream_direction0" = some (d 0) ∧ s "freestream_direction1" = some (d 1) ∧ s "freestream_direction2" = some (d 2)) :
    readForces s = some ((F 0, F 1, F 2), (d 0, d 1, d 2)) := by
  rw [readForces, hf.1, hf.2.1, hf.2.2, hd.1, hd.2.1, hd.2.2]; rfl

theorem coefs_eq {s : Vars} {F : Nat → ℝ} {rho V drag lift side : ℝ} (hf : s "force0" = some (F 0) ∧ s "force1" = some (F 1) ∧ s "force2" = some (F 2))
    (hx : s "drag" = some drag ∧ s "lift" = some lift ∧ s "side_force" = some side) (hr : s "freestream_density" = some rho) (hv : s "freestream_speed" = some V) (hd : rho ≠ 0 ∧ V ≠ 0) :
    ∃ t, ((coefStep "drag" s).bind fun s => (coefStep "lift" s).bind fun s => coefStep "side_force" s) = some t ∧ Sets t F (1 / 2 * rho * V ^ 2) drag lift side := by
  rw [coefStep_eq hx.1 hr hv hd, Option.bind_some]
  have n1 : "drag" ++ "_coef" = "drag_coef" := by decide
  have n2 : "lift" ++ "_coef" = "lift_coef" := by decide
  have n3 : "side_force" ++ "_coef" = "side_force_coef" := by decide
  rw [n1]
  generalize hQ : 1 / 2 * rho * V ^ 2 = Q
  rw [coefStep_eq (x := lift) (rho := rho) (V := V) (by rw [get_assign]; simpa using hx.2.1) (by rw [get_assign]; simpa using hr) (by rw [get_assign]; simpa using hv) hd, Option.bind_some, n2]
  rw [coefStep_eq (x := side) (rho := rho) (V := V) (by rw [get_assign, get_assign]; simpa using hx.2.2) (by rw [get_assign, get_assign]; simpa using hr) (by rw [get_assign, get_assign]; simpa using hv) hd, n3, hQ]
  refine ⟨_, rfl, ⟨?_, ?_, ?_, ?_, ?_⟩⟩
  · simp only [get_assign, String.reduceEq, if_false]; exact hf
  · simp only [get_assign, String.reduceEq, if_false]; exact hx
  · simp only [get_assign, String.reduceEq, if_false, if_true]
  · simp only [get_assign, String.reduceEq, if_false, if_true]
  · simp only [get_assign, if_true]

theorem computeForce_eq {nd : Nat} {F : Nat → ℝ} {s : Vars} {d : Fin 3 → ℝ} {rho V : ℝ} (hg : Given s d rho V) {lift side : ℝ}
    (hc : (nd = 1 ∧ lift = 0 ∧ side = 0) ∨ (nd = 2 ∧ lift = F 1 * d 0 - F 0 * d 1 ∧ side = 0) ∨
      (nd = 3 ∧ 0 < √(d 0 ^ 2 + d 1 ^ 2) ∧ lift = F 2 * √(d 0 ^ 2 + d 1 ^ 2) - (F 0 * d 0 + F 1 * d 1) / √(d 0 ^ 2 + d 1 ^ 2) * d 2 ∧ side = (F 1 * d 0 - F 0 * d 1) / √(d 0 ^ 2 + d 1 ^ 2))) :
    ∃ t, computeForce nd F s = some t ∧ Sets t F (1 / 2 * rho * V ^ 2) (F 0 * d 0 + F 1 * d 1 + F 2 * d 2) lift side := by
  obtain ⟨⟨g0, g1, g2⟩, gr, gv, gd⟩ := hg
  have hroot : root (d 0 ^ 2 + d 1 ^ 2) = some √(d 0 ^ 2 + d 1 ^ 2) := by rw [root, if_neg (not_lt.2 (by positivity))]
  have r1 : readForces (setForces F s) = some ((F 0, F 1, F 2), (d 0, d 1, d 2)) :=
    readForces_eq (by simp [setForces, get_assign]) (by simp [setForces, get_assign, g0, g1, g2])
  rw [computeForce, dragStep, r1, Option.bind_some, Option.bind_some]
  generalize hs1 : (((setForces F s).assign "drag" (F 0 * d 0 + F 1 * d 1 + F 2 * d 2)).assign "lift" 0).assign "side_force" 0 = s1
  have f1 : s1 "force0" = some (F 0) ∧ s1 "force1" = some (F 1) ∧ s1 "force2" = some (F 2) := by rw [← hs1]; simp [setForces, get_assign]
  have d1 : s1 "freestream_direction0" = some (d 0) ∧ s1 "freestream_direction1" = some (d 1) ∧ s1 "freestream_direction2" = some (d 2) := by rw [← hs1]; simp [setForces, get_assign, g0, g1, g2]
  have q1 : s1 "freestream_density" = some rho ∧ s1 "freestream_speed" = some V := by rw [← hs1]; simp [setForces, get_assign, gr, gv]
  have x1 : s1 "drag" = some (F 0 * d 0 + F 1 * d 1 + F 2 * d 2) ∧ s1 "lift" = some 0 ∧ s1 "side_force" = some 0 := by rw [← hs1]; simp [get_assign]
  have r2 := readForces_eq f1 d1
  clear hs1
  generalize hD : F 0 * d 0 + F 1 * d 1 + F 2 * d 2 = D at x1 ⊢
  rcases hc with ⟨rfl, rfl, rfl⟩ | ⟨rfl, rfl, rfl⟩ | ⟨rfl, hr, rfl, rfl⟩
  · rw [caseStep, if_pos rfl, Option.bind_some]
    exact coefs_eq f1 x1 q1.1 q1.2 gd
  · rw [caseStep, if_neg (by decide), if_pos rfl, case2, r2, Option.bind_some, Option.bind_some]
    exact coefs_eq (by simpa [get_assign] using f1) (by simpa [get_assign] using ⟨x1.1, x1.2.2⟩) (by simpa [get_assign] using q1.1) (by simpa [get_assign] using q1.2) gd
  · rw [caseStep, if_neg (by decide), if_neg (by decide), if_pos rfl, case3, r2, Option.bind_some]
    dsimp only
    rw [hroot, Option.bind_some]
    simp only [quot, if_neg hr.ne', Option.bind_some]
    exact coefs_eq (by simpa [get_assign] using f1) (by simpa [get_assign] using x1.1) (by simpa [get_assign] using q1.1) (by simpa [get_assign] using q1.2) gd

/-- C79: `compute_force` sets all of the documented variables; drag is the component of the force along the freestream, lift and side force
are its components along two further axes perpendicular to that and to each other, and the coefficients are the components over the dynamic
pressure. In two dimensions the lift axis is the freestream direction turned counterclockwise; in three dimensions it is the one of the
vertical plane of the freestream that points up, and the side force is horizontal. What does not apply in fewer dimensions is zero. -/
theorem compute_force_exact (nd : Nat) (hnd : nd = 1 ∨ nd = 2 ∨ nd = 3) (F : Nat → ℝ) (s : Vars) (d : Fin 3 → ℝ) (rho V : ℝ) (hg : Given s d rho V) (hd : ∑ i, d i * d i = 1)
    (h2 : nd ≤ 2 → d 2 = 0) (h1 : nd = 1 → d 1 = 0) (hF : ∀ i, nd ≤ i → i < 3 → F i = 0) (h3 : nd = 3 → d 0 ≠ 0 ∨ d 1 ≠ 0) :
    ∃ t drag lift side lift_axis side_axis, computeForce nd F s = some t ∧ Triad d lift_axis side_axis ∧
      Sets t F (1 / 2 * rho * V ^ 2) drag lift side ∧
      drag = ∑ i : Fin 3, F i * d i ∧ lift = ∑ i : Fin 3, F i * lift_axis i ∧ side = ∑ i : Fin 3, F i * side_axis i ∧
      (nd = 1 → lift = 0) ∧ (nd ≤ 2 → side = 0) ∧ (nd = 2 → lift_axis = ![-d 1, d 0, 0]) ∧ (nd = 3 → 0 < lift_axis 2 ∧ side_axis 2 = 0) := by
  simp only [Fin.sum_univ_three] at hd
  rcases hnd with rfl | rfl | rfl
  · have z1 := h1 rfl; have z2 := h2 (by norm_num)
    have f1 := hF 1 (by omega) (by omega); have f2 := hF 2 (by omega) (by omega)
    obtain ⟨t, ht, hs⟩ := computeForce_eq (F := F) hg (Or.inl ⟨rfl, rfl, rfl⟩)
    refine ⟨t, _, _, _, ![-d 1, d 0, 0], ![0, 0, 1], ht, ?_, hs, ?_, ?_, ?_, ?_, ?_, ?_, ?_⟩
    · constructor <;> simp [Fin.sum_univ_three, z1, z2] at hd ⊢ <;> linarith
    all_goals simp [Fin.sum_univ_three, f1, f2, z1, z2]
  · have z2 := h2 (by norm_num)
    have f2 := hF 2 (by omega) (by omega)
    obtain ⟨t, ht, hs⟩ := computeForce_eq (F := F) hg (Or.inr (Or.inl ⟨rfl, rfl, rfl⟩))
    refine ⟨t, _, _, _, ![-d 1, d 0, 0], ![0, 0, 1], ht, ?_, hs, ?_, ?_, ?_, ?_, ?_, ?_, ?_⟩
    · constructor <;> simp [Fin.sum_univ_three, z2] at hd ⊢ <;> (try constructor) <;> linarith
    all_goals simp [Fin.sum_univ_three, f2, z2]
    ring
  · have hpos : 0 < d 0 ^ 2 + d 1 ^ 2 := by
      rcases h3 rfl with h | h
      · have := sq_nonneg (d 1); positivity
      · have := sq_nonneg (d 0); positivity
    have hr : 0 < √(d 0 ^ 2 + d 1 ^ 2) := Real.sqrt_pos.2 hpos
    have hsq : √(d 0 ^ 2 + d 1 ^ 2) * √(d 0 ^ 2 + d 1 ^ 2) = d 0 ^ 2 + d 1 ^ 2 := Real.mul_self_sqrt hpos.le
    obtain ⟨t, ht, hs⟩ := computeForce_eq (F := F) hg (Or.inr (Or.inr ⟨rfl, hr, rfl, rfl⟩))
    set h := √(d 0 ^ 2 + d 1 ^ 2) with hh
    refine ⟨t, _, _, _, ![-d 0 / h * d 2, -d 1 / h * d 2, h], ![-d 1 / h, d 0 / h, 0], ht, ?_, hs, ?_, ?_, ?_, ?_, ?_, ?_, ?_⟩
    · have hd2 : d 2 * d 2 = 1 - h * h := by rw [hsq]; linarith
      constructor
      · simp only [Fin.sum_univ_three, Matrix.cons_val_zero, Matrix.cons_val_one, Matrix.cons_val]
        refine ⟨hd, ?_, ?_⟩
        · field_simp
          have e : d 0 ^ 2 + d 1 ^ 2 = h * h := hsq.symm
          linear_combination (d 2 * d 2) * e + (h * h) * hd2
        · field_simp
          linear_combination -hsq
      · simp only [Fin.sum_univ_three, Matrix.cons_val_zero, Matrix.cons_val_one, Matrix.cons_val]
        refine ⟨?_, ?_, ?_⟩
        · field_simp
          linear_combination d 2 * hsq
        · field_simp; ring
        · field_simp; ring
    all_goals simp [Fin.sum_univ_three, hr]
    · ring
    · ring

/-- C79 (code): with the freestream straight up or down in three dimensions `compute_force` divides zero by zero: nothing after the drag is a
number, although the direction is a valid one. -/
theorem vertical_freestream_refuted : ¬ ∀ (F : Nat → ℝ) (s : Vars) (d : Fin 3 → ℝ) (rho V : ℝ), Given s d rho V → ∑ i, d i * d i = 1 → (computeForce 3 F s).isSome := by
  intro h
  let s : Vars := fun n => if n = "freestream_direction0" then some 0 else if n = "freestream_direction1" then some 0 else if n = "freestream_direction2" then some 1
    else if n = "freestream_density" then some 1 else if n = "freestream_speed" then some 1 else none
  have := h (fun _ => 1) s ![0, 0, 1] 1 1 ⟨⟨rfl, rfl, rfl⟩, rfl, rfl, by norm_num⟩ (by simp [Fin.sum_univ_three])
  have r1 : readForces (setForces (fun _ => 1) s) = some ((1, 1, 1), (0, 0, 1)) :=
    readForces_eq (F := fun _ => 1) (d := ![0, 0, 1]) (by simp [setForces, get_assign]) (by simp [setForces, get_assign, s])
  rw [computeForce, dragStep, r1, Option.bind_some, Option.bind_some] at this
  generalize hs1 : (((setForces (fun _ => 1) s).assign "drag" _).assign "lift" 0).assign "side_force" 0 = s1 at this
  have r2 : readForces s1 = some ((1, 1, 1), (0, 0, 1)) :=
    readForces_eq (F := fun _ => 1) (d := ![0, 0, 1]) (by rw [← hs1]; simp [setForces, get_assign]) (by rw [← hs1]; simp [setForces, get_assign, s])
  rw [caseStep, if_neg (by decide), if_neg (by decide), if_pos rfl, case3, r2, Option.bind_some] at this
  simp [root, quot] at this

/-! ## Heat flux of the boundary function -/

/-- C79: the boundary function `Heat_flux` is the opposite of the HIL variable of that name. -/
theorem heat_flux_opposite {nd : Nat} (hnd : 1 ≤ nd ∧ nd ≤ 3) (nfq : Nat) (f : Face) (q : Nat) (space : Vars) (hmag : f.mag nd nfq q ≠ 0) :
    ∃ s, hilSurface nd nfq true f q space = some s ∧ s "heat_flux" = some (-heatFlux nd nfq f q) := by
  obtain ⟨s, h1, h2, h3, h4, h5, h6, h7⟩ := hilSurface_eq hnd nfq true f q space hmag
  refine ⟨s, h1, ?_⟩
  rw [h6, heatFlux]
  simp only [and_true]
  congr 1
  split
  · ring
  · ring

/-- C79 (code): documented as the heat flux into the surface, `Heat_flux` is negative where heat flows into the surface: at a lower face
with the unit normal of a line, an inside flux of -1 along the line carries energy towards the surface. -/
theorem heat_flux_sign_refuted : ¬ ∀ (f : Face) (into : ℝ), 0 < into → (∀ i, f.normal i = 1) → f.flux 2 = into * (if f.sign then 1 else -1) → 0 < heatFlux 1 1 f 0 := by
  intro h
  have := h ⟨false, fun _ => 1, fun _ => 1, fun i => if i = 2 then -1 else 0⟩ 1 one_pos (fun _ => rfl) (by simp)
  simp [heatFlux, Face.mag, Pde.norm, sumN, Face.nrml, Face.nrmlSign] at this
  norm_num at this

/-! ## Stress that is not applied, or not reported -/

/-- C79 (code): at a slip wall (nonpenetration) the reported viscous stress contains friction, which the wall does not exert: the momentum
flux through the wall is that of the normal stress alone. -/
theorem slip_friction_refuted : ¬ ∀ (nd nfq : Nat) (f : Face) (q : Nat), 1 / 1000 < f.mag nd nfq q →
    ∀ i < nd, viscousStress nd nfq f q i * f.mag nd nfq q = (if f.sign then 1 else -1) * ((f.flux (i * nfq + q) + nonpenFlux nd (f.nrml nfq q) (fun v => f.flux (v * nfq + q)) i) / 2) := by
  intro h
  have hm : (⟨true, fun i => if i = 0 then 1 else 0, fun _ => 1, fun i => if i = 1 then 1 else 0⟩ : Face).mag 2 1 0 = 1 := by
    simp [Face.mag, Pde.norm, sumN, Face.nrml, List.range_succ]
  have := h 2 1 ⟨true, fun i => if i = 0 then 1 else 0, fun _ => 1, fun i => if i = 1 then 1 else 0⟩ 0 (by rw [hm]; norm_num) 1 (by norm_num)
  simp [viscousStress, hm, nonpenFlux, reflectNormal, Face.nrml, Face.nrmlSign, sumN, List.range_succ] at this
  norm_num at this

/-- C79 (code): with the viscosity and conductivity models empty, viscous stress is reported as zero whatever flux was cached; but with
artificial viscosity that flux is not zero, and a no-slip wall (or the normal part at a slip wall) does transmit it. -/
theorem artificial_stress_not_reported {nd : Nat} (hnd : 1 ≤ nd ∧ nd ≤ 3) (nfq : Nat) (f : Face) (q : Nat) (space : Vars) (hmag : f.mag nd nfq q ≠ 0) :
    isViscous (some "") (some "") = some false ∧ ∃ s, hilSurface nd nfq false f q space = some s ∧ ∀ i < nd, s (suffixed "visc_stress" i) = some 0 := by
  obtain ⟨s, h1, h2, _⟩ := hilSurface_eq hnd nfq false f q space hmag
  refine ⟨by decide, s, h1, fun i hi => ?_⟩
  rw [(h2 i (by omega)).2.1, if_pos hi]
  simp

/-- C79: the flag that decides whether viscous quantities are reported: some transport model is not empty. -/
theorem viscous_flag (v c : String) : isViscous (some v) (some c) = some (decide (v ≠ "" ∨ c ≠ "")) := by
  by_cases h : v = "" <;> simp [isViscous, h]

/-- C79 (code): faces are not treated as one: on a face of small area (relative to the size of the element) viscous quantities are reported
as zero, and on a degenerate one the normal is not a number, and so is the force on any surface that contains it. -/
theorem degenerate_faces {nd : Nat} (nfq : Nat) (viscous : Bool) (space : Vars) (f : Face) (q : Nat) :
    (f.mag nd nfq q ≤ 1 / 1000 → ∀ i, viscousStress nd nfq f q i = 0) ∧
    (f.mag nd nfq q = 0 → forceIntegrand nd nfq viscous space f q = none ∧ pressureStress (7 / 5) nd nfq f q = none) := by
  refine ⟨fun h i => by simp only [viscousStress, if_neg (not_lt.2 h)], fun h => ⟨by simp [forceIntegrand, hilSurface, h], ?_⟩⟩
  have hsn : Pde.norm nd (fun i => f.nrml nfq q i * f.nrmlSign) = f.mag nd nfq q := by
    rw [Pde.norm, Face.mag, Pde.norm]
    congr 1
    rw [sumN_eq, sumN_eq]
    exact Finset.sum_congr rfl fun i _ => by linear_combination f.nrml nfq q i * f.nrml nfq q i * nrmlSign_sq f
  rw [pressureStress, surfaceNormal]
  simp only [hsn, h, if_true, Option.bind_none]

/-- C79 (code): one degenerate face makes the whole force not a number. -/
theorem degenerate_force (b : Basis.Nodes ℝ) (u : Nat → ℝ) (m : Mesh) (ids : List Nat) (bcon : Nat → ConRec) (sn : ConRec → Nat) (surface_sn : Nat) (viscous : Bool) (space : Vars) (ws wf : World)
    (j : Nat) (hj : j ∈ ids) (hs : sn (bcon j) = surface_sn) (q : Nat) (hq : q < b.n ^ (m.nd - 1)) (h0 : ∀ i < m.nd, (bcon j).normal (i * b.n ^ (m.nd - 1) + q) = 0) :
    reportForce b u m ids bcon sn surface_sn viscous space ws wf = none := by
  rw [reportForce, integrate, if_neg]
  intro h
  have := h j hj hs q hq
  have hm : (faceOf (bcon j) ws wf).mag m.nd (b.n ^ (m.nd - 1)) q = 0 := by
    rw [Face.mag, Pde.norm, sumN_eq, Finset.sum_eq_zero fun i hi => ?_, Real.sqrt_zero]
    simp only [Face.nrml, faceOf, h0 i (Finset.mem_range.1 hi), mul_zero]
  rw [((degenerate_faces _ viscous space _ q).2 hm).1] at this
  cases this

end
end Hexed.Force
