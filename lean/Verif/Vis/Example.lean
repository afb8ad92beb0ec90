import Verif.Vis.Props
set_option autoImplicit false
set_option linter.unusedVariables false

/-! # C78: concrete cases and limits -/

namespace Hexed.Vis
open Hexed.Tensor Hexed.Basis Hexed.Stats MvPolynomial

/-- Equidistant nodes, with row size 3. -/
noncomputable def three : Nodes ℝ := equidistant ℝ 3

theorem three_distinct : three.Distinct := by
  intro i hi j hj e
  simp only [three, equidistant] at e
  have : ((i : ℝ)) = j := by
    have h3 : ((3 : Nat) : ℝ) - 1 ≠ 0 := by norm_num
    field_simp at e
    exact e
  exact_mod_cast this

/-- `x*(1 - x)`. -/
noncomputable def hump : MvPolynomial (Fin 1) ℝ := X 0 * (1 - X 0)

theorem hump_interp : Interp three (fun q => eval (fun _ : Fin 1 => three.node q) hump) hump := by
  refine ⟨fun k => ?_, fun c => ?_⟩
  · have h1 : degreeOf k (X 0 : MvPolynomial (Fin 1) ℝ) ≤ 1 := by rw [degreeOf_X]; split <;> omega
    have h2 : degreeOf k (1 - X 0 : MvPolynomial (Fin 1) ℝ) ≤ 1 := by
      refine (degreeOf_sub_le _ _ _).trans ?_
      rw [show (1 : MvPolynomial (Fin 1) ℝ) = C 1 from C_1.symm, degreeOf_C]
      omega
    have := degreeOf_mul_le k (X 0 : MvPolynomial (Fin 1) ℝ) (1 - X 0)
    change degreeOf k (X 0 * (1 - X 0)) < 3
    omega
  · have : idx c = c 0 := by simp [idx_sum]
    rw [this]
    have e : (fun k => three.node (c k)) = fun _ => three.node (c 0) := by
      funext k; rw [Subsingleton.elim k 0]
    rw [e]

/-- C78, what the bounds are not: with row size 3 and two samples, `x*(1 - x)` has the bounds 0 and 0, but the value 1/4 at the center of the element. -/
theorem bounds_not_wide : ∃ bd, boundsField three (fun _ => 0) 1 1 1 [fun q _ => eval (fun _ : Fin 1 => three.node q) hump] 2 = some bd ∧ bd 0 = (0, 0) ∧ eval (fun _ => 1 / 2) hump = 1 / 4 := by
  obtain ⟨bd, h1, h2⟩ := bounds_extreme three_distinct (by simp [three, equidistant]) (fun _ => 0) 1 (nd := 1) (nv := 1) (n := 2) (by norm_num) (by norm_num) [fun q _ => eval (fun _ : Fin 1 => three.node q) hump] (fun _ _ => hump)
    (by intro f hf v hv; simp only [List.mem_singleton] at hf; subst hf; exact hump_interp)
  have hz : ∀ d : Fin 1 → Fin 2, eval (uniform 2 d) hump = 0 := by
    intro d
    simp only [hump, uniform, map_mul, map_sub, map_one, eval_X]
    have : ((d 0 : Nat) : ℝ) = 0 ∨ ((d 0 : Nat) : ℝ) = 1 := by
      have := (d 0).2
      rcases (show (d 0 : Nat) = 0 ∨ (d 0 : Nat) = 1 by omega) with e | e <;> simp [e]
    rcases this with e | e <;> rw [e] <;> norm_num
  refine ⟨bd, h1, ?_, by simp [hump]; norm_num⟩
  obtain ⟨⟨l1, l2⟩, g1, g2⟩ := h2 0 (by norm_num)
  have m0 : (0 : ℝ) ∈ {y | ∃ f ∈ [fun q (_ : Nat) => eval (fun _ : Fin 1 => three.node q) hump], ∃ d : Fin 1 → Fin 2, y = eval (uniform 2 d) hump} := ⟨_, List.mem_singleton.2 rfl, fun _ => 0, (hz _).symm⟩
  have a1 := l2 (Or.inr m0)
  have a2 := g2 (Or.inr m0)
  refine Prod.ext ?_ ?_
  · rcases l1 with e | ⟨f, hf, d, e⟩
    · rw [e] at a1; norm_num at a1
    · rw [e, hz]
  · rcases g1 with e | ⟨f, hf, d, e⟩
    · rw [e] at a2; norm_num at a2
    · rw [e, hz]

/-- The hypotheses of the theorems are satisfied: two elements in three dimensions with any positions and five output variables. -/
example (e0 e1 : Elem) : ∃ x, visualizeField three (fun _ => 7) 3 5 4 false [e0, e1] = some x ∧ x.topo.length = 2 * 27 * 8 ∧ x.geom.length = 2 * 64 * 3 ∧ x.topo[(27 + idx (![0, 1, 2] : Fin 3 → Fin 3)) * 8 + 2]? = some (64 + idx (![1, 2, 2] : Fin 3 → Fin 4)) := by
  have H := fun (g : Nat → ℝ) => interp_exists (nd := 3) three_distinct (by simp [three, equidistant]) g
  choose P hP using H
  have hg : ∀ e (he : e < [e0, e1].length), [e0, e1].getD e e0 = [e0, e1][e] := fun e he => by rw [List.getD_eq_getElem?_getD, List.getElem?_eq_getElem he, Option.getD_some]
  obtain ⟨x, h1, h2⟩ := visualize_field_shows three_distinct (by simp [three, equidistant]) (fun _ => 7) (nd := 3) (nv := 5) (n := 4) (Or.inr rfl) (by norm_num) [e0, e1]
    (fun e k => P (([e0, e1].getD e e0).pos · k)) (fun e v => P (([e0, e1].getD e e0).out · v))
    (fun e he k hk => by have := hP (([e0, e1].getD e e0).pos · k); rwa [hg e he] at this ⊢)
    (fun e he k hk => by have := hP (([e0, e1].getD e e0).out · k); rwa [hg e he] at this ⊢)
  refine ⟨x, h1, by rw [h2.topo_size]; rfl, by rw [h2.geom_size]; rfl, ?_⟩
  have := h2.cell 1 (by simp) (![0, 1, 2] : Fin 3 → Fin 3) 2 (by norm_num) (![1, 2, 2] : Fin 3 → Fin 4) (by decide)
  simpa using this

end Hexed.Vis
