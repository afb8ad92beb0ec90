import Verif.Metric.Straight
set_option autoImplicit false
set_option linter.unusedVariables false

/-!
# Elements with straight edges are determined by their vertices

What C65 assumes about the position of points of faces and about Jacobian determinants follows, for elements with straight edges, from the same at the corners.
-/

namespace Hexed.Metric
open Hexed.Spatial Hexed.Pde Hexed.Solver
open Hexed.Connection (Dir Legal IsFrame frame_unique frameOf)
open MvPolynomial
noncomputable section

/-- Affine along each axis. -/
def MultiAff (F : (Nat → ℝ) → ℝ) : Prop := ∀ a ξ t, F (Function.update ξ a t) = (1 - t) * F (Function.update ξ a 0) + t * F (Function.update ξ a 1)

theorem multiAff_poly {P : MvPolynomial ℕ ℝ} (h : ∀ j, degreeOf j P < 2) : MultiAff fun ξ => eval ξ P := by
  intro a ξ t
  simp only [← line_eval]
  have hd : (lineOf a ξ P).natDegree ≤ 1 := le_trans (line_degree a ξ P) (by have := h a; omega)
  rw [Polynomial.eq_X_add_C_of_natDegree_le_one hd]
  simp
  ring

theorem MultiAff.sub {F G : (Nat → ℝ) → ℝ} (hF : MultiAff F) (hG : MultiAff G) : MultiAff fun ξ => F ξ - G ξ := by
  intro a ξ t
  beta_reduce
  rw [hF a ξ t, hG a ξ t]; ring

/-- Composition with an exchange of coordinates followed by an affine map of each coordinate. -/
theorem MultiAff.comp {F : (Nat → ℝ) → ℝ} (hF : MultiAff F) (α β : Nat → ℝ) (σ : Nat → Nat) (hσ : ∀ a, σ (σ a) = a) : MultiAff fun ξ => F fun a => α a + β a * ξ (σ a) := by
  intro c ξ t
  have hu : ∀ t, (fun a => α a + β a * Function.update ξ c t (σ a)) = Function.update (fun a => α a + β a * ξ (σ a)) (σ c) (α (σ c) + β (σ c) * t) := by
    intro t
    funext a
    rw [Function.update_apply, Function.update_apply]
    by_cases h : a = σ c
    · rw [if_pos h, if_pos (by rw [h, hσ]), h]
    · rw [if_neg h, if_neg (fun e => h (by rw [← e, hσ]))]
  beta_reduce
  rw [hu, hu, hu, hF _ _ (α (σ c) + β (σ c) * t), hF _ _ (α (σ c) + β (σ c) * 0), hF _ _ (α (σ c) + β (σ c) * 1)]
  ring

/-- Functions that vanish at the corners vanish. -/
theorem MultiAff.zero {F : (Nat → ℝ) → ℝ} (hF : MultiAff F) (nd : Nat) (h : ∀ ξ : Nat → ℝ, (∀ a < nd, ξ a = 0 ∨ ξ a = 1) → F ξ = 0) (ξ : Nat → ℝ) : F ξ = 0 := by
  have main : ∀ k ≤ nd, ∀ ξ : Nat → ℝ, (∀ a, k ≤ a → a < nd → ξ a = 0 ∨ ξ a = 1) → F ξ = 0 := by
    intro k
    induction k with
    | zero => exact fun _ ξ hξ => h ξ fun a ha => hξ a (Nat.zero_le _) ha
    | succ k ih =>
      intro hk ξ hξ
      have hc : ∀ t : ℝ, t = 0 ∨ t = 1 → F (Function.update ξ k t) = 0 := by
        intro t ht
        refine ih (by omega) _ fun a ha han => ?_
        rw [Function.update_apply]
        split_ifs with e
        · exact ht
        · exact hξ a (by omega) han
      have := hF k ξ (ξ k)
      rw [Function.update_eq_self, hc 0 (Or.inl rfl), hc 1 (Or.inr rfl)] at this
      rw [this]; ring
  exact main nd le_rfl ξ fun a h1 h2 => absurd h2 (by omega)

/-- Functions that are positive at the corners are positive on the cube. -/
theorem MultiAff.pos {F : (Nat → ℝ) → ℝ} (hF : MultiAff F) (nd : Nat) (h : ∀ ξ : Nat → ℝ, (∀ a < nd, ξ a = 0 ∨ ξ a = 1) → 0 < F ξ) (ξ : Nat → ℝ) (hξ : ∀ a < nd, 0 ≤ ξ a ∧ ξ a ≤ 1) : 0 < F ξ := by
  have main : ∀ k ≤ nd, ∀ ξ : Nat → ℝ, (∀ a < nd, 0 ≤ ξ a ∧ ξ a ≤ 1) → (∀ a, k ≤ a → a < nd → ξ a = 0 ∨ ξ a = 1) → 0 < F ξ := by
    intro k
    induction k with
    | zero => exact fun _ ξ _ hξ => h ξ fun a ha => hξ a (Nat.zero_le _) ha
    | succ k ih =>
      intro hk ξ hb hξ
      have hc : ∀ t : ℝ, t = 0 ∨ t = 1 → 0 < F (Function.update ξ k t) := by
        intro t ht
        refine ih (by omega) _ (fun a ha => ?_) fun a ha han => ?_
        · rw [Function.update_apply]
          split_ifs
          · rcases ht with rfl | rfl <;> norm_num
          · exact hb a ha
        · rw [Function.update_apply]
          split_ifs with e
          · exact ht
          · exact hξ a (by omega) han
      have := hF k ξ (ξ k)
      rw [Function.update_eq_self] at this
      rw [this]
      obtain ⟨h0, h1⟩ := hb k (by omega)
      have c0 := hc 0 (Or.inl rfl)
      have c1 := hc 1 (Or.inr rfl)
      rcases h0.lt_or_eq with h | h
      · have := mul_pos h c1
        have := mul_nonneg (sub_nonneg.2 h1) c0.le
        linarith
      · rw [← h]; linarith
  exact main nd le_rfl ξ hξ fun a h1 h2 => absurd h2 (by omega)

theorem straight_degree (s : Shape) (e i j : Nat) : degreeOf j (s.straight e i) < 2 := by
  rw [Shape.straight]
  split_ifs
  · exact multilin_degree _ _ _
  · refine lt_of_le_of_lt (degreeOf_add_le _ _ _) (max_lt (by rw [degreeOf_C]; norm_num) (lt_of_le_of_lt (degreeOf_C_mul_le _ _ _) ?_))
    rw [degreeOf_X]; split_ifs <;> norm_num

theorem straight_free {s : Shape} {e i j : Nat} (hi : i < s.nd) (hj : s.nd ≤ j) : degreeOf j (s.straight e i) = 0 := by
  rw [Shape.straight]
  split_ifs
  · refine Nat.le_zero.1 (le_trans (degreeOf_sum_le _ _ _) (Finset.sup_le fun v _ => le_trans (degreeOf_C_mul_le _ _ _) (le_trans (corner_bound _ _ _) (le_of_eq ?_))))
    exact Finset.sum_eq_zero fun d hd => if_neg (by have := Finset.mem_range.1 hd; omega)
  · refine Nat.le_zero.1 (le_trans (degreeOf_add_le _ _ _) (max_le (by rw [degreeOf_C]) (le_trans (degreeOf_C_mul_le _ _ _) ?_)))
    rw [degreeOf_X, if_neg (by omega)]

theorem partCoord_affine (nd d : Nat) (str : Bool × Bool) (i a : Nat) (t : ℝ) : partCoord nd d str i a t = partCoord nd d str i a 0 + (partCoord nd d str i a 1 - partCoord nd d str i a 0) * t := by
  rw [partCoord, partCoord, partCoord]
  split_ifs with h
  · dsimp only
    split_ifs <;> ring
  · ring

theorem refPoint_affine (s : Shape) (B : Buf) : ∃ α β : Nat → ℝ, ∀ ξ, refPoint s B ξ = fun a => α a + β a * ξ a := by
  cases B with
  | ghost g => exact ⟨fun _ => 0, fun _ => 1, fun ξ => by simp [refPoint]⟩
  | elem e f =>
    refine ⟨fun a => if a = f / 2 then ((f % 2 : Nat) : ℝ) else 0, fun a => if a = f / 2 then 0 else 1, fun ξ => ?_⟩
    simp only [refPoint, Mesh.faceOf]
    funext a
    rw [Function.update_apply]
    split_ifs <;> simp
  | mortar r i =>
    cases hfo : s.kernel.faceOf (.mortar r i) with
    | none => exact ⟨fun _ => 0, fun _ => 1, fun ξ => by simp [refPoint, hfo]⟩
    | some p =>
      obtain ⟨e, f⟩ := p
      set str := (s.refs[r]?).elim (false, false) RefRec.str with hs
      refine ⟨fun a => if a = f / 2 then ((f % 2 : Nat) : ℝ) else partCoord s.nd (f / 2) str i a 0, fun a => if a = f / 2 then 0 else partCoord s.nd (f / 2) str i a 1 - partCoord s.nd (f / 2) str i a 0, fun ξ => ?_⟩
      simp only [refPoint, hfo]
      funext a
      split_ifs with h
      · simp
      · rw [← partCoord_affine]

theorem surface_aff (s : Shape) (B : Buf) (i : Nat) : MultiAff fun ξ => surface s s.straight B i ξ := by
  cases hfo : s.kernel.faceOf B with
  | none => intro a ξ t; simp [surface, hfo]
  | some p =>
    obtain ⟨e, f⟩ := p
    obtain ⟨α, β, h⟩ := refPoint_affine s B
    have := (multiAff_poly (straight_degree s e i)).comp α β id (fun _ => rfl)
    intro a ξ t
    simp only [surface, hfo, h]
    exact this a ξ t

theorem opposite_affine (d : Dir) : ∃ (α β : Nat → ℝ) (σ : Nat → Nat), (∀ a, σ (σ a) = a) ∧ ∀ ξ, opposite d ξ = fun a => α a + β a * ξ (σ a) := by
  by_cases hd : d.i0 = d.i1
  · exact ⟨fun _ => 0, fun _ => 1, id, fun _ => rfl, fun ξ => by rw [opposite, if_pos hd]; simp⟩
  · have hne : d.i1.val ≠ d.i0.val := fun e => hd (Fin.ext e.symm)
    refine ⟨fun a => if a = d.i0.val ∧ d.s0 ≠ d.s1 then 1 else 0, fun a => if a = d.i0.val ∧ d.s0 ≠ d.s1 then -1 else 1, fun a => if a = d.i0.val then d.i1.val else if a = d.i1.val then d.i0.val else a, ?_, ?_⟩
    · intro a
      beta_reduce
      by_cases h0 : a = d.i0.val
      · rw [if_pos h0, if_neg hne, if_pos rfl, h0]
      · by_cases h1 : a = d.i1.val
        · rw [if_neg h0, if_pos h1, if_pos rfl, h1]
        · simp only [if_neg h0, if_neg h1]
    · intro ξ
      rw [opposite, if_neg hd]
      funext a
      by_cases h0 : a = d.i0.val
      · by_cases hs : d.s0 = d.s1
        · simp [h0, hs]
        · simp [h0, hs]; ring
      · simp [h0]
        split_ifs <;> rfl

/-- Faces with straight edges that have their corners in common coincide. -/
theorem meet_straight {s : Shape} (hlegal : ∀ c ∈ s.cons, Legal s.nd c.dir)
    (hcor : ∀ c ∈ s.cons, (c.side true).isGhost = false → ∀ R, IsFrame c.dir R → ∀ ξ η : Nat → ℝ, (∀ a < s.nd, ξ a = 0 ∨ ξ a = 1) →
      (∀ k : Fin 3, k.val < s.nd → k ≠ c.dir.i1 → 2 * η k.val - 1 = ∑ l : Fin 3, (R k l : ℝ) * (2 * ξ l.val - 1)) → ∀ i < s.nd, surface s s.straight (c.side false) i ξ = surface s s.straight (c.side true) i η) :
    ∀ c ∈ s.cons, (c.side true).isGhost = false → ∀ R, IsFrame c.dir R → ∀ ξ η : Nat → ℝ,
      (∀ k : Fin 3, k.val < s.nd → k ≠ c.dir.i1 → 2 * η k.val - 1 = ∑ l : Fin 3, (R k l : ℝ) * (2 * ξ l.val - 1)) → ∀ i < s.nd, surface s s.straight (c.side false) i ξ = surface s s.straight (c.side true) i η := by
  intro c hc hg R hR ξ η hη i hi
  obtain rfl := frame_unique hR
  obtain ⟨α, β, σ, hσ, hop⟩ := opposite_affine c.dir
  set α' : Nat → ℝ := fun a => if a < s.nd ∧ a < 3 ∧ a ≠ c.dir.i1.val then α a else η a
  set β' : Nat → ℝ := fun a => if a < s.nd ∧ a < 3 ∧ a ≠ c.dir.i1.val then β a else 0
  have hin : ∀ ζ : Nat → ℝ, ∀ k : Fin 3, k.val < s.nd → k ≠ c.dir.i1 → α' k.val + β' k.val * ζ (σ k.val) = opposite c.dir ζ k.val := by
    intro ζ k hk hk1
    have : k.val < s.nd ∧ k.val < 3 ∧ k.val ≠ c.dir.i1.val := ⟨hk, k.2, fun e => hk1 (Fin.ext e)⟩
    simp only [α', β', if_pos this, hop]
  have key := ((surface_aff s (c.side false) i).sub ((surface_aff s (c.side true) i).comp α' β' σ hσ)).zero s.nd (fun ζ hζ => by
    rw [sub_eq_zero]
    refine hcor c hc hg _ hR ζ _ hζ (fun k hk hk1 => ?_) i hi
    rw [hin ζ k hk hk1]
    exact opposite_frame c.dir ζ hk1) ξ
  rw [sub_eq_zero] at key
  rw [key]
  congr 1
  funext a
  by_cases h : a < s.nd ∧ a < 3 ∧ a ≠ c.dir.i1.val
  · have hk1 : (⟨a, h.2.1⟩ : Fin 3) ≠ c.dir.i1 := fun e => h.2.2 (congrArg Fin.val e)
    have h1 := hin ξ ⟨a, h.2.1⟩ h.1 hk1
    have h2 := opposite_frame c.dir ξ hk1
    have h3 := hη ⟨a, h.2.1⟩ h.1 hk1
    dsimp only at h1 h2 h3
    rw [h1]; linarith
  · simp only [α', β', if_neg h]; ring

/-- Quadrilaterals whose angles are all less than 180 degrees have Jacobian determinants that are positive everywhere. -/
theorem regular_straight {s : Shape} (hnd : s.nd = 2) {e : Nat} (hcor : ∀ ξ : Nat → ℝ, (∀ a < s.nd, ξ a = 0 ∨ ξ a = 1) → 0 < volume s s.straight e ξ) (ξ : Nat → ℝ) (hξ : ∀ a < s.nd, 0 ≤ ξ a ∧ ξ a ≤ 1) :
    0 < volume s s.straight e ξ := by
  have hdeg : ∀ j, degreeOf j (pderiv 0 (s.straight e 0) * pderiv 1 (s.straight e 1) - pderiv 1 (s.straight e 0) * pderiv 0 (s.straight e 1)) < 2 := by
    intro j
    have h : ∀ r c, degreeOf j (pderiv c (s.straight e r)) ≤ 1 - if j = c then 1 else 0 := fun r c =>
      le_trans (degreeOf_pderiv_le c j _) (Nat.sub_le_sub_right (by have := straight_degree s e r j; omega) _)
    have h00 := h 0 0
    have h01 := h 0 1
    have h10 := h 1 0
    have h11 := h 1 1
    have hz : ∀ r < 2, ∀ c, 2 ≤ j → degreeOf j (pderiv c (s.straight e r)) = 0 := fun r hr c hj =>
      Nat.le_zero.1 (le_trans (degreeOf_pderiv_le c j _) (by rw [straight_free (by omega) (by omega)]; omega))
    have z00 := hz 0 (by omega) 0
    have z01 := hz 0 (by omega) 1
    have z10 := hz 1 (by omega) 0
    have z11 := hz 1 (by omega) 1
    refine lt_of_le_of_lt (degreeOf_sub_le _ _ _) (max_lt (lt_of_le_of_lt (degreeOf_mul_le _ _ _) ?_) (lt_of_le_of_lt (degreeOf_mul_le _ _ _) ?_)) <;>
    · by_cases j0 : j = 0
      · subst j0; simp at h00 h01 h10 h11; omega
      · by_cases j1 : j = 1
        · subst j1; simp at h00 h01 h10 h11; omega
        · have := z00 (by omega)
          have := z01 (by omega)
          have := z10 (by omega)
          have := z11 (by omega)
          omega
  have hv : ∀ ζ, volume s s.straight e ζ = eval ζ (pderiv 0 (s.straight e 0) * pderiv 1 (s.straight e 1) - pderiv 1 (s.straight e 0) * pderiv 0 (s.straight e 1)) := by
    intro ζ
    have h2 : volume s s.straight e ζ = Matrix.det (Matrix.of fun r c : Fin 2 => partialD c.val (fun x => eval x (s.straight e r.val)) ζ) := by
      rw [volume, hnd]
    rw [h2, Matrix.det_fin_two]
    simp only [Matrix.of_apply, map_sub, map_mul]
    have := fun r c => partialD_field c (s.straight e r) ζ
    unfold fieldOf at this
    simp only [this]
    rfl
  rw [hv]
  exact (multiAff_poly hdeg).pos s.nd (fun ζ hζ => by rw [← hv]; exact hcor ζ hζ) ξ hξ

/-- C65 for elements with straight edges, in terms of corners only: in any dimension, with any row size for which the quadrature is exact at least to degree `row_size`, uniform flow stays exactly uniform if corresponding corners of connected faces are at the same place
and Jacobians are not singular. -/
theorem freestream_straight {bs : BasisData} {b : Basis.Nodes ℝ} {deg : Nat} {s : Shape} (hof : bs.IsOf b) (hb : GoodNodes b deg) (hdeg : b.n ≤ deg) (hm : s.kernel.Ok bs) (hK : Kinds s)
    (hadj : ∀ e ∈ s.elems, (s.elem e).deformed = true → ∀ a, (s.elem e).adj a = 0)
    (hreg : ∀ e ∈ s.elems, ∀ ξ, (∀ i < s.nd, 0 ≤ ξ i ∧ ξ i ≤ 1) → volume s s.straight e ξ ≠ 0)
    (hcor : ∀ c ∈ s.cons, (c.side true).isGhost = false → ∀ R, IsFrame c.dir R → ∀ ξ η : Nat → ℝ, (∀ a < s.nd, ξ a = 0 ∨ ξ a = 1) →
      (∀ k : Fin 3, k.val < s.nd → k ≠ c.dir.i1 → 2 * η k.val - 1 = ∑ l : Fin 3, (R k l : ℝ) * (2 * ξ l.val - 1)) → ∀ i < s.nd, surface s s.straight (c.side false) i ξ = surface s s.straight (c.side true) i η) (w0 : World)
    {fs : Nat → ℝ} (hfs : Admissible s.nd fs) (far : ConRec → Far) (cache : ConRec → Nat → ℝ) (useLdg : Bool) (mu kappa : Transport) (sr : ℝ) (filter : Bool) (dts : List ℝ) (w w' : World)
    (hs : ∀ e ∈ s.elems, ∀ q < b.n ^ s.nd, ∀ v < s.nd + 2, w.state e (v, q) = fs v)
    (hf : ∀ c ∈ s.cons, ∀ sd, (c.side sd).isGhost = false → ∀ v < s.nd + 2, ∀ k < b.n ^ (s.nd - 1), w.buf (c.side sd) false (v * b.n ^ (s.nd - 1) + k) = fs v)
    (hrun : flow useLdg mu kappa bs (s.calcJacobian b bs w0) sr filter (runBc s.nd bs.n (s.nd + 2) false (fun c => (far c).state s.nd fs c.dir.s0) (s.calcJacobian b bs w0).cons)
      (runBc s.nd bs.n (s.nd + 2) true (fun c => (far c).flux s.nd (cache c) c.dir.s0) (s.calcJacobian b bs w0).cons) dts w = some w') :
    ∀ e ∈ s.elems, ∀ q < b.n ^ s.nd, ∀ v < s.nd + 2, w'.state e (v, q) = fs v := by
  have hnd : s.nd ≤ 3 := hm.dim.2
  have hrow := hb.row
  exact freestream_deformed hof hb (m := 2) (by norm_num) hb.row (by omega) (fun _ => by omega) hm (inSpace_straight hm.dim hadj hreg (meet_straight (fun c hc => (hm.legal c hc).1) hcor)) hK w0 hfs far cache useLdg mu kappa sr filter dts w w' hs hf hrun

end
end Hexed.Metric
