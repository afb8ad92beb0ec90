import Verif.SurfRep.Props
import Verif.Metric.Example
set_option autoImplicit false
set_option linter.unusedVariables false

/-!
# The hypotheses of the theorems can be met: three elements in a row on a wall
-/

namespace Hexed.SurfRep
open Hexed.Spatial Hexed.Pde
open Hexed.StateFile (refresh refresh_spec)
open Hexed.SnapMesh (sgn)
open Hexed.Connection (Dir)
open Hexed.Metric (partner)
noncomputable section

/-- Elements 0, 1, 2 from left to right; the face between 1 and 2 is a hanging face with one part. `def0`: whether the connection of 0 and 1 is deformed. -/
def exMesh (geom : Nat → Option Geom) (def0 : Bool) : Mesh where
  nd := 2
  elems := [0, 1, 2]
  elem e := ⟨if e = 2 then 1 / 2 else 1, fun _ => 1, geom e⟩
  cons :=
    let con (de : Bool) (a b : Buf) : ConRec := ⟨de, ⟨0, 0, true, false⟩, fun s => if s then b else a, fun _ => 0⟩
    let bound (d : Fin 3) (s : Bool) (a : Buf) (g : Nat) : ConRec := ⟨true, ⟨d, d, s, !s⟩, fun s => if s then .ghost g else a, fun _ => 0⟩
    [con def0 (.elem 0 1) (.elem 1 0), con true (.mortar 0 0) (.elem 2 0), bound 0 false (.elem 0 0) 0, bound 0 true (.elem 2 1) 1,
     bound 1 false (.elem 0 2) 2, bound 1 false (.elem 1 2) 3, bound 1 false (.elem 2 2) 4, bound 1 true (.elem 0 3) 5, bound 1 true (.elem 1 3) 6, bound 1 true (.elem 2 3) 7]
  refs := [⟨.elem 1 1, fun i => .mortar 0 i, (true, false)⟩]

/-- Boundary 7 is below, 8 is everything else. -/
def exBounds : List Bound := [⟨0, 0, 0, 8⟩, ⟨2, 0, 1, 8⟩, ⟨0, 1, 0, 7⟩, ⟨1, 1, 0, 7⟩, ⟨2, 1, 0, 7⟩, ⟨0, 1, 1, 8⟩, ⟨1, 1, 1, 8⟩, ⟨2, 1, 1, 8⟩]

/-- Normals whose second vector is `(x, y)` everywhere. -/
def exGeom (x y : ℝ) : Geom := ⟨fun k => if k.1 = 0 then 1 else if k.1 = 2 then x else if k.1 = 3 then y else 0, fun _ => 1, fun _ => none⟩

theorem exMesh_ok (bs : BasisData) (geom : Nat → Option Geom) (hg : ∀ e g, geom e = some g → ∀ q, g.det q ≠ 0) (def0 : Bool) : (exMesh geom def0).Ok bs := by
  have h0 : ((exMesh (fun _ => none) true).sides ++ (exMesh (fun _ => none) true).coarseBufs).Nodup := by decide
  have h1 : ((exMesh (fun _ => none) true).sides ++ (exMesh (fun _ => none) true).coarseBufs).Perm ((exMesh (fun _ => none) true).elemFaces ++ (exMesh (fun _ => none) true).fineBufs ++ (exMesh (fun _ => none) true).sides.filter Buf.isGhost) := by decide
  refine ⟨(by decide : 1 ≤ 2 ∧ 2 ≤ 3), ?_, ?_, h0, h1, ?_, ?_, ?_, ?_, ?_⟩
  · intro e _; simp only [exMesh]; split <;> norm_num
  · intro e _ q _
    simp only [exMesh, ElemRec.det]
    split
    · exact one_ne_zero
    · exact hg _ _ (by assumption) q
  · intro k r hr
    match k, hr with
    | 0, hr => simp only [exMesh, List.getElem?_cons_zero, Option.some.injEq] at hr; subst hr; exact ⟨⟨_, _, rfl⟩, fun _ _ => rfl⟩
    | k + 1, hr => simp [exMesh] at hr
  · intro c hc
    simp only [exMesh, List.mem_cons, List.not_mem_nil, or_false] at hc
    rcases hc with rfl | rfl | rfl | rfl | rfl | rfl | rfl | rfl | rfl | rfl <;> refine ⟨?_, by simp⟩ <;> dsimp only <;> show Connection.Legal 2 _ <;> decide
  · intro c hc
    simp only [exMesh, List.mem_cons, List.not_mem_nil, or_false] at hc
    rcases hc with rfl | rfl | rfl | rfl | rfl | rfl | rfl | rfl | rfl | rfl <;> rfl
  · intro c hc s hs
    simp only [exMesh, List.mem_cons, List.not_mem_nil, or_false] at hc
    rcases hc with rfl | rfl | rfl | rfl | rfl | rfl | rfl | rfl | rfl | rfl <;> cases s <;> first | exact ⟨_, rfl⟩ | exact absurd hs (by simp [Buf.isGhost])
  · intro c hc hs
    simp only [exMesh, List.mem_cons, List.not_mem_nil, or_false] at hc
    rcases hc with rfl | rfl | rfl | rfl | rfl | rfl | rfl | rfl | rfl | rfl <;> first | (cases hs; done) | simp [Mesh.bufSize, Mesh.faceOf, exMesh]

theorem exBounds_ok (geom : Nat → Option Geom) (def0 : Bool) : BoundsOk (exMesh geom def0) exBounds 7 := by
  refine ⟨?_, ?_, ?_⟩
  · intro c hc
    simp only [exBounds, List.mem_cons, List.not_mem_nil, or_false] at hc
    rcases hc with rfl | rfl | rfl | rfl | rfl | rfl | rfl | rfl <;> refine ⟨by simp [exMesh], by simp [exMesh], by decide, ?_⟩ <;> simp [exMesh, Bound.face, Buf.isGhost]
  · intro con hc hg
    simp only [exMesh, List.mem_cons, List.not_mem_nil, or_false] at hc
    rcases hc with rfl | rfl | rfl | rfl | rfl | rfl | rfl | rfl | rfl | rfl <;> first | (cases hg; done) | simp [exBounds, Bound.face]
  · intro c hc c' hc' h h' he
    simp only [exBounds, List.mem_cons, List.not_mem_nil, or_false] at hc hc'
    rcases hc with rfl | rfl | rfl | rfl | rfl | rfl | rfl | rfl <;> rcases hc' with rfl | rfl | rfl | rfl | rfl | rfl | rfl | rfl <;> simp_all

theorem exWall {e : Nat} (he : e ∈ [0, 1, 2]) : wallOf exBounds 7 e = some (1, 0) := by
  simp only [List.mem_cons, List.not_mem_nil, or_false] at he
  rcases he with rfl | rfl | rfl <;> decide

theorem edgeVec_ex (x y : ℝ) {f : Nat} (hf : f < 2) (j k : Nat) : edgeVec (ofNodes gauss2) 2 (exGeom x y) 1 0 f j k = -(exGeom x y).nrml (2 + j, 0) := by
  have hg : gauss2.Distinct := gauss2_good.exact.distinct
  have hb : ∀ s < 2, ∑ i ∈ Finset.range (ofNodes gauss2).n, (ofNodes gauss2).bound s i = 1 := fun s hs => Metric.bound_sum (ofNodes_isOf gauss2) hg (by decide +kernel) hs
  rw [edgeVec]
  have h1 : ∀ q, (exGeom x y).nrml (1 * 2 + j, q) = (exGeom x y).nrml (2 + j, 0) := fun q => rfl
  simp only [h1, sgn, if_true]
  rw [Finset.sum_congr rfl fun t _ => by rw [← Finset.sum_mul, ← Finset.mul_sum, hb _ (by omega), mul_one], ← Finset.sum_mul, hb 0 (by norm_num)]
  ring

/-- All elements have the normal `(0, -1)`. -/
theorem exFlat : Flat (ofNodes gauss2) (exMesh (fun _ => some (exGeom 0 1)) true) exBounds 7 fun j => if j = 1 then -1 else 0 := by
  have hM : ∀ e ∈ [0, 1, 2], ∀ f < 2, Meets (exMesh (fun _ => some (exGeom 0 1)) true) exBounds 7 e f 1 0 (exGeom 0 1) := fun e he f hf =>
    ⟨he, by show f < 4; omega, rfl, exWall he, by omega⟩
  refine ⟨?_, ?_, ?_⟩
  · intro e f dim sign g h j hj k hk
    obtain ⟨rfl, rfl⟩ := Prod.mk.inj (Option.some.inj ((exWall h.elem).symm.trans h.wall))
    have := h.geom
    obtain rfl : exGeom 0 1 = g := Option.some.inj this
    have hf : f < 4 := h.face
    have hl := h.lateral
    have hf : f < 2 := by omega
    have hj : j < 2 := hj
    show edgeUnit (ofNodes gauss2) 2 _ _ _ _ _ _ = _
    rw [edgeUnit, Finset.sum_range_succ, Finset.sum_range_one, edgeVec_ex _ _ hf, edgeVec_ex _ _ hf, edgeVec_ex _ _ hf]
    interval_cases j <;> simp [exGeom]
  · intro c hc s _
    simp only [exMesh, List.mem_cons, List.not_mem_nil, or_false] at hc
    rcases hc with rfl | rfl | rfl | rfl | rfl | rfl | rfl | rfl | rfl | rfl <;> rfl
  · intro c hc s hA
    simp only [exMesh, List.mem_cons, List.not_mem_nil, or_false] at hc
    rcases hc with rfl | rfl | rfl | rfl | rfl | rfl | rfl | rfl | rfl | rfl <;> cases s
    · exact Or.inr ⟨1, 0, 1, 0, _, rfl, hM 1 (by decide) 0 (by decide)⟩
    · exact Or.inr ⟨0, 1, 1, 0, _, rfl, hM 0 (by decide) 1 (by decide)⟩
    · exact Or.inr ⟨2, 0, 1, 0, _, rfl, hM 2 (by decide) 0 (by decide)⟩
    · exact Or.inr ⟨1, 1, 1, 0, _, rfl, hM 1 (by decide) 1 (by decide)⟩
    all_goals first
      | exact Or.inl rfl
      | (obtain ⟨_, _, _, _, _, h1, _⟩ := hA; cases h1)

theorem exGeom_det (x y : ℝ) (q : Nat) : (exGeom x y).det q ≠ 0 := one_ne_zero

theorem gauss2_weights : ∑ i ∈ Finset.range (ofNodes gauss2).n, (ofNodes gauss2).weight i = 1 := by
  show ∑ i ∈ Finset.range 2, (1 / 2 : ℝ) = 1
  norm_num

theorem gauss2_pos : 0 < (ofNodes gauss2).n := (by decide : 0 < 2)

/-- The flat surface, whatever the flow and the old uncertainty. -/
example (mu kappa : Transport) (d : Data) : ∀ e ∈ [0, 1, 2], (setUncertSurfaceRep mu kappa (ofNodes gauss2) (exMesh (fun _ => some (exGeom 0 1)) true) exBounds 7 d).uncert e = 0 := fun e he =>
  flat_zero (ofNodes_isOf gauss2) gauss2_good.exact.distinct gauss2_pos (exMesh_ok _ _ (by rintro e g h; cases h; exact exGeom_det 0 1) _) (exBounds_ok _ _) exFlat d rfl (exWall he)

/-- A surface with a corner of 90 degrees between elements 0 and 1: half the length of the difference. -/
example (mu kappa : Transport) (d : Data) : (setUncertSurfaceRep mu kappa (ofNodes gauss2) (exMesh (fun e => some (if e = 0 then exGeom 0 1 else exGeom 1 0)) true) exBounds 7 d).uncert 0 = √2 / 2 := by
  have hok : (exMesh (fun e => some (if e = 0 then exGeom 0 1 else exGeom 1 0)) true).Ok (ofNodes gauss2) := exMesh_ok _ _ (by rintro e g h; cases h; split <;> exact exGeom_det _ _) _
  have h0 : Meets (exMesh (fun e => some (if e = 0 then exGeom 0 1 else exGeom 1 0)) true) exBounds 7 0 1 1 0 (exGeom 0 1) := ⟨by decide, (by decide : 1 < 4), rfl, by decide, by decide⟩
  have h1 : Meets (exMesh (fun e => some (if e = 0 then exGeom 0 1 else exGeom 1 0)) true) exBounds 7 1 0 1 0 (exGeom 1 0) := ⟨by decide, (by decide : 0 < 4), rfl, by decide, by decide⟩
  rw [value_two gauss2_weights gauss2_pos hok (exBounds_ok _ _) rfl d (exWall (by decide : (0 : Nat) ∈ [0, 1, 2])) (fun f j k => if f = 1 then (if j = 0 then 1 else -1) else 0)]
  · norm_num
  · intro f hf hl
    have hf : f < 4 := hf
    obtain rfl | rfl : f = 0 ∨ f = 1 := by omega
    · exact .boundary ⟨0, 0, 0, 8⟩ (by simp [exBounds]) rfl fun _ _ => rfl
    · refine .first _ List.mem_cons_self rfl 1 0 1 0 1 0 _ _ rfl rfl h0 h1 fun j hj k hk => ?_
      have hj : j < 2 := hj
      show _ = edgeUnit (ofNodes gauss2) 2 _ _ _ _ _ _ - edgeUnit (ofNodes gauss2) 2 _ _ _ _ _ _
      simp only [edgeUnit, Finset.sum_range_succ, Finset.sum_range_one, Finset.sum_range_zero, edgeVec_ex _ _ (by decide : 1 < 2), edgeVec_ex _ _ (by decide : 0 < 2)]
      interval_cases j <;> simp [exGeom]

/-- A flat surface, but element 1 and its connection to element 0 are Cartesian: element 0 is reported. -/
example (mu kappa : Transport) (d : Data) : 1 / 2 ≤ (setUncertSurfaceRep mu kappa (ofNodes gauss2) (exMesh (fun e => if e = 1 then none else some (exGeom 0 1)) false) exBounds 7 d).uncert 0 := by
  have hok : (exMesh (fun e => if e = 1 then none else some (exGeom 0 1)) false).Ok (ofNodes gauss2) := exMesh_ok _ _ (by intro e g h; split at h <;> cases h; exact exGeom_det 0 1) _
  have h0 : Meets (exMesh (fun e => if e = 1 then none else some (exGeom 0 1)) false) exBounds 7 0 1 1 0 (exGeom 0 1) := ⟨by decide, (by decide : 1 < 4), rfl, by decide, by decide⟩
  have := cartesian_neighbour_counted (mu := mu) (kappa := kappa) gauss2_weights gauss2_pos hok (exBounds_ok _ _) d h0 (c := _) List.mem_cons_self rfl (s := false) rfl rfl fun k hk => ⟨1, (by decide : 1 < 2), by
    show edgeVec (ofNodes gauss2) 2 _ _ _ _ _ _ ≠ 0
    rw [edgeVec_ex _ _ (by decide)]; simp [exGeom]⟩
  simpa [exMesh] using this

/-- One Cartesian element, periodic from left to right. -/
def exCart : Mesh where
  nd := 2
  elems := [0]
  elem e := ⟨1, fun _ => 1, none⟩
  cons :=
    let bound (d : Fin 3) (s : Bool) (a : Buf) (g : Nat) : ConRec := ⟨true, ⟨d, d, s, !s⟩, fun s => if s then .ghost g else a, fun _ => 0⟩
    [⟨false, ⟨0, 0, true, false⟩, fun s => if s then .elem 0 0 else .elem 0 1, fun _ => 0⟩, bound 1 false (.elem 0 2) 0, bound 1 true (.elem 0 3) 1]
  refs := []

theorem exCart_ok (bs : BasisData) : exCart.Ok bs := by
  refine ⟨by decide, ?_, ?_, by decide, by decide, ?_, ?_, ?_, ?_, ?_⟩
  · intro e _; exact one_pos
  · intro e _ q _; exact one_ne_zero
  · intro k r hr; simp [exCart] at hr
  · intro c hc
    simp only [exCart, List.mem_cons, List.not_mem_nil, or_false] at hc
    rcases hc with rfl | rfl | rfl <;> exact ⟨by decide, by simp⟩
  · intro c hc
    simp only [exCart, List.mem_cons, List.not_mem_nil, or_false] at hc
    rcases hc with rfl | rfl | rfl <;> rfl
  · intro c hc s hs
    simp only [exCart, List.mem_cons, List.not_mem_nil, or_false] at hc
    rcases hc with rfl | rfl | rfl <;> cases s <;> first | exact ⟨_, rfl⟩ | exact absurd hs (by simp [Buf.isGhost])
  · intro c hc hs
    simp only [exCart, List.mem_cons, List.not_mem_nil, or_false] at hc
    rcases hc with rfl | rfl | rfl <;> first | (cases hs; done) | simp [Mesh.bufSize, Mesh.faceOf, exCart]

/-- A Cartesian element in a flow with momentum `(3, 4)`: uncertainty 5. -/
example (mu kappa : Transport) (d : Data) (hd : ∀ q, d.world.state 0 (0, q) = 3 ∧ d.world.state 0 (1, q) = 4) :
    (setUncertSurfaceRep mu kappa (ofNodes gauss2) exCart [⟨0, 1, 0, 7⟩, ⟨0, 1, 1, 8⟩] 7 d).uncert 0 = 5 := by
  have hB : BoundsOk exCart [⟨0, 1, 0, 7⟩, ⟨0, 1, 1, 8⟩] 7 := by
    refine ⟨?_, ?_, ?_⟩
    · intro c hc
      simp only [List.mem_cons, List.not_mem_nil, or_false] at hc
      rcases hc with rfl | rfl <;> refine ⟨by decide, by decide, by decide, ?_⟩ <;> simp [exCart, Bound.face, Buf.isGhost]
    · intro con hc hg
      simp only [exCart, List.mem_cons, List.not_mem_nil, or_false] at hc
      rcases hc with rfl | rfl | rfl <;> first | (cases hg; done) | simp [Bound.face]
    · intro c hc c' hc' h h' he
      simp only [List.mem_cons, List.not_mem_nil, or_false] at hc hc'
      rcases hc with rfl | rfl <;> rcases hc' with rfl | rfl <;> simp_all
  rw [cartesian_element_momentum gauss2_weights (ofNodes_isOf gauss2) gauss2_good.exact.distinct gauss2_pos (exCart_ok _) hB (by decide) d (dim := 1) (sign := 0) (by decide) rfl ?_ (fun v => if v = 0 then 3 else 4)]
  · show √(∑ v ∈ Finset.range 2, _) = 5
    rw [Finset.sum_range_succ, Finset.sum_range_one, show (if (0 : Nat) = 0 then (3 : ℝ) else 4) ^ 2 + (if (1 : Nat) = 0 then (3 : ℝ) else 4) ^ 2 = 5 ^ 2 by norm_num]
    exact Real.sqrt_sq (by norm_num)
  · intro v hv q _
    have hv : v < 2 := hv
    interval_cases v
    · exact (hd q).1
    · exact (hd q).2
  · intro f hf hl
    have hf : f < 4 := hf
    refine ⟨_, List.mem_cons_self, rfl, ?_, rfl⟩
    obtain rfl | rfl : f = 0 ∨ f = 1 := by omega
    · exact ⟨true, rfl⟩
    · exact ⟨false, rfl⟩

/-- After initialization the hanging face of the flat surface holds the momentum of the flow (here 1 everywhere); after `set_uncert_surface_rep` it holds 0. So the claim that it leaves all faces as initialization does is false. -/
theorem faces_restored_refuted : ¬ ∀ (bs : BasisData) (m : Mesh) (bounds : List Bound) (sn : Nat) (mu kappa : Transport) (d : Data), m.Ok bs → BoundsOk m bounds sn →
    ∀ c ∈ m.cons, ∀ s, (c.side s).isGhost = false → ∀ v < m.nd + 2, ∀ k < bs.n ^ (m.nd - 1),
      (setUncertSurfaceRep mu kappa bs m bounds sn d).world.buf (c.side s) false (v * bs.n ^ (m.nd - 1) + k) = (refresh mu kappa bs m d.world).buf (c.side s) false (v * bs.n ^ (m.nd - 1) + k) := by
  intro h
  have hok : (exMesh (fun _ => some (exGeom 0 1)) true).Ok (ofNodes gauss2) := exMesh_ok _ _ (by rintro e g h; cases h; exact exGeom_det 0 1) _
  have hM : Meets (exMesh (fun _ => some (exGeom 0 1)) true) exBounds 7 1 1 1 0 (exGeom 0 1) := ⟨by decide, (by decide : 1 < 4), rfl, by decide, by decide⟩
  let w : World := ⟨fun _ _ => 1, fun _ _ => 0, fun _ _ _ => 0⟩
  let tr : Transport := .inviscid
  have h1 := h (ofNodes gauss2) _ exBounds 7 tr tr ⟨w, fun _ => 0, fun _ => 0⟩ hok (exBounds_ok _ _) _ (List.mem_cons_of_mem _ List.mem_cons_self) false rfl 0 (by decide) 0 (Nat.pow_pos gauss2_pos)
  have h2 := hanging_not_restored (mu := tr) (kappa := tr) (ofNodes_isOf gauss2) gauss2_good.exact.distinct gauss2_pos hok (exBounds_ok _ _) exFlat ⟨w, fun _ => 0, fun _ => 0⟩ (r := _) List.mem_cons_self rfl hM (i := 0) (by decide) (j := 0) (by decide)
    (k := 0) (Nat.pow_pos gauss2_pos)
  obtain ⟨-, -, r3, r4, -⟩ := refresh_spec hok tr tr w
  have h3 : (refresh tr tr (ofNodes gauss2) (exMesh (fun _ => some (exGeom 0 1)) true) w).buf (.mortar 0 0) false (0 * (ofNodes gauss2).n ^ (2 - 1) + 0) = 1 := by
    have e1 := r4 _ List.mem_cons_self 0 (by decide)
    refine (congrFun e1 _).trans ?_
    refine ((prolongFine_apply (ofNodes gauss2) gauss2_pos 2 4 false (true, false) 0 _ _).1 0 (by decide) 0 (Nat.pow_pos gauss2_pos)).trans ?_
    refine Metric.const_prolong (ofNodes_isOf gauss2) gauss2_good.exact.distinct gauss2_pos (by decide) (true, false) 0 _ 1 _ (fun k hk => ?_) (Nat.pow_pos gauss2_pos)
    refine (congrFun (r3 1 (by decide) 1 (by decide)) _).trans ?_
    refine (written_at gauss2_pos 2 _ _ (by decide) (by decide) hk).trans ?_
    rw [← Metric.bound_sum (ofNodes_isOf gauss2) gauss2_good.exact.distinct gauss2_pos (by decide : 1 % 2 < 2)]
    exact Finset.sum_congr rfl fun i _ => mul_one _
  exact zero_ne_one (h2.symm.trans (h1.trans h3))

end
end Hexed.SurfRep
