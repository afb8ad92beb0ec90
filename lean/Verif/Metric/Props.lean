import Verif.Metric.Seal
set_option autoImplicit false
set_option linter.unusedVariables false

/-!
# Properties of the metric

What `calc_jacobian` computes on a mesh whose elements are polynomial images of the unit cube, and what follows for uniform flow. `m` bounds the degree of the polynomials; products
of derivatives have to be within reach of the basis and its quadrature: `(n_dim - 1)*(m - 1) + row_size ≤ deg + 2`, where the quadrature is exact to degree `deg`
(`2*row_size - 1` for the Gauss-Legendre basis of the solver, Solver.hpp:35), and, if there are hanging faces, `(n_dim - 1)*(m - 1) ≤ row_size`. In 2D this holds for all polynomials of the basis, in 3D
for elements with straight edges and any row size, and for all polynomials of the basis up to row size 3 (2 with hanging faces).
-/

namespace Hexed.Metric
open Hexed.Spatial Hexed.Pde Hexed.Solver
open Hexed.Connection (Dir Legal IsFrame frame_unique)
open MvPolynomial
noncomputable section

variable {bs : BasisData} {b : Basis.Nodes ℝ} {deg : Nat} {s : Shape} {m : Nat} {X : Nat → Nat → MvPolynomial ℕ ℝ}

/-- In deformed elements the Jacobian determinant and the normals of coordinate surfaces are exact at quadrature points, for polynomials that the basis can represent. -/
theorem element_metric_exact (hof : bs.IsOf b) (hb : b.Distinct) (hn : 0 < b.n) (hmn : m ≤ b.n) (hX : InSpace s b m X) (w : World) {e : Nat} (he : e ∈ s.elems) (hdef : (s.elem e).deformed = true) :
    ∃ g, ((s.calcJacobian b bs w).elem e).geom = some g ∧ ∀ q < b.n ^ s.nd,
      g.det q = volume s X e (elemPos b s.nd (fun _ => 0) 1 q) / (s.elem e).size ^ s.nd ∧
      ∀ d < s.nd, ∀ j < s.nd, g.nrml (d * s.nd + j, q) = levelNormal s X e d j (elemPos b s.nd (fun _ => 0) 1 q) := by
  refine ⟨_, if_pos hdef, fun q hq => ⟨?_, fun d hd j hj => ?_⟩⟩
  · show jacDet s.nd ((s.elem e).jac b bs s.nd q) = _
    rw [jacDet, volume]
    have := Matrix.det_smul (Matrix.of fun r c : Fin s.nd => partialD c.val (fun x => eval x (X e r.val)) (elemPos b s.nd (fun _ => 0) 1 q)) (s.elem e).size⁻¹
    rw [Fintype.card_fin] at this
    rw [div_eq_inv_mul, ← inv_pow, ← this]
    congr 1
    ext r c
    simp only [Matrix.of_apply, Matrix.smul_apply, smul_eq_mul]
    rw [jac_exact hof hb hn hmn hX he hq r.2 c.2, grad_eval, div_eq_inv_mul]
    rfl
  · show jacMinor s.nd ((s.elem e).jac b bs s.nd q) ((d * s.nd + j) / s.nd) ((d * s.nd + j) % s.nd) = _
    rw [mul_comm d, Nat.mul_add_div (by omega), Nat.div_eq_of_lt hj, Nat.mul_add_mod, Nat.mod_eq_of_lt hj, add_zero]
    show _ = jacMinor s.nd (fun r c => partialD c (fun x => eval x (X e r)) (elemPos b s.nd (fun _ => 0) 1 q) / (s.elem e).size) d j
    exact minor_congr fun r hr c hc _ => by rw [jac_exact hof hb hn hmn hX he hq hr hc, grad_eval]; rfl

/-- The normal with which kernels compute the flux through a connection is the normal of the face on side 0, with the sign of the connection, at each quadrature point ... -/
theorem connection_normal_exact (hof : bs.IsOf b) (hb : GoodNodes b deg) (hm1 : 1 ≤ m) (hmn : m ≤ b.n) (hmd : (s.nd - 1) * (m - 1) + b.n ≤ deg + 2) (hmr : s.refs ≠ [] → (s.nd - 1) * (m - 1) ≤ b.n) (hm : s.kernel.Ok bs) (hX : InSpace s b m X) (hK : Kinds s) (w : World)
    {c : ConRec} (hc : c ∈ (s.calcJacobian b bs w).cons) {e f : Nat} (hf : s.kernel.faceOf (c.side false) = some (e, f)) {j k : Nat} (hj : j < s.nd) (hk : k < b.n ^ (s.nd - 1)) :
    surfaceNormal s X (c.side false) j (facePoint b s.nd f k) = sideSign c.deformed c.dir false * conNormal c.deformed c.dir (b.n ^ (s.nd - 1)) c.normal k j := by
  have := (metric_sealed hof hb hm1 hmn hmd hmr hm hX hK w).side0 c hc j hj k (by rw [hof.n]; exact hk)
  rw [hof.n] at this
  exact (normalOf_at hf j hk).symm.trans this

/-- ... and also the normal of the face on side 1 at the point which corresponds to it according to the direction of the connection (C09). -/
theorem connection_normal_shared (hof : bs.IsOf b) (hb : GoodNodes b deg) (hm1 : 1 ≤ m) (hmn : m ≤ b.n) (hmd : (s.nd - 1) * (m - 1) + b.n ≤ deg + 2) (hmr : s.refs ≠ [] → (s.nd - 1) * (m - 1) ≤ b.n) (hm : s.kernel.Ok bs) (hX : InSpace s b m X) (hK : Kinds s) (w : World)
    {c : ConRec} (hc : c ∈ (s.calcJacobian b bs w).cons) (hg : (c.side true).isGhost = false) {e0 f0 e1 f1 : Nat} (hf0 : s.kernel.faceOf (c.side false) = some (e0, f0)) (hf1 : s.kernel.faceOf (c.side true) = some (e1, f1))
    {j k0 k1 : Nat} (hj : j < s.nd) (hk0 : k0 < b.n ^ (s.nd - 1)) {R : Matrix (Fin 3) (Fin 3) ℤ} (hR : IsFrame c.dir R)
    (hcor : ∀ i : Fin 3, i.val < s.nd → i ≠ c.dir.i1 → 2 * facePoint b s.nd f1 k1 i.val - 1 = ∑ l : Fin 3, (R i l : ℝ) * (2 * facePoint b s.nd f0 k0 l.val - 1)) :
    surfaceNormal s X (c.side true) j (facePoint b s.nd f1 k1) = sideSign c.deformed c.dir true * conNormal c.deformed c.dir (b.n ^ (s.nd - 1)) c.normal k0 j := by
  have h0 := connection_normal_exact hof hb hm1 hmn hmd hmr hm hX hK w hc hf0 hj hk0
  obtain ⟨c', hc', rfl⟩ := List.mem_map.1 hc
  have hmeet := normal_meet hm hX hc' hg j (facePoint b s.nd f0 k0)
  obtain ⟨e1', g1⟩ := hm.face c' hc' true hg
  have hff : f1 = 2 * (c'.dir.iDim true).val + (c'.dir.faceSign true).toNat := by
    have : some (e1, f1) = some (e1', 2 * (c'.dir.iDim true).val + (c'.dir.faceSign true).toNat) := by rw [← g1, ← hf1]
    exact (Prod.mk.inj (Option.some.inj this)).2
  have hhalf : f1 / 2 = c'.dir.i1.val := by rw [hff, face_half]; rfl
  have hoff : surfaceNormal s X (c'.side true) j (opposite c'.dir (facePoint b s.nd f0 k0)) = surfaceNormal s X (c'.side true) j (facePoint b s.nd f1 k1) := by
    refine normal_off X hf1 (fun a ha => ?_) j
    rw [hhalf] at ha
    by_cases han : a < s.nd
    · have hd3 : s.nd ≤ 3 := hm.dim.2
      have h1 := hcor ⟨a, by omega⟩ han (fun e => ha (congrArg Fin.val e))
      rw [frame_unique hR] at h1
      have h2 := opposite_frame c'.dir (facePoint b s.nd f0 k0) (k := ⟨a, by omega⟩) (fun e => ha (congrArg Fin.val e))
      linarith
    · have hleg := (hm.legal c' hc').1
      have hz : ∀ f : Nat, f / 2 < s.nd → ∀ k, facePoint b s.nd f k a = 0 := fun f hf k => by rw [facePoint, facePos, if_neg (by omega), if_neg han]
      have h0' : f0 / 2 < s.nd := by
        obtain ⟨e0', g0⟩ := hm.face c' hc' false (hm.ghost c' hc')
        have : some (e0, f0) = some (e0', 2 * (c'.dir.iDim false).val + (c'.dir.faceSign false).toNat) := by rw [← g0, ← hf0]
        rw [(Prod.mk.inj (Option.some.inj this)).2, face_half]
        exact hleg.1
      rw [hz f1 (by rw [hhalf]; exact hleg.2.1), opposite]
      by_cases h : c'.dir.i0 = c'.dir.i1
      · rw [if_pos h]; exact hz f0 h0' _
      · rw [if_neg h]
        have h1 : a ≠ c'.dir.i0.val := fun e => han (by rw [e]; exact hleg.1)
        simp only [if_neg h1, if_neg ha]
        exact hz f0 h0' _
  rw [hoff] at hmeet
  have hsg : ∀ sd, sideSign c'.deformed c'.dir sd = flipSign c'.dir sd := by
    intro sd
    cases hd : c'.deformed
    · rw [(cart_dir ((hm.legal c' hc').2 hd) s.nd b.n 0).2 sd]; simp [sideSign]
    · exact sideSign_flip _ _
  simp only [hsg] at h0 ⊢
  rw [h0, ← mul_assoc, flipSign_sq, one_mul] at hmeet
  rw [hmeet, ← mul_assoc, flipSign_sq, one_mul]

/-- Deformed elements find the normals of their faces. -/
theorem element_face_exact (hof : bs.IsOf b) (hb : GoodNodes b deg) (hm1 : 1 ≤ m) (hmn : m ≤ b.n) (hmd : (s.nd - 1) * (m - 1) + b.n ≤ deg + 2) (hmr : s.refs ≠ [] → (s.nd - 1) * (m - 1) ≤ b.n) (hm : s.kernel.Ok bs) (hX : InSpace s b m X) (hK : Kinds s) (w : World)
    {e : Nat} (he : e ∈ s.elems) (hdef : (s.elem e).deformed = true) {f j k : Nat} (hf : f < 2 * s.nd) (hj : j < s.nd) (hk : k < b.n ^ (s.nd - 1)) :
    faceNormals ((s.calcJacobian b bs w).elem e) (b.n ^ (s.nd - 1)) f (j * b.n ^ (s.nd - 1) + k) = surfaceNormal s X (.elem e f) j (facePoint b s.nd f k) := by
  have := (metric_sealed hof hb hm1 hmn hmd hmr hm hX hK w).face e he _ (if_pos hdef) f hf j hj k (by rw [hof.n]; exact hk)
  rw [hof.n] at this
  exact this.trans (normalOf_at (e := e) rfl j hk)

/-- Uniform flow stays exactly uniform on meshes of curved elements: with any orientation of neighbouring elements relative to each other and any (also stretched) hanging faces, with
free-stream, characteristic or outflow conditions, for inviscid and viscous flow with any transport coefficients, any artificial viscosity, any time steps, with and without filter. -/
theorem freestream_deformed (hof : bs.IsOf b) (hb : GoodNodes b deg) (hm1 : 1 ≤ m) (hmn : m ≤ b.n) (hmd : (s.nd - 1) * (m - 1) + b.n ≤ deg + 2) (hmr : s.refs ≠ [] → (s.nd - 1) * (m - 1) ≤ b.n) (hm : s.kernel.Ok bs) (hX : InSpace s b m X) (hK : Kinds s) (w0 : World)
    {fs : Nat → ℝ} (hfs : Admissible s.nd fs) (far : ConRec → Far) (cache : ConRec → Nat → ℝ) (useLdg : Bool) (mu kappa : Transport) (sr : ℝ) (filter : Bool) (dts : List ℝ) (w w' : World)
    (hs : ∀ e ∈ s.elems, ∀ q < b.n ^ s.nd, ∀ v < s.nd + 2, w.state e (v, q) = fs v)
    (hf : ∀ c ∈ s.cons, ∀ sd, (c.side sd).isGhost = false → ∀ v < s.nd + 2, ∀ k < b.n ^ (s.nd - 1), w.buf (c.side sd) false (v * b.n ^ (s.nd - 1) + k) = fs v)
    (hrun : flow useLdg mu kappa bs (s.calcJacobian b bs w0) sr filter (runBc s.nd bs.n (s.nd + 2) false (fun c => (far c).state s.nd fs c.dir.s0) (s.calcJacobian b bs w0).cons)
      (runBc s.nd bs.n (s.nd + 2) true (fun c => (far c).flux s.nd (cache c) c.dir.s0) (s.calcJacobian b bs w0).cons) dts w = some w') :
    ∀ e ∈ s.elems, ∀ q < b.n ^ s.nd, ∀ v < s.nd + 2, w'.state e (v, q) = fs v := by
  have hdg := hb.deg
  have hrow := hb.row
  intro e he q hq v hv
  rw [← hs e he q hq v hv]
  refine uniform_far hof hb.exact (by rw [hof.n]; exact hb.pos) (by omega) (metric_ok hof hb hmn hm hX w0) (metric_sealed hof hb hm1 hmn hmd hmr hm hX hK w0) hfs far cache (bound_nonzero hof hb hm1 hmn hmd hmr hm hX hK w0)
    useLdg mu kappa sr filter dts w w' ?_ ?_ hrun e he q (by rw [hof.n]; exact hq) v
  · intro e he q hq
    rw [hof.n] at hq
    exact hs e he q hq
  · intro c' hc' sd hg v hv k hk
    obtain ⟨c, hc, rfl⟩ := List.mem_map.1 hc'
    rw [hof.n] at hk ⊢
    exact hf c hc sd hg v hv k hk

end
end Hexed.Metric
