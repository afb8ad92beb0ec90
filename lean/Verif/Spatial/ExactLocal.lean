import Verif.Spatial.ExactMesh
set_option autoImplicit false
set_option linter.unusedVariables false

/-!
# The element kernel on polynomial data
-/

namespace Hexed.Spatial
open Hexed.RowIndex (RowIndex)

theorem readBound_after {nd n d k : Nat} (hn : 0 < n) (hd : d < nd) (faces : Nat → Mem) (s v : Nat) :
    readBound faces (RowIndex.after nd n d k) s v = faces (2 * d + s) (v * n ^ (nd - 1) + k) := by
  have hf := after_fields nd n d hn hd k
  rw [readBound, hf.1, hf.2.2.1, hf.2.2.2, Nat.mul_comm d 2]

theorem readRow_after {nd n d k : Nat} (hn : 0 < n) (hd : d < nd) (a : Arr) (j v : Nat) : readRow a 0 (RowIndex.after nd n d k) j v = a (v, pt nd n d k j) := by
  rw [readRow, qpoint_pt nd n d hn hd, Nat.zero_add]

/-- The faces of an element hold samples of fields which may depend on the axis. -/
def HoldsFaces (b : Basis.Nodes ℝ) (nd nv : Nat) (o : Nat → ℝ) (h : ℝ) (faces : Nat → Mem) (F : Nat → Nat → Field) : Prop :=
  ∀ d < nd, ∀ s < 2, ∀ v < nv, ∀ k < b.n ^ (nd - 1), faces (2 * d + s) (v * b.n ^ (nd - 1) + k) = F d v (facePos b nd d (o d + h * (s : Nat)) o h k)

theorem holds_of_bufPos {m : Mesh} {b : Basis.Nodes ℝ} {o : Nat → Nat → ℝ} {nv e : Nat} {faces : Nat → Mem} {F : Nat → Nat → Field}
    (h : ∀ f < 2 * m.nd, ∀ v < nv, ∀ k < b.n ^ (m.nd - 1), faces f (v * b.n ^ (m.nd - 1) + k) = F (f / 2) v (m.bufPos b o (.elem e f) k)) :
    HoldsFaces b m.nd nv (o e) (m.elem e).size faces F := by
  intro d hd s hs v hv k hk
  have := h (2 * d + s) (by omega) v hv k hk
  rw [this]
  simp only [Mesh.bufPos, Mesh.faceOf]
  rw [show (2 * d + s) / 2 = d by omega, show (2 * d + s) % 2 = s by omega]

variable {bs : BasisData} {b : Basis.Nodes ℝ}

/-- The derivative along the row through a point, of sampled values with sampled values at the ends. -/
theorem deriv_row (hof : bs.IsOf b) (hb : b.Distinct) (hn : 0 < b.n) {nd m : Nat} (hm : m ≤ b.n) {f : Field} (hf : PolyIn nd m f) {d : Nat} (hd : d < nd) (o : Nat → ℝ) (h : ℝ) {q : Nat} (hq : q < b.n ^ nd)
    (a : Arr) (faces : Nat → Mem) (v : Nat) (ha : ∀ q < b.n ^ nd, a (v, q) = f (elemPos b nd o h q))
    (hfaces : ∀ s < 2, ∀ k < b.n ^ (nd - 1), faces (2 * d + s) (v * b.n ^ (nd - 1) + k) = f (facePos b nd d (o d + h * (s : Nat)) o h k)) :
    deriv2 bs (readRow a 0 (RowIndex.after nd bs.n d (rowOf nd bs.n d q))) (readBound faces (RowIndex.after nd bs.n d (rowOf nd bs.n d q))) (nodeOf nd bs.n d q) v = h * partialD d f (elemPos b nd o h q) := by
  rw [hof.n]
  refine line_exact hof hb hm hf hd (elemPos b nd o h q) (o d) h (nodeOf_lt nd hn d q) ?_ _ _ v ?_ ?_
  · rw [elemPos, if_pos hd]; rfl
  · intro j hj
    rw [readRow_after hn hd, ha _ (pt_lt hn hd (rowOf_lt hn hd hq) hj), elemPos_row_pt hn hd o h hj]
  · intro s hs
    rw [readBound_after hn hd, hfaces s hs _ (rowOf_lt hn hd hq), elemPos_row hn hd]

theorem interior_row (hof : bs.IsOf b) (hb : b.Distinct) (hn : 0 < b.n) {nd m : Nat} (hm : m ≤ b.n) {f : Field} (hf : PolyIn nd m f) {d : Nat} (hd : d < nd) (o : Nat → ℝ) (h : ℝ) {q : Nat} (hq : q < b.n ^ nd)
    (a : Arr) (v : Nat) (ha : ∀ q < b.n ^ nd, a (v, q) = f (elemPos b nd o h q)) :
    Basis.derivInterior bs.n bs.diff (fun j => readRow a 0 (RowIndex.after nd bs.n d (rowOf nd bs.n d q)) j v) (nodeOf nd bs.n d q) = h * partialD d f (elemPos b nd o h q) := by
  have := interior_exact hof hb hm hf hd (elemPos b nd o h q) (o d) h (i := nodeOf nd b.n d q) (nodeOf_lt nd hn d q) (by rw [elemPos, if_pos hd]; rfl)
    (fun j => readRow a 0 (RowIndex.after nd b.n d (rowOf nd b.n d q)) j v) (by
      intro j hj
      rw [readRow_after hn hd, ha _ (pt_lt hn hd (rowOf_lt hn hd hq) hj), elemPos_row_pt hn hd o h hj])
  have hn' := hof.n
  rw [← this, ← hn']

/-- Extrapolation of sampled values to the faces. -/
theorem bounds_samples (hof : bs.IsOf b) (hb : b.Distinct) (hn : 0 < b.n) {nd m nvar : Nat} (hm : m ≤ b.n) (F : Nat → Nat → Field) (hF : ∀ d < nd, ∀ v < nvar, PolyIn nd m (F d v)) (o : Nat → ℝ) (h : ℝ)
    (a : Nat → Arr) (faces : Nat → Mem) (ha : ∀ d < nd, ∀ v < nvar, ∀ q < b.n ^ nd, a d (v, q) = F d v (elemPos b nd o h q)) :
    HoldsFaces b nd nvar o h (overRows nd bs.n (fun faces i_dim r => writeBound nvar (matRow bs.n bs.bound (readRow (a i_dim) 0 r)) faces r) faces) F := by
  intro d hd s hs v hv k hk
  have h1 := (bounds_apply nd bs.n (by rw [hof.n]; exact hn) nvar (fun i_dim r => matRow bs.n bs.bound (readRow (a i_dim) 0 r)) faces).1 v hv d hd k (by rw [hof.n]; exact hk) s hs
  rw [hof.n] at h1 ⊢
  rw [h1]
  have h2 := extrap_exact hof hb hm (hF d hd v hv) hd (elemPos b nd o h (pt nd b.n d k 0)) (o d) h (readRow (a d) 0 (RowIndex.after nd b.n d k)) v (by
    intro j hj
    rw [readRow_after hn hd, ha d hd v hv _ (pt_lt hn hd hk hj)]
    congr 1
    have e := elemPos_row_pt (q := pt nd b.n d k 0) hn hd o h hj
    rw [(rowOf_pt hn hn).1] at e
    exact e) hs
  rw [hof.n] at h2
  rw [h2, elemPos_pt (i := 0) hn hd o h hn]

/-- The faces written by `Write_face`. -/
theorem writeFace_samples (hof : bs.IsOf b) (hb : b.Distinct) (hn : 0 < b.n) {nd : Nat} (p : Pde) (u : Nat → Field) (hu : ∀ v < p.nExtrap, PolyIn nd b.n (p.extrapField u v)) (o : Nat → ℝ) (h : ℝ)
    (state : Arr) (hst : ∀ q < b.n ^ nd, ∀ v, state (v, q) = u v (elemPos b nd o h q)) (faces : Nat → Mem) :
    HoldsFaces b nd p.nExtrap o h (writeFace p bs nd state faces) fun _ => p.extrapField u := by
  rw [writeFace]
  refine bounds_samples hof hb hn le_rfl (fun _ => p.extrapField u) (fun _ _ => hu) o h (fun _ k => p.fetchExtrap (fun v => state (v, k.2)) k.1) faces ?_
  intro d _ v _ q hq
  simp only [Pde.extrapField]
  congr 1
  funext w
  exact hst q hq w

/-- The convective part of the residual. -/
theorem conv_rate (hof : bs.IsOf b) (hb : b.Distinct) (hn : 0 < b.n) {nd m : Nat} (hm : m ≤ b.n) (p : Pde) (u : Nat → Field) (hG : ∀ d < nd, ∀ v < p.nUpdate, PolyIn nd m (p.fluxField u d v)) (o : Nat → ℝ)
    {e : ElemRec} (he : e.geom = none) (state : Arr) (hst : ∀ q < b.n ^ nd, ∀ v, state (v, q) = u v (elemPos b nd o e.size q)) (faces : Nat → Mem)
    (hf : HoldsFaces b nd p.nUpdate o e.size faces (p.fluxField u)) {v q : Nat} (hv : v < p.nUpdate) (hq : q < b.n ^ nd) :
    ∑ d ∈ Finset.range nd, -deriv2 bs (readRow (convFlux p nd e state d) 0 (RowIndex.after nd bs.n d (rowOf nd bs.n d q))) (readBound faces (RowIndex.after nd bs.n d (rowOf nd bs.n d q))) (nodeOf nd bs.n d q) v =
      e.size * p.convRate nd u v (elemPos b nd o e.size q) := by
  rw [Pde.convRate, ← Finset.sum_neg_distrib, Finset.mul_sum]
  refine Finset.sum_congr rfl fun d hd => ?_
  have hd := Finset.mem_range.1 hd
  rw [deriv_row hof hb hn hm (hG d hd v hv) hd o e.size hq (convFlux p nd e state d) faces v ?_ fun s hs k hk => hf d hd s hs v hv k hk]
  · ring
  · intro q hq
    simp only [convFlux, Pde.fluxField]
    congr 1
    · funext w; exact hst q hq w
    · funext j i; simp only [elemNormal, he]

/-- One convective stage 0 without filter on an element whose faces hold the fluxes. -/
theorem local_conv (hof : bs.IsOf b) (hb : b.Distinct) (hn : 0 < b.n) {nd m : Nat} (hm : m ≤ b.n) {p : Pde} (hconv : p.hasConv = true) (hdiff : p.hasDiff = false)
    (u : Nat → Field) (hG : ∀ d < nd, ∀ v < p.nUpdate, PolyIn nd m (p.fluxField u d v)) (o : Nat → ℝ)
    {e : ElemRec} (he : e.geom = none) (hs : e.size ≠ 0) (dt : ℝ) (state cache : Arr) (hst : ∀ q < b.n ^ nd, ∀ v, state (v, q) = u v (elemPos b nd o e.size q)) (faces visc : Nat → Mem)
    (hf : HoldsFaces b nd p.nUpdate o e.size faces (p.fluxField u)) {q : Nat} (hq : q < b.n ^ nd) :
    ∃ upd : Nat → ℝ, (∀ v < p.nUpdate, upd v = dt * e.tss q * p.rhs nd u v (elemPos b nd o e.size q)) ∧
      ∀ i, (localKernel p bs nd ⟨dt, false, false, false⟩ e state cache faces visc).state (i, q) = p.writeUpdate upd true (fun w => u w (elemPos b nd o e.size q)) i := by
  have hq' : q < bs.n ^ nd := by rw [hof.n]; exact hq
  have hn' : 0 < bs.n := by rw [hof.n]; exact hn
  have hM : p.nUpdate ≤ p.blockSize := le_max_left _ _
  have r1 : ∀ v < p.nUpdate, (localRate p bs nd ⟨dt, false, false, false⟩ e state faces visc).1 (v, q) = e.size * p.convRate nd u v (elemPos b nd o e.size q) := by
    intro v hv
    rw [← conv_rate hof hb hn hm p u hG o he state hst faces hf hv hq]
    simp only [localRate, Bool.false_eq_true, if_false]
    rw [residual_at p bs hn' nd _ _ faces _ hq' v]
    simp only [initRate]
    rw [if_neg (by omega), if_neg (by simp [hdiff]), zero_add]
    refine Finset.sum_congr rfl fun d _ => ?_
    rw [if_pos ⟨hconv, hv⟩, if_neg (by simp [hdiff]), add_zero]
  have r2 : p.hasSource = true → ∀ v < p.nUpdate, (localRate p bs nd ⟨dt, false, false, false⟩ e state faces visc).1 (p.blockSize + v, q) = e.size * p.source (fun w => state (w, q)) v := by
    intro hS v hv
    simp only [localRate, Bool.false_eq_true, if_false]
    rw [residual_at p bs hn' nd _ _ faces _ hq' _]
    simp only [initRate, he]
    rw [if_pos ⟨hS, trivial, by omega, by omega⟩, show p.blockSize + v - p.blockSize = v by omega, Finset.sum_eq_zero, add_zero]
    intro d _
    rw [if_neg (by omega), if_neg (by simp [hdiff]), add_zero]
  have hsrc : (fun w => state (w, q)) = fun w => u w (elemPos b nd o e.size q) := funext fun w => hst q hq w
  simp only [localKernel, hdiff, Bool.not_false, Bool.and_self, Bool.false_eq_true, if_false, Bool.false_or, hsrc]
  refine ⟨_, ?_, fun i => rfl⟩
  intro v hv
  simp only [Pde.rhs, hconv, hdiff, if_true, Bool.false_eq_true, if_false, add_zero, updateMult, he]
  by_cases hS : p.hasSource = true
  · rw [if_pos hS, if_pos hS, r1 v hv, r2 hS v hv, hsrc]
    field_simp
  · rw [if_neg hS, if_neg hS, r1 v hv]
    field_simp; ring

/-- The gradient and the diffusive flux in an element whose LDG faces hold the extrapolated variables. -/
theorem diff_flux (hof : bs.IsOf b) (hb : b.Distinct) (hn : 0 < b.n) {nd : Nat} {p : Pde} (hl : p.DiffLocal nd)
    (u : Nat → Field) (hE : ∀ v < p.nExtrap, PolyIn nd b.n (p.extrapField u v)) (o : Nat → ℝ)
    {e : ElemRec} (he : e.geom = none) (hs : e.size ≠ 0) (state : Arr) (hst : ∀ q < b.n ^ nd, ∀ v, state (v, q) = u v (elemPos b nd o e.size q)) (visc : Nat → Mem)
    (hf : HoldsFaces b nd p.nExtrap o e.size visc fun _ => p.extrapField u) {d v q : Nat} (hd : d < nd) (hv : v < p.nUpdate) (hq : q < b.n ^ nd) :
    diffFlux p bs nd e state visc d (v, q) = p.diffField u d v (elemPos b nd o e.size q) := by
  have hq' : q < bs.n ^ nd := by rw [hof.n]; exact hq
  have hn' : 0 < bs.n := by rw [hof.n]; exact hn
  have hsrc : (fun w => state (w, q)) = fun w => u w (elemPos b nd o e.size q) := funext fun w => hst q hq w
  simp only [diffFlux, he, Pde.diffField, hsrc]
  have hen : elemNormal nd e q = fun j i => if j = i then 1 else 0 := by
    funext j i; rw [elemNormal, he]
  rw [hen]
  refine hl _ _ _ _ ?_ v hv d hd
  intro v' hv' i hi
  rw [gradient_at p bs hn' nd he state visc hi hq' hv', deriv_row hof hb hn le_rfl (hE v' hv') hi o e.size hq _ visc v' ?_ fun s hs k hk => hf i hi s hs v' hv' k hk]
  · field_simp
  · intro q hq
    have : (fun w => state (w, q)) = fun w => u w (elemPos b nd o e.size q) := funext fun w => hst q hq w
    simp only [this, Pde.extrapField]

/-- The rates before filtering, with diffusion. -/
theorem diff_rates (hof : bs.IsOf b) (hb : b.Distinct) (hn : 0 < b.n) {nd m : Nat} (hm : m ≤ b.n) {p : Pde} (hdiff : p.hasDiff = true) (hl : p.DiffLocal nd) (hx : p.nExtrap ≤ 2 * p.nUpdate)
    (u : Nat → Field) (hE : ∀ v < p.nExtrap, PolyIn nd b.n (p.extrapField u v)) (hG : p.hasConv = true → ∀ d < nd, ∀ v < p.nUpdate, PolyIn nd m (p.fluxField u d v))
    (hD : ∀ d < nd, ∀ v < p.nUpdate, PolyIn nd b.n (p.diffField u d v)) (o : Nat → ℝ)
    {e : ElemRec} (he : e.geom = none) (hs : e.size ≠ 0) (state : Arr) (hst : ∀ q < b.n ^ nd, ∀ v, state (v, q) = u v (elemPos b nd o e.size q)) (faces visc : Nat → Mem)
    (hf : p.hasConv = true → HoldsFaces b nd p.nUpdate o e.size faces (p.fluxField u)) (hfv : HoldsFaces b nd p.nExtrap o e.size visc fun _ => p.extrapField u) :
    (∀ v < p.nUpdate, ∀ q < b.n ^ nd,
      (overRows nd bs.n (residualRow p bs (convFlux p nd e state) (diffFlux p bs nd e state visc) faces) (initRate p e false state, visc)).1 (v, q) =
        e.size * (if p.hasConv then p.convRate nd u v (elemPos b nd o e.size q) else 0) ∧
      (overRows nd bs.n (residualRow p bs (convFlux p nd e state) (diffFlux p bs nd e state visc) faces) (initRate p e false state, visc)).1 (p.blockSize + v, q) =
        e.size * (p.diffRate nd u v (elemPos b nd o e.size q) + if p.hasSource then p.source (fun w => u w (elemPos b nd o e.size q)) v else 0)) ∧
    HoldsFaces b nd p.nUpdate o e.size (overRows nd bs.n (residualRow p bs (convFlux p nd e state) (diffFlux p bs nd e state visc) faces) (initRate p e false state, visc)).2 (p.diffField u) := by
  have hn' : 0 < bs.n := by rw [hof.n]; exact hn
  have hM : p.nUpdate ≤ p.blockSize := le_max_left _ _
  have hfl : ∀ d < nd, ∀ v < p.nUpdate, ∀ q < b.n ^ nd, diffFlux p bs nd e state visc d (v, q) = p.diffField u d v (elemPos b nd o e.size q) :=
    fun d hd v hv q hq => diff_flux hof hb hn hl u hE o he hs state hst visc hfv hd hv hq
  refine ⟨fun v hv q hq => ⟨?_, ?_⟩, ?_⟩
  · rw [residual_at p bs hn' nd _ _ faces _ (by rw [hof.n]; exact hq) v]
    simp only [initRate]
    rw [if_neg (by omega), if_neg (by omega), zero_add]
    by_cases hc : p.hasConv = true
    · rw [if_pos hc, ← conv_rate hof hb hn hm p u (hG hc) o he state hst faces (hf hc) hv hq]
      refine Finset.sum_congr rfl fun d _ => ?_
      rw [if_pos ⟨hc, hv⟩, if_neg (by omega), add_zero]
    · rw [if_neg hc, mul_zero]
      refine Finset.sum_eq_zero fun d _ => ?_
      rw [if_neg (by simp [hc]), if_neg (by omega), add_zero]
  · have hsrc : (fun w => state (w, q)) = fun w => u w (elemPos b nd o e.size q) := funext fun w => hst q hq w
    rw [residual_at p bs hn' nd _ _ faces _ (by rw [hof.n]; exact hq) _, mul_add, add_comm]
    congr 1
    · rw [Pde.diffRate, ← Finset.sum_neg_distrib, Finset.mul_sum]
      refine Finset.sum_congr rfl fun d hd => ?_
      have hd := Finset.mem_range.1 hd
      rw [if_neg (by omega), if_pos ⟨hdiff, by omega, by omega⟩, zero_add, show p.blockSize + v - p.blockSize = v by omega,
        interior_row hof hb hn le_rfl (hD d hd v hv) hd o e.size hq _ v (fun q hq => hfl d hd v hv q hq)]
      ring
    · simp only [initRate, he]
      by_cases hS : p.hasSource = true
      · rw [if_pos ⟨hS, trivial, by omega, by omega⟩, if_pos hS, show p.blockSize + v - p.blockSize = v by omega, hsrc]
      · rw [if_neg (by simp [hS]), if_neg (by omega), if_neg hS, mul_zero]
  · rw [residual_visc, if_pos hdiff]
    exact bounds_samples hof hb hn le_rfl (p.diffField u) hD o e.size (diffFlux p bs nd e state visc) visc hfl

end Hexed.Spatial
