import Verif.SurfRep.Lemmas
import Verif.ArtVisc.Uniform
import Mathlib.Tactic.FieldSimp
import Mathlib.Tactic.IntervalCases
set_option autoImplicit false
set_option linter.unusedVariables false

/-!
# Theorems about the uncertainty of the surface representation (C89)
-/

namespace Hexed.SurfRep
open Hexed.Spatial Hexed.Pde
open Hexed.StateFile (runWriteFace refresh refresh_spec writeFaces_spec prolong_spec elem_not_fine fine_not_elem fine_mortar coarse_mem fine_side)
open Hexed.SnapMesh (put sgn backup restoreState isDof)
open Hexed.Connection (matchFaces restore matchFaces_eq tπ fπ tπ_lt fπ_lt tπ_tπ fπ_fπ)
open Hexed.Metric (partner partner_lt)
noncomputable section

variable {bs : BasisData} {b : Basis.Nodes ℝ} {m : Mesh} {bounds : List Bound} {sn : Nat} {mu kappa : Transport}

/-- C89: the flow is what it was, in every variable at every point, and so are the faces of elements, as after initialization with this flow. The residual cache is not: it holds the flow. -/
theorem flow_kept (hn : 0 < bs.n) (hm : m.Ok bs) (d : Data) :
    (setUncertSurfaceRep mu kappa bs m bounds sn d).world.state = d.world.state ∧
    (∀ e ∈ m.elems, ∀ f < 2 * m.nd, ∀ v < m.nd + 2, ∀ k < bs.n ^ (m.nd - 1), (setUncertSurfaceRep mu kappa bs m bounds sn d).world.buf (.elem e f) false (v * bs.n ^ (m.nd - 1) + k) =
      (refresh mu kappa bs m d.world).buf (.elem e f) false (v * bs.n ^ (m.nd - 1) + k)) ∧
    ∀ e k, (setUncertSurfaceRep mu kappa bs m bounds sn d).world.cache e k = if e ∈ m.elems ∧ k.1 < m.nd + 2 ∧ k.2 < bs.n ^ m.nd then d.world.state e k else d.world.cache e k := by
  obtain ⟨c1, c2⟩ := compare_same (bounds := bounds) (mu := mu) (kappa := kappa) hm (recordOf m bounds sn d.record) (backup bs.n m d.world)
  set w := compareNormals mu kappa bs m bounds (recordOf m bounds sn d.record) (backup bs.n m d.world) with hw
  have hwd : (setUncertSurfaceRep mu kappa bs m bounds sn d).world = runWriteFace mu kappa bs m (restoreState bs.n m w) := rfl
  obtain ⟨a1, a2, a3, -⟩ := writeFaces_spec hm mu kappa (restoreState bs.n m w)
  have hst : (restoreState bs.n m w).state = d.world.state := by
    funext e k
    show (if e ∈ m.elems ∧ isDof bs.n m.nd k then w.cache e k else w.state e k) = _
    by_cases hk : e ∈ m.elems ∧ isDof bs.n m.nd k
    · rw [if_pos hk, c2]
      exact if_pos hk
    · rw [if_neg hk, c1, loadNormals]
      dsimp only
      split
      · rfl
      · rw [if_neg]
        · rfl
        · rintro ⟨h1, h2, h3, h4⟩
          exact hk ⟨h1, by omega, h4⟩
  refine ⟨by rw [hwd, a1, hst], fun e he f hf v hv k hk => ?_, fun e k => ?_⟩
  · rw [hwd, a3 e he f hf, hst, written_at hn m.nd _ _ hf hv hk, (refresh_spec hm mu kappa d.world).2.2.1 e he f hf, written_at hn m.nd _ _ hf hv hk]
  · rw [hwd, a2]
    show w.cache e k = _
    rw [c2]; rfl

/-- C89: elements that have no face on the boundary get uncertainty 0, whatever it was. -/
theorem off_surface (d : Data) {e : Nat} (he : e ∈ m.elems) (h : ∀ c ∈ bounds, c.sn = sn → c.elem ≠ e) : (setUncertSurfaceRep mu kappa bs m bounds sn d).uncert e = 0 := by
  show (if e ∈ m.elems then totalUp bs m.nd (recordOf m bounds sn d.record e) _ 0 else _) = _
  have hr : recordOf m bounds sn d.record e = 0 := by rw [recordOf, mark_other _ _ _ _ h, if_pos he]
  rw [if_pos he, hr, totalUp, on_zero, if_neg (by decide)]

theorem partner_surj (hnd : 1 ≤ m.nd ∧ m.nd ≤ 3) {n : Nat} {c : ConRec} (hd : c.deformed = true) {k : Nat} (hk : k < n ^ (m.nd - 1)) : ∃ k' < n ^ (m.nd - 1), partner m.nd n c k' = k := by
  refine ⟨tπ m.nd n c.dir (fπ m.nd n c.dir k), tπ_lt _ _ hnd _ _ (fπ_lt _ _ hnd _ _ hk), ?_⟩
  rw [partner, if_pos hd, tπ_tπ _ _ _ _ (fπ_lt _ _ hnd _ _ hk), fπ_fπ _ _ _ _ hk]

theorem face_difference (hn : 0 < bs.n) (hm : m.Ok bs) (hB : BoundsOk m bounds sn) (d : Data) {e f : Nat} {D : Nat → Nat → ℝ} (h : Difference bs m bounds sn e f D) :
    faceNorm bs m.nd ((compareNormals mu kappa bs m bounds (recordOf m bounds sn d.record) (backup bs.n m d.world)).buf (.elem e f) false) = rms bs m.nd D := by
  refine faceNorm_eq _ _ _ fun j hj k hk => ?_
  have hlt : ∀ k < bs.n ^ (m.nd - 1), j * bs.n ^ (m.nd - 1) + k < (m.nd + 2) * bs.n ^ (m.nd - 1) := fun k hk => block_lt (by omega) hk
  cases h with
  | boundary c hc hf h0 => rw [← hf, compare_bound hn hm hB _ _ hc (hlt k hk), h0]
  | first c hc hd e' f' dim sign dim' sign' g g' h0 h1 w w' hD =>
    have hg : (c.side true).isGhost = false := by rw [h1]; rfl
    obtain ⟨k', hk', rfl⟩ := partner_surj hm.dim hd hk
    have h2 := (diff_sides hn hm (stage4 mu kappa bs m (recordOf m bounds sn d.record) (backup bs.n m d.world)) hc hd hj hk').2
    rw [h0, h1, stage4_elem hm, stage4_elem hm, stage3_normal hn hm hB _ _ w hj hk, stage3_normal hn hm hB _ _ w' hj hk'] at h2
    rw [compare_side hn hm hB _ _ hc hg h0, h2, hD j hj k' hk']
  | second c hc hd e' f' dim sign dim' sign' g g' h0 h1 w w' hD =>
    have hg : (c.side true).isGhost = false := by rw [h1]; rfl
    have h2 := (diff_sides hn hm (stage4 mu kappa bs m (recordOf m bounds sn d.record) (backup bs.n m d.world)) hc hd hj hk).1
    rw [h0, h1, stage4_elem hm, stage4_elem hm, stage3_normal hn hm hB _ _ w hj hk, stage3_normal hn hm hB _ _ w' hj (partner_lt hm.dim bs.n c hk)] at h2
    rw [compare_side hn hm hB _ _ hc hg h1, h2, hD j hj k hk]
    ring

/-- C89: the uncertainty of an element at the surface is the sum over the faces that meet the surface of the root mean square of the difference of the unit normals across the face, divided by the number of
these faces: where each of these faces is on a boundary or connected, deformed and conforming, to a face that also meets the surface. -/
theorem value (hn : 0 < bs.n) (hm : m.Ok bs) (hB : BoundsOk m bounds sn) (d : Data) {e dim sign : Nat} (h : wallOf bounds sn e = some (dim, sign)) (D : Nat → Nat → Nat → ℝ)
    (hD : ∀ f < 2 * m.nd, f / 2 ≠ dim → Difference bs m bounds sn e f (D f)) :
    (setUncertSurfaceRep mu kappa bs m bounds sn d).uncert e = ((lateral m.nd dim).map fun f => rms bs m.nd (D f)).sum / (2 * (max (m.nd - 1) 1 : Nat)) := by
  rw [uncert_wall hB d h]
  congr 2
  refine List.map_congr_left fun f hf => ?_
  obtain ⟨h1, h2⟩ := mem_lateral.1 hf
  exact face_difference hn hm hB d (hD f h1 h2)

/-! ## Weights -/

theorem qw_total (hw : ∑ i ∈ Finset.range bs.n, bs.weight i = 1) (hn : 0 < bs.n) : ∀ d, ∑ k ∈ Finset.range (bs.n ^ d), qw bs.weight bs.n d k = 1
  | 0 => by simp [qw]
  | d + 1 => by
    rw [sum_rows (d + 1) bs.n 0 hn (by omega), ← qw_total hw hn d]
    refine Finset.sum_congr rfl fun k hk => ?_
    rw [Finset.sum_congr rfl fun i hi => qw_pt bs.weight hn (by omega) (Finset.mem_range.1 hi), ← Finset.mul_sum, hw, mul_one]
    rfl

theorem rms_const (hw : ∑ i ∈ Finset.range bs.n, bs.weight i = 1) (hn : 0 < bs.n) (nd : Nat) (D : Nat → Nat → ℝ) (x : ℝ) (h : ∀ k < bs.n ^ (nd - 1), ∑ j ∈ Finset.range nd, D j k ^ 2 = x) : rms bs nd D = √x := by
  rw [rms, Finset.sum_congr rfl fun k hk => by rw [h k (Finset.mem_range.1 hk)], ← Finset.sum_mul, qw_total hw hn, one_mul]

theorem edgeUnit_two (g : Geom) (dim sign f j k : Nat) (hd : dim < 2) (hf : f < 4) (hl : f / 2 ≠ dim) : edgeUnit bs 2 g dim sign f j k = edgeUnit bs 2 g dim sign f j 0 := by
  have h : ∀ i, edgeVec bs 2 g dim sign f i k = edgeVec bs 2 g dim sign f i 0 := by
    intro i
    rw [edgeVec, edgeVec]
    refine Finset.sum_congr rfl fun t _ => Finset.sum_congr rfl fun i _ => ?_
    congr 4
    have : ∀ y z : Nat, cell 2 bs.n (fun d => if d = dim then t else if d = f / 2 then i else y) = cell 2 bs.n (fun d => if d = dim then t else if d = f / 2 then i else z) := by
      intro y z
      rcases (by omega : (dim = 0 ∧ f / 2 = 1) ∨ (dim = 1 ∧ f / 2 = 0)) with ⟨h1, h2⟩ | ⟨h1, h2⟩ <;> rw [h1, h2] <;> simp [cell, List.range_succ]
    exact this _ _
  rw [edgeUnit, edgeUnit, h]
  simp only [h]

/-- C89: in two dimensions the uncertainty is the mean of the lengths of the differences between the unit normals of the element and of its two neighbours, at the points where they meet. -/
theorem value_two (hw : ∑ i ∈ Finset.range bs.n, bs.weight i = 1) (hn : 0 < bs.n) (hm : m.Ok bs) (hB : BoundsOk m bounds sn) (hnd : m.nd = 2) (d : Data) {e dim sign : Nat} (h : wallOf bounds sn e = some (dim, sign)) (D : Nat → Nat → Nat → ℝ)
    (hD : ∀ f < 2 * m.nd, f / 2 ≠ dim → Difference bs m bounds sn e f (D f)) :
    (setUncertSurfaceRep mu kappa bs m bounds sn d).uncert e = (√(D (2 * (1 - dim)) 0 0 ^ 2 + D (2 * (1 - dim)) 1 0 ^ 2) + √(D (2 * (1 - dim) + 1) 0 0 ^ 2 + D (2 * (1 - dim) + 1) 1 0 ^ 2)) / 2 := by
  obtain ⟨-, hd, hs, -⟩ := record_wall hB d.record h
  have hl : lateral m.nd dim = [2 * (1 - dim), 2 * (1 - dim) + 1] := by
    rw [hnd] at hd ⊢
    interval_cases dim <;> decide
  have hN : 0 < bs.n ^ (m.nd - 1) := Nat.pow_pos hn
  have hr : ∀ f < 2 * m.nd, f / 2 ≠ dim → rms bs m.nd (D f) = √(D f 0 0 ^ 2 + D f 1 0 ^ 2) := by
    intro f hf hfl
    have hc : ∀ j < m.nd, ∀ k < bs.n ^ (m.nd - 1), D f j k = D f j 0 := by
      intro j hj k hk
      have e2 : ∀ {e f dim sign : Nat} {g : Geom}, Meets m bounds sn e f dim sign g → ∀ k, edgeUnit bs m.nd g dim sign f j k = edgeUnit bs m.nd g dim sign f j 0 := by
        intro e f dim sign g w k
        obtain ⟨-, hd, -⟩ := record_wall hB d.record w.wall
        have := w.face
        rw [hnd] at hd this ⊢
        exact edgeUnit_two g dim sign f j k hd (by omega) w.lateral
      cases hD f hf hfl with
      | boundary c hc hf h0 => rw [h0, h0]
      | first c hc hd e' f' dim sign dim' sign' g g' h0 h1 w w' hD =>
        obtain ⟨k', hk', hk2⟩ := partner_surj hm.dim hd hk
        obtain ⟨z', hz', hz2⟩ := partner_surj hm.dim hd hN
        have q1 := hD j hj k' hk'
        have q2 := hD j hj z' hz'
        rw [hk2] at q1
        rw [hz2] at q2
        rw [q1, q2, e2 w k, e2 w' k', e2 w' z']
      | second c hc hd e' f' dim sign dim' sign' g g' h0 h1 w w' hD => rw [hD j hj k hk, hD j hj 0 hN, e2 w k, e2 w' (partner m.nd bs.n c k), e2 w' (partner m.nd bs.n c 0)]
    refine rms_const hw hn _ _ _ fun k hk => ?_
    rw [Finset.sum_congr rfl fun j hj => by rw [hc j (Finset.mem_range.1 hj) k hk], hnd, Finset.sum_range_succ, Finset.sum_range_one]
  have h4 : 2 * (1 - dim) + 1 < 2 * m.nd := by omega
  have h5 : (2 * (1 - dim)) / 2 ≠ dim := by omega
  have h6 : (2 * (1 - dim) + 1) / 2 ≠ dim := by omega
  rw [value hn hm hB d h D hD, hl, List.map_cons, List.map_cons, List.map_nil, List.sum_cons, List.sum_cons, List.sum_nil, hr _ (by omega) h5, hr _ h4 h6, hnd]
  norm_num

theorem qw_nonneg (h0 : ∀ i < bs.n, 0 ≤ bs.weight i) (hn : 0 < bs.n) : ∀ d k, 0 ≤ qw bs.weight bs.n d k
  | 0, k => zero_le_one
  | d + 1, k => mul_nonneg (qw_nonneg h0 hn d _) (h0 _ (Nat.mod_lt _ hn))

theorem edgeUnit_le (nd : Nat) (g : Geom) (dim sign f k : Nat) : ∑ j ∈ Finset.range nd, edgeUnit bs nd g dim sign f j k ^ 2 ≤ 1 := by
  have h0 : 0 ≤ ∑ i ∈ Finset.range nd, edgeVec bs nd g dim sign f i k ^ 2 := Finset.sum_nonneg fun i _ => sq_nonneg _
  have : ∀ j, edgeUnit bs nd g dim sign f j k ^ 2 = edgeVec bs nd g dim sign f j k ^ 2 / ∑ i ∈ Finset.range nd, edgeVec bs nd g dim sign f i k ^ 2 := fun j => by rw [edgeUnit, div_pow, Real.sq_sqrt h0]
  rw [Finset.sum_congr rfl fun j _ => this j, ← Finset.sum_div]
  exact div_self_le_one _

/-- C89: under the hypotheses of `value`, the uncertainty is between 0 and 2. -/
theorem at_most_two (hw : ∑ i ∈ Finset.range bs.n, bs.weight i = 1) (h0 : ∀ i < bs.n, 0 ≤ bs.weight i) (hn : 0 < bs.n) (hm : m.Ok bs) (hB : BoundsOk m bounds sn) (d : Data) {e dim sign : Nat} (h : wallOf bounds sn e = some (dim, sign))
    (D : Nat → Nat → Nat → ℝ) (hD : ∀ f < 2 * m.nd, f / 2 ≠ dim → Difference bs m bounds sn e f (D f)) :
    0 ≤ (setUncertSurfaceRep mu kappa bs m bounds sn d).uncert e ∧ (setUncertSurfaceRep mu kappa bs m bounds sn d).uncert e ≤ 2 := by
  obtain ⟨-, hd, hs, -⟩ := record_wall hB d.record h
  have htwo : ∀ a c : Nat → ℝ, ∑ j ∈ Finset.range m.nd, a j ^ 2 ≤ 1 → ∑ j ∈ Finset.range m.nd, c j ^ 2 ≤ 1 → ∑ j ∈ Finset.range m.nd, (a j - c j) ^ 2 ≤ 4 := by
    intro a c ha hc
    have : ∑ j ∈ Finset.range m.nd, (a j - c j) ^ 2 ≤ ∑ j ∈ Finset.range m.nd, (2 * a j ^ 2 + 2 * c j ^ 2) := Finset.sum_le_sum fun j _ => by nlinarith [sq_nonneg (a j + c j)]
    rw [Finset.sum_add_distrib, ← Finset.mul_sum, ← Finset.mul_sum] at this
    linarith
  have hr : ∀ f ∈ lateral m.nd dim, rms bs m.nd (D f) ≤ 2 := by
    intro f hf
    obtain ⟨h1, h2⟩ := mem_lateral.1 hf
    have h4 : ∀ k < bs.n ^ (m.nd - 1), ∑ j ∈ Finset.range m.nd, D f j k ^ 2 ≤ 4 := by
      intro k hk
      cases hD f h1 h2 with
      | boundary c hc hf h0 => simp [h0]
      | first c hc hd e' f' dim sign dim' sign' g g' _ _ w w' hD =>
        obtain ⟨k', hk', rfl⟩ := partner_surj hm.dim hd hk
        rw [Finset.sum_congr rfl fun j hj => by rw [hD j (Finset.mem_range.1 hj) k' hk']]
        exact htwo _ _ (edgeUnit_le _ _ _ _ _ _) (edgeUnit_le _ _ _ _ _ _)
      | second c hc hd e' f' dim sign dim' sign' g g' _ _ w w' hD =>
        rw [Finset.sum_congr rfl fun j hj => by rw [hD j (Finset.mem_range.1 hj) k hk]]
        exact htwo _ _ (edgeUnit_le _ _ _ _ _ _) (edgeUnit_le _ _ _ _ _ _)
    have h5 : ∑ k ∈ Finset.range (bs.n ^ (m.nd - 1)), qw bs.weight bs.n (m.nd - 1) k * ∑ j ∈ Finset.range m.nd, D f j k ^ 2 ≤ ∑ k ∈ Finset.range (bs.n ^ (m.nd - 1)), qw bs.weight bs.n (m.nd - 1) k * 4 :=
      Finset.sum_le_sum fun k hk => mul_le_mul_of_nonneg_left (h4 k (Finset.mem_range.1 hk)) (qw_nonneg h0 hn _ _)
    rw [← Finset.sum_mul, qw_total hw hn, one_mul] at h5
    rw [rms]
    exact Real.sqrt_le_iff.2 ⟨by norm_num, h5.trans (by norm_num)⟩
  rw [value hn hm hB d h D hD]
  have hp : (0 : ℝ) < 2 * (max (m.nd - 1) 1 : Nat) := by positivity
  refine ⟨div_nonneg (List.sum_nonneg fun x hx => ?_) hp.le, (div_le_iff₀ hp).2 ?_⟩
  · obtain ⟨f, _, rfl⟩ := List.mem_map.1 hx
    exact Real.sqrt_nonneg _
  · have h1 : ((lateral m.nd dim).map fun f => rms bs m.nd (D f)).sum ≤ ((lateral m.nd dim).map fun f => (2 : ℝ)).sum := List.sum_le_sum hr
    rw [List.map_const', List.sum_replicate, nsmul_eq_mul] at h1
    have h2 : (lateral m.nd dim).length ≤ 2 * max (m.nd - 1) 1 := by
      have hnd := hm.dim
      revert hnd hd
      generalize m.nd = nd
      rintro hd ⟨h5, h6⟩
      interval_cases nd <;> interval_cases dim <;> decide
    have h3 : ((lateral m.nd dim).length : ℝ) ≤ 2 * (max (m.nd - 1) 1 : Nat) := by exact_mod_cast h2
    linarith

/-! ## Flat surfaces -/

theorem stage4_flat (hof : bs.IsOf b) (hb : b.Distinct) (hn : 0 < bs.n) (hm : m.Ok bs) (hB : BoundsOk m bounds sn) {ν : Nat → ℝ} (hF : Flat bs m bounds sn ν) (r : Nat → Nat) (w : World) {c : ConRec} (hc : c ∈ m.cons) {s : Bool}
    (h : AtSurface m bounds sn (c.side s)) {j k : Nat} (hj : j < m.nd) (hk : k < bs.n ^ (m.nd - 1)) : (stage4 mu kappa bs m (recordOf m bounds sn r) w).buf (c.side s) false (j * bs.n ^ (m.nd - 1) + k) = ν j := by
  obtain ⟨e, f, dim, sign, g, h1, h2⟩ := h
  rcases hs : c.side s with ⟨e', f'⟩ | ⟨kr, i⟩ | ⟨q⟩
  · rw [hs] at h1
    obtain ⟨rfl, rfl⟩ := Prod.mk.inj (Option.some.inj h1)
    rw [stage4_elem hm, stage3_normal hn hm hB _ _ h2 hj hk, hF.normal _ _ _ _ _ h2 j hj k hk]
  · have hmem := hm.cover.mem_iff.1 (List.mem_append.2 (Or.inl (mem_sidesOf hc s)))
    rw [hs] at hmem
    have hfine : Buf.mortar kr i ∈ m.fineBufs := by
      rcases List.mem_append.1 hmem with h | h
      · rcases List.mem_append.1 h with h | h
        · obtain ⟨_, _, _, _, h⟩ := Mesh.elemFaces_elem h
          cases h
        · exact h
      · have := (List.mem_filter.1 h).2
        cases this
    obtain ⟨rr, hrr, i', hi', e1⟩ := StateFile.mem_fineBufs.1 hfine
    obtain ⟨kr', hkr'⟩ := List.mem_iff_getElem?.1 hrr
    obtain ⟨⟨e2, f2, hco⟩, hfi⟩ := hm.fine kr' rr hkr'
    rw [hfi i' hi'] at e1
    obtain ⟨rfl, rfl⟩ := Buf.mortar.inj e1
    rw [hs] at h1
    have h3 : some (e2, f2) = some (e, f) := by
      rw [← h1]
      show _ = (m.refs[kr]?).bind _
      rw [hkr', Option.bind_some, hco]
    obtain ⟨rfl, rfl⟩ := Prod.mk.inj (Option.some.inj h3)
    rw [stage4, ← hfi i hi', (prolong_spec hm _ _ _).1 rr hrr i hi', (prolongFine_apply bs hn m.nd (ns m.nd false mu kappa).nExtrap false rr.str i _ _).1 j (show j < m.nd + 2 by omega) k hk, hco]
    exact Metric.const_prolong hof hb (by rw [← hof.n]; exact hn) hm.dim rr.str i _ (ν j) _ (fun k hk => by rw [stage3_normal hn hm hB _ _ h2 hj hk, hF.normal _ _ _ _ _ h2 j hj k hk]) hk
  · rw [hs] at h1; cases h1

theorem stage5_flat (hof : bs.IsOf b) (hb : b.Distinct) (hn : 0 < bs.n) (hm : m.Ok bs) (hB : BoundsOk m bounds sn) {ν : Nat → ℝ} (hF : Flat bs m bounds sn ν) (r : Nat → Nat) (w : World) {c : ConRec} (hc : c ∈ m.cons) {s : Bool}
    (h : AtSurface m bounds sn (c.side s)) {j k : Nat} (hj : j < m.nd) (hk : k < bs.n ^ (m.nd - 1)) : (stage5 mu kappa bs m bounds (recordOf m bounds sn r) w).buf (c.side s) false (j * bs.n ^ (m.nd - 1) + k) = 0 := by
  refine zero_at _ _ _ _ _ _ (block_lt (by omega) hk) ?_
  rcases hF.closed c hc s h with h1 | h1
  · left
    cases s with
    | true => rw [show (!true) = false from rfl, hm.ghost c hc] at h1; cases h1
    | false =>
      obtain ⟨c', hc', h2⟩ := hB.all c hc h1
      exact ⟨c', hc', h2.symm⟩
  · right
    have hd := hF.deformed c hc s h
    have hall : ∀ s', ∀ k < bs.n ^ (m.nd - 1), (stage4 mu kappa bs m (recordOf m bounds sn r) w).buf (c.side s') false (j * bs.n ^ (m.nd - 1) + k) = ν j := by
      intro s' k hk
      by_cases e : s' = s
      · subst e; exact stage4_flat hof hb hn hm hB hF r w hc h hj hk
      · rw [show s' = !s by cases s <;> cases s' <;> simp_all]
        exact stage4_flat hof hb hn hm hB hF r w hc h1 hj hk
    cases s with
    | true => rw [(diff_sides hn hm _ hc hd hj hk).1, hall false _ (partner_lt hm.dim bs.n c hk), hall true k hk, sub_self]
    | false =>
      obtain ⟨k', hk', rfl⟩ := partner_surj hm.dim hd hk
      rw [(diff_sides hn hm _ hc hd hj hk').2, hall false _ hk, hall true k' hk', sub_self]

theorem compare_flat (hof : bs.IsOf b) (hb : b.Distinct) (hn : 0 < bs.n) (hm : m.Ok bs) (hB : BoundsOk m bounds sn) {ν : Nat → ℝ} (hF : Flat bs m bounds sn ν) (r : Nat → Nat) (w : World) {e f dim sign : Nat} {g : Geom}
    (h : Meets m bounds sn e f dim sign g) {j k : Nat} (hj : j < m.nd) (hk : k < bs.n ^ (m.nd - 1)) : (compareNormals mu kappa bs m bounds (recordOf m bounds sn r) w).buf (.elem e f) false (j * bs.n ^ (m.nd - 1) + k) = 0 := by
  by_cases hco : Buf.elem e f ∈ m.coarseBufs
  · obtain ⟨rr, hrr, hre⟩ := List.mem_map.1 hco
    have h1 := ((restrict_fold (ns m.nd false mu kappa) bs hn m.nd false false m.refs (stage5 mu kappa bs m bounds (recordOf m bounds sn r) w).buf hm.refs_nodup).1 rr hrr).1 j (show j < m.nd + 2 by omega) k hk
    rw [hre] at h1
    rw [compare_eq]
    refine h1.trans (Finset.sum_eq_zero fun i hi => ?_)
    have hi := Finset.mem_range.1 hi
    obtain ⟨c, hcm, s, hs⟩ := mem_sides (hm.fine_side hrr hi)
    obtain ⟨kr, hkr⟩ := List.mem_iff_getElem?.1 hrr
    have hA : AtSurface m bounds sn (c.side s) := by
      refine ⟨e, f, dim, sign, g, ?_, h⟩
      rw [hs, (hm.fine kr rr hkr).2 i hi]
      show (m.refs[kr]?).bind _ = _
      rw [hkr, Option.bind_some, hre]
    rw [restricted]
    refine Metric.dims_zero hn _ _ _ _ _ _ (fun k hk => ?_) k hk
    rw [← hs]
    exact stage5_flat hof hb hn hm hB hF r w hcm hA hj hk
  · have hmem := hm.cover.mem_iff.2 (List.mem_append.2 (Or.inl (List.mem_append.2 (Or.inl (Mesh.elemFaces_mem h.elem h.face)))))
    obtain ⟨c, hcm, s, hs⟩ := mem_sides ((List.mem_append.1 hmem).resolve_right hco)
    rw [compare_plain hn hm _ _ hco, ← hs]
    exact stage5_flat hof hb hn hm hB hF r w hcm (by rw [hs]; exact ⟨e, f, dim, sign, g, rfl, h⟩) hj hk

/-- C89: where a flat surface is covered by deformed elements, their uncertainty is 0, hanging nodes included. -/
theorem flat_zero (hof : bs.IsOf b) (hb : b.Distinct) (hn : 0 < bs.n) (hm : m.Ok bs) (hB : BoundsOk m bounds sn) {ν : Nat → ℝ} (hF : Flat bs m bounds sn ν) (d : Data) {e dim sign : Nat} {g : Geom} (hg : (m.elem e).geom = some g)
    (h : wallOf bounds sn e = some (dim, sign)) : (setUncertSurfaceRep mu kappa bs m bounds sn d).uncert e = 0 := by
  obtain ⟨-, hd, hs, he⟩ := record_wall hB d.record h
  rw [uncert_wall hB d h, List.sum_eq_zero, zero_div]
  intro x hx
  obtain ⟨f, hf, rfl⟩ := List.mem_map.1 hx
  obtain ⟨h1, h2⟩ := mem_lateral.1 hf
  rw [faceNorm_eq m.nd _ (fun _ _ => 0) fun j hj k hk => by rw [compare_flat hof hb hn hm hB hF _ _ ⟨he, h1, hg, h, h2⟩ hj hk]]
  simp [rms]

/-! ## What the documentation says about Cartesian elements is not so -/

theorem rms_nonneg (nd : Nat) (D : Nat → Nat → ℝ) : 0 ≤ rms bs nd D := Real.sqrt_nonneg _

/-- A face between two elements in a Cartesian connection holds what was written to it. -/
theorem compare_cartesian (hn : 0 < bs.n) (hm : m.Ok bs) (hB : BoundsOk m bounds sn) (r : Nat → Nat) (w : World) {c : ConRec} (hc : c ∈ m.cons) (hd : c.deformed = false) {s : Bool} {e f : Nat} (h : c.side s = .elem e f)
    (hg : (c.side true).isGhost = false) : (compareNormals mu kappa bs m bounds r w).buf (.elem e f) false = (stage3 mu kappa bs m r w).buf (.elem e f) false := by
  rw [compare_side hn hm hB _ _ hc hg h, diff_other hm, stage4_elem hm]
  intro c' hc' hd' s' e1
  obtain ⟨rfl, -⟩ := side_unique hm.sides_nodup hc' hc (e1.trans h.symm)
  rw [hd] at hd'; cases hd'

/-- C89, against the documentation ("Connections between deformed elements and Cartesian elements are ignored"): a Cartesian connection of a face that meets the surface counts as much as a neighbour whose unit
normal differs by a vector of length 1, however flat the surface is. -/
theorem cartesian_neighbour_counted (hw : ∑ i ∈ Finset.range bs.n, bs.weight i = 1) (hn : 0 < bs.n) (hm : m.Ok bs) (hB : BoundsOk m bounds sn) (d : Data) {e f dim sign : Nat} {g : Geom} (h : Meets m bounds sn e f dim sign g)
    {c : ConRec} (hc : c ∈ m.cons) (hd : c.deformed = false) {s : Bool} (hs : c.side s = .elem e f) (hg : (c.side true).isGhost = false) (hnz : ∀ k < bs.n ^ (m.nd - 1), ∃ j < m.nd, edgeVec bs m.nd g dim sign f j k ≠ 0) :
    1 / (2 * (max (m.nd - 1) 1 : Nat)) ≤ (setUncertSurfaceRep mu kappa bs m bounds sn d).uncert e := by
  rw [uncert_wall hB d h.wall]
  refine div_le_div_of_nonneg_right ?_ (by positivity)
  have h1 : faceNorm bs m.nd ((compareNormals mu kappa bs m bounds (recordOf m bounds sn d.record) (backup bs.n m d.world)).buf (.elem e f) false) = 1 := by
    rw [compare_cartesian hn hm hB _ _ hc hd hs hg, faceNorm_eq m.nd _ (fun j k => edgeUnit bs m.nd g dim sign f j k) fun j hj k hk => by rw [stage3_normal hn hm hB _ _ h hj hk], rms_const hw hn m.nd _ 1, Real.sqrt_one]
    intro k hk
    obtain ⟨j, hj, hne⟩ := hnz k hk
    have hpos : 0 < ∑ i ∈ Finset.range m.nd, edgeVec bs m.nd g dim sign f i k ^ 2 := Finset.sum_pos' (fun i _ => sq_nonneg _) ⟨j, Finset.mem_range.2 hj, by positivity⟩
    have : ∀ j, edgeUnit bs m.nd g dim sign f j k ^ 2 = edgeVec bs m.nd g dim sign f j k ^ 2 / ∑ i ∈ Finset.range m.nd, edgeVec bs m.nd g dim sign f i k ^ 2 := fun j => by
      rw [edgeUnit, div_pow, Real.sq_sqrt hpos.le]
    rw [Finset.sum_congr rfl fun j _ => this j, ← Finset.sum_div, div_self hpos.ne']
  rw [← h1]
  refine List.single_le_sum (fun x hx => ?_) _ (List.mem_map.2 ⟨f, mem_lateral.2 ⟨h.face, h.lateral⟩, rfl⟩)
  obtain ⟨f', _, rfl⟩ := List.mem_map.1 hx
  exact Real.sqrt_nonneg _

/-- C89, against the documentation ("Fully Cartesian connections trivially contribute zero"): a Cartesian element at the boundary, with Cartesian connections to its neighbours, in a uniform flow, gets the length of the
momentum as its uncertainty. -/
theorem cartesian_element_momentum (hw : ∑ i ∈ Finset.range bs.n, bs.weight i = 1) (hof : bs.IsOf b) (hb : b.Distinct) (hn : 0 < bs.n) (hm : m.Ok bs) (hB : BoundsOk m bounds sn) (hnd : 2 ≤ m.nd) (d : Data) {e dim sign : Nat}
    (h : wallOf bounds sn e = some (dim, sign)) (hg : (m.elem e).geom = none)
    (hc : ∀ f < 2 * m.nd, f / 2 ≠ dim → ∃ c ∈ m.cons, c.deformed = false ∧ (∃ s, c.side s = .elem e f) ∧ (c.side true).isGhost = false)
    (p : Nat → ℝ) (hp : ∀ v < m.nd, ∀ q < bs.n ^ m.nd, d.world.state e (v, q) = p v) :
    (setUncertSurfaceRep mu kappa bs m bounds sn d).uncert e = √(∑ v ∈ Finset.range m.nd, p v ^ 2) := by
  obtain ⟨-, hd, hs, he⟩ := record_wall hB d.record h
  have h1 : ∀ f ∈ lateral m.nd dim, faceNorm bs m.nd ((compareNormals mu kappa bs m bounds (recordOf m bounds sn d.record) (backup bs.n m d.world)).buf (.elem e f) false) = √(∑ v ∈ Finset.range m.nd, p v ^ 2) := by
    intro f hf
    obtain ⟨hf, hl⟩ := mem_lateral.1 hf
    obtain ⟨c, hcm, hcd, ⟨s, hcs⟩, hcg⟩ := hc f hf hl
    rw [compare_cartesian hn hm hB _ _ hcm hcd hcs hcg, faceNorm_eq m.nd _ (fun j k => p j), rms_const hw hn m.nd _ _ fun k hk => rfl]
    intro j hj k hk
    congr 1
    rw [stage3, unitNormals]
    dsimp only
    rw [if_neg (by rw [hg]; simp), (writeFaces_spec hm mu kappa _).2.2.1 e he f hf, written_at hn m.nd _ _ hf (by omega) hk]
    have hsum : ∀ i ∈ Finset.range bs.n, bs.bound (f % 2) i * (loadNormals bs.n m (recordOf m bounds sn d.record) (backup bs.n m d.world)).state e (j, pt m.nd bs.n (f / 2) k i) = bs.bound (f % 2) i * p j := ?_
    · rw [Finset.sum_congr rfl hsum, ← Finset.sum_mul, Metric.bound_sum hof hb (by rw [← hof.n]; exact hn) (by omega), one_mul]
    intro i hi
    have hq := pt_lt hn (show f / 2 < m.nd by omega) hk (Finset.mem_range.1 hi)
    rw [loadNormals]
    dsimp only
    rw [hg]
    exact congrArg _ (hp j hj _ hq)
  rw [uncert_wall hB d h, List.map_congr_left h1, List.map_const', List.sum_replicate, nsmul_eq_mul]
  have h2 : (lateral m.nd dim).length = 2 * (m.nd - 1) ∧ max (m.nd - 1) 1 = m.nd - 1 := by
    refine ⟨?_, by omega⟩
    have := hm.dim.2
    generalize m.nd = nd at *
    interval_cases nd <;> interval_cases dim <;> decide
  have h3 : (((m.nd - 1 : Nat)) : ℝ) ≠ 0 := by
    have : m.nd - 1 ≠ 0 := by omega
    exact_mod_cast this
  rw [h2.1, h2.2]
  push_cast
  field_simp

/-! ## Hanging faces -/

theorem restrictFine_fine (hn : 0 < bs.n) (nd nvar : Nat) (scale : Bool) (str : Bool × Bool) (i_face : Nat) (fine coarse : Mem) :
    (∀ v < nvar, ∀ k < bs.n ^ (nd - 1), (restrictFine bs nd nvar scale str i_face (fine, coarse)).1 (v * bs.n ^ (nd - 1) + k) =
      dimsInPlace nd bs.n bs.restrict (1 / stretchFac scale) str i_face (v * bs.n ^ (nd - 1)) fine (v * bs.n ^ (nd - 1) + k)) ∧
    ∀ a, nvar * bs.n ^ (nd - 1) ≤ a → (restrictFine bs nd nvar scale str i_face (fine, coarse)).1 a = fine a := by
  rw [restrictFine]
  dsimp only
  induction nvar with
  | zero => exact ⟨by simp, by simp⟩
  | succ m ih =>
    obtain ⟨i1, i3⟩ := ih
    simp only [List.range_succ, List.foldl_append, List.foldl_cons, List.foldl_nil]
    have hs : (m + 1) * bs.n ^ (nd - 1) = m * bs.n ^ (nd - 1) + bs.n ^ (nd - 1) := Nat.add_one_mul _ _
    refine ⟨?_, ?_⟩
    · intro v hv k hk
      by_cases e : v = m
      · subst e
        exact dimsInPlace_congr nd bs.n hn _ _ str i_face _ _ _ (fun a h1 h2 => i3 a h1) _ (by omega) (by omega)
      · have : v * bs.n ^ (nd - 1) + bs.n ^ (nd - 1) ≤ m * bs.n ^ (nd - 1) := by
          rw [← Nat.add_one_mul]; exact Nat.mul_le_mul_right _ (by omega)
        rw [dimsInPlace_frame nd bs.n hn _ _ str i_face _ _ _ (by omega), i1 v (by omega) k hk]
    · intro a ha
      rw [dimsInPlace_frame nd bs.n hn _ _ str i_face _ _ a (by omega), i3 a (by omega)]

/-- C89: the faces between a coarse and a fine element are not restored. At a flat surface they are left with zero momentum, whatever the flow. -/
theorem hanging_not_restored (hof : bs.IsOf b) (hb : b.Distinct) (hn : 0 < bs.n) (hm : m.Ok bs) (hB : BoundsOk m bounds sn) {ν : Nat → ℝ} (hF : Flat bs m bounds sn ν) (d : Data) {r : RefRec} (hr : r ∈ m.refs) {e f dim sign : Nat} {g : Geom}
    (hco : r.coarse = .elem e f) (h : Meets m bounds sn e f dim sign g) {i : Nat} (hi : i < nFace m.nd r.str) {j k : Nat} (hj : j < m.nd) (hk : k < bs.n ^ (m.nd - 1)) :
    (setUncertSurfaceRep mu kappa bs m bounds sn d).world.buf (r.fine i) false (j * bs.n ^ (m.nd - 1) + k) = 0 := by
  show (runWriteFace mu kappa bs m (restoreState bs.n m (compareNormals mu kappa bs m bounds (recordOf m bounds sn d.record) (backup bs.n m d.world)))).buf (r.fine i) false _ = 0
  rw [(writeFaces_spec hm mu kappa _).2.2.2.1 _ (fine_not_elem hm hr hi)]
  show (compareNormals mu kappa bs m bounds (recordOf m bounds sn d.record) (backup bs.n m d.world)).buf (r.fine i) false _ = 0
  rw [compare_eq]
  have h1 := ((restrict_fold (ns m.nd false mu kappa) bs hn m.nd false false m.refs (stage5 mu kappa bs m bounds (recordOf m bounds sn d.record) (backup bs.n m d.world)).buf hm.refs_nodup).1 r hr).2.2 i hi
  refine (congrFun h1 _).trans ?_
  rw [(restrictFine_fine hn m.nd (ns m.nd false mu kappa).nExtrap false r.str i _ _).1 j (show j < m.nd + 2 by omega) k hk]
  refine Metric.dims_zero hn _ _ _ _ _ _ (fun k hk => ?_) k hk
  obtain ⟨c, hcm, s, hs⟩ := mem_sides (hm.fine_side hr hi)
  obtain ⟨kr, hkr⟩ := List.mem_iff_getElem?.1 hr
  rw [← hs]
  refine stage5_flat hof hb hn hm hB hF d.record _ hcm ⟨e, f, dim, sign, g, ?_, h⟩ hj hk
  rw [hs, (hm.fine kr r hkr).2 i hi]
  show (m.refs[kr]?).bind _ = _
  rw [hkr, Option.bind_some, hco]

end
end Hexed.SurfRep
