import Verif.Spatial.ExactLocal
set_option autoImplicit false
set_option linter.unusedVariables false

/-!
# Faces after a step, and steps with zero residual
-/

namespace Hexed.Spatial
open Hexed.RowIndex (RowIndex)

variable {bs : BasisData} {b : Basis.Nodes ℝ}

/-- If the faces of elements hold samples of fields, so do all sides of connections after prolongation. -/
theorem prolong_samples {m : Mesh} {o : Nat → Nat → ℝ} (hof : bs.IsOf b) (hb : b.Distinct) (hn : 0 < b.n) (hm : m.Ok bs) (hc : m.Cubes b o) (p : Pde) {nv : Nat} (hnv : nv ≤ p.nExtrap)
    (F : Nat → Nat → Field) (hF : ∀ d < m.nd, ∀ v < nv, PolyIn m.nd b.n (F d v)) (scale off : Bool) (w : World)
    (hw : ∀ e ∈ m.elems, HoldsFaces b m.nd nv (o e) (m.elem e).size (fun f => w.buf (.elem e f) off) F) :
    ∀ c ∈ m.cons, ∀ s, (c.side s).isGhost = false → ∀ v < nv, ∀ k < b.n ^ (m.nd - 1),
      (runProlong p bs m scale off w).buf (c.side s) off (v * b.n ^ (m.nd - 1) + k) = F c.dir.i0.val v (m.bufPos b o (c.side s) k) := by
  intro c hcm s hg v hv k hk
  obtain ⟨r1, r2⟩ := prolong_fold p bs m.nd scale off m.refs w.buf hm.refs_nodup
  have hmem := hm.cover.mem_iff.1 (List.mem_append.2 (Or.inl (mem_sidesOf hcm s)))
  have hposF : ∀ e ∈ m.elems, ∀ f < 2 * m.nd, ∀ v < nv, ∀ k < b.n ^ (m.nd - 1), w.buf (.elem e f) off (v * b.n ^ (m.nd - 1) + k) =
      F (f / 2) v (facePos b m.nd (f / 2) (o e (f / 2) + (m.elem e).size * ((f % 2 : Nat) : ℝ)) (o e) (m.elem e).size k) := by
    intro e he f hf v hv k hk
    have := hw e he (f / 2) (by omega) (f % 2) (by omega) v hv k hk
    rwa [show 2 * (f / 2) + f % 2 = f by omega] at this
  show m.refs.foldl (prolongRef p bs m.nd scale off) w.buf (c.side s) off _ = _
  rcases List.mem_append.1 hmem with h | h
  · rcases List.mem_append.1 h with h | h
    · obtain ⟨e, he, f, hf, hs⟩ := Mesh.elemFaces_elem h
      have hax := hm.side_axis hc hcm (s := s) (e := e) (f := f) (by rw [hs]; rfl) hg
      rw [hs, r2 _ off (Or.inl ?_), hposF e he f hf v hv k hk, ← hax]
      · rfl
      · intro r hr i hi e1
        obtain ⟨kr, hkr⟩ := List.mem_iff_getElem?.1 hr
        rw [(hm.fine kr r hkr).2 i hi] at e1
        exact absurd e1 (by simp)
    · obtain ⟨r, hr, h⟩ := List.mem_flatMap.1 h
      obtain ⟨i, hi, hs⟩ := List.mem_map.1 h
      have hi := List.mem_range.1 hi
      obtain ⟨kr, hkr⟩ := List.mem_iff_getElem?.1 hr
      obtain ⟨⟨e, f, hco⟩, hfine⟩ := hm.fine kr r hkr
      have hmo := hfine i hi
      have hfo : m.faceOf (.mortar kr i) = some (e, f) := by simp [Mesh.faceOf, hkr, hco]
      have hax := hm.side_axis hc hcm (s := s) (e := e) (f := f) (by rw [← hs, hmo]; exact hfo) hg
      have hef : e ∈ m.elems ∧ f < 2 * m.nd := by
        have := hm.cover.mem_iff.1 (List.mem_append.2 (Or.inr (List.mem_map.2 ⟨r, hr, rfl⟩)))
        rw [hco] at this
        rcases List.mem_append.1 this with h | h
        · rcases List.mem_append.1 h with h | h
          · obtain ⟨e', he', f', hf', e1⟩ := Mesh.elemFaces_elem h
            obtain ⟨rfl, rfl⟩ := Buf.elem.inj e1
            exact ⟨he', hf'⟩
          · obtain ⟨r', hr', h⟩ := List.mem_flatMap.1 h
            obtain ⟨i', hi', e1⟩ := List.mem_map.1 h
            obtain ⟨k', hk'⟩ := List.mem_iff_getElem?.1 hr'
            rw [(hm.fine k' r' hk').2 i' (List.mem_range.1 hi')] at e1
            exact absurd e1 (by simp)
        · have := (List.mem_filter.1 h).2
          exact absurd this (by simp [Buf.isGhost])
      have hstr := hc.str r hr
      rw [← hs, r1 r hr i hi]
      have h1 := (prolongFine_apply bs (by rw [hof.n]; exact hn) m.nd p.nExtrap scale r.str i (w.buf r.coarse off) (w.buf (r.fine i) off)).1 v (by omega) k (by rw [hof.n]; exact hk)
      rw [hof.n] at h1
      rw [h1, hstr, hco, hmo, bufPos_mortar b o hfo, ← hax]
      have h2 := prolong_face hof hb hn le_rfl (hF (f / 2) (by omega) v hv) (d := f / 2) (by omega) (o e (f / 2) + (m.elem e).size * ((f % 2 : Nat) : ℝ)) (o e) (m.elem e).size (stretchFac scale) i
        (v * b.n ^ (m.nd - 1)) (w.buf (.elem e f) off) (fun k hk => hposF e hef.1 f hef.2 v hv k hk) k hk
      rw [hof.n] at h2
      exact h2
  · have := (List.mem_filter.1 h).2
    rw [hg] at this
    exact absurd this (by simp)

/-- The filter leaves zeros. -/
theorem filter_zero (bs : BasisData) (hn : 0 < bs.n) (nd nvar : Nat) (rate : Arr) (V : Nat) (h : ∀ v < V, ∀ q < bs.n ^ nd, rate (v, q) = 0) : ∀ v < V, ∀ q < bs.n ^ nd, applyFilter bs nd nvar rate (v, q) = 0 := by
  rw [applyFilter, overRows_eq nd bs.n hn]
  have : ∀ (l : List (Nat × Nat)) (a : Arr), (∀ x ∈ l, x.1 < nd ∧ x.2 < bs.n ^ (nd - 1)) → (∀ v < V, ∀ q < bs.n ^ nd, a (v, q) = 0) →
      ∀ v < V, ∀ q < bs.n ^ nd, l.foldl (fun a p => writeRow nvar (matRow bs.n bs.filter (readRow a 0 (RowIndex.after nd bs.n p.1 p.2))) a 0 (RowIndex.after nd bs.n p.1 p.2) 0) a (v, q) = 0 := by
    intro l
    induction l with
    | nil => intro a _ h; exact h
    | cons x l ih =>
      intro a hl h
      rw [List.foldl_cons]
      have hx := hl x (by simp)
      refine ih _ (fun y hy => hl y (by simp [hy])) ?_
      intro v hv q hq
      rw [writeRow_at hn hx.1]
      split
      · next hc =>
        rw [h v hv q hq, matRow, Basis.range_sum, mul_zero, zero_add]
        refine Finset.sum_eq_zero fun j hj => ?_
        rw [readRow_after hn hx.1, h (v - 0) (by omega) _ (pt_lt hn hx.1 hx.2 (Finset.mem_range.1 hj)), mul_zero]
      · exact h v hv q hq
  exact this _ _ (fun x hx => mem_dk.1 hx) h

/-- The convective rate of an exactly steady state is zero, with or without filter, in both stages. -/
theorem steady_rate (hof : bs.IsOf b) (hb : b.Distinct) (hn : 0 < b.n) {nd m : Nat} (hm : m ≤ b.n) {p : Pde} (hconv : p.hasConv = true) (hdiff : p.hasDiff = false) (hsrc : p.hasSource = false)
    (u : Nat → Field) (hG : ∀ d < nd, ∀ v < p.nUpdate, PolyIn nd m (p.fluxField u d v)) (hsteady : ∀ v < p.nUpdate, ∀ x, p.convRate nd u v x = 0) (o : Nat → ℝ)
    {e : ElemRec} (he : e.geom = none) (opt : Opts) (state : Arr) (hst : ∀ q < b.n ^ nd, ∀ v, state (v, q) = u v (elemPos b nd o e.size q)) (faces visc : Nat → Mem)
    (hf : HoldsFaces b nd p.nUpdate o e.size faces (p.fluxField u)) {v q : Nat} (hv : v < p.nUpdate) (hq : q < b.n ^ nd) :
    (localRate p bs nd opt e state faces visc).1 (v, q) = 0 := by
  have hn' : 0 < bs.n := by rw [hof.n]; exact hn
  have hM : p.nUpdate ≤ p.blockSize := le_max_left _ _
  have raw : ∀ v < p.nUpdate, ∀ q < bs.n ^ nd, (overRows nd bs.n (residualRow p bs (convFlux p nd e state) (diffFlux p bs nd e state visc) faces) (initRate p e opt.stage state, visc)).1 (v, q) = 0 := by
    intro v hv q hq
    rw [residual_at p bs hn' nd _ _ faces _ hq v]
    simp only [initRate]
    rw [if_neg (by omega), if_neg (by simp [hdiff]), zero_add]
    have h1 := conv_rate hof hb hn hm p u hG o he state hst faces hf hv (q := q) (by rw [← hof.n]; exact hq)
    rw [hsteady v hv, mul_zero] at h1
    refine Eq.trans (Finset.sum_congr rfl fun d _ => ?_) h1
    rw [if_pos ⟨hconv, hv⟩, if_neg (by simp [hdiff]), add_zero]
  rw [localRate]
  simp only
  split
  · exact filter_zero bs hn' nd _ _ p.nUpdate raw v hv q (by rw [hof.n]; exact hq)
  · exact raw v hv q (by rw [hof.n]; exact hq)

end Hexed.Spatial
