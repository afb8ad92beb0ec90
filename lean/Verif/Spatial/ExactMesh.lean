import Verif.Spatial.ExactRefined
import Verif.Spatial.Balance
set_option autoImplicit false
set_option linter.unusedVariables false

/-!
# Polynomial data on meshes of cubes
-/

namespace Hexed.Spatial
open Polynomial
open Hexed.Connection (Dir matchFaces restore strAt Legal matchFaces_eq tπ fπ)
open Hexed.RowIndex (RowIndex)

/-! ## Connections along one axis -/

theorem axis_perm {d : Dir} (h : d.i1 = d.i0) (nd n k : Nat) : tπ nd n d k = k ∧ fπ nd n d k = k := by
  have h1 : d.transpose = false := by
    rw [Dir.transpose, h]
    rcases d with ⟨i, j, s, t⟩
    fin_cases i <;> rfl
  have h2 : d.flipTangential = false := by simp [Dir.flipTangential, h]
  rw [tπ, fπ, h1, h2]; simp

theorem axis_sign {c : ConRec} (h : c.dir.s1 = !c.dir.s0) : sideSign c.deformed c.dir true = sideSign c.deformed c.dir false := by
  simp only [sideSign, Dir.flipNormal, Dir.faceSign]
  simp only [h]
  cases c.dir.s0 <;> cases c.deformed <;> simp

theorem sideSign_sq (deformed : Bool) (d : Dir) (s : Bool) : sideSign deformed d s * sideSign deformed d s = 1 := by
  rw [sideSign]; split <;> norm_num

/-- The normal of a connection along one axis. -/
theorem axis_normal {m : Mesh} {b : Basis.Nodes ℝ} {o : Nat → Nat → ℝ} (hc : m.Cubes b o) {c : ConRec} (h : c ∈ m.cons) {k : Nat} (hk : k < b.n ^ (m.nd - 1)) :
    ∀ i < m.nd, conNormal c.deformed c.dir (b.n ^ (m.nd - 1)) c.normal k i = if i = c.dir.i0.val then sideSign c.deformed c.dir false else 0 := by
  intro i hi
  rw [conNormal]
  cases hd : c.deformed with
  | false => simp [sideSign]
  | true =>
    rw [if_pos rfl, hc.normal c h hd i hi k hk]
    split <;> simp

/-- The flux through a connection whose two sides hold the same state. -/
theorem axis_flux {m : Mesh} {bs : BasisData} {b : Basis.Nodes ℝ} {o : Nat → Nat → ℝ} (hn : bs.n = b.n) (hpos : 0 < b.n) (hm : m.Ok bs) (hc : m.Cubes b o) {c : ConRec} (h : c ∈ m.cons) {p : Pde} (hl : p.FaceLocal)
    {u : Nat → Field} (hcons : p.FaceConsistent m.nd u) (st : Sides) {k : Nat} (hk : k < b.n ^ (m.nd - 1)) (x : Nat → ℝ)
    (hst : ∀ s, ∀ v < p.nExtrap, st s false (v * b.n ^ (m.nd - 1) + k) = p.extrapField u v x) {v : Nat} (hv : v < p.nUpdate) :
    conFlux p m.nd b.n c st v k = sideSign c.deformed c.dir false * p.fluxField u c.dir.i0.val v x := by
  have e0 : ∀ w < p.nExtrap, (fun u => st false false (u * b.n ^ (m.nd - 1) + k)) w = p.fetchExtrap (fun w => u w x) w := fun w hw => hst false w hw
  have e1 : ∀ w < p.nExtrap, (fun u => (if c.deformed then matchFaces m.nd b.n p.nExtrap c.dir (st true false) else st true false) (u * b.n ^ (m.nd - 1) + k)) w = p.fetchExtrap (fun w => u w x) w := by
    intro w hw
    have : (if c.deformed then matchFaces m.nd b.n p.nExtrap c.dir (st true false) else st true false) (w * b.n ^ (m.nd - 1) + k) = st true false (w * b.n ^ (m.nd - 1) + k) := by
      split
      · rw [matchFaces_eq m.nd b.n p.nExtrap hm.dim hpos c.dir _ w k hw hk, (axis_perm (hc.axis c h).1 m.nd b.n k).2, (axis_perm (hc.axis c h).1 m.nd b.n k).1]
      · rfl
    exact this.trans (hst true w hw)
  have hi0 : c.dir.i0.val < m.nd := by
    have := (hm.legal c h).1
    exact this.1
  obtain ⟨f0, s0, u0⟩ := hl _ _ e0
  obtain ⟨f1, s1, u1⟩ := hl _ _ e1
  simp only [conFlux, numFlux]
  rw [f0, f1, u0, u1, hcons x c.dir.i0.val hi0 v hv (sideSign c.deformed c.dir false) _ (axis_normal hc h hk)]
  ring

/-! ## Which face a buffer is on -/

theorem Mesh.Ok.side_axis {m : Mesh} {bs : BasisData} (hm : m.Ok bs) {b : Basis.Nodes ℝ} {o : Nat → Nat → ℝ} (hc : m.Cubes b o) {c : ConRec} (h : c ∈ m.cons) {s : Bool} {e f : Nat}
    (hf : m.faceOf (c.side s) = some (e, f)) (hg : (c.side s).isGhost = false) : f / 2 = c.dir.i0.val := by
  obtain ⟨e', he⟩ := hm.face c h s hg
  rw [hf] at he
  have : f = 2 * (c.dir.iDim s).val + (c.dir.faceSign s).toNat := (Prod.mk.inj (Option.some.inj he)).2
  have h2 : c.dir.iDim s = c.dir.i0 := by
    cases s
    · rfl
    · exact (hc.axis c h).1
  rw [this, h2]
  cases c.dir.faceSign s <;> simp <;> omega

theorem bufPos_mortar {m : Mesh} (b : Basis.Nodes ℝ) (o : Nat → Nat → ℝ) {r i e f : Nat} (h : m.faceOf (.mortar r i) = some (e, f)) (k : Nat) :
    m.bufPos b o (.mortar r i) k = facePos b m.nd (f / 2) (o e (f / 2) + (m.elem e).size * ((f % 2 : Nat) : ℝ)) (fineOrigin m.nd (f / 2) (o e) (m.elem e).size i) ((m.elem e).size / 2) k := by
  simp only [Mesh.bufPos, h]

theorem mem_sides {m : Mesh} {b : Buf} (h : b ∈ sidesOf m.cons) : ∃ c ∈ m.cons, ∃ s, c.side s = b := by
  obtain ⟨c, hc, h⟩ := List.mem_flatMap.1 h
  simp only [List.mem_cons, List.not_mem_nil, or_false] at h
  rcases h with h | h
  · exact ⟨c, hc, false, h.symm⟩
  · exact ⟨c, hc, true, h.symm⟩

/-- If all connections hold samples of fields (which may depend on the axis), the faces of the elements do so after restriction. -/
theorem restrict_samples {m : Mesh} {bs : BasisData} {b : Basis.Nodes ℝ} {deg : Nat} {o : Nat → Nat → ℝ} (hof : bs.IsOf b) (hb : b.Exact deg) (hpos : 0 < b.n) (hm : m.Ok bs) (hc : m.Cubes b o) (p : Pde)
    {nv d : Nat} (hnv : nv ≤ p.nExtrap) (h1d : 0 < d) (hd : d + b.n ≤ deg + 2) (F : Nat → Nat → Field) (hF : ∀ i < m.nd, ∀ v < nv, PolyIn m.nd d (F i v)) (scale off : Bool) (w : World)
    (hbuf : ∀ c ∈ m.cons, ∀ s, (c.side s).isGhost = false → ∀ v < nv, ∀ k < b.n ^ (m.nd - 1), w.buf (c.side s) off (v * b.n ^ (m.nd - 1) + k) = F c.dir.i0.val v (m.bufPos b o (c.side s) k)) :
    ∀ e ∈ m.elems, ∀ f < 2 * m.nd, ∀ v < nv, ∀ k < b.n ^ (m.nd - 1), (runRestrict p bs m scale off w).buf (.elem e f) off (v * b.n ^ (m.nd - 1) + k) = F (f / 2) v (m.bufPos b o (.elem e f) k) := by
  intro e he f hf v hv k hk
  obtain ⟨r1, r2⟩ := restrict_fold p bs (by rw [hof.n]; exact hpos) m.nd scale off m.refs w.buf hm.refs_nodup
  have hmem := hm.cover.mem_iff.2 (List.mem_append.2 (Or.inl (List.mem_append.2 (Or.inl (Mesh.elemFaces_mem he hf)))))
  show m.refs.foldl (restrictRef p bs m.nd scale off) w.buf (.elem e f) off _ = _
  by_cases hco : Buf.elem e f ∈ m.coarseBufs
  · obtain ⟨r, hr, hre⟩ := List.mem_map.1 hco
    obtain ⟨kr, hkr⟩ := List.mem_iff_getElem?.1 hr
    obtain ⟨-, hfine⟩ := hm.fine kr r hkr
    have h1 := (r1 r hr).1 v (by omega) k (by rw [hof.n]; exact hk)
    rw [hre, hof.n] at h1
    rw [h1]
    have hstr := hc.str r hr
    simp only [restricted, hstr]
    rw [nFace_false hm.dim, hof.n]
    have hfd : f / 2 < m.nd := by omega
    have key := restrict_face hof hb hpos hm.dim h1d hd (hF (f / 2) hfd v hv) hfd (o e (f / 2) + (m.elem e).size * ((f % 2 : Nat) : ℝ)) (o e) (m.elem e).size (1 / stretchFac scale) (v * b.n ^ (m.nd - 1))
      (fun i => w.buf (r.fine i) off) ?_ k hk
    · rw [hof.n] at key; exact key
    · intro i hi k hk
      have hi' : i < nFace m.nd r.str := by rw [hstr, nFace_false hm.dim]; exact hi
      obtain ⟨c, hcm, s, hs⟩ := mem_sides (hm.fine_side hr hi')
      have hfo : m.faceOf (.mortar kr i) = some (e, f) := by simp [Mesh.faceOf, hkr, hre]
      have hmo : r.fine i = .mortar kr i := hfine i hi'
      have hg : (c.side s).isGhost = false := by rw [hs, hmo]; rfl
      have hax := hm.side_axis hc hcm (s := s) (e := e) (f := f) (by rw [hs, hmo]; exact hfo) hg
      have := hbuf c hcm s hg v hv k hk
      rw [hs] at this
      rw [this, hmo, bufPos_mortar b o hfo, ← hax]
  · rw [r2 _ off (Or.inl (hm.elem_not_ref hco))]
    obtain ⟨c, hcm, s, hs⟩ := mem_sides ((List.mem_append.1 hmem).resolve_right hco)
    have hg : (c.side s).isGhost = false := by rw [hs]; rfl
    have hax := hm.side_axis hc hcm (s := s) (e := e) (f := f) (by rw [hs]; rfl) hg
    have := hbuf c hcm s hg v hv k hk
    rw [hs] at this
    rw [this, hax]

/-- The fluxes on the faces of the elements. -/
theorem flux_samples {m : Mesh} {bs : BasisData} {b : Basis.Nodes ℝ} {deg : Nat} {o : Nat → Nat → ℝ} (hof : bs.IsOf b) (hb : b.Exact deg) (hpos : 0 < b.n) (hm : m.Ok bs) (hc : m.Cubes b o) {p : Pde}
    (hconv : p.hasConv = true) (hu : p.nUpdate ≤ p.nExtrap) (hl : p.FaceLocal) {u : Nat → Field} (hcons : p.FaceConsistent m.nd u) {d : Nat} (h1d : 0 < d) (hd : d + b.n ≤ deg + 2)
    (hG : ∀ i < m.nd, ∀ v < p.nUpdate, PolyIn m.nd d (p.fluxField u i v)) (w : World) (hw : m.FaceSamples b o p.nExtrap (fun B => w.buf B false) (p.extrapField u)) :
    ∀ e ∈ m.elems, ∀ f < 2 * m.nd, ∀ v < p.nUpdate, ∀ k < b.n ^ (m.nd - 1),
      (runRestrict p bs m true false (runNeighbor p bs m w)).buf (.elem e f) false (v * b.n ^ (m.nd - 1) + k) = p.fluxField u (f / 2) v (m.bufPos b o (.elem e f) k) := by
  refine restrict_samples hof hb hpos hm hc p hu h1d hd (p.fluxField u) hG true false _ ?_
  intro c hcm s hg v hv k hk
  rw [runNeighbor, (cons_fold _ m.cons w hm.sides_nodup).1 c hcm s]
  have hflux := axis_flux hof.n hpos hm hc hcm hl hcons (fun s => w.buf (c.side s)) hk (m.bufPos b o (c.side false) k) (fun s v hv => hw c hcm s v hv k hk) hv
  rw [hof.n]
  have hblk : ∀ v' < p.nUpdate, (v' * b.n ^ (m.nd - 1) + k) / b.n ^ (m.nd - 1) = v' ∧ (v' * b.n ^ (m.nd - 1) + k) % b.n ^ (m.nd - 1) = k := by
    intro v' _
    have hp : 0 < b.n ^ (m.nd - 1) := Nat.pow_pos hpos
    constructor
    · rw [Nat.add_comm, Nat.add_mul_div_right _ _ hp, Nat.div_eq_of_lt hk, Nat.zero_add]
    · rw [Nat.add_comm, Nat.add_mul_mod_self_right, Nat.mod_eq_of_lt hk]
  cases s with
  | false =>
    rw [neighbor_side0 p hconv m.nd b.n c _ v k hv hk, hflux, ← mul_assoc, sideSign_sq, one_mul]
  | true =>
    rw [neighbor_side1 p hconv hu m.nd b.n hm.dim hpos c _ v k hv hk, hc.meet c hcm hg k hk]
    have h1 : side1Flux p m.nd b.n c (fun s => w.buf (c.side s)) (v * b.n ^ (m.nd - 1) + k) = p.fluxField u c.dir.i0.val v (m.bufPos b o (c.side false) k) := by
      rw [side1Flux, (hblk v hv).1, (hblk v hv).2, hflux, axis_sign (hc.axis c hcm).2, ← mul_assoc, sideSign_sq, one_mul]
    split
    · rw [restore_eq m.nd b.n p.nExtrap hm.dim hpos c.dir _ v k (by omega) hk, (axis_perm (hc.axis c hcm).1 m.nd b.n k).1, (axis_perm (hc.axis c hcm).1 m.nd b.n k).2, h1]
    · exact h1

end Hexed.Spatial
