import Verif.Metric.UniformStep
set_option autoImplicit false
set_option linter.unusedVariables false

/-!
# A uniform solution of any of the solver's equations, on meshes whose normals close

The lemmas of Metric/UniformFlow and Metric/UniformStep for any equation whose flux of the uniform solution is a fixed tensor times the normal.
-/

namespace Hexed.ArtVisc
open Hexed.Spatial Hexed.Pde Hexed.Solver Hexed.Metric
open Hexed.RowIndex (RowIndex)
open Hexed.Connection (Dir matchFaces restore strAt Legal matchFaces_eq tπ fπ)
noncomputable section

variable {bs : BasisData} {b : Basis.Nodes ℝ} {deg : Nat} {m : Mesh} {N : Buf → Mem} {p : Pde}

/-- All sides of connections hold `x v` in part `off`, for variables below `nv`. -/
def Holds (bs : BasisData) (m : Mesh) (nv : Nat) (off : Bool) (x : Nat → ℝ) (w : World) : Prop :=
  ∀ c ∈ m.cons, ∀ s, ∀ v < nv, ∀ k < bs.n ^ (m.nd - 1), w.buf (c.side s) off (v * bs.n ^ (m.nd - 1) + k) = x v
/-- The same for sides that are not ghosts. -/
def HoldsIn (bs : BasisData) (m : Mesh) (nv : Nat) (off : Bool) (x : Nat → ℝ) (w : World) : Prop :=
  ∀ c ∈ m.cons, ∀ s, (c.side s).isGhost = false → ∀ v < nv, ∀ k < bs.n ^ (m.nd - 1), w.buf (c.side s) off (v * bs.n ^ (m.nd - 1) + k) = x v

/-- The convective flux of the uniform solution `x` is `F` times the normal, inside elements (at states satisfying `good`) and on faces. -/
structure ConvOf (p : Pde) (nd : Nat) (good : (Nat → ℝ) → Prop) (x : Nat → ℝ) (F : Nat → Nat → ℝ) : Prop where
  conv : p.hasConv = true
  vars : p.nUpdate ≤ p.nExtrap
  inside : ∀ s, good s → ∀ normal v, v < p.nUpdate → ∀ d, p.fluxConv s normal v d = ∑ j ∈ Finset.range nd, F v j * normal j d
  face : ∀ u, (∀ v < p.nExtrap, u v = x v) → ∀ n v, v < p.nUpdate → p.faceFlux u n v = ∑ j ∈ Finset.range nd, n j * F v j
  upd : ∀ u u', (∀ v < p.nExtrap, u v = x v) → (∀ v < p.nExtrap, u' v = x v) → ∀ v < p.nUpdate, p.faceUpdate u v = p.faceUpdate u' v

theorem numFlux_of {good : (Nat → ℝ) → Prop} {nd : Nat} {x : Nat → ℝ} {F : Nat → Nat → ℝ} (h : ConvOf p nd good x F) {u0 u1 : Nat → ℝ} (h0 : ∀ v < p.nExtrap, u0 v = x v) (h1 : ∀ v < p.nExtrap, u1 v = x v) (n : Nat → ℝ) {v : Nat} (hv : v < p.nUpdate) :
    numFlux p nd n u0 u1 v = ∑ j ∈ Finset.range nd, n j * F v j := by
  rw [numFlux, h.face u0 h0 n v hv, h.face u1 h1 n v hv, h.upd u0 u1 h0 h1 v hv, sub_self, mul_zero, add_zero]; ring

/-- The numerical fluxes on both sides of all connections. -/
theorem nb_flux (hn : 0 < bs.n) (hm : m.Ok bs) (hN : Sealed bs m N)  {good : (Nat → ℝ) → Prop} {x : Nat → ℝ} {F : Nat → Nat → ℝ} (h : ConvOf p m.nd good x F) (w : World) (hf : Holds bs m p.nExtrap false x w) :
    ∀ c ∈ m.cons, ∀ s, (c.side s).isGhost = false → ∀ v < p.nUpdate, ∀ k < bs.n ^ (m.nd - 1),
      (runNeighbor p bs m w).buf (c.side s) false (v * bs.n ^ (m.nd - 1) + k) = ∑ j ∈ Finset.range m.nd, F v j * N (c.side s) (j * bs.n ^ (m.nd - 1) + k) := by
  intro c hc s hg v hv k hk
  rw [runNeighbor, (cons_fold _ m.cons w hm.sides_nodup).1 c hc s]
  have hcf : ∀ k < bs.n ^ (m.nd - 1), conFlux p m.nd bs.n c (fun s => w.buf (c.side s)) v k =
      ∑ j ∈ Finset.range m.nd, conNormal c.deformed c.dir (bs.n ^ (m.nd - 1)) c.normal k j * F v j := by
    intro k hk
    rw [conFlux]
    refine numFlux_of h (fun u hu => hf c hc false u hu k hk) (fun u hu => ?_) _ hv
    split
    · rw [matchFaces_eq m.nd bs.n _ hm.dim hn c.dir _ u k hu hk]
      exact hf c hc true u hu _ (Connection.tπ_lt _ _ hm.dim _ _ (Connection.fπ_lt _ _ hm.dim _ _ hk))
    · exact hf c hc true u hu k hk
  cases s with
  | false =>
    rw [neighbor_side0 _ h.conv _ _ _ _ _ _ hv hk, hcf k hk, Finset.mul_sum]
    refine Finset.sum_congr rfl fun j hj => ?_
    rw [hN.side0 c hc j (Finset.mem_range.1 hj) k hk]; ring
  | true =>
    rw [neighbor_side1 _ h.conv h.vars _ _ hm.dim hn _ _ _ _ hv hk]
    have h1 : (if c.deformed then restore m.nd bs.n p.nExtrap c.dir (side1Flux p m.nd bs.n c fun s => w.buf (c.side s)) (v * bs.n ^ (m.nd - 1) + k)
        else side1Flux p m.nd bs.n c (fun s => w.buf (c.side s)) (v * bs.n ^ (m.nd - 1) + k)) =
        side1Flux p m.nd bs.n c (fun s => w.buf (c.side s)) (v * bs.n ^ (m.nd - 1) + partner m.nd bs.n c k) := by
      rw [partner]
      split
      · rw [restore_eq m.nd bs.n _ hm.dim hn c.dir _ v k (hv.trans_le h.vars) hk]
      · rfl
    have hp := partner_lt hm.dim bs.n c hk
    obtain ⟨e1, e2⟩ := Connection.divmod_of (a := v) hp
    rw [h1, side1Flux, e1, e2, hcf _ hp, Finset.mul_sum]
    refine Finset.sum_congr rfl fun j hj => ?_
    rw [hN.side1 c hc hg j (Finset.mem_range.1 hj) k hk]; ring

/-- The fluxes on the faces of elements. -/
theorem elem_flux (hn : 0 < bs.n) (hm : m.Ok bs) (hN : Sealed bs m N)  {good : (Nat → ℝ) → Prop} {x : Nat → ℝ} {F : Nat → Nat → ℝ} (h : ConvOf p m.nd good x F) (w : World) (hf : Holds bs m p.nExtrap false x w) :
    ∀ e ∈ m.elems, ∀ f < 2 * m.nd, ∀ v < p.nUpdate, ∀ k < bs.n ^ (m.nd - 1),
      (runRestrict p bs m true false (runNeighbor p bs m w)).buf (.elem e f) false (v * bs.n ^ (m.nd - 1) + k) =
        ∑ j ∈ Finset.range m.nd, F v j * N (.elem e f) (j * bs.n ^ (m.nd - 1) + k) := by
  intro e he f hf' v hv k hk
  have hnb := nb_flux hn hm hN h w hf
  set w1 := runNeighbor p bs m w
  obtain ⟨r1, r2⟩ := restrict_fold p bs hn m.nd true false m.refs w1.buf hm.refs_nodup
  have hmem := hm.cover.mem_iff.2 (List.mem_append.2 (Or.inl (List.mem_append.2 (Or.inl (Mesh.elemFaces_mem he hf')))))
  show m.refs.foldl (restrictRef p bs m.nd true false) w1.buf (.elem e f) false _ = _
  by_cases hco : Buf.elem e f ∈ m.coarseBufs
  · obtain ⟨r, hr, hre⟩ := List.mem_map.1 hco
    have h1 := (r1 r hr).1 v (hv.trans_le h.vars) k hk
    rw [hre] at h1
    rw [h1]
    have h2 : ∀ i ∈ Finset.range (nFace m.nd r.str), restricted bs m.nd true r i (w1.buf (r.fine i) false) v k = ∑ j ∈ Finset.range m.nd, F v j * restricted bs m.nd true r i (N (r.fine i)) j k := by
      intro i hi
      have hi' := Finset.mem_range.1 hi
      obtain ⟨c, hcm, s, hs⟩ := mem_sides (hm.fine_side hr hi')
      have hg : (c.side s).isGhost = false := by
        obtain ⟨kr, hkr⟩ := List.mem_iff_getElem?.1 hr
        rw [hs, (hm.fine kr r hkr).2 i hi']; rfl
      exact dims_lin hn bs.restrict (1 / stretchFac true) r.str i (v * bs.n ^ (m.nd - 1)) m.nd (fun j => j * bs.n ^ (m.nd - 1)) (F v) _ (fun _ => N (r.fine i))
        (fun k hk => by rw [← hs]; exact hnb c hcm s hg v hv k hk) k hk
    rw [Finset.sum_congr rfl h2, Finset.sum_comm]
    refine Finset.sum_congr rfl fun j hj => ?_
    rw [← Finset.mul_sum, hN.hang r hr j (Finset.mem_range.1 hj) k hk, hre]
  · rw [r2 _ false (Or.inl (hm.elem_not_ref hco))]
    obtain ⟨c, hcm, s, hs⟩ := mem_sides ((List.mem_append.1 hmem).resolve_right hco)
    have hg : (c.side s).isGhost = false := by rw [hs]; rfl
    have := hnb c hcm s hg v hv k hk
    rw [hs] at this
    exact this

/-- The convective residual. -/
theorem conv_zero (hn : 0 < bs.n) (hN : Sealed bs m N)  {good : (Nat → ℝ) → Prop} {x : Nat → ℝ} {F : Nat → Nat → ℝ} (h : ConvOf p m.nd good x F) {e : Nat} (he : e ∈ m.elems) (state : Arr) (hst : ∀ q < bs.n ^ m.nd, good fun v => state (v, q))
    (faces : Nat → Mem) (hf : ∀ f < 2 * m.nd, ∀ v < p.nUpdate, ∀ k < bs.n ^ (m.nd - 1), faces f (v * bs.n ^ (m.nd - 1) + k) = ∑ j ∈ Finset.range m.nd, F v j * N (.elem e f) (j * bs.n ^ (m.nd - 1) + k))
    {v q : Nat} (hv : v < p.nUpdate) (hq : q < bs.n ^ m.nd) :
    ∑ d ∈ Finset.range m.nd, -deriv2 bs (readRow (convFlux p m.nd (m.elem e) state d) 0 (RowIndex.after m.nd bs.n d (rowOf m.nd bs.n d q)))
      (readBound faces (RowIndex.after m.nd bs.n d (rowOf m.nd bs.n d q))) (nodeOf m.nd bs.n d q) v = 0 := by
  have hrow : ∀ d < m.nd, ∀ i < bs.n, readRow (convFlux p m.nd (m.elem e) state d) 0 (RowIndex.after m.nd bs.n d (rowOf m.nd bs.n d q)) i v =
      ∑ j ∈ Finset.range m.nd, F v j * elemNormal m.nd (m.elem e) (pt m.nd bs.n d (rowOf m.nd bs.n d q) i) j d := by
    intro d hd i hi
    rw [readRow_after hn hd]
    exact h.inside _ (hst _ (pt_lt hn hd (rowOf_lt hn hd hq) hi)) _ v hv d
  have hd : ∀ d ∈ Finset.range m.nd, -deriv2 bs (readRow (convFlux p m.nd (m.elem e) state d) 0 (RowIndex.after m.nd bs.n d (rowOf m.nd bs.n d q)))
      (readBound faces (RowIndex.after m.nd bs.n d (rowOf m.nd bs.n d q))) (nodeOf m.nd bs.n d q) v =
      -∑ j ∈ Finset.range m.nd, F v j * deriv2 bs (fun i _ => elemNormal m.nd (m.elem e) (pt m.nd bs.n d (rowOf m.nd bs.n d q) i) j d)
        (fun s _ => N (.elem e (2 * d + s)) (j * bs.n ^ (m.nd - 1) + rowOf m.nd bs.n d q)) (nodeOf m.nd bs.n d q) 0 := by
    intro d hd
    have hd := Finset.mem_range.1 hd
    rw [deriv2_lin _ _ _ _ m.nd (F v) (fun j i _ => elemNormal m.nd (m.elem e) (pt m.nd bs.n d (rowOf m.nd bs.n d q) i) j d)
      (fun j s _ => N (.elem e (2 * d + s)) (j * bs.n ^ (m.nd - 1) + rowOf m.nd bs.n d q)) (hrow d hd)]
    intro s hs
    rw [readBound_after hn hd, hf (2 * d + s) (by omega) v hv _ (rowOf_lt hn hd hq)]
  rw [Finset.sum_congr rfl hd, Finset.sum_neg_distrib, Finset.sum_comm, neg_eq_zero]
  refine Finset.sum_eq_zero fun j hj => ?_
  rw [← Finset.mul_sum, hN.closed e he q hq j (Finset.mem_range.1 hj), mul_zero]

/-- The gradient vanishes. -/
theorem grad_zero (hof : bs.IsOf b) (hb : b.Distinct) (hn : 0 < bs.n) (hN : Sealed bs m N)  (x : Nat → ℝ) {e : Nat} (he : e ∈ m.elems) (state : Arr)
    (hst : ∀ q < bs.n ^ m.nd, ∀ v < p.nExtrap, p.fetchExtrap (fun v => state (v, q)) v = x v) (vf : Nat → Mem) (hf : ∀ f < 2 * m.nd, ∀ v < p.nExtrap, ∀ k < bs.n ^ (m.nd - 1), vf f (v * bs.n ^ (m.nd - 1) + k) = x v)
    {j v q : Nat} (hj : j < m.nd) (hv : v < p.nExtrap) (hq : q < bs.n ^ m.nd) : gradient p bs m.nd (m.elem e) state vf j (v, q) = 0 := by
  have hn' : 0 < b.n := by rw [← hof.n]; exact hn
  cases hg : (m.elem e).geom with
  | none =>
    rw [gradient_at _ bs hn m.nd hg state vf hj hq hv]
    have hrow : ∀ i < bs.n, readRow (fun k => p.fetchExtrap (fun v => state (v, k.2)) k.1) 0 (RowIndex.after m.nd bs.n j (rowOf m.nd bs.n j q)) i v = x v := by
      intro i hi
      rw [readRow_after hn hj]
      exact hst _ (pt_lt hn hj (rowOf_lt hn hj hq) hi) v hv
    rw [deriv2_extrap, Finset.sum_congr rfl fun i hi => by rw [hrow i (Finset.mem_range.1 hi)], ← Finset.sum_mul, diff_sum hof hb hn' (nodeOf_lt _ hn _ _), zero_mul, zero_div]
    intro s hs
    rw [readBound_after hn hj, hf _ (by omega) v hv _ (rowOf_lt hn hj hq), Finset.sum_congr rfl fun i hi => by rw [hrow i (Finset.mem_range.1 hi)], ← Finset.sum_mul, bound_sum hof hb hn' hs, one_mul]
  | some g =>
    rw [gradient_def _ bs hn m.nd hg state vf hj hq hv]
    have hen : ∀ q d, elemNormal m.nd (m.elem e) q j d = g.nrml (d * m.nd + j, q) := fun q d => by rw [elemNormal, hg]
    have hd : ∀ d ∈ Finset.range m.nd, deriv2 bs (fun i _ => g.nrml (d * m.nd + j, pt m.nd bs.n d (rowOf m.nd bs.n d q) i) * p.fetchExtrap (fun v => state (v, pt m.nd bs.n d (rowOf m.nd bs.n d q) i)) v)
        (fun s _ => faceNormals (m.elem e) (bs.n ^ (m.nd - 1)) (2 * d + s) (j * bs.n ^ (m.nd - 1) + rowOf m.nd bs.n d q) * vf (2 * d + s) (v * bs.n ^ (m.nd - 1) + rowOf m.nd bs.n d q)) (nodeOf m.nd bs.n d q) 0 / (m.elem e).size =
        x v / (m.elem e).size * deriv2 bs (fun i _ => elemNormal m.nd (m.elem e) (pt m.nd bs.n d (rowOf m.nd bs.n d q) i) j d)
          (fun s _ => N (.elem e (2 * d + s)) (j * bs.n ^ (m.nd - 1) + rowOf m.nd bs.n d q)) (nodeOf m.nd bs.n d q) 0 := by
      intro d hd
      have hd := Finset.mem_range.1 hd
      have hst' : ∀ i < bs.n, p.fetchExtrap (fun v => state (v, pt m.nd bs.n d (rowOf m.nd bs.n d q) i)) v = x v :=
        fun i hi => hst _ (pt_lt hn hd (rowOf_lt hn hd hq) hi) v hv
      rw [deriv2_lin _ _ _ _ 1 (fun _ => x v) (fun _ i _ => elemNormal m.nd (m.elem e) (pt m.nd bs.n d (rowOf m.nd bs.n d q) i) j d)
        (fun _ s _ => N (.elem e (2 * d + s)) (j * bs.n ^ (m.nd - 1) + rowOf m.nd bs.n d q))]
      · rw [Finset.sum_range_one]; ring
      · intro i hi
        rw [hst' i hi, hen, Finset.sum_range_one]; ring
      · intro s hs
        rw [hf _ (by omega) v hv _ (rowOf_lt hn hd hq), hN.face e he g hg _ (by omega) j hj _ (rowOf_lt hn hd hq), Finset.sum_range_one]; ring
    rw [Finset.sum_congr rfl hd, ← Finset.mul_sum, hN.closed e he q hq j hj, mul_zero]

/-- Writing faces. -/
theorem write_const (hof : bs.IsOf b) (hb : b.Distinct) (hn : 0 < bs.n) (nd : Nat)  (x : Nat → ℝ) (state : Arr) (hst : ∀ q < bs.n ^ nd, ∀ v < p.nExtrap, p.fetchExtrap (fun v => state (v, q)) v = x v) (faces : Nat → Mem) :
    ∀ f < 2 * nd, ∀ v < p.nExtrap, ∀ k < bs.n ^ (nd - 1), writeFace p bs nd state faces f (v * bs.n ^ (nd - 1) + k) = x v := by
  intro f hf v hv k hk
  have hn' : 0 < b.n := by rw [← hof.n]; exact hn
  have h1 := (bounds_apply nd bs.n hn p.nExtrap (fun i_dim r => matRow bs.n bs.bound (readRow (fun k => p.fetchExtrap (fun v => state (v, k.2)) k.1) 0 r)) faces).1 v hv (f / 2) (by omega) k hk (f % 2) (by omega)
  rw [show 2 * (f / 2) + f % 2 = f by omega] at h1
  rw [writeFace]
  refine h1.trans ?_
  have h2 : ∀ i ∈ Finset.range bs.n, bs.bound (f % 2) i * readRow (fun k => p.fetchExtrap (fun v => state (v, k.2)) k.1) 0 (RowIndex.after nd bs.n (f / 2) k) i v = bs.bound (f % 2) i * x v := by
    intro i hi
    rw [readRow_after hn (by omega : f / 2 < nd)]
    exact congrArg _ (hst _ (pt_lt hn (by omega) hk (Finset.mem_range.1 hi)) v hv)
  rw [matRow, Basis.range_sum, Finset.sum_congr rfl h2, ← Finset.sum_mul, bound_sum hof hb hn' (by omega), one_mul]

/-- Sides of connections after prolongation. -/
theorem prolong_held (p : Pde) (nv : Nat) (hp : nv ≤ p.nExtrap) (hn : 0 < bs.n) (hm : m.Ok bs) (scale off : Bool) (x : Nat → ℝ)
    (hpr : ∀ str i base v, ∀ mem : Mem, v < nv → (∀ k < bs.n ^ (m.nd - 1), mem (base + k) = x v) → ∀ k < bs.n ^ (m.nd - 1), dimsInPlace m.nd bs.n bs.prolong (stretchFac scale) str i base mem (base + k) = x v)
    (w : World) (hw : ∀ e ∈ m.elems, ∀ f < 2 * m.nd, ∀ v < nv, ∀ k < bs.n ^ (m.nd - 1), w.buf (.elem e f) off (v * bs.n ^ (m.nd - 1) + k) = x v) :
    HoldsIn bs m nv off x (runProlong p bs m scale off w) := by
  intro c hcm s hg v hv k hk
  obtain ⟨r1, r2⟩ := prolong_fold p bs m.nd scale off m.refs w.buf hm.refs_nodup
  have hmem := hm.cover.mem_iff.1 (List.mem_append.2 (Or.inl (mem_sidesOf hcm s)))
  show m.refs.foldl (prolongRef p bs m.nd scale off) w.buf (c.side s) off _ = _
  rcases List.mem_append.1 hmem with h | h
  · rcases List.mem_append.1 h with h | h
    · obtain ⟨e, he, f, hf, hs⟩ := Mesh.elemFaces_elem h
      rw [hs, r2 _ off (Or.inl ?_), hw e he f hf v hv k hk]
      intro r hr i hi e1
      obtain ⟨kr, hkr⟩ := List.mem_iff_getElem?.1 hr
      rw [(hm.fine kr r hkr).2 i hi] at e1
      exact absurd e1 (by simp)
    · obtain ⟨r, hr, h⟩ := List.mem_flatMap.1 h
      obtain ⟨i, hi, hs⟩ := List.mem_map.1 h
      have hi := List.mem_range.1 hi
      obtain ⟨kr, hkr⟩ := List.mem_iff_getElem?.1 hr
      obtain ⟨⟨e, f, hco⟩, hfine⟩ := hm.fine kr r hkr
      have hef : e ∈ m.elems ∧ f < 2 * m.nd := by
        have := hm.cover.mem_iff.1 (List.mem_append.2 (Or.inr (List.mem_map.2 ⟨r, hr, rfl⟩)))
        rw [hco] at this
        rcases List.mem_append.1 this with h | h
        · rcases List.mem_append.1 h with h | h
          · obtain ⟨e', he', f', hf', e1⟩ := Mesh.elemFaces_elem h
            obtain ⟨rfl, rfl⟩ := Buf.elem.inj e1
            exact ⟨he', hf'⟩
          · obtain ⟨r', hr', h⟩ := List.mem_flatMap.1 h
            obtain ⟨i', hi', e1⟩ := List.mem_map.1 h
            obtain ⟨k', hk'⟩ := List.mem_iff_getElem?.1 hr'
            rw [(hm.fine k' r' hk').2 i' (List.mem_range.1 hi')] at e1
            exact absurd e1 (by simp)
        · have := (List.mem_filter.1 h).2
          exact absurd this (by simp [Buf.isGhost])
      rw [← hs, r1 r hr i hi, (prolongFine_apply bs hn m.nd p.nExtrap scale r.str i _ _).1 v (by omega) k hk, hco]
      exact hpr r.str i _ v _ hv (fun k hk => hw e hef.1 f hef.2 v hv k hk) k hk
  · have := (List.mem_filter.1 h).2
    rw [hg] at this; cases this

/-- Element faces after restriction. -/
theorem restrict_held (p : Pde) (nv : Nat) (hp : nv ≤ p.nExtrap) (hn : 0 < bs.n) (hm : m.Ok bs) (scale off : Bool) (x : Nat → ℝ)
    (hre : ∀ (r : RefRec) v, ∀ mem : Nat → Mem, v < nv → (∀ i < nFace m.nd r.str, ∀ k < bs.n ^ (m.nd - 1), mem i (v * bs.n ^ (m.nd - 1) + k) = x v) →
      ∀ k < bs.n ^ (m.nd - 1), ∑ i ∈ Finset.range (nFace m.nd r.str), restricted bs m.nd scale r i (mem i) v k = x v)
    (w : World) (hw : HoldsIn bs m nv off x w) :
    ∀ e ∈ m.elems, ∀ f < 2 * m.nd, ∀ v < nv, ∀ k < bs.n ^ (m.nd - 1), (runRestrict p bs m scale off w).buf (.elem e f) off (v * bs.n ^ (m.nd - 1) + k) = x v := by
  intro e he f hf v hv k hk
  obtain ⟨r1, r2⟩ := restrict_fold p bs hn m.nd scale off m.refs w.buf hm.refs_nodup
  have hmem := hm.cover.mem_iff.2 (List.mem_append.2 (Or.inl (List.mem_append.2 (Or.inl (Mesh.elemFaces_mem he hf)))))
  show m.refs.foldl (restrictRef p bs m.nd scale off) w.buf (.elem e f) off _ = _
  by_cases hco : Buf.elem e f ∈ m.coarseBufs
  · obtain ⟨r, hr, hre'⟩ := List.mem_map.1 hco
    have h1 := (r1 r hr).1 v (by omega) k hk
    rw [hre'] at h1
    rw [h1]
    refine hre r v (fun i => w.buf (r.fine i) off) hv (fun i hi k hk => ?_) k hk
    obtain ⟨c, hcm, s, hs⟩ := mem_sides (hm.fine_side hr hi)
    obtain ⟨kr, hkr⟩ := List.mem_iff_getElem?.1 hr
    have hg : (c.side s).isGhost = false := by rw [hs, (hm.fine kr r hkr).2 i hi]; rfl
    beta_reduce
    rw [← hs]
    exact hw c hcm s hg v hv k hk
  · rw [r2 _ off (Or.inl (hm.elem_not_ref hco))]
    obtain ⟨c, hcm, s, hs⟩ := mem_sides ((List.mem_append.1 hmem).resolve_right hco)
    have hg : (c.side s).isGhost = false := by rw [hs]; rfl
    have := hw c hcm s hg v hv k hk
    rw [hs] at this
    exact this

/-- Averages on both sides of all connections. -/
theorem avg_held (hn : 0 < bs.n) (hm : m.Ok bs)  (hd : p.hasDiff = true) (x : Nat → ℝ) (w : World) (hf : Holds bs m p.nExtrap false x w) : Holds bs m p.nExtrap true x (runNeighbor p bs m w) := by
  intro c hcm s v hv k hk
  rw [runNeighbor, (cons_fold _ m.cons w hm.sides_nodup).1 c hcm s]
  have hlt : v * bs.n ^ (m.nd - 1) + k < p.nExtrap * bs.n ^ (m.nd - 1) := block_lt hv hk
  have havg : ∀ k < bs.n ^ (m.nd - 1), (1 : ℝ) / 2 * (w.buf (c.side false) false (v * bs.n ^ (m.nd - 1) + k) +
      (if c.deformed then matchFaces m.nd bs.n p.nExtrap c.dir (w.buf (c.side true) false) else w.buf (c.side true) false) (v * bs.n ^ (m.nd - 1) + k)) = x v := by
    intro k hk
    rw [hf c hcm false v hv k hk]
    split
    · rw [matchFaces_eq m.nd bs.n _ hm.dim hn c.dir _ v k hv hk,
        hf c hcm true v hv _ (Connection.tπ_lt _ _ hm.dim _ _ (Connection.fπ_lt _ _ hm.dim _ _ hk))]
      ring
    · rw [hf c hcm true v hv k hk]; ring
  cases s with
  | false =>
    simp only [neighbor, hd, hlt, decide_true, Bool.and_self, if_true, Bool.false_eq_true, if_false]
    exact havg k hk
  | true =>
    simp only [neighbor, hd, Bool.and_self, if_true, Bool.true_and]
    by_cases hdf : c.deformed = true
    · rw [if_pos hdf, restore_eq m.nd bs.n _ hm.dim hn c.dir _ v k hv hk]
      have hp := Connection.fπ_lt _ _ hm.dim c.dir _ (Connection.tπ_lt _ _ hm.dim c.dir _ hk)
      have hlt' : v * bs.n ^ (m.nd - 1) + fπ m.nd bs.n c.dir (tπ m.nd bs.n c.dir k) < p.nExtrap * bs.n ^ (m.nd - 1) := block_lt hv hp
      have := havg _ hp
      simp only [hlt, hlt', decide_true, if_true, hdf] at this ⊢
      exact this
    · rw [if_neg hdf]
      have := havg k hk
      simp only [hlt, decide_true, if_true, hdf] at this ⊢
      exact this

/-- Nothing is left to reconcile between zero fluxes. -/
theorem reconcile_none (hn : 0 < bs.n) (hm : m.Ok bs) (hu : p.nUpdate ≤ p.nExtrap) (w : World) (hf : Holds bs m p.nUpdate true (fun _ => 0) w) : Holds bs m p.nUpdate true (fun _ => 0) (runReconcileCons p bs m w) := by
  intro c hcm s v hv k hk
  rw [runReconcileCons, (cons_fold _ m.cons w hm.sides_nodup).1 c hcm s]
  have hz : ∀ k < bs.n ^ (m.nd - 1), (if c.deformed then matchFaces m.nd bs.n p.nExtrap c.dir (w.buf (c.side true) true) else w.buf (c.side true) true) (v * bs.n ^ (m.nd - 1) + k) = 0 := by
    intro k hk
    split
    · rw [matchFaces_eq m.nd bs.n _ hm.dim hn c.dir _ v k (hv.trans_le hu) hk,
        hf c hcm true v hv _ (Connection.tπ_lt _ _ hm.dim _ _ (Connection.fπ_lt _ _ hm.dim _ _ hk))]
    · exact hf c hcm true v hv k hk
  have hlt : ∀ k < bs.n ^ (m.nd - 1), v * bs.n ^ (m.nd - 1) + k < p.nUpdate * bs.n ^ (m.nd - 1) := fun k hk => block_lt hv hk
  cases s with
  | false =>
    simp only [neighborReconcile, hlt k hk, decide_true, Bool.and_self, if_true, Bool.false_eq_true, if_false]
    rw [hz k hk, hf c hcm false v hv k hk]; ring
  | true =>
    simp only [neighborReconcile, Bool.and_self, if_true, Bool.true_and]
    by_cases hd : c.deformed = true
    · rw [if_pos hd, restore_eq m.nd bs.n _ hm.dim hn c.dir _ v k (hv.trans_le hu) hk]
      have hp := Connection.fπ_lt _ _ hm.dim c.dir _ (Connection.tπ_lt _ _ hm.dim c.dir _ hk)
      have h1 := hz _ hp
      have h2 := hf c hcm false v hv _ hp
      have h3 := hlt _ hp
      have h4 := hlt _ hk
      simp only [h3, h4, decide_true, if_true, hd] at h1 h2 ⊢
      rw [h1, h2]; ring
    · rw [if_neg hd]
      have h1 := hz k hk
      have h2 := hf c hcm false v hv k hk
      have h3 := hlt k hk
      simp only [h3, decide_true, if_true, hd] at h1 h2 ⊢
      rw [h1, h2]; ring

end
end Hexed.ArtVisc
