import Verif.Metric.Uniform
set_option autoImplicit false
set_option linter.unusedVariables false

/-!
# Uniform flow stays uniform on meshes whose normals close
-/

namespace Hexed.Metric
open Hexed.Spatial Hexed.Pde Hexed.Solver
open Hexed.RowIndex (RowIndex)
open Hexed.Connection (Dir matchFaces restore strAt Legal matchFaces_eq tπ fπ)
noncomputable section

variable {bs : BasisData} {b : Basis.Nodes ℝ} {deg : Nat} {m : Mesh} {N : Buf → Mem}

/-- All sides of connections hold `x v` in part `off`. -/
def Held (bs : BasisData) (m : Mesh) (off : Bool) (x : Nat → ℝ) (w : World) : Prop :=
  ∀ c ∈ m.cons, ∀ s, ∀ v < m.nd + 2, ∀ k < bs.n ^ (m.nd - 1), w.buf (c.side s) off (v * bs.n ^ (m.nd - 1) + k) = x v
/-- The same for sides that are not ghosts. -/
def HeldIn (bs : BasisData) (m : Mesh) (off : Bool) (x : Nat → ℝ) (w : World) : Prop :=
  ∀ c ∈ m.cons, ∀ s, (c.side s).isGhost = false → ∀ v < m.nd + 2, ∀ k < bs.n ^ (m.nd - 1), w.buf (c.side s) off (v * bs.n ^ (m.nd - 1) + k) = x v

/-- The flux of variable `v` along axis `j`. -/
def unitFlux (nd : Nat) (fs : Nat → ℝ) (v j : Nat) : ℝ := fluxConv nd fs (fun i => if i = j then 1 else 0) v

theorem partner_lt (hnd : 1 ≤ m.nd ∧ m.nd ≤ 3) (n : Nat) (c : ConRec) {k : Nat} (hk : k < n ^ (m.nd - 1)) : partner m.nd n c k < n ^ (m.nd - 1) := by
  rw [partner]
  split
  · exact Connection.fπ_lt _ _ hnd _ _ (Connection.tπ_lt _ _ hnd _ _ hk)
  · exact hk

/-- The numerical fluxes on both sides of all connections. -/
theorem nb_flux (hn : 0 < bs.n) (hm : m.Ok bs) (hN : Sealed bs m N) (visc : Bool) (mu kappa : Transport) (fs : Nat → ℝ) (w : World) (hf : Held bs m false fs w) :
    ∀ c ∈ m.cons, ∀ s, (c.side s).isGhost = false → ∀ v < m.nd + 2, ∀ k < bs.n ^ (m.nd - 1),
      (runNeighbor (ns m.nd visc mu kappa) bs m w).buf (c.side s) false (v * bs.n ^ (m.nd - 1) + k) = ∑ j ∈ Finset.range m.nd, unitFlux m.nd fs v j * N (c.side s) (j * bs.n ^ (m.nd - 1) + k) := by
  intro c hc s hg v hv k hk
  rw [runNeighbor, (cons_fold _ m.cons w hm.sides_nodup).1 c hc s]
  have hcf : ∀ k < bs.n ^ (m.nd - 1), conFlux (ns m.nd visc mu kappa) m.nd bs.n c (fun s => w.buf (c.side s)) v k =
      ∑ j ∈ Finset.range m.nd, conNormal c.deformed c.dir (bs.n ^ (m.nd - 1)) c.normal k j * unitFlux m.nd fs v j := by
    intro k hk
    rw [conFlux]
    refine numFlux_same m.nd visc mu kappa fs (fun u hu => hf c hc false u hu k hk) (fun u hu => ?_) _ hv
    split
    · rw [matchFaces_eq m.nd bs.n _ hm.dim hn c.dir _ u k (show u < (ns m.nd visc mu kappa).nExtrap from hu) hk]
      exact hf c hc true u hu _ (Connection.tπ_lt _ _ hm.dim _ _ (Connection.fπ_lt _ _ hm.dim _ _ hk))
    · exact hf c hc true u hu k hk
  cases s with
  | false =>
    rw [neighbor_side0 _ rfl _ _ _ _ _ _ (show v < (ns m.nd visc mu kappa).nUpdate from hv) hk, hcf k hk, Finset.mul_sum]
    refine Finset.sum_congr rfl fun j hj => ?_
    rw [hN.side0 c hc j (Finset.mem_range.1 hj) k hk]; ring
  | true =>
    rw [neighbor_side1 _ rfl le_rfl _ _ hm.dim hn _ _ _ _ (show v < (ns m.nd visc mu kappa).nUpdate from hv) hk]
    have h1 : (if c.deformed then restore m.nd bs.n (ns m.nd visc mu kappa).nExtrap c.dir (side1Flux (ns m.nd visc mu kappa) m.nd bs.n c fun s => w.buf (c.side s)) (v * bs.n ^ (m.nd - 1) + k)
        else side1Flux (ns m.nd visc mu kappa) m.nd bs.n c (fun s => w.buf (c.side s)) (v * bs.n ^ (m.nd - 1) + k)) =
        side1Flux (ns m.nd visc mu kappa) m.nd bs.n c (fun s => w.buf (c.side s)) (v * bs.n ^ (m.nd - 1) + partner m.nd bs.n c k) := by
      rw [partner]
      split
      · rw [restore_eq m.nd bs.n _ hm.dim hn c.dir _ v k (show v < (ns m.nd visc mu kappa).nExtrap from hv) hk]
      · rfl
    have hp := partner_lt hm.dim bs.n c hk
    obtain ⟨e1, e2⟩ := Connection.divmod_of (a := v) hp
    rw [h1, side1Flux, e1, e2, hcf _ hp, Finset.mul_sum]
    refine Finset.sum_congr rfl fun j hj => ?_
    rw [hN.side1 c hc hg j (Finset.mem_range.1 hj) k hk]; ring

/-- The fluxes on the faces of elements. -/
theorem elem_flux (hn : 0 < bs.n) (hm : m.Ok bs) (hN : Sealed bs m N) (visc : Bool) (mu kappa : Transport) (fs : Nat → ℝ) (w : World) (hf : Held bs m false fs w) :
    ∀ e ∈ m.elems, ∀ f < 2 * m.nd, ∀ v < m.nd + 2, ∀ k < bs.n ^ (m.nd - 1),
      (runRestrict (ns m.nd visc mu kappa) bs m true false (runNeighbor (ns m.nd visc mu kappa) bs m w)).buf (.elem e f) false (v * bs.n ^ (m.nd - 1) + k) =
        ∑ j ∈ Finset.range m.nd, unitFlux m.nd fs v j * N (.elem e f) (j * bs.n ^ (m.nd - 1) + k) := by
  intro e he f hf' v hv k hk
  have hnb := nb_flux hn hm hN visc mu kappa fs w hf
  set p := ns m.nd visc mu kappa with hp
  set w1 := runNeighbor p bs m w
  obtain ⟨r1, r2⟩ := restrict_fold p bs hn m.nd true false m.refs w1.buf hm.refs_nodup
  have hmem := hm.cover.mem_iff.2 (List.mem_append.2 (Or.inl (List.mem_append.2 (Or.inl (Mesh.elemFaces_mem he hf')))))
  show m.refs.foldl (restrictRef p bs m.nd true false) w1.buf (.elem e f) false _ = _
  by_cases hco : Buf.elem e f ∈ m.coarseBufs
  · obtain ⟨r, hr, hre⟩ := List.mem_map.1 hco
    have h1 := (r1 r hr).1 v (show v < p.nExtrap from hv) k hk
    rw [hre] at h1
    rw [h1]
    have h2 : ∀ i ∈ Finset.range (nFace m.nd r.str), restricted bs m.nd true r i (w1.buf (r.fine i) false) v k = ∑ j ∈ Finset.range m.nd, unitFlux m.nd fs v j * restricted bs m.nd true r i (N (r.fine i)) j k := by
      intro i hi
      have hi' := Finset.mem_range.1 hi
      obtain ⟨c, hcm, s, hs⟩ := mem_sides (hm.fine_side hr hi')
      have hg : (c.side s).isGhost = false := by
        obtain ⟨kr, hkr⟩ := List.mem_iff_getElem?.1 hr
        rw [hs, (hm.fine kr r hkr).2 i hi']; rfl
      exact dims_lin hn bs.restrict (1 / stretchFac true) r.str i (v * bs.n ^ (m.nd - 1)) m.nd (fun j => j * bs.n ^ (m.nd - 1)) (unitFlux m.nd fs v) _ (fun _ => N (r.fine i))
        (fun k hk => by rw [← hs]; exact hnb c hcm s hg v hv k hk) k hk
    rw [Finset.sum_congr rfl h2, Finset.sum_comm]
    refine Finset.sum_congr rfl fun j hj => ?_
    rw [← Finset.mul_sum, hN.hang r hr j (Finset.mem_range.1 hj) k hk, hre]
  · rw [r2 _ false (Or.inl (hm.elem_not_ref hco))]
    obtain ⟨c, hcm, s, hs⟩ := mem_sides ((List.mem_append.1 hmem).resolve_right hco)
    have hg : (c.side s).isGhost = false := by rw [hs]; rfl
    have := hnb c hcm s hg v hv k hk
    rw [hs] at this
    exact this

/-- The convective residual. -/
theorem conv_zero (hn : 0 < bs.n) (hN : Sealed bs m N) (visc : Bool) (mu kappa : Transport) (fs : Nat → ℝ) {e : Nat} (he : e ∈ m.elems) (state : Arr) (hst : ∀ q < bs.n ^ m.nd, ∀ v < m.nd + 2, state (v, q) = fs v)
    (faces : Nat → Mem) (hf : ∀ f < 2 * m.nd, ∀ v < m.nd + 2, ∀ k < bs.n ^ (m.nd - 1), faces f (v * bs.n ^ (m.nd - 1) + k) = ∑ j ∈ Finset.range m.nd, unitFlux m.nd fs v j * N (.elem e f) (j * bs.n ^ (m.nd - 1) + k))
    {v q : Nat} (hv : v < m.nd + 2) (hq : q < bs.n ^ m.nd) :
    ∑ d ∈ Finset.range m.nd, -deriv2 bs (readRow (convFlux (ns m.nd visc mu kappa) m.nd (m.elem e) state d) 0 (RowIndex.after m.nd bs.n d (rowOf m.nd bs.n d q)))
      (readBound faces (RowIndex.after m.nd bs.n d (rowOf m.nd bs.n d q))) (nodeOf m.nd bs.n d q) v = 0 := by
  have hrow : ∀ d < m.nd, ∀ i < bs.n, readRow (convFlux (ns m.nd visc mu kappa) m.nd (m.elem e) state d) 0 (RowIndex.after m.nd bs.n d (rowOf m.nd bs.n d q)) i v =
      ∑ j ∈ Finset.range m.nd, unitFlux m.nd fs v j * elemNormal m.nd (m.elem e) (pt m.nd bs.n d (rowOf m.nd bs.n d q) i) j d := by
    intro d hd i hi
    rw [readRow_after hn hd]
    show fluxConv m.nd (fetchState m.nd _) _ v = _
    rw [flux_lin (s' := fs) (fun u hu => by rw [fetchState, if_pos hu]; exact hst _ (pt_lt hn hd (rowOf_lt hn hd hq) hi) u hu) _ hv]
    exact Finset.sum_congr rfl fun j _ => mul_comm _ _
  have hd : ∀ d ∈ Finset.range m.nd, -deriv2 bs (readRow (convFlux (ns m.nd visc mu kappa) m.nd (m.elem e) state d) 0 (RowIndex.after m.nd bs.n d (rowOf m.nd bs.n d q)))
      (readBound faces (RowIndex.after m.nd bs.n d (rowOf m.nd bs.n d q))) (nodeOf m.nd bs.n d q) v =
      -∑ j ∈ Finset.range m.nd, unitFlux m.nd fs v j * deriv2 bs (fun i _ => elemNormal m.nd (m.elem e) (pt m.nd bs.n d (rowOf m.nd bs.n d q) i) j d)
        (fun s _ => N (.elem e (2 * d + s)) (j * bs.n ^ (m.nd - 1) + rowOf m.nd bs.n d q)) (nodeOf m.nd bs.n d q) 0 := by
    intro d hd
    have hd := Finset.mem_range.1 hd
    rw [deriv2_lin _ _ _ _ m.nd (unitFlux m.nd fs v) (fun j i _ => elemNormal m.nd (m.elem e) (pt m.nd bs.n d (rowOf m.nd bs.n d q) i) j d)
      (fun j s _ => N (.elem e (2 * d + s)) (j * bs.n ^ (m.nd - 1) + rowOf m.nd bs.n d q)) (hrow d hd)]
    intro s hs
    rw [readBound_after hn hd, hf (2 * d + s) (by omega) v hv _ (rowOf_lt hn hd hq)]
  rw [Finset.sum_congr rfl hd, Finset.sum_neg_distrib, Finset.sum_comm, neg_eq_zero]
  refine Finset.sum_eq_zero fun j hj => ?_
  rw [← Finset.mul_sum, hN.closed e he q hq j (Finset.mem_range.1 hj), mul_zero]

/-- The gradient vanishes. -/
theorem grad_zero (hof : bs.IsOf b) (hb : b.Distinct) (hn : 0 < bs.n) (hN : Sealed bs m N) (visc : Bool) (mu kappa : Transport) (fs : Nat → ℝ) {e : Nat} (he : e ∈ m.elems) (state : Arr)
    (hst : ∀ q < bs.n ^ m.nd, ∀ v < m.nd + 2, state (v, q) = fs v) (vf : Nat → Mem) (hf : ∀ f < 2 * m.nd, ∀ v < m.nd + 2, ∀ k < bs.n ^ (m.nd - 1), vf f (v * bs.n ^ (m.nd - 1) + k) = fs v)
    {j v q : Nat} (hj : j < m.nd) (hv : v < m.nd + 2) (hq : q < bs.n ^ m.nd) : gradient (ns m.nd visc mu kappa) bs m.nd (m.elem e) state vf j (v, q) = 0 := by
  have hn' : 0 < b.n := by rw [← hof.n]; exact hn
  cases hg : (m.elem e).geom with
  | none =>
    rw [gradient_at _ bs hn m.nd hg state vf hj hq (show v < (ns m.nd visc mu kappa).nExtrap from hv)]
    have hrow : ∀ i < bs.n, readRow (fun k => (ns m.nd visc mu kappa).fetchExtrap (fun v => state (v, k.2)) k.1) 0 (RowIndex.after m.nd bs.n j (rowOf m.nd bs.n j q)) i v = fs v := by
      intro i hi
      rw [readRow_after hn hj]
      exact hst _ (pt_lt hn hj (rowOf_lt hn hj hq) hi) v hv
    rw [deriv2_extrap, Finset.sum_congr rfl fun i hi => by rw [hrow i (Finset.mem_range.1 hi)], ← Finset.sum_mul, diff_sum hof hb hn' (nodeOf_lt _ hn _ _), zero_mul, zero_div]
    intro s hs
    rw [readBound_after hn hj, hf _ (by omega) v hv _ (rowOf_lt hn hj hq), Finset.sum_congr rfl fun i hi => by rw [hrow i (Finset.mem_range.1 hi)], ← Finset.sum_mul, bound_sum hof hb hn' hs, one_mul]
  | some g =>
    rw [gradient_def _ bs hn m.nd hg state vf hj hq (show v < (ns m.nd visc mu kappa).nExtrap from hv)]
    have hen : ∀ q d, elemNormal m.nd (m.elem e) q j d = g.nrml (d * m.nd + j, q) := fun q d => by rw [elemNormal, hg]
    have hd : ∀ d ∈ Finset.range m.nd, deriv2 bs (fun i _ => g.nrml (d * m.nd + j, pt m.nd bs.n d (rowOf m.nd bs.n d q) i) * (ns m.nd visc mu kappa).fetchExtrap (fun v => state (v, pt m.nd bs.n d (rowOf m.nd bs.n d q) i)) v)
        (fun s _ => faceNormals (m.elem e) (bs.n ^ (m.nd - 1)) (2 * d + s) (j * bs.n ^ (m.nd - 1) + rowOf m.nd bs.n d q) * vf (2 * d + s) (v * bs.n ^ (m.nd - 1) + rowOf m.nd bs.n d q)) (nodeOf m.nd bs.n d q) 0 / (m.elem e).size =
        fs v / (m.elem e).size * deriv2 bs (fun i _ => elemNormal m.nd (m.elem e) (pt m.nd bs.n d (rowOf m.nd bs.n d q) i) j d)
          (fun s _ => N (.elem e (2 * d + s)) (j * bs.n ^ (m.nd - 1) + rowOf m.nd bs.n d q)) (nodeOf m.nd bs.n d q) 0 := by
      intro d hd
      have hd := Finset.mem_range.1 hd
      have hst' : ∀ i < bs.n, (ns m.nd visc mu kappa).fetchExtrap (fun v => state (v, pt m.nd bs.n d (rowOf m.nd bs.n d q) i)) v = fs v :=
        fun i hi => hst _ (pt_lt hn hd (rowOf_lt hn hd hq) hi) v hv
      rw [deriv2_lin _ _ _ _ 1 (fun _ => fs v) (fun _ i _ => elemNormal m.nd (m.elem e) (pt m.nd bs.n d (rowOf m.nd bs.n d q) i) j d)
        (fun _ s _ => N (.elem e (2 * d + s)) (j * bs.n ^ (m.nd - 1) + rowOf m.nd bs.n d q))]
      · rw [Finset.sum_range_one]; ring
      · intro i hi
        rw [hst' i hi, hen, Finset.sum_range_one]; ring
      · intro s hs
        rw [hf _ (by omega) v hv _ (rowOf_lt hn hd hq), hN.face e he g hg _ (by omega) j hj _ (rowOf_lt hn hd hq), Finset.sum_range_one]; ring
    rw [Finset.sum_congr rfl hd, ← Finset.mul_sum, hN.closed e he q hq j hj, mul_zero]

/-- Writing faces. -/
theorem write_const (hof : bs.IsOf b) (hb : b.Distinct) (hn : 0 < bs.n) (nd : Nat) (visc : Bool) (mu kappa : Transport) (fs : Nat → ℝ) (state : Arr) (hst : ∀ q < bs.n ^ nd, ∀ v < nd + 2, state (v, q) = fs v) (faces : Nat → Mem) :
    ∀ f < 2 * nd, ∀ v < nd + 2, ∀ k < bs.n ^ (nd - 1), writeFace (ns nd visc mu kappa) bs nd state faces f (v * bs.n ^ (nd - 1) + k) = fs v := by
  intro f hf v hv k hk
  have hn' : 0 < b.n := by rw [← hof.n]; exact hn
  have h1 := (bounds_apply nd bs.n hn (nd + 2) (fun i_dim r => matRow bs.n bs.bound (readRow (fun k => (ns nd visc mu kappa).fetchExtrap (fun v => state (v, k.2)) k.1) 0 r)) faces).1 v hv (f / 2) (by omega) k hk (f % 2) (by omega)
  rw [show 2 * (f / 2) + f % 2 = f by omega] at h1
  rw [writeFace]
  refine h1.trans ?_
  have h2 : ∀ i ∈ Finset.range bs.n, bs.bound (f % 2) i * readRow (fun k => (ns nd visc mu kappa).fetchExtrap (fun v => state (v, k.2)) k.1) 0 (RowIndex.after nd bs.n (f / 2) k) i v = bs.bound (f % 2) i * fs v := by
    intro i hi
    rw [readRow_after hn (by omega : f / 2 < nd)]
    exact congrArg _ (hst _ (pt_lt hn (by omega) hk (Finset.mem_range.1 hi)) v hv)
  rw [matRow, Basis.range_sum, Finset.sum_congr rfl h2, ← Finset.sum_mul, bound_sum hof hb hn' (by omega), one_mul]

/-- Sides of connections after prolongation. -/
theorem prolong_held (p : Pde) (hp : p.nExtrap = m.nd + 2) (hn : 0 < bs.n) (hm : m.Ok bs) (scale off : Bool) (x : Nat → ℝ)
    (hpr : ∀ str i base v, ∀ mem : Mem, v < m.nd + 2 → (∀ k < bs.n ^ (m.nd - 1), mem (base + k) = x v) → ∀ k < bs.n ^ (m.nd - 1), dimsInPlace m.nd bs.n bs.prolong (stretchFac scale) str i base mem (base + k) = x v)
    (w : World) (hw : ∀ e ∈ m.elems, ∀ f < 2 * m.nd, ∀ v < m.nd + 2, ∀ k < bs.n ^ (m.nd - 1), w.buf (.elem e f) off (v * bs.n ^ (m.nd - 1) + k) = x v) :
    HeldIn bs m off x (runProlong p bs m scale off w) := by
  intro c hcm s hg v hv k hk
  obtain ⟨r1, r2⟩ := prolong_fold p bs m.nd scale off m.refs w.buf hm.refs_nodup
  have hmem := hm.cover.mem_iff.1 (List.mem_append.2 (Or.inl (mem_sidesOf hcm s)))
  show m.refs.foldl (prolongRef p bs m.nd scale off) w.buf (c.side s) off _ = _
  rcases List.mem_append.1 hmem with h | h
  · rcases List.mem_append.1 h with h | h
    · obtain ⟨e, he, f, hf, hs⟩ := Mesh.elemFaces_elem h
      rw [hs, r2 _ off (Or.inl ?_), hw e he f hf v hv k hk]
      intro r hr i hi e1
      obtain ⟨kr, hkr⟩ := List.mem_iff_getElem?.1 hr
      rw [(hm.fine kr r hkr).2 i hi] at e1
      exact absurd e1 (by simp)
    · obtain ⟨r, hr, h⟩ := List.mem_flatMap.1 h
      obtain ⟨i, hi, hs⟩ := List.mem_map.1 h
      have hi := List.mem_range.1 hi
      obtain ⟨kr, hkr⟩ := List.mem_iff_getElem?.1 hr
      obtain ⟨⟨e, f, hco⟩, hfine⟩ := hm.fine kr r hkr
      have hef : e ∈ m.elems ∧ f < 2 * m.nd := by
        have := hm.cover.mem_iff.1 (List.mem_append.2 (Or.inr (List.mem_map.2 ⟨r, hr, rfl⟩)))
        rw [hco] at this
        rcases List.mem_append.1 this with h | h
        · rcases List.mem_append.1 h with h | h
          · obtain ⟨e', he', f', hf', e1⟩ := Mesh.elemFaces_elem h
            obtain ⟨rfl, rfl⟩ := Buf.elem.inj e1
            exact ⟨he', hf'⟩
          · obtain ⟨r', hr', h⟩ := List.mem_flatMap.1 h
            obtain ⟨i', hi', e1⟩ := List.mem_map.1 h
            obtain ⟨k', hk'⟩ := List.mem_iff_getElem?.1 hr'
            rw [(hm.fine k' r' hk').2 i' (List.mem_range.1 hi')] at e1
            exact absurd e1 (by simp)
        · have := (List.mem_filter.1 h).2
          exact absurd this (by simp [Buf.isGhost])
      rw [← hs, r1 r hr i hi, (prolongFine_apply bs hn m.nd p.nExtrap scale r.str i _ _).1 v (by omega) k hk, hco]
      exact hpr r.str i _ v _ hv (fun k hk => hw e hef.1 f hef.2 v hv k hk) k hk
  · have := (List.mem_filter.1 h).2
    rw [hg] at this; cases this

/-- Element faces after restriction. -/
theorem restrict_held (p : Pde) (hp : p.nExtrap = m.nd + 2) (hn : 0 < bs.n) (hm : m.Ok bs) (scale off : Bool) (x : Nat → ℝ)
    (hre : ∀ (r : RefRec) v, ∀ mem : Nat → Mem, v < m.nd + 2 → (∀ i < nFace m.nd r.str, ∀ k < bs.n ^ (m.nd - 1), mem i (v * bs.n ^ (m.nd - 1) + k) = x v) →
      ∀ k < bs.n ^ (m.nd - 1), ∑ i ∈ Finset.range (nFace m.nd r.str), restricted bs m.nd scale r i (mem i) v k = x v)
    (w : World) (hw : HeldIn bs m off x w) :
    ∀ e ∈ m.elems, ∀ f < 2 * m.nd, ∀ v < m.nd + 2, ∀ k < bs.n ^ (m.nd - 1), (runRestrict p bs m scale off w).buf (.elem e f) off (v * bs.n ^ (m.nd - 1) + k) = x v := by
  intro e he f hf v hv k hk
  obtain ⟨r1, r2⟩ := restrict_fold p bs hn m.nd scale off m.refs w.buf hm.refs_nodup
  have hmem := hm.cover.mem_iff.2 (List.mem_append.2 (Or.inl (List.mem_append.2 (Or.inl (Mesh.elemFaces_mem he hf)))))
  show m.refs.foldl (restrictRef p bs m.nd scale off) w.buf (.elem e f) off _ = _
  by_cases hco : Buf.elem e f ∈ m.coarseBufs
  · obtain ⟨r, hr, hre'⟩ := List.mem_map.1 hco
    have h1 := (r1 r hr).1 v (by omega) k hk
    rw [hre'] at h1
    rw [h1]
    refine hre r v (fun i => w.buf (r.fine i) off) hv (fun i hi k hk => ?_) k hk
    obtain ⟨c, hcm, s, hs⟩ := mem_sides (hm.fine_side hr hi)
    obtain ⟨kr, hkr⟩ := List.mem_iff_getElem?.1 hr
    have hg : (c.side s).isGhost = false := by rw [hs, (hm.fine kr r hkr).2 i hi]; rfl
    beta_reduce
    rw [← hs]
    exact hw c hcm s hg v hv k hk
  · rw [r2 _ off (Or.inl (hm.elem_not_ref hco))]
    obtain ⟨c, hcm, s, hs⟩ := mem_sides ((List.mem_append.1 hmem).resolve_right hco)
    have hg : (c.side s).isGhost = false := by rw [hs]; rfl
    have := hw c hcm s hg v hv k hk
    rw [hs] at this
    exact this

theorem ns_zero (nd : Nat) (visc : Bool) (mu kappa : Transport) (f : Nat → ℝ) (flag : Bool) (s : Nat → ℝ) (h : ∀ v < nd + 2, f v = 0) : (ns nd visc mu kappa).writeUpdate f flag s = s := by
  funext i
  show (if i < nd + 2 then s i + f i else s i) = s i
  split
  · next hi => rw [h i hi, add_zero]
  · rfl

/-- A convective stage. -/
theorem uniform_conv (hof : bs.IsOf b) (hb : b.Distinct) (hn : 0 < bs.n) (hm : m.Ok bs) (hN : Sealed bs m N) (mu kappa : Transport) (fs : Nat → ℝ) (sr dt : ℝ) (stage filter : Bool) (w w' : World)
    (hs : ∀ e ∈ m.elems, ∀ q < bs.n ^ m.nd, ∀ v < m.nd + 2, w.state e (v, q) = fs v) (hf : Held bs m false fs w)
    (hcache : stage = true → ∀ e ∈ m.elems, ∀ v < m.nd + 2, ∀ q < bs.n ^ m.nd, w.cache e (v, q) = 0)
    (hrun : computeConvection (ns m.nd false mu kappa) bs m sr dt stage false filter w = some w') :
    (∀ e ∈ m.elems, ∀ q < bs.n ^ m.nd, ∀ v, w'.state e (v, q) = w.state e (v, q)) ∧ HeldIn bs m false fs w' ∧
      (stage = false → ∀ e ∈ m.elems, ∀ v < m.nd + 2, ∀ q < bs.n ^ m.nd, w'.cache e (v, q) = 0) := by
  have hn' : 0 < b.n := by rw [← hof.n]; exact hn
  have hflux := elem_flux hn hm hN false mu kappa fs w hf
  set p := ns m.nd false mu kappa with hp
  have hdiff : p.hasDiff = false := rfl
  have hsrc : p.hasSource = false := rfl
  have hconv : p.hasConv = true := rfl
  have hnu : p.nUpdate = m.nd + 2 := rfl
  simp only [computeConvection, hdiff, Bool.and_false, Bool.false_and, Bool.or_self, Bool.false_eq_true, if_false, Option.some.injEq] at hrun
  obtain ⟨n1, n2, n3, n4⟩ := cons_fold (fun c st => neighbor p m.nd bs.n c.deformed c.dir c.normal st) m.cons w hm.sides_nodup
  set w2 := runRestrict p bs m true false (runNeighbor p bs m w) with hw2
  set op : Opts := ⟨if stage then dt * sr else dt, stage, false, filter⟩ with hop
  obtain ⟨l1, _, _⟩ := elems_fold m.nd (fun e => localKernel p bs m.nd op (m.elem e)) m.elems w2 hm.elems_nodup
  have hw2s : w2.state = w.state := n3
  have hw2c : w2.cache = w.cache := n4
  have hrate : ∀ e ∈ m.elems, ∀ v < m.nd + 2, ∀ q < bs.n ^ m.nd, (localRate p bs m.nd op (m.elem e) (w2.state e) (fun f => w2.buf (.elem e f) false) fun f => w2.buf (.elem e f) true).1 (v, q) = 0 := by
    intro e he
    have raw : ∀ v < m.nd + 2, ∀ q < bs.n ^ m.nd, (overRows m.nd bs.n (residualRow p bs (convFlux p m.nd (m.elem e) (w2.state e)) (diffFlux p bs m.nd (m.elem e) (w2.state e) fun f => w2.buf (.elem e f) true) fun f => w2.buf (.elem e f) false)
        (initRate p (m.elem e) op.stage (w2.state e), fun f => w2.buf (.elem e f) true)).1 (v, q) = 0 := by
      intro v hv q hq
      rw [residual_at p bs hn m.nd _ _ _ _ hq v]
      have h0 := conv_zero hn hN false mu kappa fs he (w2.state e) (by rw [hw2s]; exact hs e he) (fun f => w2.buf (.elem e f) false) (hflux e he) hv hq
      rw [← hp] at h0
      simp only [initRate, hsrc, hdiff, Bool.false_eq_true, false_and, if_false, hconv, true_and, hnu, hv, if_true, add_zero, zero_add]
      exact h0
    intro v hv q hq
    simp only [localRate]
    split
    · exact filter_zero bs hn m.nd _ _ (m.nd + 2) raw v hv q hq
    · exact raw v hv q hq
  have hst : ∀ e ∈ m.elems, ∀ q < bs.n ^ m.nd, ∀ v, w'.state e (v, q) = w.state e (v, q) := by
    intro e he q hq v
    have h1 : w'.state e = (localKernel p bs m.nd op (m.elem e) (w2.state e) (w2.cache e) (fun f => w2.buf (.elem e f) false) fun f => w2.buf (.elem e f) true).state := by
      rw [← hrun]
      exact (l1 e he).1
    rw [h1]
    simp only [localKernel]
    rw [ns_zero _ _ _ _ _ _ _ ?_, hw2s]
    intro v hv
    have h0 := hrate e he v hv q hq
    cases hstg : stage with
    | false => simp [hop, hstg, hdiff, hsrc] at h0 ⊢; left; exact h0
    | true =>
      have hz := hcache hstg e he v hv q hq
      simp [hop, hstg, hw2c, hz] at h0 ⊢
      left; exact h0
  refine ⟨hst, ?_, ?_⟩
  · rw [← hrun]
    refine prolong_held p rfl hn hm false false fs (fun str i base v mem hv h k hk => const_prolong hof hb hn' hm.dim str i base (fs v) mem h hk) _ ?_
    intro e he f hf' v hv k hk
    have h1 := ((l1 e he).2.2 f hf').1
    rw [show (runLocal p bs m op w2).buf (.elem e f) false = _ from h1]
    simp only [localKernel, hdiff, Bool.false_eq_true, if_false]
    refine write_const hof hb hn m.nd false mu kappa fs _ ?_ _ f hf' v hv k hk
    intro q hq v hv
    have h2 := hst e he q hq v
    rw [hs e he q hq v hv, ← hrun] at h2
    rw [← h2]
    exact congrFun (l1 e he).1.symm (v, q)
  · intro hstg e he v hv q hq
    have h1 : w'.cache e = (localKernel p bs m.nd op (m.elem e) (w2.state e) (w2.cache e) (fun f => w2.buf (.elem e f) false) fun f => w2.buf (.elem e f) true).cache := by
      rw [← hrun]
      exact (l1 e he).2.1
    rw [h1]
    have h0 := hrate e he v hv q hq
    simp only [localKernel, hop, hstg, hconv, hnu, if_pos hv] at h0 ⊢
    simpa using h0

end
end Hexed.Metric
