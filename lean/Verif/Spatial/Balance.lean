import Verif.Spatial.World
set_option autoImplicit false
set_option linter.unusedVariables false

/-!
# Balances: of one element, and of the faces of a mesh
-/

namespace Hexed.Spatial
open Hexed.Connection (Dir matchFaces restore strAt Legal)

/-! ## One element -/

theorem quadE_init (bs : BasisData) (p : Pde) (hM : p.blockSize = p.nUpdate) (nd : Nat) (e : ElemRec) (stage : Bool) (state : Arr) (v : Nat) (hv : v < p.nUpdate) :
    quadE bs nd (initRate p e stage state) v = 0 ∧
    quadE bs nd (initRate p e stage state) (p.blockSize + v) = if p.hasSource = true ∧ stage = false then
      e.size * ∑ q ∈ Finset.range (bs.n ^ nd), qw bs.weight bs.n nd q * e.det q * p.source (fun u => state (u, q)) v else 0 := by
  constructor
  · refine Finset.sum_eq_zero fun q _ => ?_
    simp only [initRate]
    rw [if_neg (by rintro ⟨_, _, h, _⟩; omega), if_neg (by rintro ⟨_, h, _⟩; omega), mul_zero]
  · split
    · next h =>
      rw [quadE, Finset.mul_sum]
      refine Finset.sum_congr rfl fun q _ => ?_
      simp only [initRate]
      rw [if_pos ⟨h.1, h.2, by omega, by omega⟩, show p.blockSize + v - p.blockSize = v by omega, ElemRec.det]
      cases e.geom <;> simp only <;> ring
    · next h =>
      refine Finset.sum_eq_zero fun q _ => ?_
      simp only [initRate]
      rw [if_neg (by tauto), if_neg (by rintro ⟨_, h, _⟩; omega), mul_zero]

/-- The integral of the two blocks of `time_rate`. -/
theorem quadE_localRate {bs : BasisData} (h : Conservative bs) (p : Pde) (hM : p.blockSize = p.nUpdate) (nd : Nat) (o : Opts) (e : ElemRec) (state : Arr) (faces visc : Nat → Mem)
    (v : Nat) (hv : v < p.nUpdate) :
    quadE bs nd (localRate p bs nd o e state faces visc).1 v = -(if p.hasConv then outflow bs nd faces v else 0) ∧
    quadE bs nd (localRate p bs nd o e state faces visc).1 (p.blockSize + v) =
      (if p.hasSource = true ∧ o.stage = false then e.size * ∑ q ∈ Finset.range (bs.n ^ nd), qw bs.weight bs.n nd q * e.det q * p.source (fun u => state (u, q)) v else 0)
      - (if p.hasDiff then outflow bs nd (localRate p bs nd o e state faces visc).2 v else 0) := by
  obtain ⟨r1, r2⟩ := quadE_residual h p hM (convFlux p nd e state) (diffFlux p bs nd e state visc) faces nd (initRate p e o.stage state, visc) v hv
  obtain ⟨i1, i2⟩ := quadE_init bs p hM nd e o.stage state v hv
  simp only [localRate]
  have hf : ∀ (m : Arr) u, quadE bs nd (if o.useFilter = true then applyFilter bs nd (2 * p.nUpdate) m else m) u = quadE bs nd m u := by
    intro m u
    split
    · exact quadE_filter h nd _ m u
    · rfl
  rw [hf, hf, r1, r2, i1, i2, zero_sub]
  exact ⟨rfl, rfl⟩

theorem det_mult (o : ℝ) (e : ElemRec) (q : Nat) (hd : e.det q ≠ 0) (ht : e.tss q ≠ 0) : e.det q * updateMult o e q / e.tss q = o / e.size := by
  rw [ElemRec.det] at *
  rw [updateMult]
  cases hg : e.geom with
  | none => simp only; rw [one_mul, div_right_comm, mul_div_cancel_right₀ _ ht]
  | some g =>
    rw [hg] at hd
    simp only at hd ⊢
    rw [mul_div_cancel₀ _ hd, div_right_comm, mul_div_cancel_right₀ _ ht]

theorem size_pow {s : ℝ} (hs : 0 < s) {nd : Nat} (hnd : 1 ≤ nd) : s ^ nd / s = s ^ (nd - 1) := by
  obtain ⟨m, rfl⟩ : ∃ m, nd = m + 1 := ⟨nd - 1, by omega⟩
  rw [pow_succ, mul_div_assoc, div_self hs.ne', mul_one, Nat.add_sub_cancel]

/-- An update by `x * updateMult` changes the integral over the physical element by the integral of `x` over the reference element. -/
theorem change_of_update (bs : BasisData) (nd : Nat) (hnd : 1 ≤ nd) (e : ElemRec) (hs : 0 < e.size) (hd : ∀ q < bs.n ^ nd, e.det q ≠ 0) (ht : ∀ q < bs.n ^ nd, e.tss q ≠ 0)
    (upd : ℝ) (st st' : Arr) (var : Nat) (x : Nat → ℝ) (h : ∀ q < bs.n ^ nd, st' (var, q) = st (var, q) + x q * updateMult upd e q) :
    elemChange bs nd e st st' var = upd * (e.size ^ (nd - 1) * ∑ q ∈ Finset.range (bs.n ^ nd), qw bs.weight bs.n nd q * x q) := by
  have e1 : ∀ q ∈ Finset.range (bs.n ^ nd), qw bs.weight bs.n nd q * e.det q * ((st' (var, q) - st (var, q)) / e.tss q) =
      (upd / e.size) * (qw bs.weight bs.n nd q * x q) := by
    intro q hq
    have hq := Finset.mem_range.1 hq
    rw [h q hq, ← det_mult upd e q (hd q hq) (ht q hq)]; ring
  rw [elemChange, Finset.sum_congr rfl e1, ← Finset.mul_sum, ← size_pow hs hnd]
  ring

/-- What `Local` does in the first stage. -/
theorem local_change {bs : BasisData} (h : Conservative bs) (p : Pde) (hM : p.blockSize = p.nUpdate) (idx : Nat → Nat) (ha : p.Additive idx) (nd : Nat) (hnd : 1 ≤ nd) (o : Opts) (ho : o.stage = false)
    (hr : o.residual = false) (e : ElemRec) (hs : 0 < e.size) (hd : ∀ q < bs.n ^ nd, e.det q ≠ 0) (ht : ∀ q < bs.n ^ nd, e.tss q ≠ 0) (state cache : Arr) (faces visc : Nat → Mem)
    (v : Nat) (hv : v < p.nUpdate) :
    elemChange bs nd e state (localKernel p bs nd o e state cache faces visc).state (idx v) =
      o.update * (if p.hasSource = true then e.size ^ nd * ∑ q ∈ Finset.range (bs.n ^ nd), qw bs.weight bs.n nd q * e.det q * p.source (fun u => state (u, q)) v else 0) -
      o.update * (e.size ^ (nd - 1) * ((if p.hasConv then outflow bs nd faces v else 0) + if p.hasDiff then outflow bs nd (localKernel p bs nd o e state cache faces visc).visc v else 0)) := by
  obtain ⟨r1, r2⟩ := quadE_localRate h p hM nd o e state faces visc v hv
  rw [change_of_update bs nd hnd e hs hd ht o.update state _ (idx v)
    (fun q => (localRate p bs nd o e state faces visc).1 (v, q) + if (p.hasDiff || p.hasSource) = true then (localRate p bs nd o e state faces visc).1 (p.blockSize + v, q) else 0) (by
      intro q _
      simp only [localKernel]
      rw [ha _ _ _ v hv]
      simp only [ho, hr, Bool.false_eq_true, if_false]
      split <;> simp)]
  have e1 : ∑ q ∈ Finset.range (bs.n ^ nd), qw bs.weight bs.n nd q * ((localRate p bs nd o e state faces visc).1 (v, q) +
      if (p.hasDiff || p.hasSource) = true then (localRate p bs nd o e state faces visc).1 (p.blockSize + v, q) else 0) =
      quadE bs nd (localRate p bs nd o e state faces visc).1 v + if (p.hasDiff || p.hasSource) = true then quadE bs nd (localRate p bs nd o e state faces visc).1 (p.blockSize + v) else 0 := by
    simp only [mul_add, Finset.sum_add_distrib]
    congr 1
    split
    · rfl
    · simp
  rw [e1, r1, r2]
  simp only [ho, and_true]
  have e2 : (localKernel p bs nd o e state cache faces visc).visc = (localRate p bs nd o e state faces visc).2 := rfl
  rw [e2, ← size_pow hs hnd]
  have hs' := hs.ne'
  generalize (if p.hasConv = true then outflow bs nd faces v else 0) = C
  cases p.hasDiff <;> cases p.hasSource <;> simp <;> field_simp <;> ring

/-- What is kept for the second stage. -/
theorem local_cache {bs : BasisData} (h : Conservative bs) (p : Pde) (hM : p.blockSize = p.nUpdate) (hc : p.hasConv = true) (nd : Nat) (o : Opts) (ho : o.stage = false)
    (hr : o.residual = false) (e : ElemRec) (state cache : Arr) (faces visc : Nat → Mem) (v : Nat) (hv : v < p.nUpdate) :
    quadE bs nd (localKernel p bs nd o e state cache faces visc).cache v = -outflow bs nd faces v := by
  obtain ⟨r1, _⟩ := quadE_localRate h p hM nd o e state faces visc v hv
  rw [hc, if_pos rfl] at r1
  rw [← r1]
  refine Finset.sum_congr rfl fun q _ => ?_
  simp [localKernel, hv, hr, ho, hc]

/-- What `Local` does in the second stage. -/
theorem local_change2 {bs : BasisData} (h : Conservative bs) (p : Pde) (hM : p.blockSize = p.nUpdate) (hc : p.hasConv = true) (idx : Nat → Nat) (ha : p.Additive idx) (nd : Nat) (hnd : 1 ≤ nd) (o : Opts)
    (ho : o.stage = true) (hr : o.residual = false) (e : ElemRec) (hs : 0 < e.size) (hd : ∀ q < bs.n ^ nd, e.det q ≠ 0) (ht : ∀ q < bs.n ^ nd, e.tss q ≠ 0) (state cache : Arr) (faces visc : Nat → Mem)
    (v : Nat) (hv : v < p.nUpdate) :
    elemChange bs nd e state (localKernel p bs nd o e state cache faces visc).state (idx v) =
      -(o.update * (e.size ^ (nd - 1) * (outflow bs nd faces v + quadE bs nd cache v))) := by
  obtain ⟨r1, _⟩ := quadE_localRate h p hM nd o e state faces visc v hv
  rw [hc, if_pos rfl] at r1
  rw [change_of_update bs nd hnd e hs hd ht o.update state _ (idx v) (fun q => (localRate p bs nd o e state faces visc).1 (v, q) - cache (v, q)) (by
      intro q _
      simp only [localKernel]
      rw [ha _ _ _ v hv]
      simp only [ho, hr, Bool.false_eq_true, if_false, if_true])]
  have e1 : ∑ q ∈ Finset.range (bs.n ^ nd), qw bs.weight bs.n nd q * ((localRate p bs nd o e state faces visc).1 (v, q) - cache (v, q)) = quadE bs nd (localRate p bs nd o e state faces visc).1 v - quadE bs nd cache v := by
    simp only [mul_sub, Finset.sum_sub_distrib, quadE]
  rw [e1, r1]; ring

/-- What `Reconcile_ldg_flux` does. -/
theorem reconcile_change {bs : BasisData} (h : Conservative bs) (p : Pde) (idx : Nat → Nat) (ha : p.Additive idx) (nd : Nat) (hnd : 1 ≤ nd) (o : Opts) (hr : o.residual = false) (e : ElemRec) (hs : 0 < e.size)
    (hd : ∀ q < bs.n ^ nd, e.det q ≠ 0) (ht : ∀ q < bs.n ^ nd, e.tss q ≠ 0) (state cache : Arr) (faces visc : Nat → Mem) (v : Nat) (hv : v < p.nUpdate) :
    elemChange bs nd e state (reconcileKernel p bs nd o e state cache faces visc).state (idx v) =
      -(o.update * (e.size ^ (nd - 1) * outflow bs nd visc v)) := by
  let rate0 : Arr := overRows nd bs.n (fun rate i_dim r =>
    writeRow p.nUpdate (fun i v => -Basis.boundaryTerm bs.weight bs.bound (fun s => readBound visc r s v) i) rate 0 r 1) fun _ => 0
  let rate : Arr := if o.useFilter then applyFilter bs nd p.nUpdate rate0 else rate0
  have hf : quadE bs nd rate v = quadE bs nd rate0 v := by
    simp only [rate]
    split
    · exact quadE_filter h nd _ _ v
    · rfl
  have h0 : quadE bs nd rate0 v = -outflow bs nd visc v := by
    have out : outflow bs nd visc v = ∑ d ∈ Finset.range nd, ∑ k ∈ Finset.range (bs.n ^ (nd - 1)), qw bs.weight bs.n (nd - 1) k *
        (readBound visc (RowIndex.after nd bs.n d k) 1 v - readBound visc (RowIndex.after nd bs.n d k) 0 v) := by
      refine Finset.sum_congr rfl fun d hd => ?_
      rw [quadF, quadF, ← Finset.sum_sub_distrib]
      refine Finset.sum_congr rfl fun k _ => ?_
      have hfd := after_fields nd bs.n d h.pos (Finset.mem_range.1 hd) k
      simp only [readBound, hfd.1, hfd.2.2.1, hfd.2.2.2, Nat.mul_comm d 2, Nat.add_zero]; ring
    simp only [rate0]
    rw [overRows_eq nd bs.n h.pos, out, ← sum_dk nd bs.n fun d k => qw bs.weight bs.n (nd - 1) k *
        (readBound visc (RowIndex.after nd bs.n d k) 1 v - readBound visc (RowIndex.after nd bs.n d k) 0 v)]
    have : ∀ (l : List (Nat × Nat)) (m : Arr), (∀ x ∈ l, x.1 < nd ∧ x.2 < bs.n ^ (nd - 1)) →
        quadE bs nd (l.foldl (fun rate p_1 => writeRow p.nUpdate (fun i v => -Basis.boundaryTerm bs.weight bs.bound (fun s => readBound visc (RowIndex.after nd bs.n p_1.1 p_1.2) s v) i) rate 0 (RowIndex.after nd bs.n p_1.1 p_1.2) 1) m) v =
        quadE bs nd m v - (l.map fun p => qw bs.weight bs.n (nd - 1) p.2 * (readBound visc (RowIndex.after nd bs.n p.1 p.2) 1 v - readBound visc (RowIndex.after nd bs.n p.1 p.2) 0 v)).sum := by
      intro l
      induction l with
      | nil => intro m _; simp
      | cons x l ih =>
        intro m hl
        have hx := hl x (by simp)
        rw [List.foldl_cons, ih _ fun y hy => hl y (by simp [hy]), quadE_writeRow bs h.pos nd x.1 x.2 hx.1 hx.2, if_pos ⟨by omega, by omega⟩, List.map_cons, List.sum_cons]
        have : ∑ i ∈ Finset.range bs.n, bs.weight i * ((1 - 1) * m (v, pt nd bs.n x.1 x.2 i) + -Basis.boundaryTerm bs.weight bs.bound (fun s => readBound visc (RowIndex.after nd bs.n x.1 x.2) s (v - 0)) i) =
            -(readBound visc (RowIndex.after nd bs.n x.1 x.2) 1 v - readBound visc (RowIndex.after nd bs.n x.1 x.2) 0 v) := by
          rw [← h.bterm (fun s => readBound visc (RowIndex.after nd bs.n x.1 x.2) s v), ← Finset.sum_neg_distrib]
          refine Finset.sum_congr rfl fun i _ => ?_
          rw [Nat.sub_zero]; ring
        rw [this]; ring
    rw [this _ _ fun x hx => mem_dk.1 hx]
    have z : quadE bs nd (fun _ => 0) v = 0 := by simp [quadE]
    rw [z, zero_sub]
  rw [change_of_update bs nd hnd e hs hd ht o.update state _ (idx v) (fun q => rate (v, q)) (by
      intro q _
      simp only [reconcileKernel, hr, Bool.false_eq_true, if_false]
      rw [ha _ _ _ v hv])]
  have e1 : ∑ q ∈ Finset.range (bs.n ^ nd), qw bs.weight bs.n nd q * rate (v, q) = quadE bs nd rate v := rfl
  rw [e1, hf, h0]; ring

/-! ## The faces of a mesh -/

/-- +1 / -1 for buffers on upper / lower faces. -/
noncomputable def Mesh.bufSign (m : Mesh) (b : Buf) : ℝ :=
  match m.faceOf b with
  | some (_, f) => outSign (f % 2 == 1)
  | none => 0

/-- The outward flux through a face buffer that contains the flux `x`. -/
noncomputable def Mesh.outF (m : Mesh) (b : Buf) (x : ℝ) : ℝ := m.bufSize b ^ (m.nd - 1) * (m.bufSign b * x)

theorem outflow_eq (bs : BasisData) (nd : Nat) (faces : Nat → Mem) (v : Nat) :
    outflow bs nd faces v = ((List.range (2 * nd)).map fun f => outSign (f % 2 == 1) * quadF bs nd (faces f) v).sum := by
  rw [outflow]
  generalize hq : (fun f => quadF bs nd (faces f) v) = g
  have hg : ∀ f, quadF bs nd (faces f) v = g f := fun f => by rw [← hq]
  simp only [hg]
  clear hq hg
  induction nd with
  | zero => simp
  | succ m ih =>
    rw [Finset.sum_range_succ, ih, show 2 * (m + 1) = 2 * m + 1 + 1 by omega, List.range_succ, List.range_succ]
    simp only [List.map_append, List.sum_append, List.map_cons, List.map_nil, List.sum_cons, List.sum_nil]
    have e1 : ((2 * m) % 2 == 1) = false := by simp
    have e2 : ((2 * m + 1) % 2 == 1) = true := by simp
    rw [e1, e2]; simp [outSign]; ring

/-- The sum over elements of the outward fluxes is the sum over element faces. -/
theorem elemFaces_sum (bs : BasisData) (m : Mesh) (x : Buf → Mem) (v : Nat) :
    (m.elems.map fun e => (m.elem e).size ^ (m.nd - 1) * outflow bs m.nd (fun f => x (.elem e f)) v).sum =
      (m.elemFaces.map fun b => m.outF b (quadF bs m.nd (x b) v)).sum := by
  rw [Mesh.elemFaces]
  generalize m.elems = l
  induction l with
  | nil => rfl
  | cons e l ih =>
    rw [List.map_cons, List.sum_cons, List.flatMap_cons, List.map_append, List.sum_append, ih, outflow_eq, ← List.sum_map_mul_left, List.map_map]
    rfl

/-- Bookkeeping: if the coarse faces carry the sum of what their parts carry, and the two sides of each connection carry opposite amounts, then
all element faces together carry what the connections to ghost faces carry. -/
theorem face_balance {m : Mesh} {bs : BasisData} (hm : m.Ok bs) (S1 S2 : Buf → ℝ) (Q : ConRec → ℝ)
    (ha : ∀ b ∈ m.elemFaces, b ∉ m.coarseBufs → S2 b = S1 b)
    (hb : ∀ r ∈ m.refs, S2 r.coarse = ((List.range (nFace m.nd r.str)).map fun i => S1 (r.fine i)).sum)
    (h0 : ∀ c ∈ m.cons, S1 (c.side false) = Q c)
    (h1 : ∀ c ∈ m.cons, S1 (c.side true) = if (c.side true).isGhost then 0 else -Q c)
    (hg : ∀ b, b.isGhost = true → S1 b = 0) :
    (m.elemFaces.map S2).sum = ((m.cons.filter fun c => (c.side true).isGhost).map Q).sum := by
  classical
  let T : Buf → ℝ := fun b => if b ∈ m.coarseBufs then S2 b else S1 b
  have hp := (hm.cover.map T).sum_eq
  simp only [List.map_append, List.sum_append] at hp
  have hdis : ∀ b ∈ m.sides, b ∉ m.coarseBufs := fun b h1 h2 => (List.nodup_append.1 hm.nodup).2.2 b h1 b h2 rfl
  have e1 : (m.sides.map T).sum = (m.sides.map S1).sum := by
    congr 1
    refine List.map_congr_left fun b hb => ?_
    simp only [T]; rw [if_neg (hdis b hb)]
  have e2 : (m.coarseBufs.map T).sum = (m.fineBufs.map S1).sum := by
    have : m.coarseBufs.map T = m.coarseBufs.map S2 := List.map_congr_left fun b hb => by simp only [T]; rw [if_pos hb]
    rw [this, Mesh.coarseBufs, Mesh.fineBufs, List.map_map]
    have : ∀ l : List RefRec, (∀ r ∈ l, r ∈ m.refs) → (l.map (S2 ∘ RefRec.coarse)).sum = ((l.flatMap fun r => (List.range (nFace m.nd r.str)).map r.fine).map S1).sum := by
      intro l
      induction l with
      | nil => intro _; rfl
      | cons r l ih =>
        intro hl
        rw [List.map_cons, List.sum_cons, List.flatMap_cons, List.map_append, List.sum_append, ih fun r hr => hl r (by simp [hr]), Function.comp_apply, hb r (hl r (by simp)), List.map_map]
        rfl
    exact this _ fun _ h => h
  have e3 : (m.elemFaces.map T).sum = (m.elemFaces.map S2).sum := by
    congr 1
    refine List.map_congr_left fun b hb => ?_
    simp only [T]
    split
    · rfl
    · next h => exact (ha b hb h).symm
  have e4 : (m.fineBufs.map T).sum = (m.fineBufs.map S1).sum := by
    congr 1
    refine List.map_congr_left fun b hb => ?_
    simp only [T]
    rw [if_neg]
    intro hc
    rw [Mesh.fineBufs, List.mem_flatMap] at hb
    obtain ⟨r, hr, hb⟩ := hb
    obtain ⟨i, hi, rfl⟩ := List.mem_map.1 hb
    obtain ⟨r', hr', e⟩ := List.mem_map.1 hc
    obtain ⟨k, hk⟩ := List.mem_iff_getElem?.1 hr
    obtain ⟨k', hk'⟩ := List.mem_iff_getElem?.1 hr'
    obtain ⟨⟨e', f', h1⟩, _⟩ := hm.fine k' r' hk'
    have h2 := (hm.fine k r hk).2 i (List.mem_range.1 hi)
    rw [h1, h2] at e
    exact absurd e (by simp)
  have e5 : ((m.sides.filter Buf.isGhost).map T).sum = 0 := by
    refine List.sum_eq_zero ?_
    intro x hx
    obtain ⟨b, hb, rfl⟩ := List.mem_map.1 hx
    rw [List.mem_filter] at hb
    simp only [T]
    rw [if_neg (hdis b hb.1), hg b hb.2]
  have e6 : (m.sides.map S1).sum = ((m.cons.filter fun c => (c.side true).isGhost).map Q).sum := by
    rw [Mesh.sides]
    have : ∀ l : List ConRec, (∀ c ∈ l, c ∈ m.cons) → ((l.flatMap fun c => [c.side false, c.side true]).map S1).sum = ((l.filter fun c => (c.side true).isGhost).map Q).sum := by
      intro l
      induction l with
      | nil => intro _; rfl
      | cons c l ih =>
        intro hl
        have hc := hl c (by simp)
        rw [List.flatMap_cons, List.map_append, List.sum_append, ih fun c hc => hl c (by simp [hc]), List.filter_cons]
        simp only [List.map_cons, List.map_nil, List.sum_cons, List.sum_nil, add_zero]
        rw [h0 c hc, h1 c hc]
        cases (c.side true).isGhost <;> simp
    exact this _ fun _ h => h
  rw [e1, e2, e3, e4, e5, e6] at hp
  linarith

/-! ## Facts about the buffers of a well-formed mesh -/

theorem Mesh.Ok.sides_nodup {m : Mesh} {bs : BasisData} (h : m.Ok bs) : (sidesOf m.cons).Nodup := (List.nodup_append.1 h.nodup).1

theorem Mesh.Ok.refs_nodup {m : Mesh} {bs : BasisData} (h : m.Ok bs) : (m.refs.flatMap (refBufs m.nd)).Nodup := by
  have hnd := h.cover.nodup_iff.1 h.nodup
  have hfn : m.fineBufs.Nodup := (List.nodup_append.1 (List.nodup_append.1 hnd).1).2.1
  have hcn : m.coarseBufs.Nodup := (List.nodup_append.1 h.nodup).2.1
  have hd : ∀ r ∈ m.refs, ∀ r' ∈ m.refs, ∀ i < nFace m.nd r'.str, r.coarse ≠ r'.fine i := by
    intro r hr r' hr' i hi e
    obtain ⟨k, hk⟩ := List.mem_iff_getElem?.1 hr
    obtain ⟨k', hk'⟩ := List.mem_iff_getElem?.1 hr'
    obtain ⟨⟨e', f', h1⟩, _⟩ := h.fine k r hk
    have h2 := (h.fine k' r' hk').2 i hi
    rw [h1, h2] at e
    exact absurd e (by simp)
  have : ∀ l : List RefRec, (∀ r ∈ l, r ∈ m.refs) → (l.map RefRec.coarse).Nodup → (l.flatMap fun r => (List.range (nFace m.nd r.str)).map r.fine).Nodup → (l.flatMap (refBufs m.nd)).Nodup := by
    intro l
    induction l with
    | nil => intro _ _ _; simp
    | cons r l ih =>
      intro hl hc hf
      rw [List.flatMap_cons, List.nodup_append] at hf ⊢
      rw [List.map_cons, List.nodup_cons] at hc
      refine ⟨?_, ih (fun r hr => hl r (by simp [hr])) hc.2 hf.2.1, ?_⟩
      · rw [refBufs, List.nodup_cons]
        refine ⟨?_, hf.1⟩
        intro hm
        obtain ⟨i, hi, e⟩ := List.mem_map.1 hm
        exact hd r (hl r (by simp)) r (hl r (by simp)) i (List.mem_range.1 hi) e.symm
      · intro b hb b' hb' e
        subst e
        obtain ⟨r', hr', hb'⟩ := List.mem_flatMap.1 hb'
        rw [refBufs, List.mem_cons] at hb hb'
        rcases hb with rfl | hb <;> rcases hb' with e | hb'
        · exact hc.1 (List.mem_map.2 ⟨r', hr', e.symm⟩)
        · obtain ⟨i, hi, e⟩ := List.mem_map.1 hb'
          exact hd r (hl r (by simp)) r' (hl r' (by simp [hr'])) i (List.mem_range.1 hi) e.symm
        · subst e
          obtain ⟨i, hi, e⟩ := List.mem_map.1 hb
          exact hd r' (hl r' (by simp [hr'])) r (hl r (by simp)) i (List.mem_range.1 hi) e.symm
        · exact hf.2.2 b hb b (List.mem_flatMap.2 ⟨r', hr', hb'⟩) rfl
  exact this _ (fun _ h => h) hcn hfn

theorem Mesh.Ok.elems_nodup {m : Mesh} {bs : BasisData} (h : m.Ok bs) : m.elems.Nodup := by
  have hnd := h.cover.nodup_iff.1 h.nodup
  have hfn : m.elemFaces.Nodup := (List.nodup_append.1 (List.nodup_append.1 hnd).1).1
  have hd := h.dim.1
  refine List.Nodup.of_map (fun e => Buf.elem e 0) ?_
  refine List.Sublist.nodup ?_ hfn
  rw [Mesh.elemFaces]
  clear hfn hnd h
  generalize m.elems = l
  induction l with
  | nil => simp
  | cons e l ih =>
    rw [List.map_cons, List.flatMap_cons]
    obtain ⟨k, hk⟩ : ∃ k, 2 * m.nd = k + 1 := ⟨2 * m.nd - 1, by omega⟩
    rw [hk, List.range_succ_eq_map, List.map_cons, List.cons_append]
    rw [hk, List.range_succ_eq_map] at ih
    exact List.Sublist.cons_cons _ (ih.trans (List.sublist_append_right _ _))

/-- Coarse faces are no sides of connections. -/
theorem Mesh.Ok.coarse_side {m : Mesh} {bs : BasisData} (h : m.Ok bs) {r : RefRec} (hr : r ∈ m.refs) : r.coarse ∉ sidesOf m.cons :=
  fun hs => (List.nodup_append.1 h.nodup).2.2 _ hs _ (List.mem_map.2 ⟨r, hr, rfl⟩) rfl

theorem Mesh.Ok.fine_side {m : Mesh} {bs : BasisData} (h : m.Ok bs) {r : RefRec} (hr : r ∈ m.refs) {i : Nat} (hi : i < nFace m.nd r.str) : r.fine i ∈ sidesOf m.cons := by
  have hf : r.fine i ∈ m.fineBufs := List.mem_flatMap.2 ⟨r, hr, List.mem_map.2 ⟨i, List.mem_range.2 hi, rfl⟩⟩
  have := h.cover.mem_iff.2 (List.mem_append.2 (Or.inl (List.mem_append.2 (Or.inr hf))))
  rcases List.mem_append.1 this with h1 | h1
  · exact h1
  · obtain ⟨r', hr', e⟩ := List.mem_map.1 h1
    obtain ⟨k, hk⟩ := List.mem_iff_getElem?.1 hr
    obtain ⟨k', hk'⟩ := List.mem_iff_getElem?.1 hr'
    obtain ⟨⟨e', f', h1⟩, _⟩ := h.fine k' r' hk'
    have h2 := (h.fine k r hk).2 i hi
    rw [h1, h2] at e
    exact absurd e (by simp)

/-- An element face that is not coarse is not part of a refined face. -/
theorem Mesh.Ok.elem_not_ref {m : Mesh} {bs : BasisData} (h : m.Ok bs) {e f : Nat} (hc : Buf.elem e f ∉ m.coarseBufs) : Buf.elem e f ∉ m.refs.flatMap (refBufs m.nd) := by
  intro hb
  obtain ⟨r, hr, hb⟩ := List.mem_flatMap.1 hb
  rw [refBufs, List.mem_cons] at hb
  rcases hb with h1 | h1
  · exact hc (List.mem_map.2 ⟨r, hr, h1.symm⟩)
  · obtain ⟨i, hi, e1⟩ := List.mem_map.1 h1
    obtain ⟨k, hk⟩ := List.mem_iff_getElem?.1 hr
    rw [(h.fine k r hk).2 i (List.mem_range.1 hi)] at e1
    exact absurd e1 (by simp)

theorem Mesh.elemFaces_elem {m : Mesh} {b : Buf} (h : b ∈ m.elemFaces) : ∃ e ∈ m.elems, ∃ f < 2 * m.nd, b = .elem e f := by
  obtain ⟨e, he, hb⟩ := List.mem_flatMap.1 h
  obtain ⟨f, hf, rfl⟩ := List.mem_map.1 hb
  exact ⟨e, he, f, List.mem_range.1 hf, rfl⟩

theorem Mesh.elemFaces_mem {m : Mesh} {e f : Nat} (he : e ∈ m.elems) (hf : f < 2 * m.nd) : Buf.elem e f ∈ m.elemFaces :=
  List.mem_flatMap.2 ⟨e, he, List.mem_map.2 ⟨f, List.mem_range.2 hf, rfl⟩⟩

/-- The sign of a side of a connection. -/
theorem Mesh.Ok.sign {m : Mesh} {bs : BasisData} (h : m.Ok bs) {c : ConRec} (hc : c ∈ m.cons) (s : Bool) (hg : (c.side s).isGhost = false) :
    m.bufSign (c.side s) = outSign (c.dir.faceSign s) := by
  obtain ⟨e, he⟩ := h.face c hc s hg
  rw [Mesh.bufSign, he]
  simp only
  congr 1
  cases c.dir.faceSign s <;> simp <;> omega

theorem Mesh.ghost_outF (m : Mesh) (b : Buf) (h : b.isGhost = true) (x : ℝ) : m.outF b x = 0 := by
  cases b with
  | ghost c => simp [Mesh.outF, Mesh.bufSign, Mesh.faceOf]
  | elem e f => simp [Buf.isGhost] at h
  | mortar e f => simp [Buf.isGhost] at h

/-- Mortar faces have the sign of the coarse face and half its size. -/
theorem Mesh.Ok.fine_outF {m : Mesh} {bs : BasisData} (h : m.Ok bs) {r : RefRec} (hr : r ∈ m.refs) {i : Nat} (hi : i < nFace m.nd r.str) (x : ℝ) :
    m.outF (r.fine i) x = m.outF r.coarse ((1 / 2) ^ (m.nd - 1) * x) := by
  obtain ⟨k, hk⟩ := List.mem_iff_getElem?.1 hr
  obtain ⟨⟨e, f, h1⟩, h2⟩ := h.fine k r hk
  rw [h2 i hi, h1]
  have hf : m.faceOf (.mortar k i) = some (e, f) := by simp [Mesh.faceOf, hk, h1]
  simp only [Mesh.outF, Mesh.bufSign, Mesh.bufSize, hf]
  simp only [Mesh.faceOf]
  rw [div_pow, one_div, inv_pow]
  field_simp

end Hexed.Spatial
