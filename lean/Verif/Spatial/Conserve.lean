import Verif.Spatial.Balance
set_option autoImplicit false
set_option linter.unusedVariables false

/-!
# The balance of a whole mesh over one stage
-/

namespace Hexed.Spatial
open Hexed.Connection (Dir matchFaces restore strAt Legal)

theorem outF_add (m : Mesh) (b : Buf) (x y : ℝ) : m.outF b (x + y) = m.outF b x + m.outF b y := by
  simp only [Mesh.outF]; ring

theorem outF_sum (m : Mesh) (b : Buf) (l : List Nat) (f : Nat → ℝ) : m.outF b ((l.map f).sum) = (l.map fun i => m.outF b (f i)).sum := by
  induction l with
  | nil => simp [Mesh.outF]
  | cons a l ih => simp only [List.map_cons, List.sum_cons, outF_add, ih]

/-- After restriction a coarse face carries what its mortar faces carried. -/
theorem coarse_restricted {bs : BasisData} (hb : Conservative bs) {m : Mesh} (hm : m.Ok bs) (p : Pde) (off : Bool) (buf : Buf → Bool → Mem) (r : RefRec) (hr : r ∈ m.refs) (v : Nat) (hv : v < p.nExtrap) :
    m.outF r.coarse (quadF bs m.nd (m.refs.foldl (restrictRef p bs m.nd true off) buf r.coarse off) v) =
      ((List.range (nFace m.nd r.str)).map fun i => m.outF (r.fine i) (quadF bs m.nd (buf (r.fine i) off) v)).sum := by
  have h1 := (restrict_fold p bs hb.pos m.nd true off m.refs buf hm.refs_nodup).1 r hr
  have e1 : quadF bs m.nd (m.refs.foldl (restrictRef p bs m.nd true off) buf r.coarse off) v =
      ((List.range (nFace m.nd r.str)).map fun i => (1 / 2) ^ (m.nd - 1) * quadF bs m.nd (buf (r.fine i) off) v).sum := by
    rw [Basis.range_sum, quadF]
    have : ∀ k ∈ Finset.range (bs.n ^ (m.nd - 1)), qw bs.weight bs.n (m.nd - 1) k * m.refs.foldl (restrictRef p bs m.nd true off) buf r.coarse off (v * bs.n ^ (m.nd - 1) + k) =
        ∑ i ∈ Finset.range (nFace m.nd r.str), qw bs.weight bs.n (m.nd - 1) k * restricted bs m.nd true r i (buf (r.fine i) off) v k := by
      intro k hk
      rw [h1.1 v hv k (Finset.mem_range.1 hk), Finset.mul_sum]
    rw [Finset.sum_congr rfl this, Finset.sum_comm]
    refine Finset.sum_congr rfl fun i _ => ?_
    rw [quadF_eq, ← quadB_restrict hb m.nd r.str i]
    rfl
  rw [e1, outF_sum]
  congr 1
  refine List.map_congr_left fun i hi => ?_
  rw [hm.fine_outF hr (List.mem_range.1 hi)]

/-- All element faces together carry, after `Neighbor` and `Restrict_refined`, the flux through the boundary. -/
theorem conv_faces {bs : BasisData} (hb : Conservative bs) {m : Mesh} (hm : m.Ok bs) (p : Pde) (hc : p.hasConv = true) (hu : p.nUpdate ≤ p.nExtrap) (w : World) (v : Nat) (hv : v < p.nUpdate) :
    (m.elems.map fun e => (m.elem e).size ^ (m.nd - 1) * outflow bs m.nd (fun f => (runRestrict p bs m true false (runNeighbor p bs m w)).buf (.elem e f) false) v).sum =
      m.boundaryFlux p bs w.buf v := by
  rw [elemFaces_sum bs m (fun b => (runRestrict p bs m true false (runNeighbor p bs m w)).buf b false) v]
  obtain ⟨n1, n2, _, _⟩ := cons_fold (fun c st => neighbor p m.nd bs.n c.deformed c.dir c.normal st) m.cons w hm.sides_nodup
  refine face_balance hm (fun b => m.outF b (quadF bs m.nd ((runNeighbor p bs m w).buf b false) v))
    (fun b => m.outF b (quadF bs m.nd ((runRestrict p bs m true false (runNeighbor p bs m w)).buf b false) v)) _ ?_ ?_ ?_ ?_ ?_
  · intro b hb' hnc
    obtain ⟨e, he, f, hf, rfl⟩ := Mesh.elemFaces_elem hb'
    simp only [runRestrict]
    rw [(restrict_fold p bs hb.pos m.nd true false m.refs _ hm.refs_nodup).2 _ _ (Or.inl (hm.elem_not_ref hnc))]
  · intro r hr
    exact coarse_restricted hb hm p false _ r hr v (by omega)
  · intro c hcm
    simp only [runNeighbor]
    rw [n1 c hcm false, Mesh.outF, hm.sign hcm false (hm.ghost c hcm), (neighbor_quad hb p hc hu m.nd hm.dim c (hm.legal c hcm).2 _ v hv).1]
  · intro c hcm
    simp only [runNeighbor]
    split
    · next hg => exact m.ghost_outF _ hg _
    · next hg =>
      have hg : (c.side true).isGhost = false := by simpa using hg
      rw [n1 c hcm true, Mesh.outF, hm.sign hcm true hg, (neighbor_quad hb p hc hu m.nd hm.dim c (hm.legal c hcm).2 _ v hv).2, ← hm.sizes c hcm hg, mul_neg]
  · intro b hg
    exact m.ghost_outF _ hg _

theorem sum_sub_map {α : Type} (l : List α) (f g : α → ℝ) : (l.map fun a => f a - g a).sum = (l.map f).sum - (l.map g).sum := by
  induction l with
  | nil => simp
  | cons a l ih => simp only [List.map_cons, List.sum_cons, ih]; ring

theorem sum_add_map {α : Type} (l : List α) (f g : α → ℝ) : (l.map fun a => f a + g a).sum = (l.map f).sum + (l.map g).sum := by
  induction l with
  | nil => simp
  | cons a l ih => simp only [List.map_cons, List.sum_cons, ih]; ring

/-- What the mesh needs apart from being well-formed: the time step scales do not vanish. -/
def Mesh.Stepping (m : Mesh) (bs : BasisData) : Prop := ∀ e ∈ m.elems, ∀ q < bs.n ^ m.nd, (m.elem e).tss q ≠ 0

theorem change_trans (m : Mesh) (bs : BasisData) (s0 s1 s2 : Nat → Arr) (var : Nat) : m.change bs s0 s2 var = m.change bs s0 s1 var + m.change bs s1 s2 var := by
  rw [Mesh.change, Mesh.change, Mesh.change, ← sum_add_map]
  congr 1
  refine List.map_congr_left fun e _ => ?_
  rw [elemChange, elemChange, elemChange, ← mul_add, ← Finset.sum_add_distrib]
  congr 1
  refine Finset.sum_congr rfl fun q _ => ?_
  rw [← mul_add, ← add_div]; congr 2; ring

theorem prolong_state (p : Pde) (bs : BasisData) (m : Mesh) (s o : Bool) (w : World) : (runProlong p bs m s o w).state = w.state ∧ (runProlong p bs m s o w).cache = w.cache := ⟨rfl, rfl⟩

/-- The first stage of an inviscid step. -/
theorem conv_stage0 {bs : BasisData} (hb : Conservative bs) {m : Mesh} (hm : m.Ok bs) (ht : m.Stepping bs) (p : Pde) (hc : p.hasConv = true) (hd : p.hasDiff = false) (hM : p.blockSize = p.nUpdate)
    (hu : p.nUpdate ≤ p.nExtrap) (idx : Nat → Nat) (ha : p.Additive idx) (sr dt : ℝ) (filter : Bool) (w w' : World) (hw : computeConvection p bs m sr dt false false filter w = some w')
    (v : Nat) (hv : v < p.nUpdate) :
    m.change bs w.state w'.state (idx v) = dt * m.totalSource p bs w.state v - dt * m.boundaryFlux p bs w.buf v ∧
    (m.elems.map fun e => (m.elem e).size ^ (m.nd - 1) * quadE bs m.nd (w'.cache e) v).sum = -m.boundaryFlux p bs w.buf v := by
  simp only [computeConvection, hd, Bool.false_and, Bool.or_self, Bool.false_eq_true, if_false, Option.some.injEq] at hw
  subst hw
  obtain ⟨n1, n2, n3, n4⟩ := cons_fold (fun c st => neighbor p m.nd bs.n c.deformed c.dir c.normal st) m.cons w hm.sides_nodup
  set w2 := runRestrict p bs m true false (runNeighbor p bs m w) with hw2
  have hst : w2.state = w.state := n3
  have hbf := conv_faces hb hm p hc hu w v hv
  rw [← hw2] at hbf
  obtain ⟨l1, _, _⟩ := elems_fold m.nd (fun e => localKernel p bs m.nd ⟨dt, false, false, filter⟩ (m.elem e)) m.elems w2 hm.elems_nodup
  constructor
  · rw [← hbf, Mesh.change, Mesh.totalSource]
    have e1 : ∀ e ∈ m.elems, elemChange bs m.nd (m.elem e) (w.state e) ((runLocal p bs m ⟨dt, false, false, filter⟩ w2).state e) (idx v) =
        dt * (if p.hasSource = true then (m.elem e).size ^ m.nd * ∑ q ∈ Finset.range (bs.n ^ m.nd), qw bs.weight bs.n m.nd q * (m.elem e).det q * p.source (fun u => w.state e (u, q)) v else 0) -
        dt * ((m.elem e).size ^ (m.nd - 1) * outflow bs m.nd (fun f => w2.buf (.elem e f) false) v) := by
      intro e he
      have hk : (runLocal p bs m ⟨dt, false, false, filter⟩ w2).state e = _ := (l1 e he).1
      rw [hk, ← hst]
      have := local_change hb p hM idx ha m.nd hm.dim.1 ⟨dt, false, false, filter⟩ rfl rfl (m.elem e) (hm.size e he) (hm.det e he) (ht e he) (w2.state e) (w2.cache e)
        (fun f => w2.buf (.elem e f) false) (fun f => w2.buf (.elem e f) true) v hv
      rw [hc, hd] at this
      simpa using this
    have e2 : (m.elems.map fun e => elemChange bs m.nd (m.elem e) (w.state e) ((runProlong p bs m false false (runLocal p bs m ⟨dt, false, false, filter⟩ w2)).state e) (idx v)) = _ := List.map_congr_left e1
    rw [e2, sum_sub_map, List.sum_map_mul_left, List.sum_map_mul_left]
    congr 2
    split
    · rfl
    · simp
  · rw [← hbf]
    have e1 : ∀ e ∈ m.elems, (m.elem e).size ^ (m.nd - 1) * quadE bs m.nd ((runLocal p bs m ⟨dt, false, false, filter⟩ w2).cache e) v =
        -1 * ((m.elem e).size ^ (m.nd - 1) * outflow bs m.nd (fun f => w2.buf (.elem e f) false) v) := by
      intro e he
      have hk : (runLocal p bs m ⟨dt, false, false, filter⟩ w2).cache e = _ := (l1 e he).2.1
      rw [hk, local_cache hb p hM hc m.nd ⟨dt, false, false, filter⟩ rfl rfl (m.elem e) (w2.state e) (w2.cache e) _ _ v hv]; ring
    have e2 : (m.elems.map fun e => (m.elem e).size ^ (m.nd - 1) * quadE bs m.nd ((runProlong p bs m false false (runLocal p bs m ⟨dt, false, false, filter⟩ w2)).cache e) v) = _ := List.map_congr_left e1
    rw [e2, List.sum_map_mul_left, neg_one_mul]

/-- The second stage of an inviscid step. -/
theorem conv_stage1 {bs : BasisData} (hb : Conservative bs) {m : Mesh} (hm : m.Ok bs) (ht : m.Stepping bs) (p : Pde) (hc : p.hasConv = true) (hd : p.hasDiff = false) (hM : p.blockSize = p.nUpdate)
    (hu : p.nUpdate ≤ p.nExtrap) (idx : Nat → Nat) (ha : p.Additive idx) (sr dt : ℝ) (filter : Bool) (w w' : World) (hw : computeConvection p bs m sr dt true false filter w = some w')
    (v : Nat) (hv : v < p.nUpdate) :
    m.change bs w.state w'.state (idx v) = -(dt * sr * (m.boundaryFlux p bs w.buf v + (m.elems.map fun e => (m.elem e).size ^ (m.nd - 1) * quadE bs m.nd (w.cache e) v).sum)) := by
  simp only [computeConvection, hd, Bool.false_and, Bool.and_false, Bool.or_self, Bool.false_eq_true, if_false, if_true, Option.some.injEq] at hw
  subst hw
  obtain ⟨n1, n2, n3, n4⟩ := cons_fold (fun c st => neighbor p m.nd bs.n c.deformed c.dir c.normal st) m.cons w hm.sides_nodup
  set w2 := runRestrict p bs m true false (runNeighbor p bs m w) with hw2
  have hst : w2.state = w.state := n3
  have hca : w2.cache = w.cache := n4
  have hbf := conv_faces hb hm p hc hu w v hv
  rw [← hw2] at hbf
  obtain ⟨l1, _, _⟩ := elems_fold m.nd (fun e => localKernel p bs m.nd ⟨dt * sr, true, false, filter⟩ (m.elem e)) m.elems w2 hm.elems_nodup
  rw [← hbf, Mesh.change]
  have e1 : ∀ e ∈ m.elems, elemChange bs m.nd (m.elem e) (w.state e) ((runLocal p bs m ⟨dt * sr, true, false, filter⟩ w2).state e) (idx v) =
      -(dt * sr) * ((m.elem e).size ^ (m.nd - 1) * outflow bs m.nd (fun f => w2.buf (.elem e f) false) v + (m.elem e).size ^ (m.nd - 1) * quadE bs m.nd (w.cache e) v) := by
    intro e he
    have hk : (runLocal p bs m ⟨dt * sr, true, false, filter⟩ w2).state e = _ := (l1 e he).1
    rw [hk, ← hst, ← hca, local_change2 hb p hM hc idx ha m.nd hm.dim.1 ⟨dt * sr, true, false, filter⟩ rfl rfl (m.elem e) (hm.size e he) (hm.det e he) (ht e he) (w2.state e) (w2.cache e)
      (fun f => w2.buf (.elem e f) false) (fun f => w2.buf (.elem e f) true) v hv]
    simp only; ring
  have e2 : (m.elems.map fun e => elemChange bs m.nd (m.elem e) (w.state e) ((runProlong p bs m false false (runLocal p bs m ⟨dt * sr, true, false, filter⟩ w2)).state e) (idx v)) = _ := List.map_congr_left e1
  rw [e2, List.sum_map_mul_left, sum_add_map]; ring

/-! ## Diffusion -/

/-- All element faces together carry, in the two passes of the diffusive scheme, the average diffusive flux through the boundary. -/
theorem diff_faces {bs : BasisData} (hb : Conservative bs) {m : Mesh} (hm : m.Ok bs) (p : Pde) (hu : p.nUpdate ≤ p.nExtrap) (bc : World → World) (hbc : GhostOnly bc) (w3 : World) (v : Nat) (hv : v < p.nUpdate) :
    (m.elems.map fun e => (m.elem e).size ^ (m.nd - 1) * outflow bs m.nd (fun f => w3.buf (.elem e f) true) v).sum +
    (m.elems.map fun e => (m.elem e).size ^ (m.nd - 1) *
      outflow bs m.nd (fun f => (runRestrict p bs m true true (runReconcileCons p bs m (bc (runProlong p bs m true true w3)))).buf (.elem e f) true) v).sum =
      m.boundaryFluxDiff p bs (bc (runProlong p bs m true true w3)).buf v := by
  set wp := runProlong p bs m true true w3 with hwp
  set w4 := bc wp with hw4
  set w5 := runReconcileCons p bs m w4 with hw5
  set w6 := runRestrict p bs m true true w5 with hw6
  rw [elemFaces_sum bs m (fun b => w3.buf b true) v, elemFaces_sum bs m (fun b => w6.buf b true) v, ← sum_add_map]
  obtain ⟨n1, n2, _, _⟩ := cons_fold (fun c st => neighborReconcile p m.nd bs.n c.deformed c.dir st) m.cons w4 hm.sides_nodup
  have hpf := prolong_fold p bs m.nd true true m.refs w3.buf hm.refs_nodup
  have hng : ∀ r ∈ m.refs, ∀ i < nFace m.nd r.str, (r.fine i).isGhost = false := by
    intro r hr i hi
    obtain ⟨k, hk⟩ := List.mem_iff_getElem?.1 hr
    rw [(hm.fine k r hk).2 i hi]; rfl
  refine face_balance hm (fun b => m.outF b (quadF bs m.nd (w5.buf b true) v + quadF bs m.nd (w4.buf b true) v))
    (fun b => m.outF b (quadF bs m.nd (w3.buf b true) v) + m.outF b (quadF bs m.nd (w6.buf b true) v)) _ ?_ ?_ ?_ ?_ ?_
  · intro b hb' hnc
    obtain ⟨e, he, f, hf, rfl⟩ := Mesh.elemFaces_elem hb'
    have h6 : w6.buf (.elem e f) true = w5.buf (.elem e f) true := by
      simp only [hw6, runRestrict]
      rw [(restrict_fold p bs hb.pos m.nd true true m.refs _ hm.refs_nodup).2 _ _ (Or.inl (hm.elem_not_ref hnc))]
    have h4 : w4.buf (.elem e f) true = w3.buf (.elem e f) true := by
      rw [hw4, (hbc wp).2.2 _ rfl, hwp]
      refine hpf.2 _ _ (Or.inl ?_)
      intro r hr i hi h
      obtain ⟨k, hk⟩ := List.mem_iff_getElem?.1 hr
      rw [(hm.fine k r hk).2 i hi] at h
      exact absurd h (by simp)
    simp only [h6, h4, outF_add]; ring
  · intro r hr
    have h6 := coarse_restricted hb hm p true w5.buf r hr v (by omega)
    have hq := quadF_prolong hb.pos hb.prolong m.nd hm.dim p.nExtrap r.str (w3.buf r.coarse true) (fun i => w3.buf (r.fine i) true) v (by omega)
    have h4 : ((List.range (nFace m.nd r.str)).map fun i => m.outF (r.fine i) (quadF bs m.nd (w4.buf (r.fine i) true) v)).sum = m.outF r.coarse (quadF bs m.nd (w3.buf r.coarse true) v) := by
      have e1 : ((List.range (nFace m.nd r.str)).map fun i => m.outF (r.fine i) (quadF bs m.nd (w4.buf (r.fine i) true) v)) =
          (List.range (nFace m.nd r.str)).map fun i => m.outF r.coarse ((1 / 2) ^ (m.nd - 1) * quadF bs m.nd (prolongFine bs m.nd p.nExtrap true r.str i (w3.buf r.coarse true) (w3.buf (r.fine i) true)) v) := by
        refine List.map_congr_left fun i hi => ?_
        have hi := List.mem_range.1 hi
        rw [hm.fine_outF hr hi, hw4, (hbc wp).2.2 _ (hng r hr i hi), hwp]
        simp only [runProlong]
        rw [hpf.1 r hr i hi]
      rw [e1, ← outF_sum, List.sum_map_mul_left, hq, ← mul_assoc, ← mul_pow]
      norm_num
    simp only [outF_add]
    rw [sum_add_map, h4, ← h6]
    simp only [hw6, runRestrict]; ring
  · intro c hcm
    simp only [hw5, runReconcileCons]
    rw [n1 c hcm false, Mesh.outF, hm.sign hcm false (hm.ghost c hcm), (reconcile_quad hb p hu m.nd hm.dim c (hm.legal c hcm).2 (fun s => w4.buf (c.side s)) v hv).1]
  · intro c hcm
    simp only [hw5, runReconcileCons]
    split
    · next hg => exact m.ghost_outF _ hg _
    · next hg =>
      have hg : (c.side true).isGhost = false := by simpa using hg
      rw [n1 c hcm true, Mesh.outF, hm.sign hcm true hg, (reconcile_quad hb p hu m.nd hm.dim c (hm.legal c hcm).2 (fun s => w4.buf (c.side s)) v hv).2, ← hm.sizes c hcm hg, mul_neg]
  · intro b hg
    exact m.ghost_outF _ hg _

/-- One stage of a viscous step. -/
theorem diff_stage0 {bs : BasisData} (hb : Conservative bs) {m : Mesh} (hm : m.Ok bs) (ht : m.Stepping bs) (p : Pde) (hd : p.hasDiff = true) (hM : p.blockSize = p.nUpdate)
    (hu : p.nUpdate ≤ p.nExtrap) (idx : Nat → Nat) (ha : p.Additive idx) (bc : World → World) (hbc : GhostOnly bc) (sr dt : ℝ) (filter : Bool) (w w' : World)
    (hw : computeDiffusion p bs m bc sr dt false false filter w = some w') (v : Nat) (hv : v < p.nUpdate) :
    m.change bs w.state w'.state (idx v) = dt * m.totalSource p bs w.state v - dt * (if p.hasConv then m.boundaryFlux p bs w.buf v else 0) -
      dt * m.boundaryFluxDiff p bs (ldgWorld p bs m bc ⟨dt, false, false, filter⟩ w).buf v := by
  simp only [computeDiffusion, Bool.and_false, Bool.or_self, Bool.false_eq_true, if_false, Bool.not_false, if_true, Option.some.injEq] at hw
  obtain ⟨n1, n2, n3, n4⟩ := cons_fold (fun c st => neighbor p m.nd bs.n c.deformed c.dir c.normal st) m.cons w hm.sides_nodup
  set w2 := runRestrict p bs m false true (runRestrict p bs m true false (runNeighbor p bs m w)) with hw2
  set w3 := runLocal p bs m ⟨dt, false, false, filter⟩ w2 with hw3
  have hl : ldgWorld p bs m bc ⟨dt, false, false, filter⟩ w = bc (runProlong p bs m true true w3) := rfl
  set w4 := bc (runProlong p bs m true true w3) with hw4
  set w6 := runRestrict p bs m true true (runReconcileCons p bs m w4) with hw6
  have hst : w2.state = w.state := n3
  obtain ⟨l1, _, _⟩ := elems_fold m.nd (fun e => localKernel p bs m.nd ⟨dt, false, false, filter⟩ (m.elem e)) m.elems w2 hm.elems_nodup
  obtain ⟨q1, _, _⟩ := elems_fold m.nd (fun e => reconcileKernel p bs m.nd ⟨dt, false, false, filter⟩ (m.elem e)) m.elems w6 hm.elems_nodup
  have h6 : w6.state = w3.state := by
    have : (runReconcileCons p bs m w4).state = w4.state := (cons_fold (fun c st => neighborReconcile p m.nd bs.n c.deformed c.dir st) m.cons w4 hm.sides_nodup).2.2.1
    have h2 : w4.state = (runProlong p bs m true true w3).state := (hbc _).1
    calc w6.state = (runReconcileCons p bs m w4).state := rfl
      _ = w3.state := by rw [this, h2]; rfl
  have hdf := diff_faces hb hm p hu bc hbc w3 v hv
  have hbuf : ∀ e f, w2.buf (.elem e f) false = (runRestrict p bs m true false (runNeighbor p bs m w)).buf (.elem e f) false := by
    intro e f
    rw [hw2]
    exact (restrict_fold p bs hb.pos m.nd false true m.refs _ hm.refs_nodup).2 _ _ (Or.inr (by simp))
  have ha1 : m.change bs w.state w3.state (idx v) = dt * m.totalSource p bs w.state v - dt * (if p.hasConv then m.boundaryFlux p bs w.buf v else 0) -
      dt * (m.elems.map fun e => (m.elem e).size ^ (m.nd - 1) * outflow bs m.nd (fun f => w3.buf (.elem e f) true) v).sum := by
    have e1 : ∀ e ∈ m.elems, elemChange bs m.nd (m.elem e) (w.state e) (w3.state e) (idx v) =
        (dt * (if p.hasSource = true then (m.elem e).size ^ m.nd * ∑ q ∈ Finset.range (bs.n ^ m.nd), qw bs.weight bs.n m.nd q * (m.elem e).det q * p.source (fun u => w.state e (u, q)) v else 0) -
        dt * (if p.hasConv = true then (m.elem e).size ^ (m.nd - 1) * outflow bs m.nd (fun f => (runRestrict p bs m true false (runNeighbor p bs m w)).buf (.elem e f) false) v else 0)) -
        dt * ((m.elem e).size ^ (m.nd - 1) * outflow bs m.nd (fun f => w3.buf (.elem e f) true) v) := by
      intro e he
      have hk : w3.state e = _ := (l1 e he).1
      have hv3 : outflow bs m.nd (fun f => w3.buf (.elem e f) true) v = outflow bs m.nd (localKernel p bs m.nd ⟨dt, false, false, filter⟩ (m.elem e) (w2.state e) (w2.cache e)
          (fun f => w2.buf (.elem e f) false) (fun f => w2.buf (.elem e f) true)).visc v := by
        refine Finset.sum_congr rfl fun d hd => ?_
        have hd := Finset.mem_range.1 hd
        have a1 := ((l1 e he).2.2 (2 * d + 1) (by omega)).2
        have a2 := ((l1 e he).2.2 (2 * d) (by omega)).2
        have a1' : w3.buf (.elem e (2 * d + 1)) true = _ := a1
        have a2' : w3.buf (.elem e (2 * d)) true = _ := a2
        simp only [a1', a2']
      have hf : (fun f => (runRestrict p bs m true false (runNeighbor p bs m w)).buf (.elem e f) false) = fun f => w2.buf (.elem e f) false := by
        funext f; rw [hbuf]
      rw [hk, ← hst, hv3, hf]
      have := local_change hb p hM idx ha m.nd hm.dim.1 ⟨dt, false, false, filter⟩ rfl rfl (m.elem e) (hm.size e he) (hm.det e he) (ht e he) (w2.state e) (w2.cache e)
        (fun f => w2.buf (.elem e f) false) (fun f => w2.buf (.elem e f) true) v hv
      rw [hd] at this
      rw [this]
      cases p.hasConv <;> simp <;> ring
    rw [Mesh.change, List.map_congr_left e1, sum_sub_map, sum_sub_map, List.sum_map_mul_left, List.sum_map_mul_left, List.sum_map_mul_left, Mesh.totalSource]
    congr 2
    · congr 2
      split
      · rfl
      · simp
    · cases hc : p.hasConv
      · simp
      · simp only [if_true]
        rw [conv_faces hb hm p hc hu w v hv]
  have ha2 : m.change bs w3.state (runReconcileElems p bs m ⟨dt, false, false, filter⟩ w6).state (idx v) =
      -(dt * (m.elems.map fun e => (m.elem e).size ^ (m.nd - 1) * outflow bs m.nd (fun f => w6.buf (.elem e f) true) v).sum) := by
    have e1 : ∀ e ∈ m.elems, elemChange bs m.nd (m.elem e) (w3.state e) ((runReconcileElems p bs m ⟨dt, false, false, filter⟩ w6).state e) (idx v) =
        -dt * ((m.elem e).size ^ (m.nd - 1) * outflow bs m.nd (fun f => w6.buf (.elem e f) true) v) := by
      intro e he
      have hk : (runReconcileElems p bs m ⟨dt, false, false, filter⟩ w6).state e = _ := (q1 e he).1
      rw [hk, ← h6, reconcile_change hb p idx ha m.nd hm.dim.1 ⟨dt, false, false, filter⟩ rfl (m.elem e) (hm.size e he) (hm.det e he) (ht e he) (w6.state e) (w6.cache e) _ _ v hv]
      simp only; ring
    rw [Mesh.change, List.map_congr_left e1, List.sum_map_mul_left]; ring
  have hs' : w'.state = (runReconcileElems p bs m ⟨dt, false, false, filter⟩ w6).state := by rw [← hw]; rfl
  rw [hs', change_trans m bs w.state w3.state, ha1, ha2, hl, ← hdf]
  simp only [← hw4, ← hw6]; ring

/-- What the first stage leaves in the cache for the second one. -/
theorem diff_cache {bs : BasisData} (hb : Conservative bs) {m : Mesh} (hm : m.Ok bs) (p : Pde) (hc : p.hasConv = true) (hM : p.blockSize = p.nUpdate)
    (hu : p.nUpdate ≤ p.nExtrap) (bc : World → World) (hbc : GhostOnly bc) (sr dt : ℝ) (filter : Bool) (w w' : World)
    (hw : computeDiffusion p bs m bc sr dt false false filter w = some w') (v : Nat) (hv : v < p.nUpdate) :
    (m.elems.map fun e => (m.elem e).size ^ (m.nd - 1) * quadE bs m.nd (w'.cache e) v).sum = -m.boundaryFlux p bs w.buf v := by
  simp only [computeDiffusion, Bool.and_false, Bool.or_self, Bool.false_eq_true, if_false, Bool.not_false, if_true, Option.some.injEq] at hw
  set w2 := runRestrict p bs m false true (runRestrict p bs m true false (runNeighbor p bs m w)) with hw2
  set w3 := runLocal p bs m ⟨dt, false, false, filter⟩ w2 with hw3
  set w4 := bc (runProlong p bs m true true w3) with hw4
  set w6 := runRestrict p bs m true true (runReconcileCons p bs m w4) with hw6
  obtain ⟨l1, _, _⟩ := elems_fold m.nd (fun e => localKernel p bs m.nd ⟨dt, false, false, filter⟩ (m.elem e)) m.elems w2 hm.elems_nodup
  obtain ⟨q1, _, _⟩ := elems_fold m.nd (fun e => reconcileKernel p bs m.nd ⟨dt, false, false, filter⟩ (m.elem e)) m.elems w6 hm.elems_nodup
  have h6 : w6.cache = w3.cache := by
    have : (runReconcileCons p bs m w4).cache = w4.cache := (cons_fold (fun c st => neighborReconcile p m.nd bs.n c.deformed c.dir st) m.cons w4 hm.sides_nodup).2.2.2
    have h2 : w4.cache = (runProlong p bs m true true w3).cache := (hbc _).2.1
    calc w6.cache = (runReconcileCons p bs m w4).cache := rfl
      _ = w3.cache := by rw [this, h2]; rfl
  have hbuf : ∀ e f, w2.buf (.elem e f) false = (runRestrict p bs m true false (runNeighbor p bs m w)).buf (.elem e f) false := by
    intro e f
    rw [hw2]
    exact (restrict_fold p bs hb.pos m.nd false true m.refs _ hm.refs_nodup).2 _ _ (Or.inr (by simp))
  rw [← conv_faces hb hm p hc hu w v hv]
  have e1 : ∀ e ∈ m.elems, (m.elem e).size ^ (m.nd - 1) * quadE bs m.nd (w'.cache e) v =
      -1 * ((m.elem e).size ^ (m.nd - 1) * outflow bs m.nd (fun f => (runRestrict p bs m true false (runNeighbor p bs m w)).buf (.elem e f) false) v) := by
    intro e he
    have hk : w'.cache e = w3.cache e := by
      rw [← hw, ← h6]
      exact (q1 e he).2.1
    have hk3 : w3.cache e = _ := (l1 e he).2.1
    have hf : (fun f => (runRestrict p bs m true false (runNeighbor p bs m w)).buf (.elem e f) false) = fun f => w2.buf (.elem e f) false := by
      funext f; rw [hbuf]
    rw [hk, hk3, local_cache hb p hM hc m.nd ⟨dt, false, false, filter⟩ rfl rfl (m.elem e) (w2.state e) (w2.cache e) _ _ v hv, hf]; ring
  rw [List.map_congr_left e1, List.sum_map_mul_left, neg_one_mul]

end Hexed.Spatial
