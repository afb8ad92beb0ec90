import Verif.MeshFile.ReadRefs

set_option autoImplicit false
set_option linter.unusedVariables false

/-! # Reading boundary connections and face warping, and the whole of reading -/

namespace Hexed.MeshFile
open Hexed.MeshConn
open Hexed.Connection (Dir vertexInds refinedVerts)
open Hexed.Container (Cont At Rep)
open Hexed.Polymesh (numbering numbering_eq mapM_some idxOf_get)

variable {K A : Type}

/-- What has been read after some boundary connections. -/
structure BoundsRead (D : Data K A) (s1 : State K A) (pre : List BCon) (s : State K A) : Prop where
  frame : Frame s1 s
  adj : s.adj = s1.adj
  bounds : ∀ k, List.Forall₂ (SameBound D.index) (pre.filter fun c => decide (c.el ∈ D.mesh.dfm.elems.elements) == k) (s.mesh.byType k).bounds
  cons : ∀ k, (s.mesh.byType k).cons = (s1.mesh.byType k).cons ∧ (s.mesh.byType k).refs = (s1.mesh.byType k).refs
  merges : s.merges = s1.merges
  extruded : s.extruded = s1.extruded
  str : s.str = s1.str

theorem readBound_step {D : Data K A} {n_bc : Nat} (hi : Inv D.mesh) (hg : Good D n_bc) {s1 : State K A} (he : HasElems D n_bc s1) {pre rest : List BCon}
    {c : BCon} (hf : pre ++ c :: rest = D.mesh.car.bounds ++ D.mesh.dfm.bounds) {s : State K A} (hP : BoundsRead D s1 pre s) :
    ∃ s', readBound s (boundRow' D c) = .ok s' ∧ BoundsRead D s1 (pre ++ [c]) s' := by
  have hc : c ∈ D.mesh.car.bounds ++ D.mesh.dfm.bounds := by rw [← hf]; simp
  have he' := he.frame hP.frame
  have hmem : c.el ∈ D.mesh.elements := by
    obtain ⟨x, hx, hx'⟩ := bound_ends hc
    exact hx' ▸ hi.attached x hx
  have e0 := entryElem_eq he' (row := boundRow' D c) (i := 0) hmem rfl
  have e1 := entry_eq (row := boundRow' D c) (i := 1) (n := c.bc) rfl
  have e2 := entry_eq (row := boundRow' D c) (i := 2) (n := c.i_dim) rfl
  have e3 := entryBool_eq (row := boundRow' D c) (i := 3) (b := c.sign) rfl
  have hbc : c.bc < s.mesh.n_bc := by rw [he'.n_bc]; exact hg.bcs c hc
  have hadds := addBound_adds s.mesh (s.is_def (D.index c.el)) (D.index c.el) c.i_dim c.sign c.bc
  refine ⟨_, by simp only [readBound, e0, e1, e2, e3, Res.bind_ok, if_pos hbc]; rfl, ?_⟩
  refine ⟨hP.frame.trans ⟨⟨_, hadds⟩, hadds.inv hP.frame.inv ?_, rfl, rfl, rfl, rfl, rfl⟩, hP.adj, ?_, ?_, hP.merges, hP.extruded, hP.str⟩
  · intro x hx
    rw [List.mem_singleton] at hx
    rw [hx]
    exact he'.mem _ hmem
  · intro k
    rw [List.filter_append]
    have h1 : ((addBound s.mesh (s.is_def (D.index c.el)) (D.index c.el) c.i_dim c.sign c.bc).byType k).bounds =
        (s.mesh.byType k).bounds ++ if decide (c.el ∈ D.mesh.dfm.elems.elements) = k then [⟨s.mesh.next_id, D.index c.el, c.i_dim, c.sign, c.bc⟩] else [] := by
      rw [he'.is_def _ hmem]
      cases hk : decide (c.el ∈ D.mesh.dfm.elems.elements) <;> cases k <;> simp [addBound, Mesh.setType, Mesh.byType]
    show List.Forall₂ _ _ ((addBound s.mesh (s.is_def (D.index c.el)) (D.index c.el) c.i_dim c.sign c.bc).byType k).bounds
    rw [h1]
    refine List.rel_append (hP.bounds k) ?_
    by_cases hk : decide (c.el ∈ D.mesh.dfm.elems.elements) = k
    · rw [if_pos hk, List.filter_cons, if_pos (by rw [beq_iff_eq]; exact hk)]
      exact .cons ⟨rfl, rfl, rfl, rfl⟩ .nil
    · rw [if_neg hk, List.filter_cons, if_neg (by rw [beq_iff_eq]; exact hk)]
      exact .nil
  · intro k
    rw [← (hP.cons k).1, ← (hP.cons k).2]
    show ((addBound s.mesh (s.is_def (D.index c.el)) (D.index c.el) c.i_dim c.sign c.bc).byType k).cons = _ ∧ ((addBound s.mesh (s.is_def (D.index c.el)) (D.index c.el) c.i_dim c.sign c.bc).byType k).refs = _
    cases s.is_def (D.index c.el) <;> cases k <;> exact ⟨rfl, rfl⟩

theorem readBounds_ok {D : Data K A} {n_bc : Nat} (hi : Inv D.mesh) (hg : Good D n_bc) {s1 : State K A} (he : HasElems D n_bc s1) (h0 : ∀ k, (s1.mesh.byType k).bounds = []) (hinv : Inv s1.mesh) :
    ∃ s, Res.loop readBound s1 ((D.mesh.car.bounds ++ D.mesh.dfm.bounds).map (boundRow' D)) = .ok s ∧ BoundsRead D s1 (D.mesh.car.bounds ++ D.mesh.dfm.bounds) s := by
  refine loop_ok (fun pre s => BoundsRead D s1 pre s) (fun pre a rest s h hP => readBound_step hi hg he h hP) _ [] _ rfl ?_
  exact ⟨Frame.refl hinv, rfl, fun k => by rw [h0]; exact .nil, fun _ => ⟨rfl, rfl⟩, rfl, rfl, rfl⟩

theorem filter_bounds {D : Data K A} (hi : Inv D.mesh) (ht : Typed D.mesh) (k : Bool) :
    (D.mesh.car.bounds ++ D.mesh.dfm.bounds).filter (fun c => decide (c.el ∈ D.mesh.dfm.elems.elements) == k) = (D.mesh.byType k).bounds := by
  have hc : ∀ c ∈ D.mesh.car.bounds, decide (c.el ∈ D.mesh.dfm.elems.elements) = false := fun c hc => by simpa using not_dfm hi (ht.car_bounds c hc)
  have hd : ∀ c ∈ D.mesh.dfm.bounds, decide (c.el ∈ D.mesh.dfm.elems.elements) = true := fun c hc => by simpa using ht.dfm_bounds c hc
  rw [List.filter_append]
  cases k
  · rw [List.filter_eq_self.2 (fun c h => by rw [hc c h]; rfl), List.filter_eq_nil_iff.2 (fun c h => by rw [hd c h]; simp)]
    exact List.append_nil _
  · rw [List.filter_eq_nil_iff.2 (fun c h => by rw [hc c h]; simp), List.filter_eq_self.2 (fun c h => by rw [hd c h]; rfl)]
    rfl

theorem filter_cons {D : Data K A} (ht : Typed D.mesh) :
    (D.mesh.car.cons ++ D.mesh.dfm.cons).filter (fun c => !bothDeformed D c) = D.mesh.car.cons.filter (fun c => !bothDeformed D c) ∧
    (D.mesh.car.cons ++ D.mesh.dfm.cons).filter (bothDeformed D) = D.mesh.car.cons.filter (bothDeformed D) ++ D.mesh.dfm.cons := by
  have hd : ∀ c ∈ D.mesh.dfm.cons, bothDeformed D c = true := by
    intro c hc
    have := (ht.dfm_cons c hc).2
    simp [bothDeformed, this false, this true]
  have h1 : D.mesh.dfm.cons.filter (fun c => !bothDeformed D c) = [] := List.filter_eq_nil_iff.2 fun c h => by rw [hd c h]; simp
  have h2 : D.mesh.dfm.cons.filter (bothDeformed D) = D.mesh.dfm.cons := List.filter_eq_self.2 hd
  rw [List.filter_append, List.filter_append, h1, h2]
  exact ⟨List.append_nil _, rfl⟩

/-- What has been read after the warping of some elements. -/
structure WarpRead (D : Data K A) (s1 : State K A) (pre : List Elem) (s : State K A) : Prop where
  same : s = { s1 with adj := s.adj }
  adj : ∀ e ∈ pre, s.adj (D.index e) = some (D.adj e)

theorem readWarp_step {D : Data K A} {n_bc : Nat} {s1 : State K A} (he : HasElems D n_bc s1) {pre rest : List Elem}
    {e : Elem} (hf : pre ++ e :: rest = D.mesh.dfm.elems.elements) {s : State K A} (hP : WarpRead D s1 pre s) :
    ∃ s', readWarp s (D.index e, D.adj e) = .ok s' ∧ WarpRead D s1 (pre ++ [e]) s' := by
  obtain ⟨h1, h2⟩ := hP
  have hsub : ∀ x ∈ D.mesh.dfm.elems.elements, x ∈ D.mesh.elements := fun x hx => List.mem_append_right _ hx
  have hd : e ∈ D.mesh.dfm.elems.elements := by rw [← hf]; simp
  have hm := hsub e hd
  have hp : s.ptrs = s1.ptrs := by rw [h1]
  have hi : s.is_def = s1.is_def := by rw [h1]
  have h3 : s.ptrs[D.index e]? = some (D.index e) := by rw [hp, he.ptrs]; exact List.getElem?_range (index_lt hm)
  have h4 : s.is_def (D.index e) = true := by rw [hi, he.is_def e hm]; simpa using hd
  refine ⟨{ s with adj := Function.update s.adj (D.index e) (some (D.adj e)) }, by simp only [readWarp, h3, Res.of, Res.bind_ok, h4, if_true], ?_, ?_⟩
  · show ({ s with adj := _ } : State K A) = { s1 with adj := _ }
    rw [h1]
  · intro x hx
    show Function.update s.adj (D.index e) (some (D.adj e)) (D.index x) = _
    by_cases hxe : x = e
    · rw [hxe, Function.update_self]
    · have hx' : x ∈ pre := by
        rcases List.mem_append.1 hx with h | h
        · exact h
        · exact absurd (List.mem_singleton.1 h) hxe
      have : D.index x ≠ D.index e := fun h => hxe (index_inj (hsub x (by rw [← hf]; exact List.mem_append_left _ hx')) hm h)
      rw [Function.update_of_ne this]
      exact h2 x hx'

theorem readWarps_ok {D : Data K A} {n_bc : Nat} {s1 : State K A} (he : HasElems D n_bc s1) :
    ∃ s, Res.loop readWarp s1 (D.mesh.dfm.elems.elements.map fun e => (D.index e, D.adj e)) = .ok s ∧ WarpRead D s1 D.mesh.dfm.elems.elements s := by
  refine loop_ok (fun pre s => WarpRead D s1 pre s) (fun pre a rest s h hP => readWarp_step he h hP) _ [] _ rfl ?_
  exact ⟨rfl, by simp⟩

/-- The result of reading what was written. -/
structure ReadBack [Zero K] (D : Data K A) (n_bc : Nat) (s : State K A) : Prop where
  restored : Restored D s
  n_bc : s.mesh.n_bc = n_bc
  inv : Inv s.mesh
  corner : ∀ e ∈ D.mesh.elements, ∀ k < 2 ^ D.mesh.nd, ∀ i, s.corner (D.index e) k i = if i.val < D.mesh.nd then D.pos (D.vert e k) i else 0
  merges : s.merges = D.joins.map (mapJoin D.index)
  extruded : ∀ c ∈ s.mesh.dfm.cons, c.id ∈ s.extruded ↔ ∃ e ∈ D.mesh.elements, ∃ f ∈ D.mesh.elements, c.el false = D.index e ∧ c.el true = D.index f ∧ D.tree e ≠ D.tree f

theorem read_ok [Zero K] {D : Data K A} {n_bc : Nat} (hi : Inv D.mesh) (ht : Typed D.mesh) (hg : Good D n_bc) {covered : BCon → Bool}
    (hcov : ∀ c ∈ D.mesh.car.bounds ++ D.mesh.dfm.bounds, ∀ c', SameBound D.index c c' → covered c' = false) :
    ∃ s, read D.mesh.nd n_bc covered (file D) = .ok s ∧ ReadBack D n_bc s := by
  obtain ⟨s1, r1, p1⟩ := readElems_ok (K := K) hi hg
  have he1 := hasElems p1
  generalize htree : (fun e => (file D).owned.any fun i => s1.ptrs[i]? == some e) = tree
  obtain ⟨s2, r2, p2⟩ := readCons_ok hi ht hg he1 p1.inv tree ⟨p1.car.1, p1.dfm.1, p1.merges, p1.extruded⟩
  have he2 := he1.frame p2.frame
  obtain ⟨s3, r3, p3⟩ := readRefs_ok hi ht hg he2 (by
    intro k b
    cases k
    · show s2.mesh.car.refs b = []; rw [p2.car.1]; exact p1.car.2.1 b
    · show s2.mesh.dfm.refs b = []; rw [p2.dfm.1]; exact p1.dfm.2.1 b) p2.frame.inv
  have he3 := he2.frame p3.frame
  obtain ⟨s4, r4, p4⟩ := readBounds_ok hi hg he3 (by
    intro k
    rw [(p3.cons k).2]
    cases k
    · show s2.mesh.car.bounds = []; rw [p2.car.2]; exact p1.car.2.2
    · show s2.mesh.dfm.bounds = []; rw [p2.dfm.2]; exact p1.dfm.2.2) p3.frame.inv
  have he4 := he3.frame p4.frame
  obtain ⟨s5, r5, p5, a5⟩ := readWarps_ok he4
  have hm5 : s5.mesh = s4.mesh := by rw [p5]
  obtain ⟨m6, R, r6, -, inv6, -, k1, k2, k3, k4, k5, k6⟩ := purge_ok (m := s5.mesh) (by rw [hm5]; exact p4.frame.inv) (fun _ => false) covered
  obtain ⟨q1, q2, q3⟩ := purge_types (by rw [hm5]; exact p4.frame.inv) r6
  have hcar : ∀ l : List RefConn, l.filter (fun c => !((fun _ => false) c.coarse || c.fine.any fun _ => false)) = l := by
    intro l; rw [List.filter_eq_self]; intro c _; simp
  have hnbc : m6.n_bc = s5.mesh.n_bc := by
    have := r6
    simp only [purge] at this
    split at this
    · rw [Out.ok.injEq] at this; rw [← this]
    · exact absurd this (by simp)
  simp only [Bool.or_self, Bool.not_false, List.filter_true] at k1 k2 q2 q3
  simp only [Bool.or_false] at k5 k6
  have hframe := p2.frame.trans (p3.frame.trans p4.frame)
  obtain ⟨⟨N, hN⟩, -, -, -, hlev, hnom, hcor⟩ := hframe
  refine ⟨{ s5 with mesh := m6 }, ?_, ?_⟩
  · simp only [read]
    have hr : (Res.loop (readElem (file D).pos) ⟨Mesh.new D.mesh.nd n_bc, [], fun _ => false, fun _ => 0, fun _ => [], fun _ _ => 0, fun _ => none, [], fun _ => (false, false), []⟩ (file D).elems : Res (State K A)) = .ok s1 := r1
    rw [hr, Res.bind_ok, htree]
    have hr : Res.loop (readConf tree) s1 (file D).conformal = .ok s2 := r2
    rw [hr, Res.bind_ok]
    have hr : Res.loop readRef s2 (file D).refined = .ok s3 := r3
    rw [hr, Res.bind_ok]
    have hr : Res.loop readBound s3 (file D).boundary = .ok s4 := r4
    rw [hr, Res.bind_ok]
    have hr : Res.loop readWarp s4 (file D).warping = .ok s5 := r5
    rw [hr, Res.bind_ok, r6]
  have hel : D.mesh.elements.filter (fun e => decide (e ∉ D.mesh.dfm.elems.elements)) = D.mesh.car.elems.elements ∧
      D.mesh.elements.filter (fun e => decide (e ∈ D.mesh.dfm.elems.elements)) = D.mesh.dfm.elems.elements := by
    rw [Mesh.elements, List.filter_append, List.filter_append]
    have c1 : ∀ e ∈ D.mesh.car.elems.elements, e ∉ D.mesh.dfm.elems.elements := fun e he => not_dfm hi he
    constructor
    · rw [List.filter_eq_self.2 (fun e he => by simpa using c1 e he), List.filter_eq_nil_iff.2 (fun e he => by simpa using he), List.append_nil]
    · rw [List.filter_eq_nil_iff.2 (fun e he => by simpa using c1 e he), List.filter_eq_self.2 (fun e he => by simpa using he), List.nil_append]
  have hs5 : s5.level = s4.level ∧ s5.nom = s4.nom ∧ s5.corner = s4.corner ∧ s5.str = s4.str ∧ s5.merges = s4.merges ∧ s5.extruded = s4.extruded := by
    rw [p5]; exact ⟨rfl, rfl, rfl, rfl, rfl, rfl⟩
  obtain ⟨l5, n5, c5, st5, mg5, ex5⟩ := hs5
  have hrefs : ∀ k b, List.Forall₂ (SameFaces D.index D { s5 with mesh := m6 }) ((D.mesh.byType k).refs b) ((s4.mesh.byType k).refs b) := by
    intro k b
    rw [(p4.cons k).2, ← filter_bucket hi ht hg k b]
    refine forall₂_mono (p3.refs k b) ?_
    intro a a' _ h
    exact ⟨h.coarse, h.fine, h.dir, h.rev, by show s5.str a'.id = _; rw [st5, p4.str]; exact h.str, h.straight⟩
  have hbounds : ∀ k, List.Forall₂ (SameBound D.index) (D.mesh.byType k).bounds (s4.mesh.byType k).bounds := by
    intro k
    rw [← filter_bounds hi ht k]
    exact p4.bounds k
  have hunc : ∀ k, (s4.mesh.byType k).bounds.filter (fun c => !covered c) = (s4.mesh.byType k).bounds := by
    intro k
    rw [List.filter_eq_self]
    intro c' hc'
    obtain ⟨i, hi', rfl⟩ := List.mem_iff_getElem.1 hc'
    obtain ⟨hl, hg'⟩ := List.forall₂_iff_get.1 (hbounds k)
    have hs := hg' i (hl.symm ▸ hi') hi'
    have hm : (D.mesh.byType k).bounds[i]'(hl.symm ▸ hi') ∈ D.mesh.car.bounds ++ D.mesh.dfm.bounds := by
      cases k
      · exact List.mem_append_left _ (List.getElem_mem _)
      · exact List.mem_append_right _ (List.getElem_mem _)
    have := hcov _ hm _ hs
    simp only [List.get_eq_getElem] at this
    rw [this]; rfl
  have hcons4 : ∀ k, (s4.mesh.byType k).cons = (s2.mesh.byType k).cons := fun k => (p4.cons k).1.trans (p3.cons k).1
  have hdc : m6.dfm.cons = s2.mesh.dfm.cons := by rw [k2, hm5]; exact hcons4 true
  refine ⟨?_, ?_, inv6, ?_, ?_, ?_⟩
  · refine ⟨?_, ?_, ?_, ?_, ?_, ?_, ?_, ?_, ?_, ?_, ?_, ?_⟩
    · show m6.nd = _; rw [q1, hm5]; exact he4.nd
    · show m6.car.elems.elements = _; rw [q2, hm5, hN.car, p1.car_elems, hel.1]
    · show m6.dfm.elems.elements = _; rw [q3, hm5, hN.dfm, p1.dfm_elems, hel.2]
    · intro e he; show s5.level _ = _; rw [l5, hlev]; exact p1.level e he
    · intro e he; show s5.nom _ = _; rw [n5, hnom]; exact p1.nom e he
    · exact a5
    · show List.Forall₂ _ _ m6.car.cons
      have : s4.mesh.car.cons = s2.mesh.car.cons := hcons4 false
      rw [k1, hm5, this, ← (filter_cons ht).1]
      exact p2.car_cons
    · show List.Forall₂ _ _ m6.dfm.cons
      rw [hdc, ← (filter_cons ht).2]
      exact p2.dfm_cons
    · intro b
      show List.Forall₂ _ _ (m6.car.refs b)
      rw [k3, hm5, hcar]
      exact hrefs false b
    · intro b
      show List.Forall₂ _ _ (m6.dfm.refs b)
      rw [k4, hm5, hcar]
      exact hrefs true b
    · show List.Forall₂ _ _ m6.car.bounds; rw [k5, hm5]; have := hbounds false; rw [← hunc false] at this; exact this
    · show List.Forall₂ _ _ m6.dfm.bounds; rw [k6, hm5]; have := hbounds true; rw [← hunc true] at this; exact this
  · show m6.n_bc = _; rw [hnbc, hm5]; exact he4.n_bc
  · intro e he k hk i
    show s5.corner _ _ _ = _
    rw [c5, hcor]
    exact p1.corner e he k hk i
  · show s5.merges = _
    rw [mg5, p4.merges, p3.merges, p2.merges, Data.joins, List.map_append]
  · intro c hc
    have hc : c ∈ m6.dfm.cons := hc
    show c.id ∈ s5.extruded ↔ _
    rw [ex5, p4.extruded, p3.extruded, p2.extruded]
    rw [hdc] at hc
    have hval : ∀ e ∈ D.mesh.elements, tree (D.index e) = D.tree e := by
      intro e he
      rw [← htree]
      show ((D.mesh.elements.filter D.tree).map D.index).any (fun i => s1.ptrs[i]? == some (D.index e)) = D.tree e
      rw [Bool.eq_iff_iff, List.any_eq_true]
      simp only [beq_iff_eq, List.mem_map, List.mem_filter]
      constructor
      · rintro ⟨i, ⟨e', ⟨h1, h2⟩, rfl⟩, h3⟩
        rw [he1.ptrs, List.getElem?_range (index_lt h1), Option.some.injEq] at h3
        rw [← index_inj h1 he h3]; exact h2
      · intro h
        exact ⟨D.index e, ⟨e, ⟨he, h⟩, rfl⟩, by rw [he1.ptrs, List.getElem?_range (index_lt he)]⟩
    have horig : ∃ c0 ∈ D.mesh.car.cons ++ D.mesh.dfm.cons, SameConn D.index c0 c := by
      have hf := p2.dfm_cons
      obtain ⟨i, hi', rfl⟩ := List.mem_iff_getElem.1 hc
      obtain ⟨hl, hg'⟩ := List.forall₂_iff_get.1 hf
      exact ⟨_, List.mem_of_mem_filter (List.getElem_mem (hl.symm ▸ hi')), hg' i (hl.symm ▸ hi') hi'⟩
    obtain ⟨c0, hc0, hs, -⟩ := horig
    have hmem : ∀ k, c0.el k ∈ D.mesh.elements := by
      intro k
      obtain ⟨x, hx, hx'⟩ := conn_ends hc0 k
      exact hx' ▸ hi.attached x hx
    have hid : ∀ c' ∈ s2.mesh.dfm.cons, c'.id = c.id → ∀ k, c'.el k = c.el k := by
      intro c' hc' h k
      have he : ∀ x ∈ s2.mesh.dfm.cons, ((x.el k, x.dir.iFace k), (x.id, Sub.side k)) ∈ s2.mesh.ends := by
        intro x hx
        have : ((x.el k, x.dir.iFace k), (x.id, Sub.side k)) ∈ x.ends := by cases k <;> simp [Conn.ends]
        exact List.mem_append_right _ (List.mem_append_left _ (List.mem_flatMap.2 ⟨x, hx, this⟩))
      have := List.inj_on_of_nodup_map p2.frame.inv.slots (he c' hc') (he c hc) (by rw [h])
      exact congrArg (fun x => x.1.1) this
    rw [List.mem_map]
    constructor
    · rintro ⟨c', h1, h2⟩
      rw [List.mem_filter] at h1
      have h3 := h1.2
      rw [hid c' h1.1 h2, hid c' h1.1 h2, hs, hs, hval _ (hmem _), hval _ (hmem _)] at h3
      exact ⟨_, hmem false, _, hmem true, hs false, hs true, by simpa using h3⟩
    · rintro ⟨e, he, f, hf, h1, h2, h3⟩
      refine ⟨c, List.mem_filter.2 ⟨hc, ?_⟩, rfl⟩
      rw [h1, h2, hval _ he, hval _ hf]
      simpa using h3

end Hexed.MeshFile
