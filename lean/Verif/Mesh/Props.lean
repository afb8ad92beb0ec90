import Verif.Mesh.Change

set_option autoImplicit false
set_option linter.unusedVariables false

/-!
# C30: the validity report of a mesh is exact; C55: connections, purging and face pointers over all histories;
C56: the kernels see every connection exactly once
-/

namespace Hexed.MeshConn
open Hexed.Connection (Dir)
open Hexed.Container (Cont At Rep)

/-! ## C30 -/

theorem valid_fold (m : Mesh) (r : Rec) (l : List (Elem × Nat)) (hr : ∀ x ∈ l, r x.1 x.2 = m.degree x.1 x.2) : ∀ (v : Validity),
    l.foldl (fun v x =>
      let rec_ := r x.1 x.2
      let v : Validity := if rec_ = 0 then ⟨v.n_redundant, v.n_missing + 1⟩ else v
      if rec_ > 1 then ⟨v.n_redundant + (rec_ - 1), v.n_missing⟩ else v) v =
    ⟨v.n_redundant + (l.map fun x => m.degree x.1 x.2 - 1).sum, v.n_missing + (l.filter fun x => m.degree x.1 x.2 = 0).length⟩ := by
  induction l with
  | nil => intro v; simp
  | cons x l ih =>
    intro v
    rw [List.foldl_cons, ih (fun y hy => hr y (by simp [hy]))]
    have hx := hr x (by simp)
    simp only [hx, List.map_cons, List.sum_cons, List.filter_cons]
    by_cases h0 : m.degree x.1 x.2 = 0
    · simp only [h0]; simp; omega
    · by_cases h1 : m.degree x.1 x.2 > 1
      · simp [h0, h1]; omega
      · have : m.degree x.1 x.2 = 1 := by omega
        simp [this]

theorem valid_of_inv {m : Mesh} (hm : Inv m) (r : Rec) :
    valid m r = some ⟨(m.faces.map fun x => m.degree x.1 x.2 - 1).sum, (m.faces.filter fun x => m.degree x.1 x.2 = 0).length⟩ := by
  obtain ⟨r', h1, h2⟩ := count_ok m hm.sorted r
  have := valid_fold m r' m.faces (fun x hx => by obtain ⟨e, f⟩ := x; have := mem_faces.1 hx; exact h2 e this.1 f this.2) ⟨0, 0⟩
  simp only [Nat.zero_add] at this
  rw [valid, h1, Option.map_some, ← this, Mesh.faces, List.foldl_flatMap]
  simp only [List.foldl_map]

/-- C30: after any history, and whatever the records contained before, `valid` counts exactly the element faces without connection
and, over all faces, the connections beyond the first. -/
theorem valid_exact {nd n_bc : Nat} (hnd : 1 ≤ nd ∧ nd ≤ 3) {m : Mesh} (h : Reach nd n_bc m) (r : Rec) :
    valid m r = some ⟨(m.faces.map fun x => m.degree x.1 x.2 - 1).sum, (m.faces.filter fun x => m.degree x.1 x.2 = 0).length⟩ ∧
    m.faces.Nodup ∧ ∀ e f, (e, f) ∈ m.faces ↔ e ∈ m.elements ∧ f < 2 * nd := by
  obtain ⟨hi, hn⟩ := reach_inv hnd h
  exact ⟨valid_of_inv hi r, faces_nodup hi.nodup, fun e f => by rw [mem_faces, hn]⟩

theorem sum_zero_iff : ∀ l : List Nat, l.sum = 0 ↔ ∀ x ∈ l, x = 0 := by
  intro l
  induction l with
  | nil => simp
  | cons a l ih => simp [ih]

/-- C30: the report is positive exactly if every face of every element has exactly one connection. -/
theorem valid_iff {nd n_bc : Nat} (hnd : 1 ≤ nd ∧ nd ≤ 3) {m : Mesh} (h : Reach nd n_bc m) (r : Rec) :
    ∃ v, valid m r = some v ∧ (v.ok = true ↔ ∀ e ∈ m.elements, ∀ f < 2 * nd, m.degree e f = 1) := by
  obtain ⟨hi, hn⟩ := reach_inv hnd h
  refine ⟨_, valid_of_inv hi r, ?_⟩
  simp only [Validity.ok, Bool.and_eq_true, beq_iff_eq, sum_zero_iff, List.length_eq_zero_iff, List.filter_eq_nil_iff, List.mem_map]
  constructor
  · rintro ⟨h1, h2⟩ e he f hf
    have hmem : (e, f) ∈ m.faces := mem_faces.2 ⟨he, by rw [hn]; exact hf⟩
    have a := h1 _ ⟨(e, f), hmem, rfl⟩
    have b := h2 (e, f) hmem
    simp at a b
    omega
  · intro hall
    constructor
    · rintro _ ⟨⟨e, f⟩, hx, rfl⟩
      have := mem_faces.1 hx
      simp only [hall e this.1 f (by rw [← hn]; exact this.2)]
    · rintro ⟨e, f⟩ hx
      have := mem_faces.1 hx
      simp [hall e this.1 f (by rw [← hn]; exact this.2)]

/-! ## C55 -/

/-- C55: no history runs into undefined behaviour. -/
theorem no_ub {nd n_bc : Nat} (hnd : 1 ≤ nd ∧ nd ≤ 3) {m : Mesh} (h : Reach nd n_bc m) (op : Op) (hop : OpOk nd op) : step m op ≠ .ub := by
  obtain ⟨hi, hn⟩ := reach_inv hnd h
  intro hu
  have := step_ok hi op (by rw [hn]; exact hop)
  rw [hu] at this
  exact this

/-- C55: after any history every connection joins faces of elements that are in the mesh, elements are listed once and no two
faces share storage. -/
theorem no_dangling {nd n_bc : Nat} (hnd : 1 ≤ nd ∧ nd ≤ 3) {m : Mesh} (h : Reach nd n_bc m) :
    (∀ x ∈ m.ends, x.1.1 ∈ m.elements) ∧ m.elements.Nodup ∧ (m.ends.map (·.2)).Nodup := by
  obtain ⟨hi, -⟩ := reach_inv hnd h
  exact ⟨hi.attached, hi.nodup, hi.slots⟩

/-- C55: a call that throws changes neither elements nor connections. -/
theorem throws_same {nd n_bc : Nat} (hnd : 1 ≤ nd ∧ nd ≤ 3) {m m' : Mesh} (h : Reach nd n_bc m) (op : Op) (hop : OpOk nd op)
    (hs : step m op = .throws m') : m'.car = m.car ∧ m'.dfm = m.dfm := by
  obtain ⟨hi, hn⟩ := reach_inv hnd h
  have := step_ok hi op (by rw [hn]; exact hop)
  rw [hs] at this
  exact ⟨this.car, this.dfm⟩

/-- C55: `connect_cartesian` joins the positive face along `i_dim` of the first element to the negative face of the second. -/
theorem connect_cartesian_exact {nd n_bc : Nat} (hnd : 1 ≤ nd ∧ nd ≤ 3) {m : Mesh} (h : Reach nd n_bc m) (level s0 s1 : Nat) (i : Fin 3)
    (d0 d1 : Bool) {e0 e1 : Elem} (h0 : (m.byType d0).elems.at level s0 = .ok e0) (h1 : (m.byType d1).elems.at level s1 = .ok e1) :
    ∃ m', connectCartesian m level s0 s1 i d0 d1 = .ok m' ∧ m'.elements = m.elements ∧
      (m'.ends.map (·.1)).Perm (m.ends.map (·.1) ++ [(e0, 2 * i.val + 1), (e1, 2 * i.val)]) := by
  have ha := addConn_adds m false e0 e1 (.cart i)
  refine ⟨addConn m false e0 e1 (.cart i), by simp [connectCartesian, withElem, h0, h1], ha.elements, ?_⟩
  have := ha.ends.map (·.1)
  simpa [ConDir.iFace] using this

/-- C55: `connect_deformed` joins the requested faces unless they are the same face of both elements, which throws. -/
theorem connect_deformed_exact {nd n_bc : Nat} (hnd : 1 ≤ nd ∧ nd ≤ 3) {m : Mesh} (h : Reach nd n_bc m) (level s0 s1 : Nat) (d : Dir)
    {e0 e1 : Elem} (h0 : m.dfm.elems.at level s0 = .ok e0) (h1 : m.dfm.elems.at level s1 = .ok e1) :
    ((d.i0 = d.i1 ∧ d.s0 = d.s1) ∧ connectDeformed m level s0 s1 d = .throws m) ∨
    (¬(d.i0 = d.i1 ∧ d.s0 = d.s1) ∧ ∃ m', connectDeformed m level s0 s1 d = .ok m' ∧ m'.elements = m.elements ∧
      (m'.ends.map (·.1)).Perm (m.ends.map (·.1) ++ [(e0, 2 * d.i0.val + d.s0.toNat), (e1, 2 * d.i1.val + d.s1.toNat)])) := by
  by_cases hd : d.i0 = d.i1 ∧ d.s0 = d.s1
  · exact .inl ⟨hd, by simp [connectDeformed, hd]⟩
  · have ha := addConn_adds m true e0 e1 (.dfm d)
    refine .inr ⟨hd, addConn m true e0 e1 (.dfm d), ?_, ha.elements, ?_⟩
    · rw [connectDeformed, if_neg hd]
      simp [withElem, Mesh.byType, h0, h1]
    · have := ha.ends.map (·.1)
      simpa [ConDir.iFace, Dir.iDim, Dir.faceSign] using this

/-- C55: `connect_boundary` joins the requested face. -/
theorem connect_boundary_exact {nd n_bc : Nat} (hnd : 1 ≤ nd ∧ nd ≤ 3) {m : Mesh} (h : Reach nd n_bc m) (level : Nat) (d : Bool)
    (sn i : Nat) (s : Bool) (bc : Nat) (hbc : bc < m.n_bc) {e : Elem} (h0 : (m.byType d).elems.at level sn = .ok e) :
    ∃ m', connectBoundary m level d sn i s bc = .ok m' ∧ m'.elements = m.elements ∧
      (m'.ends.map (·.1)).Perm (m.ends.map (·.1) ++ [(e, 2 * i + s.toNat)]) := by
  have ha := addBound_adds m d e i s bc
  exact ⟨addBound m d e i s bc, by simp [connectBoundary, withElem, h0, hbc], ha.elements, by simpa using ha.ends.map (·.1)⟩

theorem withElems_all {m : Mesh} (l : Nat) : ∀ (q : List (Bool × Nat)) (es : List Elem) (k : List Elem → Out),
    List.Forall₂ (fun x e => (m.byType x.1).elems.at l x.2 = .ok e) q es → withElems m l q k = k es := by
  intro q
  induction q with
  | nil => intro es k h; cases h; rfl
  | cons x q ih =>
    intro es k h
    cases h with
    | cons h1 h2 => simp only [withElems, withElem, h1]; exact ih _ _ h2

/-- C55: `connect_hanging` joins the requested face of the coarse element to that of each of the fine elements, for all Cartesian
or mixed elements on opposite faces and for deformed elements on any faces with or without stretching. -/
theorem connect_hanging_exact {nd n_bc : Nat} (hnd : 1 ≤ nd ∧ nd ≤ 3) {m : Mesh} (h : Reach nd n_bc m) (level c : Nat) (f : List Nat)
    (d : Dir) (cd : Bool) (fd : List Bool) (str : Bool × Bool) (hd : d.i0.val < nd ∧ d.i1.val < nd) {coarse : Elem} {fine : List Elem}
    (hc : (m.byType cd).elems.at level c = .ok coarse)
    (hf : List.Forall₂ (fun x e => (m.byType x.1).elems.at (level + 1) x.2 = .ok e) (fd.zip f) fine) (hl : fd.length = f.length)
    (hcase : (cd = false ∨ false ∈ fd) ∧ d.i0 = d.i1 ∧ d.s0 = (!d.s1) ∧ f.length = 2 ^ nd / 2 ∨
      (cd = true ∧ false ∉ fd) ∧ f.length = Connection.nFine nd str) :
    ∃ m', connectHanging m level c f d cd fd str = .ok m' ∧ m'.elements = m.elements ∧
      (m'.ends.map (·.1)).Perm (m.ends.map (·.1) ++
        (coarse, 2 * d.i0.val + d.s0.toNat) :: fine.map fun e => (e, 2 * d.i1.val + d.s1.toNat)) := by
  obtain ⟨hi, hn⟩ := reach_inv hnd h
  have hflen : fine.length = f.length := by have := hf.length_eq; simp [hl] at this; exact this.symm
  rcases hcase with ⟨hcar, h1, h2, h3⟩ | ⟨hdef, h3⟩
  · have hic : fd.foldl (fun is_car fd => is_car || !fd) (!cd) = true := (is_car_iff _ _).2 (by simpa using hcar)
    have e1 : firstN fd (2 ^ m.nd / 2) = some fd := by
      rw [hn, ← h3, ← hl, firstN, if_pos (Nat.le_refl _), List.take_length]
    have e2 : firstN f (2 ^ m.nd / 2) = some f := by
      rw [hn, ← h3, firstN, if_pos (Nat.le_refl _), List.take_length]
    have e3 : connectHanging m level c f d cd fd str = addRef m false (m.nd - 1) coarse fine (.cart d.i0) d.s1 (false, false) := by
      simp only [connectHanging]
      rw [if_pos hic]
      simp only [withElem, hc, e1, e2]
      rw [withElems_all _ _ _ _ hf, if_neg (by rw [h1, h2]; simp)]
    have hfl : fine.length = Connection.nFine m.nd (false, false) := by rw [nFine_false hi.nd, hflen, h3, hn]
    have hlt : m.nd - 1 < 3 := by have := hi.nd; omega
    rcases addRef_ok hi (d := false) (coarse := coarse) (dir := .cart d.i0) (rev := d.s1) ⟨by rw [hn]; exact hd.1, by rw [hn]; exact hd.1⟩ hlt
      (fun _ => nFine_bucket hi.nd hlt) with ⟨hne, -⟩ | ⟨-, m', order, ho, hok, ha⟩
    · exact absurd hfl hne
    · refine ⟨m', e3.trans hok, ha.elements, ?_⟩
      have := ha.ends.map (·.1)
      rw [List.map_append, List.map_cons, fineEnds_fst] at this
      refine this.trans (List.Perm.append_left _ ?_)
      have hs : (ConDir.cart d.i0).iFace d.s1 = 2 * d.i0.val + d.s0.toNat := by
        rw [h2]; cases d.s1 <;> simp [ConDir.iFace]
      have hs' : (ConDir.cart d.i0).iFace (!d.s1) = 2 * d.i1.val + d.s1.toNat := by
        rw [← h1]; cases d.s1 <;> simp [ConDir.iFace]
      rw [hs, hs']
      exact (ho.map _).cons _
  · have hic : ¬fd.foldl (fun is_car fd => is_car || !fd) (!cd) = true := by
      rw [is_car_iff]; rintro (h' | h')
      · simp [hdef.1] at h'
      · exact hdef.2 h'
    have hfd : fd = List.replicate f.length true := by
      rw [List.eq_replicate_iff]
      refine ⟨hl, ?_⟩
      intro b hb
      cases b
      · exact absurd hb hdef.2
      · rfl
    have hz : fd.zip f = f.map fun s => (true, s) := by
      rw [hfd]
      clear hfd hf hl h3 hic hdef hflen
      induction f with
      | nil => rfl
      | cons a f ih => simp [List.replicate_succ, ih]
    rw [hz] at hf
    have hl4 : f.length ≤ 4 := by
      rcases nFine_pow nd hnd str with h | h | h <;> omega
    obtain ⟨b, hb1, hb2, hb3, hb4⟩ := log_small hl4
    have hcd := hdef.1
    subst hcd
    have e3 : connectHanging m level c f d true fd str = addRef m true b.toNat coarse fine (.dfm d) false str := by
      simp only [connectHanging]
      rw [if_neg hic]
      simp only [withElem, hc]
      rw [withElems_all _ _ _ _ hf]
      simp only [hb1]
      rw [if_neg (by omega)]
    have hfl : fine.length = Connection.nFine m.nd str := by rw [hflen, h3, hn]
    rcases addRef_ok hi (d := true) (coarse := coarse) (dir := .dfm d) (rev := false) (str := str) (fine := fine) (bucket := b.toNat)
      ⟨by rw [hn]; exact hd.1, by rw [hn]; exact hd.2⟩ (by omega) (fun _ => by
        rw [← hfl, hflen]; exact hb4 (by rw [h3]; exact nFine_pow nd hnd str) _) with ⟨hne, -⟩ | ⟨-, m', order, ho, hok, ha⟩
    · exact absurd hfl hne
    · refine ⟨m', e3.trans hok, ha.elements, ?_⟩
      have := ha.ends.map (·.1)
      rw [List.map_append, List.map_cons, fineEnds_fst] at this
      refine this.trans (List.Perm.append_left _ ?_)
      exact (ho.map _).cons _

/-- C55: `purge` keeps exactly the elements that do not satisfy the predicate and exactly the connections none of whose elements
does, except boundary connections that have been covered. -/
theorem purge_exact {nd n_bc : Nat} (hnd : 1 ≤ nd ∧ nd ≤ 3) {m : Mesh} (h : Reach nd n_bc m) (predicate : Elem → Bool) (covered : BCon → Bool) :
    ∃ m', purge m predicate covered = .ok m' ∧ (∀ e, e ∈ m'.elements ↔ e ∈ m.elements ∧ predicate e = false) ∧
      (∀ d c, c ∈ (m'.byType d).cons ↔ c ∈ (m.byType d).cons ∧ ∀ x ∈ c.ends, predicate x.1.1 = false) ∧
      (∀ d i c, c ∈ (m'.byType d).refs i ↔ c ∈ (m.byType d).refs i ∧ ∀ x ∈ c.ends, predicate x.1.1 = false) ∧
      (∀ d c, c ∈ (m'.byType d).bounds ↔ c ∈ (m.byType d).bounds ∧ covered c = false ∧ ∀ x ∈ c.ends, predicate x.1.1 = false) := by
  obtain ⟨hi, hn⟩ := reach_inv hnd h
  obtain ⟨m', R, h1, -, -, h2, h3, h4, h5, h6, h7, h8⟩ := purge_ok hi predicate covered
  have hr : ∀ c : RefConn, (!(predicate c.coarse || c.fine.any predicate)) = true ↔ ∀ x ∈ c.ends, predicate x.1.1 = false := by
    intro c
    simp only [Bool.not_eq_true', Bool.or_eq_false_iff, List.any_eq_false]
    constructor
    · rintro ⟨ha, hb⟩ x hx
      rcases List.mem_cons.1 hx with rfl | hx
      · exact ha
      · simpa using hb _ (fineEnds_mem _ _ _ _ x hx)
    · intro hx
      refine ⟨hx _ (List.mem_cons_self), ?_⟩
      intro e he
      have : (e, c.dir.iFace !c.rev) ∈ (fineEnds c.id (c.dir.iFace !c.rev) 0 c.fine).map (·.1) := by
        rw [fineEnds_fst]; exact List.mem_map_of_mem he
      obtain ⟨y, hy, hye⟩ := List.mem_map.1 this
      have := hx y (List.mem_cons_of_mem _ hy)
      rw [hye] at this
      simpa using this
  refine ⟨m', h1, fun e => by rw [h2, List.mem_filter]; simp, ?_, ?_, ?_⟩
  · intro d c
    cases d
    · show c ∈ m'.car.cons ↔ c ∈ m.car.cons ∧ _
      rw [h3, List.mem_filter]; simp [Conn.ends]
    · show c ∈ m'.dfm.cons ↔ c ∈ m.dfm.cons ∧ _
      rw [h4, List.mem_filter]; simp [Conn.ends]
  · intro d i c
    cases d
    · show c ∈ m'.car.refs i ↔ c ∈ m.car.refs i ∧ _
      rw [h5, List.mem_filter, hr]
    · show c ∈ m'.dfm.refs i ↔ c ∈ m.dfm.refs i ∧ _
      rw [h6, List.mem_filter, hr]
  · intro d c
    cases d
    · show c ∈ m'.car.bounds ↔ c ∈ m.car.bounds ∧ _
      rw [h7, List.mem_filter]; simp [BCon.ends]
    · show c ∈ m'.dfm.bounds ↔ c ∈ m.dfm.bounds ∧ _
      rw [h8, List.mem_filter]; simp [BCon.ends]

/-- C55: `disconnect_boundary` removes exactly the connections with that boundary condition. -/
theorem disconnect_exact {nd n_bc : Nat} (hnd : 1 ≤ nd ∧ nd ≤ 3) {m : Mesh} (h : Reach nd n_bc m) (bc : Nat) :
    ∃ m', disconnectBoundary m bc = .ok m' ∧ m'.elements = m.elements ∧
      (∀ d c, c ∈ (m'.byType d).bounds ↔ c ∈ (m.byType d).bounds ∧ c.bc ≠ bc) ∧
      (∀ d, (m'.byType d).cons = (m.byType d).cons ∧ (m'.byType d).refs = (m.byType d).refs) := by
  refine ⟨_, rfl, rfl, ?_, ?_⟩
  · intro d c
    cases d <;> simp [Mesh.byType, eraseIf]
  · intro d; cases d <;> exact ⟨rfl, rfl⟩

/-- C55: `connect_rest` gives every face without connection exactly one boundary connection, all with the given boundary
condition, and leaves all other connections alone; afterwards no connection is missing. -/
theorem connect_rest_exact {nd n_bc : Nat} (hnd : 1 ≤ nd ∧ nd ≤ 3) {m : Mesh} (h : Reach nd n_bc m) (bc : Nat) (r : Rec) :
    ∃ m', connectRest m bc r = .ok m' ∧ m'.elements = m.elements ∧
      (∀ e ∈ m.elements, ∀ f < 2 * nd, m'.degree e f = max 1 (m.degree e f)) ∧
      (∀ d, (m'.byType d).cons = (m.byType d).cons ∧ (m'.byType d).refs = (m.byType d).refs ∧
        ∃ B, (m'.byType d).bounds = (m.byType d).bounds ++ B ∧ ∀ c ∈ B, c.bc = bc) ∧
      ∀ r', ∃ v v', valid m r' = some v ∧ valid m' r' = some v' ∧ v'.n_missing = 0 ∧ v'.n_redundant = v.n_redundant := by
  obtain ⟨hi, hn⟩ := reach_inv hnd h
  obtain ⟨m', N, h1, h2, h3, h4, h5, h6, h7, h8, h9⟩ := connectRest_ok hi bc r
  have hdeg : ∀ e ∈ m.elements, ∀ f < 2 * nd, m'.degree e f = max 1 (m.degree e f) := by
    intro e he f hf
    have hmem : (e, f) ∈ m.faces := mem_faces.2 ⟨he, by rw [hn]; exact hf⟩
    have : m'.degree e f = m.degree e f + (N.map (·.1)).count (e, f) := by
      have := (h2.ends.map (·.1)).count_eq (e, f)
      rw [List.map_append, List.count_append] at this
      exact this
    rw [this, h3]
    by_cases h0 : m.degree e f = 0
    · rw [List.count_eq_one_of_mem ((faces_nodup hi.nodup).filter _) (by rw [List.mem_filter]; exact ⟨hmem, by simpa using h0⟩)]
      omega
    · rw [List.count_eq_zero_of_not_mem (by rw [List.mem_filter]; simp [h0])]
      omega
  refine ⟨m', h1, h2.elements, hdeg, ?_, ?_⟩
  · intro d
    cases d
    · exact ⟨h4, h6, h8⟩
    · exact ⟨h5, h7, h9⟩
  · intro r'
    have hi' : Inv m' := by
      refine h2.inv hi ?_
      intro x hx
      have : x.1 ∈ N.map (·.1) := List.mem_map_of_mem hx
      rw [h3, List.mem_filter] at this
      exact (mem_faces.1 this.1).1
    have hfaces : m'.faces = m.faces := by simp [Mesh.faces, h2.elements, h2.nd]
    refine ⟨_, _, valid_of_inv hi r', valid_of_inv hi' r', ?_, ?_⟩
    · simp only [List.length_eq_zero_iff, List.filter_eq_nil_iff, hfaces]
      rintro ⟨e, f⟩ hx
      have := mem_faces.1 hx
      have := hdeg e this.1 f (by rw [← hn]; exact this.2)
      simp; omega
    · simp only [hfaces]
      congr 1
      apply List.map_congr_left
      rintro ⟨e, f⟩ hx
      have := mem_faces.1 hx
      have := hdeg e this.1 f (by rw [← hn]; exact this.2)
      simp only; omega

/-- C55: in a history without exceptions in which no face is ever connected twice, each face points to the storage of its
connection and is null if it has none. -/
theorem face_pointers_exact_partial {nd n_bc : Nat} (hnd : 1 ≤ nd ∧ nd ≤ 3) {m : Mesh} (h : Clean nd n_bc m) (e f : Nat) (s : Slot) :
    m.ptr e f = some s ↔ ((e, f), s) ∈ m.ends := (clean_exact hnd h).1 e f s

/-! ### Histories -/

/-- Run a list of calls; `none` if one of them throws or is undefined. -/
def run : Mesh → List Op → Option Mesh
  | m, [] => some m
  | m, op :: ops => match step m op with
    | .ok m' => run m' ops
    | _ => none

theorem run_reach {nd n_bc : Nat} : ∀ (ops : List Op) (m m' : Mesh), Reach nd n_bc m → (∀ op ∈ ops, OpOk nd op) → run m ops = some m' →
    Reach nd n_bc m' := by
  intro ops
  induction ops with
  | nil => intro m m' h _ hr; simp only [run, Option.some.injEq] at hr; exact hr ▸ h
  | cons op ops ih =>
    intro m m' h hop hr
    simp only [run] at hr
    split at hr
    · rename_i m1 hs
      exact ih m1 m' (.ok h (hop op (by simp)) hs) (fun o ho => hop o (by simp [ho])) hr
    · simp at hr

/-- A coarse and two fine elements in 2D with a hanging-node connection, a conformal one, and all other faces on the boundary. -/
def exOps : List Op :=
  [.addElement 0 false, .addElement 1 false, .addElement 1 false,
   .connectHanging 0 0 [1, 2] ⟨0, 0, true, false⟩ false [false, false] (false, false),
   .connectCartesian 1 1 2 1 false false, .connectRest 0 (fun _ _ => 7)]

/-- The mesh of `exOps`. -/
def exMesh : Option Mesh := run (Mesh.new 2 1) exOps

/-- The example is valid: 3 elements, 4 faces each, 8 of the 12 faces on the boundary or hanging. -/
example : ((exMesh.bind fun m => valid m fun _ _ => 3).map fun v => (v.n_redundant, v.n_missing)) = some (0, 0) ∧
    (exMesh.map fun m => (m.elements, m.car.bounds.length, m.ends.length)) = some ([0, 1, 2], 7, 12) := by decide +kernel

example : ∃ m, exMesh = some m ∧ Reach 2 1 m := by
  have : exMesh.isSome := by decide +kernel
  obtain ⟨m, hm⟩ := Option.isSome_iff_exists.1 this
  refine ⟨m, hm, run_reach exOps _ _ .new ?_ hm⟩
  intro op hop
  simp only [exOps, List.mem_cons, List.not_mem_nil, or_false] at hop
  rcases hop with rfl | rfl | rfl | rfl | rfl | rfl <;> simp [OpOk]

/-- An invalid mesh: two elements connected twice, in 1D: one face of each has 2 connections and the other none. -/
example : ((run (Mesh.new 1 0) [.addElement 0 false, .addElement 0 false, .connectCartesian 0 0 1 0 false false, .connectCartesian 0 0 1 0 false false]).bind
    fun m => valid m fun _ _ => 3).map (fun v => (v.n_redundant, v.n_missing)) = some (2, 2) := by decide +kernel

/-- C55 fails for pointers after an exception: a `connect_hanging` that throws because of the wrong number of elements leaves the coarse
face pointing to the storage of a connection that does not exist. -/
theorem face_pointers_refuted : ∃ m m' : Mesh, Clean 2 0 m ∧ step m (.connectHanging 0 0 [1, 2] ⟨0, 1, true, false⟩ true [true, true] (true, false)) = .throws m' ∧
    m'.ends = [] ∧ m'.ptr 0 1 ≠ none := by
  have h : ∃ m, run (Mesh.new 2 0) [.addElement 0 true, .addElement 1 true, .addElement 1 true] = some m := ⟨_, rfl⟩
  let m0 := Mesh.new 2 0
  let m1 : Mesh := match step m0 (.addElement 0 true) with | .ok m => m | _ => m0
  let m2 : Mesh := match step m1 (.addElement 1 true) with | .ok m => m | _ => m0
  let m3 : Mesh := match step m2 (.addElement 1 true) with | .ok m => m | _ => m0
  have c0 : Clean 2 0 m0 := .new
  have c1 : Clean 2 0 m1 := .ok c0 (op := .addElement 0 true) trivial rfl (by intro e f; exact Nat.zero_le _)
  have c2 : Clean 2 0 m2 := .ok c1 (op := .addElement 1 true) trivial rfl (by intro e f; exact Nat.zero_le _)
  have c3 : Clean 2 0 m3 := .ok c2 (op := .addElement 1 true) trivial rfl (by intro e f; exact Nat.zero_le _)
  have hthrow : (match step m3 (.connectHanging 0 0 [1, 2] ⟨0, 1, true, false⟩ true [true, true] (true, false)) with
    | .throws m => decide (m.ends = []) && (m.ptr 0 1).isSome | _ => false) = true := by decide +kernel
  revert hthrow
  cases hs : step m3 (.connectHanging 0 0 [1, 2] ⟨0, 1, true, false⟩ true [true, true] (true, false)) with
  | ok m => intro hh; simp at hh
  | ub => intro hh; simp at hh
  | throws m' =>
    intro hh
    simp only [Bool.and_eq_true, decide_eq_true_eq] at hh
    exact ⟨m3, m', c3, hs, hh.1, by intro hn; rw [hn] at hh; simp at hh⟩

/-- C55 fails for pointers of faces with redundant connections: removing one of two boundary connections leaves the face without pointer
although the other connection still uses it. -/
theorem redundant_pointer_refuted : ∃ m m' : Mesh, Reach 1 2 m ∧ step m (.disconnectBoundary 1) = .ok m' ∧ m'.degree 0 0 = 1 ∧ m'.ptr 0 0 = none := by
  let ops : List Op := [.addElement 0 false, .connectBoundary 0 false 0 0 false 0, .connectBoundary 0 false 0 0 false 1]
  have h : (match run (Mesh.new 1 2) ops with
    | some m => (match step m (.disconnectBoundary 1) with
      | .ok m' => decide (m'.degree 0 0 = 1) && (m'.ptr 0 0).isNone | _ => false)
    | none => false) = true := by decide +kernel
  revert h
  cases hr : run (Mesh.new 1 2) ops with
  | none => intro h; simp at h
  | some m =>
    simp only
    cases hs : step m (.disconnectBoundary 1) with
    | throws _ => intro h; simp at h
    | ub => intro h; simp at h
    | ok m' =>
      intro h
      simp only [Bool.and_eq_true, decide_eq_true_eq, Option.isNone_iff_eq_none] at h
      refine ⟨m, m', run_reach ops _ _ .new ?_ hr, hs, h.1, h.2⟩
      intro op hop
      simp only [ops, List.mem_cons, List.not_mem_nil, or_false] at hop
      rcases hop with rfl | rfl | rfl <;> simp [OpOk]

/-! ## C56 -/

/-- The fine parts of hanging-node connections. -/
def fineViews (l : List RefConn) : List View := l.flatMap fun c => (List.range c.fine.length).map fun i => .fine c i

/-- The connections between elements of one kind: conformal ones and the fine parts of hanging-node connections. -/
def ByType.conns (b : ByType) : List View :=
  b.cons.map .conf ++ (fineViews (b.refs 0) ++ (fineViews (b.refs 1) ++ fineViews (b.refs 2)))

theorem vecAt_nat {T : Type} (l : List T) (i : Nat) : Container.vecAt l (i : Int) = l[i]? := by
  simp [Container.vecAt]

theorem fineViews_length (n : Nat) : ∀ l : List RefConn, (∀ c ∈ l, c.fine.length = n) → (fineViews l).length = n * l.length := by
  intro l
  induction l with
  | nil => intro _; rfl
  | cons a l ih =>
    intro h
    have := ih fun c hc => h c (by simp [hc])
    simp only [fineViews, List.flatMap_cons, List.length_append, List.length_map, List.length_range, List.length_cons] at this ⊢
    rw [this, h a (by simp), Nat.mul_add]; omega

theorem fineViews_get (n : Nat) (hn : 0 < n) : ∀ (l : List RefConn), (∀ c ∈ l, c.fine.length = n) → ∀ j : Nat,
    (fineViews l)[j]? = (l[j / n]?).bind fun c => if j % n < c.fine.length then some (.fine c (j % n)) else none := by
  intro l
  induction l with
  | nil => intro _ j; simp [fineViews]
  | cons a l ih =>
    intro h j
    have ih' := ih fun c hc => h c (by simp [hc])
    have ha := h a (by simp)
    have hc : fineViews (a :: l) = ((List.range a.fine.length).map fun i => View.fine a i) ++ fineViews l := rfl
    rw [hc]
    by_cases hj : j < n
    · rw [List.getElem?_append_left (by simpa [ha] using hj), Nat.div_eq_of_lt hj, Nat.mod_eq_of_lt hj]
      simp [ha, hj]
    · rw [List.getElem?_append_right (by simp [ha]; omega)]
      simp only [List.length_map, List.length_range, ha]
      rw [ih' (j - n)]
      have h1 : j / n = (j - n) / n + 1 := by
        rw [Nat.div_eq, if_pos ⟨hn, by omega⟩]
      have h2 : j % n = (j - n) % n := Nat.mod_eq_sub_mod (by omega)
      rw [h1, h2]
      simp

theorem connView_ok (b : ByType) (hb : Sorted b) : connViewSize b = b.conns.length ∧ ∀ i : Nat, connViewGet b i = b.conns[i]? := by
  have l0 := fineViews_length _ _ (hb 0)
  have l1 := fineViews_length _ _ (hb 1)
  have l2 := fineViews_length _ _ (hb 2)
  constructor
  · simp only [connViewSize, ByType.conns, List.foldl_cons, List.foldl_nil, List.length_append, List.length_map, l0, l1, l2]
    push_cast; omega
  · intro i
    have step : ∀ (k : Fin 3) (j : Nat) (rest : List (Fin 3)) (tail : List View),
        (∀ j : Nat, connViewLoop b rest j = tail[j]?) → connViewLoop b (k :: rest) j = (fineViews (b.refs k) ++ tail)[j]? := by
      intro k j rest tail ht
      have lk := fineViews_length _ _ (hb k)
      have hk := nFine_pos k
      simp only [connViewLoop]
      by_cases hj : j < nFine k * (b.refs k).length
      · rw [if_pos (by exact_mod_cast hj), List.getElem?_append_left (by rw [lk]; exact hj), fineViews_get _ hk _ (hb k)]
        have e1 : (j : Int) / (nFine k : Int) = ((j / nFine k : Nat) : Int) := by norm_cast
        have e2 : ((j : Int) % (nFine k : Int)).toNat = j % nFine k := by norm_cast
        rw [e1, e2, vecAt_nat]
      · rw [if_neg (by exact_mod_cast hj), List.getElem?_append_right (by rw [lk]; omega), lk, ← ht]
        congr 1
        push_cast [Nat.not_lt.1 hj]; rfl
    have hnil : ∀ j : Nat, connViewLoop b [] j = ([] : List View)[j]? := fun j => by simp [connViewLoop]
    have h2 := fun j => step 2 j [] [] hnil
    have h1 := fun j => step 1 j [2] _ h2
    have h0 := fun j => step 0 j [1, 2] _ h1
    simp only [connViewGet, ByType.conns]
    by_cases hi : i < b.cons.length
    · rw [if_pos (by omega), List.getElem?_append_left (by simpa using hi), vecAt_nat, List.getElem?_map]
    · rw [if_neg (by omega), List.getElem?_append_right (by simpa using hi)]
      have e : (i : Int) - b.cons.length = ((i - b.cons.length : Nat) : Int) := by omega
      rw [e, h0]
      simp

theorem catGet_ok {T : Type} (l0 l1 : List T) (g0 g1 : Int → Option T) (h0 : ∀ i : Nat, g0 i = l0[i]?) (h1 : ∀ i : Nat, g1 i = l1[i]?) (i : Nat) :
    catGet l0.length g0 g1 i = (l0 ++ l1)[i]? := by
  simp only [catGet]
  by_cases hi : i < l0.length
  · rw [if_pos (by omega), List.getElem?_append_left hi, h0]
  · rw [if_neg (by omega), List.getElem?_append_right (by omega), ← h1]
    congr 1; omega

/-- C56: looping over `kernel_connections()` of both parts of the mesh visits every conformal connection, every fine part of every
hanging-node connection and every boundary connection, each exactly once: the Cartesian part its own, the deformed part its own and all
boundary connections. -/
theorem kernel_connections_exact {nd n_bc : Nat} (hnd : 1 ≤ nd ∧ nd ≤ 3) {m : Mesh} (h : Reach nd n_bc m) :
    carKernelSize m = m.car.conns.length ∧ (∀ i : Nat, carKernelGet m i = m.car.conns[i]?) ∧
    defKernelSize m = (m.dfm.conns ++ ((m.car.bounds ++ m.dfm.bounds).map View.bound)).length ∧
    ∀ i : Nat, defKernelGet m i = (m.dfm.conns ++ ((m.car.bounds ++ m.dfm.bounds).map View.bound))[i]? := by
  obtain ⟨hi, -⟩ := reach_inv hnd h
  obtain ⟨c1, c2⟩ := connView_ok m.car hi.sorted.1
  obtain ⟨d1, d2⟩ := connView_ok m.dfm hi.sorted.2
  refine ⟨by rw [carKernelSize, c1]; simp, ?_, by rw [defKernelSize, d1]; simp, ?_⟩
  · intro i
    rw [carKernelGet, c1]
    rw [catGet_ok m.car.conns [] _ _ c2 (fun i => by simp [vecAt_nat])]
    simp
  · intro i
    rw [defKernelGet, d1]
    refine catGet_ok m.dfm.conns _ _ _ d2 ?_ i
    intro j
    rw [List.map_append]
    have := catGet_ok (m.car.bounds.map View.bound) (m.dfm.bounds.map View.bound) (fun i => (Container.vecAt m.car.bounds i).map .bound)
      (fun i => (Container.vecAt m.dfm.bounds i).map .bound) (fun i => by simp [vecAt_nat]) (fun i => by simp [vecAt_nat]) j
    simpa using this

end Hexed.MeshConn
