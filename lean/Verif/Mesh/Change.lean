import Verif.Mesh.Steps

set_option autoImplicit false
set_option linter.unusedVariables false

/-! # Every call keeps the invariant -/

namespace Hexed.MeshConn
open Hexed.Connection (Dir)
open Hexed.Container (Cont At Rep)

/-- What a call that returns does. -/
inductive Change (m m' : Mesh) : Prop
  | adds (N : List End) (h : Adds m m' N) (hN : ∀ x ∈ N, x.1.1 ∈ m.elements)
  | elem (hnd : m'.nd = m.nd) (hi : Inv m') (he : m'.ends = m.ends) (hp : m'.ptr = fun e f => if e = m.next_el then none else m.ptr e f)
  | removes (R : List End) (hi : Inv m') (h : Removes m m' R)

/-- What a call that throws leaves: the same elements and connections. -/
structure Same (m m' : Mesh) : Prop where
  nd : m'.nd = m.nd
  n_bc : m'.n_bc = m.n_bc
  car : m'.car = m.car
  dfm : m'.dfm = m.dfm
  next_el : m'.next_el = m.next_el
  next_id : m.next_id ≤ m'.next_id

theorem Same.refl (m : Mesh) : Same m m := ⟨rfl, rfl, rfl, rfl, rfl, Nat.le_refl _⟩

theorem Same.inv {m m' : Mesh} (h : Same m m') (hm : Inv m) : Inv m' := by
  have he : m'.elements = m.elements := by simp [Mesh.elements, h.car, h.dfm]
  have hn : m'.ends = m.ends := by simp [Mesh.ends, h.car, h.dfm]
  refine ⟨by rw [h.nd]; exact hm.nd, ?_, by rw [h.car]; exact hm.repc, by rw [h.dfm]; exact hm.repd, by rw [he]; exact hm.nodup,
    by rw [he, h.next_el]; exact hm.lt, by rw [he, hn]; exact hm.attached, ?_, by rw [hn]; exact hm.slots⟩
  · have := hm.sorted; unfold Mesh.Sorted at this ⊢; rw [h.car, h.dfm]; exact this
  · intro x hx; rw [hn] at hx; have := hm.ids x hx; have := h.next_id; omega

/-- What any call does. -/
def StepOk (m : Mesh) : Out → Prop
  | .ok m' => Change m m'
  | .throws m' => Same m m'
  | .ub => False

theorem addElement_ok {m : Mesh} (hm : Inv m) (l : Nat) (d : Bool) : StepOk m (addElement m l d) := by
  obtain ⟨n, L, hL⟩ := hm.repc
  obtain ⟨n', L', hL'⟩ := hm.repd
  have hfresh : m.next_el ∉ m.elements := fun h => Nat.lt_irrefl _ (hm.lt _ h)
  have hfr : m.next_el ∉ m.car.elems.elements ∧ m.next_el ∉ m.dfm.elems.elements := by
    simpa [Mesh.elements, not_or] using hfresh
  have hel : ∀ c : Cont Elem, (c.emplace l m.next_el).1.elements = c.elements ++ [m.next_el] := by
    intro c; simp [Cont.emplace, Cont.elements]
  refine Change.elem (by cases d <;> rfl) ?_ (by cases d <;> rfl) (by cases d <;> rfl)
  have hperm : (match addElement m l d with | .ok m' => m'.elements | _ => []).Perm (m.next_el :: m.elements) := by
    cases d
    · show ((m.car.elems.emplace l m.next_el).1.elements ++ m.dfm.elems.elements).Perm _
      rw [hel, List.append_assoc]
      exact List.perm_middle
    · show (m.car.elems.elements ++ (m.dfm.elems.emplace l m.next_el).1.elements).Perm _
      rw [hel, ← List.append_assoc]
      exact List.perm_append_comm
  constructor
  · cases d <;> exact hm.nd
  · cases d
    · exact ⟨hm.sorted.1, hm.sorted.2⟩
    · exact ⟨hm.sorted.1, hm.sorted.2⟩
  · cases d
    · exact ⟨_, _, hL.emplace l m.next_el⟩
    · exact ⟨_, _, hL⟩
  · cases d
    · exact ⟨_, _, hL'⟩
    · exact ⟨_, _, hL'.emplace l m.next_el⟩
  · exact hperm.nodup_iff.2 (List.nodup_cons.2 ⟨hfresh, hm.nodup⟩)
  · intro e he
    show e < m.next_el + 1
    rcases List.mem_cons.1 (hperm.mem_iff.1 he) with rfl | he
    · exact Nat.lt_succ_self _
    · exact Nat.lt_succ_of_lt (hm.lt e he)
  · intro x hx
    have hx' : x ∈ m.ends := by cases d <;> exact hx
    exact hperm.mem_iff.2 (List.mem_cons_of_mem _ (hm.attached x hx'))
  · intro x hx
    have hx' : x ∈ m.ends := by cases d <;> exact hx
    have := hm.ids x hx'
    cases d <;> exact this
  · have := hm.slots
    cases d <;> exact this

theorem cartesian_ok {m : Mesh} (hm : Inv m) (l s0 s1 : Nat) (i : Fin 3) (d0 d1 : Bool) : StepOk m (connectCartesian m l s0 s1 i d0 d1) := by
  unfold connectCartesian
  rcases withElem_cases hm l d0 s0 (fun e0 => withElem m l d1 s1 fun e1 => .ok (addConn m false e0 e1 (.cart i))) with h | ⟨e0, -, h0, h⟩
  · rw [h]; exact Same.refl m
  · rw [h]
    rcases withElem_cases hm l d1 s1 (fun e1 => .ok (addConn m false e0 e1 (.cart i))) with h | ⟨e1, -, h1, h⟩
    · rw [h]; exact Same.refl m
    · rw [h]
      refine Change.adds _ (addConn_adds m false e0 e1 _) ?_
      intro x hx
      simp only [List.mem_cons, List.not_mem_nil, or_false] at hx
      rcases hx with rfl | rfl
      · exact h0
      · exact h1

theorem deformed_ok {m : Mesh} (hm : Inv m) (l s0 s1 : Nat) (d : Dir) : StepOk m (connectDeformed m l s0 s1 d) := by
  unfold connectDeformed
  split
  · exact Same.refl m
  · rcases withElem_cases hm l true s0 (fun e0 => withElem m l true s1 fun e1 => .ok (addConn m true e0 e1 (.dfm d))) with h | ⟨e0, -, h0, h⟩
    · rw [h]; exact Same.refl m
    · rw [h]
      rcases withElem_cases hm l true s1 (fun e1 => .ok (addConn m true e0 e1 (.dfm d))) with h | ⟨e1, -, h1, h⟩
      · rw [h]; exact Same.refl m
      · rw [h]
        refine Change.adds _ (addConn_adds m true e0 e1 _) ?_
        intro x hx
        simp only [List.mem_cons, List.not_mem_nil, or_false] at hx
        rcases hx with rfl | rfl
        · exact h0
        · exact h1

theorem boundary_ok {m : Mesh} (hm : Inv m) (l : Nat) (d : Bool) (sn i : Nat) (s : Bool) (bc : Nat) : StepOk m (connectBoundary m l d sn i s bc) := by
  unfold connectBoundary
  split
  · rcases withElem_cases hm l d sn (fun e => .ok (addBound m d e i s bc)) with h | ⟨e, -, h0, h⟩
    · rw [h]; exact Same.refl m
    · rw [h]
      refine Change.adds _ (addBound_adds m d e i s bc) ?_
      intro x hx
      simp only [List.mem_cons, List.not_mem_nil, or_false] at hx
      subst hx
      exact h0
  · exact Same.refl m

theorem fineEnds_mem (id face : Nat) : ∀ (l : List Elem) (i : Nat), ∀ x ∈ fineEnds id face i l, x.1.1 ∈ l := by
  intro l
  induction l with
  | nil => intro i x hx; simp [fineEnds] at hx
  | cons a l ih =>
    intro i x hx
    simp only [fineEnds, List.mem_cons] at hx
    rcases hx with rfl | hx
    · simp
    · exact List.mem_cons_of_mem _ (ih _ x hx)

/-- The call adds a connection with this coarse element and these fine elements, or throws because of the number of fine
elements. -/
theorem addRef_step {m : Mesh} (hm : Inv m) {d : Bool} {bucket : Nat} {coarse : Elem} {fine : List Elem} {dir : ConDir} {rev : Bool} {str : Bool × Bool}
    (hd : dir.toDir.i0.val < m.nd ∧ dir.toDir.i1.val < m.nd) (hlt : bucket < 3)
    (hb : fine.length = Connection.nFine m.nd str → Connection.nFine m.nd str = nFine ⟨bucket, hlt⟩)
    (hc : coarse ∈ m.elements) (hf : ∀ e ∈ fine, e ∈ m.elements) : StepOk m (addRef m d bucket coarse fine dir rev str) := by
  rcases addRef_ok hm (d := d) (coarse := coarse) (rev := rev) hd hlt hb with ⟨-, h⟩ | ⟨-, m', order, ho, h, ha⟩
  · rw [h]; exact ⟨rfl, rfl, rfl, rfl, rfl, Nat.le_succ _⟩
  · rw [h]
    refine Change.adds _ ha ?_
    intro x hx
    rcases List.mem_cons.1 hx with rfl | hx
    · exact hc
    · exact hf _ (ho.mem_iff.1 (fineEnds_mem _ _ _ _ x hx))

theorem is_car_iff (l : List Bool) (b : Bool) : l.foldl (fun is_car fd => is_car || !fd) b = true ↔ b = true ∨ false ∈ l := by
  induction l generalizing b with
  | nil => simp
  | cons a l ih => rw [List.foldl_cons, ih]; cases a <;> cases b <;> simp

theorem hanging_ok {m : Mesh} (hm : Inv m) (l c : Nat) (f : List Nat) (d : Dir) (cd : Bool) (fd : List Bool) (str : Bool × Bool)
    (hop : OpOk m.nd (.connectHanging l c f d cd fd str)) : StepOk m (connectHanging m l c f d cd fd str) := by
  obtain ⟨hd0, hd1, h4, hcar⟩ := hop
  unfold connectHanging
  simp only
  split
  · rename_i hic
    have hic' := (is_car_iff _ _).1 hic
    obtain ⟨hf1, hf2⟩ := hcar (by simpa using hic')
    generalize hk : (fun coarse => match firstN fd (2 ^ m.nd / 2), firstN f (2 ^ m.nd / 2) with
      | some fd, some fs => withElems m (l + 1) (fd.zip fs) fun fine =>
          if d.i0 ≠ d.i1 ∨ d.s0 = d.s1 then .throws m
          else addRef m false (m.nd - 1) coarse fine (.cart d.i0) d.s1 (false, false)
      | _, _ => Out.ub) = k
    rcases withElem_cases hm l cd c k with h | ⟨coarse, -, hc, h⟩
    · rw [h]; exact Same.refl m
    · rw [h, ← hk]
      have e1 : firstN fd (2 ^ m.nd / 2) = some (fd.take (2 ^ m.nd / 2)) := if_pos hf1
      have e2 : firstN f (2 ^ m.nd / 2) = some (f.take (2 ^ m.nd / 2)) := if_pos hf2
      simp only [e1, e2]
      rcases withElems_cases hm (l + 1) ((fd.take (2 ^ m.nd / 2)).zip (f.take (2 ^ m.nd / 2))) (fun fine =>
          if d.i0 ≠ d.i1 ∨ d.s0 = d.s1 then .throws m
          else addRef m false (m.nd - 1) coarse fine (.cart d.i0) d.s1 (false, false)) with h | ⟨fine, -, hfi, h⟩
      · rw [h]; exact Same.refl m
      · rw [h]
        split
        · exact Same.refl m
        · exact addRef_step hm ⟨hd0, hd0⟩ (by have := hm.nd; omega) (fun _ => nFine_bucket hm.nd _) hc hfi
  · generalize hk : (fun coarse => withElems m (l + 1) (f.map fun s => (true, s)) fun fine =>
        match MathFn.log 2 f.length with
        | none => Out.ub
        | some b => if b < 0 ∨ 3 ≤ b then .ub else addRef m true b.toNat coarse fine (.dfm d) false str) = k
    rcases withElem_cases hm l true c k with h | ⟨coarse, -, hc, h⟩
    · rw [h]; exact Same.refl m
    · rw [h, ← hk]
      simp only
      rcases withElems_cases hm (l + 1) (f.map fun s => (true, s)) (fun fine =>
        match MathFn.log 2 f.length with
        | none => Out.ub
        | some b => if b < 0 ∨ 3 ≤ b then .ub else addRef m true b.toNat coarse fine (.dfm d) false str) with h | ⟨fine, hall, hfi, h⟩
      · rw [h]; exact Same.refl m
      · rw [h]
        obtain ⟨b, hb1, hb2, hb3, hb4⟩ := log_small h4
        simp only [hb1]
        rw [if_neg (by omega)]
        have hlen : f.length = fine.length := by have := hall.length_eq; simpa using this
        refine addRef_step hm ⟨hd0, hd1⟩ (by omega) ?_ hc hfi
        intro hl
        rw [← hl, ← hlen]
        exact hb4 (by rw [hlen, hl]; exact nFine_pow _ hm.nd _) _

theorem Removes.inv {m m' : Mesh} {R : List End} (h : Removes m m' R) (hm : Inv m) (repc : ∃ n L, Rep m'.car.elems n L)
    (repd : ∃ n L, Rep m'.dfm.elems n L) (hs : m'.elements.Sublist m.elements) (ha : ∀ x ∈ m'.ends, x.1.1 ∈ m'.elements) : Inv m' where
  nd := by rw [h.nd]; exact hm.nd
  sorted := h.sorted hm.sorted
  repc := repc
  repd := repd
  nodup := hs.nodup hm.nodup
  lt := by intro e he; rw [h.next_el]; exact hm.lt e (hs.subset he)
  attached := ha
  ids := by
    intro x hx
    rw [h.next_id]
    exact hm.ids x (h.ends.mem_iff.2 (List.mem_append_left _ hx))
  slots := by
    have := (h.ends.map (·.2)).nodup_iff.1 hm.slots
    rw [List.map_append, List.nodup_append] at this
    exact this.1

theorem disconnect_ok {m : Mesh} (hm : Inv m) (bc : Nat) : StepOk m (disconnectBoundary m bc) := by
  have hR : Removes m { m with
      ptr := (eraseIf (eraseIf m.ptr destroyBound m.car.bounds fun c => c.bc == bc).1 destroyBound m.dfm.bounds fun c => c.bc == bc).1,
      car := { m.car with bounds := m.car.bounds.filter fun c => !(c.bc == bc) },
      dfm := { m.dfm with bounds := m.dfm.bounds.filter fun c => !(c.bc == bc) } }
      ((m.car.bounds.filter fun c => c.bc == bc).flatMap BCon.ends ++ (m.dfm.bounds.filter fun c => c.bc == bc).flatMap BCon.ends) := by
    refine ⟨rfl, rfl, rfl, rfl, ?_, ?_, fun h => h⟩
    · rw [List.perm_iff_count]
      intro x
      have h1 := (erase_perm m.car.bounds (fun c => c.bc == bc) BCon.ends).count_eq x
      have h2 := (erase_perm m.dfm.bounds (fun c => c.bc == bc) BCon.ends).count_eq x
      simp only [Mesh.ends, ByType.ends, List.count_append] at h1 h2 ⊢
      omega
    · simp only [eraseIf, clearAll_append]
      rw [erase_ptr destroyBound BCon.ends (fun _ _ => rfl), erase_ptr destroyBound BCon.ends (fun _ _ => rfl)]
  refine Change.removes _ (hR.inv hm hm.repc hm.repd (List.Sublist.refl _) ?_) hR
  intro x hx
  exact hm.attached x (hR.ends.mem_iff.2 (List.mem_append_left _ hx))

/-! ## Purging -/

theorem purge_container {c : Cont Elem} (h : ∃ n L, Rep c n L) (p : Elem → Bool) :
    ∃ c' k, c.purge (fun x => p x.2) = some (c', k) ∧ (∃ n L, Rep c' n L) ∧ c'.elements = c.elements.filter fun e => !p e := by
  obtain ⟨n, L, hL⟩ := h
  obtain ⟨c', h3, h4⟩ := hL.purge (fun x => p x.2)
  refine ⟨c', _, h3, ⟨_, _, h4⟩, ?_⟩
  simp only [Cont.elements, h4.vec, hL.vec, List.map_map, List.filter_map]
  rfl

theorem kept_ends (p : Ptrs) (b : ByType) (predicate : Elem → Bool) (covered : BCon → Bool) :
    ∀ x ∈ (purgeConnections p b predicate covered).2.ends, predicate x.1.1 = false := by
  intro x hx
  simp only [purgeConnections, eraseIf, ByType.ends, List.mem_append, List.mem_flatMap, List.mem_filter, Bool.not_or, Bool.and_eq_true,
    Bool.not_eq_true'] at hx
  have hr : ∀ c : RefConn, predicate c.coarse = false → c.fine.any predicate = false → x ∈ c.ends → predicate x.1.1 = false := by
    intro c h1 h2 h3
    rcases List.mem_cons.1 h3 with rfl | h3
    · exact h1
    · have := fineEnds_mem _ _ _ _ x h3
      rw [List.any_eq_false] at h2
      simpa using h2 _ this
  rcases hx with ⟨c, ⟨-, h1, h2⟩, hx⟩ | ⟨c, ⟨-, h1, h2⟩, hx⟩ | ⟨c, ⟨-, h1, h2⟩, hx⟩ | ⟨c, ⟨-, h1, h2⟩, hx⟩ | ⟨c, ⟨-, h1, h2⟩, hx⟩
  · simp only [Conn.ends, List.mem_cons, List.not_mem_nil, or_false] at hx
    rcases hx with rfl | rfl
    · exact h1
    · exact h2
  · simp only [BCon.ends, List.mem_cons, List.not_mem_nil, or_false] at hx
    subst hx; exact h2
  · exact hr c h1 h2 hx
  · exact hr c h1 h2 hx
  · exact hr c h1 h2 hx

theorem purge_ok {m : Mesh} (hm : Inv m) (predicate : Elem → Bool) (covered : BCon → Bool) :
    ∃ m' R, purge m predicate covered = .ok m' ∧ Removes m m' R ∧ Inv m' ∧ m'.elements = m.elements.filter (fun e => !predicate e) ∧
      m'.car.cons = m.car.cons.filter (fun c => !(predicate (c.el false) || predicate (c.el true))) ∧
      m'.dfm.cons = m.dfm.cons.filter (fun c => !(predicate (c.el false) || predicate (c.el true))) ∧
      (∀ i, m'.car.refs i = (m.car.refs i).filter fun c => !(predicate c.coarse || c.fine.any predicate)) ∧
      (∀ i, m'.dfm.refs i = (m.dfm.refs i).filter fun c => !(predicate c.coarse || c.fine.any predicate)) ∧
      m'.car.bounds = m.car.bounds.filter (fun c => !(covered c || predicate c.el)) ∧
      m'.dfm.bounds = m.dfm.bounds.filter (fun c => !(covered c || predicate c.el)) := by
  obtain ⟨R0, a1, a2, a3⟩ := purgeConnections_ok m.ptr m.car predicate covered
  obtain ⟨R1, b1, b2, b3⟩ := purgeConnections_ok (purgeConnections m.ptr m.car predicate covered).1 m.dfm predicate covered
  have hk0 := kept_ends m.ptr m.car predicate covered
  have hk1 := kept_ends (purgeConnections m.ptr m.car predicate covered).1 m.dfm predicate covered
  obtain ⟨ce, k0, c1, c2, c3⟩ := purge_container hm.repc predicate
  obtain ⟨de, k1, d1, d2, d3⟩ := purge_container hm.repd predicate
  have hc : (purgeConnections m.ptr m.car predicate covered).2.elems = m.car.elems := rfl
  have hd : (purgeConnections (purgeConnections m.ptr m.car predicate covered).1 m.dfm predicate covered).2.elems = m.dfm.elems := rfl
  let m' : Mesh := { m with
    ptr := (purgeConnections (purgeConnections m.ptr m.car predicate covered).1 m.dfm predicate covered).1,
    car := { (purgeConnections m.ptr m.car predicate covered).2 with elems := ce },
    dfm := { (purgeConnections (purgeConnections m.ptr m.car predicate covered).1 m.dfm predicate covered).2 with elems := de } }
  have hR : Removes m m' (R0 ++ R1) := by
    refine ⟨rfl, rfl, rfl, rfl, ?_, ?_, fun h => ⟨a3 h.1, b3 h.2⟩⟩
    · rw [List.perm_iff_count]
      intro x
      have h1 := a2.count_eq x
      have h2 := b2.count_eq x
      have h3 : m'.ends = (purgeConnections m.ptr m.car predicate covered).2.ends ++
        (purgeConnections (purgeConnections m.ptr m.car predicate covered).1 m.dfm predicate covered).2.ends := rfl
      rw [h3]
      simp only [Mesh.ends, List.count_append] at h1 h2 ⊢
      omega
    · show _ = clearAll m.ptr (R0 ++ R1)
      rw [clearAll_append, ← a1, ← b1]
  have hel : m'.elements = m.elements.filter (fun e => !predicate e) := by
    show ce.elements ++ de.elements = _
    rw [c3, d3, Mesh.elements, List.filter_append]
  refine ⟨m', R0 ++ R1, by simp only [purge, hc, hd, c1, d1]; rfl, hR, ?_, hel, rfl, rfl, ?_, ?_, rfl, rfl⟩
  · refine hR.inv hm c2 d2 (by rw [hel]; exact List.filter_sublist) ?_
    intro x hx
    rw [hel, List.mem_filter]
    refine ⟨hm.attached x (hR.ends.mem_iff.2 (List.mem_append_left _ hx)), ?_⟩
    rcases List.mem_append.1 hx with hx | hx
    · simp [hk0 x hx]
    · simp [hk1 x hx]
  · intro i; fin_cases i <;> rfl
  · intro i; fin_cases i <;> rfl

theorem step_ok {m : Mesh} (hm : Inv m) (op : Op) (hop : OpOk m.nd op) : StepOk m (step m op) := by
  cases op with
  | addElement l d => exact addElement_ok hm l d
  | connectCartesian l s0 s1 i d0 d1 => exact cartesian_ok hm l s0 s1 i d0 d1
  | connectDeformed l s0 s1 d => exact deformed_ok hm l s0 s1 d
  | connectHanging l c f d cd fd str => exact hanging_ok hm l c f d cd fd str hop
  | connectBoundary l d sn i s bc => exact boundary_ok hm l d sn i s bc
  | disconnectBoundary bc => exact disconnect_ok hm bc
  | purge p c =>
    obtain ⟨m', R, h1, h2, h3, -⟩ := purge_ok hm p c
    show StepOk m (purge m p c)
    rw [h1]
    exact Change.removes R h3 h2
  | connectRest bc r =>
    obtain ⟨m', N, h1, h2, h3, -⟩ := connectRest_ok hm bc r
    show StepOk m (connectRest m bc r)
    rw [h1]
    refine Change.adds N h2 ?_
    intro x hx
    have : x.1 ∈ N.map (·.1) := List.mem_map_of_mem hx
    rw [h3, List.mem_filter] at this
    exact (mem_faces.1 this.1).1

theorem Change.inv {m m' : Mesh} (h : Change m m') (hm : Inv m) : Inv m' := by
  cases h with
  | adds N h hN => exact h.inv hm hN
  | elem _ hi _ _ => exact hi
  | removes _ hi _ => exact hi

theorem Change.nd {m m' : Mesh} (h : Change m m') : m'.nd = m.nd := by
  cases h with
  | adds N h hN => exact h.nd
  | elem h _ _ _ => exact h
  | removes _ _ h => exact h.nd

theorem reach_inv {nd n_bc : Nat} (hnd : 1 ≤ nd ∧ nd ≤ 3) {m : Mesh} (h : Reach nd n_bc m) : Inv m ∧ m.nd = nd := by
  induction h with
  | new => exact ⟨new_inv hnd n_bc, rfl⟩
  | ok _ hop hs ih =>
    have := step_ok ih.1 _ (by rw [ih.2]; exact hop)
    rw [hs] at this
    exact ⟨Change.inv this ih.1, (Change.nd this).trans ih.2⟩
  | throws _ hop hs ih =>
    have := step_ok ih.1 _ (by rw [ih.2]; exact hop)
    rw [hs] at this
    exact ⟨Same.inv this ih.1, (Same.nd this).trans ih.2⟩

theorem clean_reach {nd n_bc : Nat} {m : Mesh} (h : Clean nd n_bc m) : Reach nd n_bc m := by
  induction h with
  | new => exact .new
  | ok _ hop hs _ ih => exact .ok ih hop hs

/-- No face connected twice. -/
theorem degree_nodup {m : Mesh} : (∀ e f, m.degree e f ≤ 1) ↔ (m.ends.map (·.1)).Nodup := by
  rw [List.nodup_iff_count_le_one]
  constructor
  · rintro h ⟨e, f⟩; exact h e f
  · intro h e f; exact h (e, f)

theorem clean_exact {nd n_bc : Nat} (hnd : 1 ≤ nd ∧ nd ≤ 3) {m : Mesh} (h : Clean nd n_bc m) :
    Exact m.ptr m.ends ∧ (m.ends.map (·.1)).Nodup := by
  induction h with
  | new => refine ⟨?_, by simp [Mesh.new, Mesh.ends, ByType.ends]⟩; intro e f s; simp [Mesh.new, Mesh.ends, ByType.ends]
  | @ok m m' op hc hop hs hdeg ih =>
    obtain ⟨hi, hn⟩ := reach_inv hnd (clean_reach hc)
    have hnew := degree_nodup.1 hdeg
    refine ⟨?_, hnew⟩
    have := step_ok hi op (by rw [hn]; exact hop)
    rw [hs] at this
    cases this with
    | adds N h hN =>
      rw [h.ptr]
      exact (ih.1.set ((h.ends.map _).nodup_iff.1 hnew)).perm h.ends.symm
    | elem _ _ he hp =>
      rw [hp, he]
      intro e f s
      beta_reduce
      split
      · rename_i hee
        subst hee
        simp only [reduceCtorEq, false_iff]
        intro hx
        exact Nat.lt_irrefl _ (hi.lt _ (hi.attached _ hx))
      · exact ih.1 e f s
    | removes R _ h =>
      rw [h.ptr]
      exact (ih.1.perm h.ends).clear ((h.ends.map _).nodup_iff.1 ih.2)

end Hexed.MeshConn
