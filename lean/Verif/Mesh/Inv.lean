import Verif.Mesh.Lemmas

set_option autoImplicit false
set_option linter.unusedVariables false

/-! # Invariants of the connectivity of a mesh over all histories -/

namespace Hexed.MeshConn
open Hexed.Connection (Dir)
open Hexed.Container (Cont At Rep)

/-! ## Removing connections -/

theorem erase_perm {α : Type} (l : List α) (cond : α → Bool) (ends : α → List End) :
    (l.flatMap ends).Perm ((l.filter fun x => !cond x).flatMap ends ++ (l.filter cond).flatMap ends) := by
  induction l with
  | nil => simp
  | cons a l ih =>
    cases h : cond a
    · simp [List.filter_cons, h]; exact List.Perm.append_left _ ih
    · simp only [List.flatMap_cons, List.filter_cons, h, Bool.not_true, Bool.false_eq_true, if_false, if_true]
      refine (List.Perm.append_left _ ih).trans ?_
      rw [← List.append_assoc, ← List.append_assoc]
      exact List.Perm.append_right _ List.perm_append_comm

theorem erase_ptr {α : Type} (destroy : Ptrs → α → Ptrs) (ends : α → List End) (hd : ∀ p a, destroy p a = clearAll p (ends a)) :
    ∀ (l : List α) (p : Ptrs), l.foldl destroy p = clearAll p (l.flatMap ends) := by
  intro l
  induction l with
  | nil => intro p; rfl
  | cons a l ih => intro p; simp only [List.foldl_cons, List.flatMap_cons, clearAll_append, ih, hd]

theorem destroyRef_clear (p : Ptrs) (c : RefConn) : destroyRef p c = clearAll p c.ends := by
  have h : ∀ (l : List Elem) (p : Ptrs) (i : Nat),
      l.foldl (fun p e => setFace p e (c.dir.iFace !c.rev) none) p = clearAll p (fineEnds c.id (c.dir.iFace !c.rev) i l) := by
    intro l
    induction l with
    | nil => intro p i; rfl
    | cons a l ih => intro p i; rw [List.foldl_cons, ih _ (i + 1)]; rfl
  rw [destroyRef, h _ _ 0]; rfl

/-- The connections of `m'` are those of `m` without the ends `R`. -/
structure Removes (m m' : Mesh) (R : List End) : Prop where
  nd : m'.nd = m.nd
  n_bc : m'.n_bc = m.n_bc
  next_el : m'.next_el = m.next_el
  next_id : m'.next_id = m.next_id
  ends : m.ends.Perm (m'.ends ++ R)
  ptr : m'.ptr = clearAll m.ptr R
  sorted : m.Sorted → m'.Sorted

theorem purgeConnections_ok (p : Ptrs) (b : ByType) (predicate : Elem → Bool) (covered : BCon → Bool) :
    ∃ R, (purgeConnections p b predicate covered).1 = clearAll p R ∧
      b.ends.Perm ((purgeConnections p b predicate covered).2.ends ++ R) ∧
      (Sorted b → Sorted (purgeConnections p b predicate covered).2) := by
  let cb := fun c : BCon => covered c || predicate c.el
  let cc := fun c : Conn => predicate (c.el false) || predicate (c.el true)
  let cr := fun (c : RefConn) => predicate c.coarse || c.fine.any predicate
  refine ⟨(b.bounds.filter cb).flatMap BCon.ends ++ ((b.cons.filter cc).flatMap Conn.ends ++ (((b.refs 0).filter cr).flatMap RefConn.ends ++
    (((b.refs 1).filter cr).flatMap RefConn.ends ++ ((b.refs 2).filter cr).flatMap RefConn.ends))), ?_, ?_, ?_⟩
  · simp only [purgeConnections, eraseIf, clearAll_append]
    rw [erase_ptr destroyBound BCon.ends (fun _ _ => rfl), erase_ptr destroyConn Conn.ends (fun _ _ => rfl),
      erase_ptr destroyRef RefConn.ends destroyRef_clear, erase_ptr destroyRef RefConn.ends destroyRef_clear,
      erase_ptr destroyRef RefConn.ends destroyRef_clear]
  · rw [List.perm_iff_count]
    intro x
    have h1 := (erase_perm b.bounds cb BCon.ends).count_eq x
    have h2 := (erase_perm b.cons cc Conn.ends).count_eq x
    have h3 := (erase_perm (b.refs 0) cr RefConn.ends).count_eq x
    have h4 := (erase_perm (b.refs 1) cr RefConn.ends).count_eq x
    have h5 := (erase_perm (b.refs 2) cr RefConn.ends).count_eq x
    simp only [purgeConnections, eraseIf, ByType.ends, List.count_append] at h1 h2 h3 h4 h5 ⊢
    simp only [cb, cc, cr] at h1 h2 h3 h4 h5 ⊢
    omega
  · intro h i c hc
    fin_cases i
    · exact h 0 c (List.mem_of_mem_filter hc)
    · exact h 1 c (List.mem_of_mem_filter hc)
    · exact h 2 c (List.mem_of_mem_filter hc)

/-! ## The invariant -/

/-- What holds after any history. -/
structure Inv (m : Mesh) : Prop where
  nd : 1 ≤ m.nd ∧ m.nd ≤ 3
  sorted : m.Sorted
  repc : ∃ n L, Rep m.car.elems n L
  repd : ∃ n L, Rep m.dfm.elems n L
  nodup : m.elements.Nodup
  lt : ∀ e ∈ m.elements, e < m.next_el
  attached : ∀ x ∈ m.ends, x.1.1 ∈ m.elements
  ids : ∀ x ∈ m.ends, x.2.1 < m.next_id
  slots : (m.ends.map (·.2)).Nodup

theorem Adds.elements {m m' : Mesh} {N : List End} (h : Adds m m' N) : m'.elements = m.elements := by
  simp [Mesh.elements, h.car, h.dfm]

theorem Adds.inv {m m' : Mesh} {N : List End} (h : Adds m m' N) (hm : Inv m) (hN : ∀ x ∈ N, x.1.1 ∈ m.elements) : Inv m' where
  nd := by rw [h.nd]; exact hm.nd
  sorted := h.sorted hm.sorted
  repc := by rw [h.car]; exact hm.repc
  repd := by rw [h.dfm]; exact hm.repd
  nodup := by rw [h.elements]; exact hm.nodup
  lt := by rw [h.elements, h.next_el]; exact hm.lt
  attached := by
    intro x hx
    rw [h.elements]
    rcases List.mem_append.1 (h.ends.mem_iff.1 hx) with hx | hx
    · exact hm.attached x hx
    · exact hN x hx
  ids := by
    intro x hx
    have := h.next_id
    rcases List.mem_append.1 (h.ends.mem_iff.1 hx) with hx | hx
    · have := hm.ids x hx; omega
    · exact (h.ids x hx).2
  slots := by
    rw [(h.ends.map _).nodup_iff, List.map_append, List.nodup_append]
    refine ⟨hm.slots, h.nodup, ?_⟩
    intro a ha b hb hab
    subst hab
    obtain ⟨x, hx, rfl⟩ := List.mem_map.1 ha
    obtain ⟨y, hy, hyx⟩ := List.mem_map.1 hb
    have h1 := hm.ids x hx
    have h2 := h.ids y hy
    rw [hyx] at h2
    omega

theorem new_inv {nd : Nat} (h : 1 ≤ nd ∧ nd ≤ 3) (n_bc : Nat) : Inv (Mesh.new nd n_bc) where
  nd := h
  sorted := ⟨fun i c hc => by simp [Mesh.new] at hc, fun i c hc => by simp [Mesh.new] at hc⟩
  repc := ⟨0, [], Container.new_rep⟩
  repd := ⟨0, [], Container.new_rep⟩
  nodup := by simp [Mesh.new, Mesh.elements, Cont.elements, Cont.new]
  lt := by simp [Mesh.new, Mesh.elements, Cont.elements, Cont.new]
  attached := by simp [Mesh.new, Mesh.ends, ByType.ends]
  ids := by simp [Mesh.new, Mesh.ends, ByType.ends]
  slots := by simp [Mesh.new, Mesh.ends, ByType.ends]

/-! ## Looking up elements -/

theorem Inv.mem {m : Mesh} (hm : Inv m) {l s : Nat} {d : Bool} {e : Elem} (h : (m.byType d).elems.at l s = .ok e) : e ∈ m.elements := by
  have key : ∀ (c : Cont Elem), (∃ n L, Rep c n L) → c.at l s = .ok e → e ∈ c.elements := by
    rintro c ⟨n, L, hL⟩ h
    by_cases hex : ∃ a, (s, l, a) ∈ L
    · obtain ⟨a, ha⟩ := hex
      have := (Container.at_rep hL l s).1 a ha
      rw [h] at this
      simp only [At.ok.injEq] at this
      subst this
      rw [Cont.elements, hL.vec, List.map_map]
      exact List.mem_map.2 ⟨_, ha, rfl⟩
    · push Not at hex
      have := (Container.at_rep hL l s).2 hex
      rw [h] at this
      simp at this
  cases d
  · exact List.mem_append_left _ (key _ hm.repc h)
  · exact List.mem_append_right _ (key _ hm.repd h)

theorem Inv.not_ub {m : Mesh} (hm : Inv m) (l s : Nat) (d : Bool) : (m.byType d).elems.at l s ≠ .ub := by
  have key : ∀ (c : Cont Elem), (∃ n L, Rep c n L) → c.at l s ≠ .ub := by
    rintro c ⟨n, L, hL⟩ h
    by_cases hex : ∃ a, (s, l, a) ∈ L
    · obtain ⟨a, ha⟩ := hex
      rw [(Container.at_rep hL l s).1 a ha] at h
      simp at h
    · push Not at hex
      rw [(Container.at_rep hL l s).2 hex] at h
      simp at h
  cases d
  · exact key _ hm.repc
  · exact key _ hm.repd

theorem withElem_cases {m : Mesh} (hm : Inv m) (l : Nat) (d : Bool) (s : Nat) (k : Elem → Out) :
    withElem m l d s k = .throws m ∨ ∃ e, (m.byType d).elems.at l s = .ok e ∧ e ∈ m.elements ∧ withElem m l d s k = k e := by
  unfold withElem
  split
  · rename_i e h; exact .inr ⟨e, h, hm.mem h, rfl⟩
  · exact .inl rfl
  · rename_i h; exact absurd h (hm.not_ub _ _ _)

theorem withElems_cases {m : Mesh} (hm : Inv m) (l : Nat) : ∀ (q : List (Bool × Nat)) (k : List Elem → Out),
    withElems m l q k = .throws m ∨ ∃ es, List.Forall₂ (fun x e => (m.byType x.1).elems.at l x.2 = .ok e) q es ∧
      (∀ e ∈ es, e ∈ m.elements) ∧ withElems m l q k = k es := by
  intro q
  induction q with
  | nil => intro k; exact .inr ⟨[], .nil, by simp, rfl⟩
  | cons x q ih =>
    intro k
    obtain ⟨d, s⟩ := x
    simp only [withElems]
    rcases withElem_cases hm l d s (fun e => withElems m l q fun es => k (e :: es)) with h | ⟨e, h1, h2, h3⟩
    · exact .inl h
    · rw [h3]
      rcases ih (fun es => k (e :: es)) with h | ⟨es, h4, h5, h6⟩
      · exact .inl h
      · refine .inr ⟨e :: es, .cons h1 h4, ?_, h6⟩
        intro e' he'
        rcases List.mem_cons.1 he' with rfl | he'
        · exact h2
        · exact h5 e' he'

/-! ## Hanging-node connections -/

theorem nFine_false {nd : Nat} (h : 1 ≤ nd ∧ nd ≤ 3) : Connection.nFine nd (false, false) = 2 ^ nd / 2 := by
  obtain rfl | rfl | rfl : nd = 1 ∨ nd = 2 ∨ nd = 3 := by omega
  all_goals decide

theorem nFine_bucket {nd : Nat} (h : 1 ≤ nd ∧ nd ≤ 3) (hb : nd - 1 < 3) : Connection.nFine nd (false, false) = nFine ⟨nd - 1, hb⟩ := by
  obtain rfl | rfl | rfl : nd = 1 ∨ nd = 2 ∨ nd = 3 := by omega
  all_goals rfl

theorem log_small {k : Nat} (hk : k ≤ 4) : ∃ b : Int, MathFn.log 2 k = some b ∧ 0 ≤ b ∧ b < 3 ∧
    ((k = 1 ∨ k = 2 ∨ k = 4) → ∀ h : b.toNat < 3, k = nFine ⟨b.toNat, h⟩) := by
  obtain rfl | rfl | rfl | rfl | rfl : k = 0 ∨ k = 1 ∨ k = 2 ∨ k = 3 ∨ k = 4 := by omega
  all_goals first
    | exact ⟨0, by decide +kernel, by decide, by decide, by decide⟩
    | exact ⟨1, by decide +kernel, by decide, by decide, by decide⟩
    | exact ⟨2, by decide +kernel, by decide, by decide, by decide⟩

theorem nFine_pow (nd : Nat) (h : 1 ≤ nd ∧ nd ≤ 3) (str : Bool × Bool) :
    Connection.nFine nd str = 1 ∨ Connection.nFine nd str = 2 ∨ Connection.nFine nd str = 4 := by
  obtain ⟨a, b⟩ := str
  obtain rfl | rfl | rfl : nd = 1 ∨ nd = 2 ∨ nd = 3 := by omega
  all_goals cases a <;> cases b <;> decide

/-- No access outside a vector in the constructor of `Refined_connection`. -/
theorem order_ok {nd : Nat} (h : 1 ≤ nd ∧ nd ≤ 3) (d : Dir) (rev : Bool) (str : Bool × Bool)
    (hd : d.i0.val < nd ∧ d.i1.val < nd) (fine : List Elem) (hl : fine.length = Connection.nFine nd str) :
    ∃ order, ((Connection.refinedFaces nd d rev str).bind fun l => l.mapM fun x => fine[x.1]?) = some order := by
  have table : ∀ nd ∈ [1, 2, 3], ∀ i0 i1 : Fin 3, ∀ s0 s1 rev a b : Bool, i0.val < nd → i1.val < nd →
      ((Connection.refinedFaces nd ⟨i0, i1, s0, s1⟩ rev (a, b)).any fun l => l.all fun x => x.1 < Connection.nFine nd (a, b)) = true := by
    decide +kernel
  have key : ∃ l, Connection.refinedFaces nd d rev str = some l ∧ ∀ x ∈ l, x.1 < Connection.nFine nd str := by
    have := table nd (by simp; omega) d.i0 d.i1 d.s0 d.s1 rev str.1 str.2 hd.1 hd.2
    rw [Option.any_eq_true] at this
    obtain ⟨l, h1, h2⟩ := this
    exact ⟨l, h1, by simpa using h2⟩
  obtain ⟨l, h1, h2⟩ := key
  have : ∀ (l : List (Nat × Nat)), (∀ x ∈ l, x.1 < fine.length) → ∃ order, (l.mapM fun x => fine[x.1]?) = some order := by
    intro l
    induction l with
    | nil => intro _; exact ⟨[], rfl⟩
    | cons x l ih =>
      intro hx
      obtain ⟨o, ho⟩ := ih fun y hy => hx y (by simp [hy])
      refine ⟨fine[x.1]'(hx x (by simp)) :: o, ?_⟩
      rw [List.mapM_cons, ho, List.getElem?_eq_getElem (hx x (by simp))]
      rfl
  obtain ⟨o, ho⟩ := this l (fun x hx => by rw [hl]; exact h2 x hx)
  exact ⟨o, by rw [h1]; exact ho⟩

end Hexed.MeshConn
