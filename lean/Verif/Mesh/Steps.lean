import Verif.Mesh.Inv

set_option autoImplicit false
set_option linter.unusedVariables false

/-! # What each call does to the connections -/

namespace Hexed.MeshConn
open Hexed.Connection (Dir)
open Hexed.Container (Cont At Rep)

/-! ## Hanging-node connections -/

theorem order_perm {nd : Nat} (h : 1 ≤ nd ∧ nd ≤ 3) {d : Dir} {rev : Bool} {str : Bool × Bool}
    (hd : d.i0.val < nd ∧ d.i1.val < nd) {fine order : List Elem} (hl : fine.length = Connection.nFine nd str) {pairs : List (Nat × Nat)}
    (hp : Connection.refinedFaces nd d rev str = some pairs) (ho : (pairs.mapM fun x => fine[x.1]?) = some order) : order.Perm fine := by
  have table : ∀ nd ∈ [1, 2, 3], ∀ i0 i1 : Fin 3, ∀ s0 s1 rev a b : Bool, i0.val < nd → i1.val < nd →
      ((Connection.refinedFaces nd ⟨i0, i1, s0, s1⟩ rev (a, b)).any fun l => (l.map (·.1)).isPerm (List.range (Connection.nFine nd (a, b)))) = true := by
    decide +kernel
  have h1 := table nd (by simp; omega) d.i0 d.i1 d.s0 d.s1 rev str.1 str.2 hd.1 hd.2
  change (Connection.refinedFaces nd d rev str).any _ = true at h1
  rw [hp] at h1
  simp only [Option.any_some, List.isPerm_iff] at h1
  have h2 : order.map some = (pairs.map (·.1)).map fun i => fine[i]? := by
    obtain ⟨hlen, hget⟩ := Container.mapM_getElem? _ _ _ ho
    apply List.ext_getElem?
    intro i
    rw [List.getElem?_map, hget, List.map_map, List.getElem?_map]
    cases hpi : pairs[i]? with
    | none => rfl
    | some x =>
      have : i < order.length := by
        rw [hlen]; exact (List.getElem?_eq_some_iff.1 hpi).1
      have h3 := hget i
      rw [hpi, List.getElem?_eq_getElem this] at h3
      simp only [Option.bind_some] at h3 ⊢
      simp [← h3]
  have h3 : (List.range fine.length).map (fun i => fine[i]?) = fine.map some := by
    apply List.ext_getElem?
    intro i
    rw [List.getElem?_map, List.getElem?_map]
    by_cases hi : i < fine.length
    · rw [List.getElem?_range hi]; simp [List.getElem?_eq_getElem hi]
    · rw [List.getElem?_eq_none (by simpa using hi), List.getElem?_eq_none (by simpa using hi)]; rfl
  have h4 : (order.map some).Perm (fine.map some) := by
    rw [h2, ← h3, hl]; exact h1.map _
  have := h4.filterMap id
  simpa [List.filterMap_map] using this

/-- The ends of a new hanging-node connection. -/
theorem addRef_ok {m : Mesh} (hm : Inv m) {d : Bool} {bucket : Nat} {coarse : Elem} {fine : List Elem} {dir : ConDir} {rev : Bool} {str : Bool × Bool}
    (hd : dir.toDir.i0.val < m.nd ∧ dir.toDir.i1.val < m.nd) (hlt : bucket < 3)
    (hb : fine.length = Connection.nFine m.nd str → Connection.nFine m.nd str = nFine ⟨bucket, hlt⟩) :
    (fine.length ≠ Connection.nFine m.nd str ∧
      addRef m d bucket coarse fine dir rev str = .throws { m with ptr := setFace m.ptr coarse (dir.iFace rev) (some (m.next_id, .coarse)), next_id := m.next_id + 1 }) ∨
    (fine.length = Connection.nFine m.nd str ∧ ∃ m' order, order.Perm fine ∧ addRef m d bucket coarse fine dir rev str = .ok m' ∧
      Adds m m' (((coarse, dir.iFace rev), (m.next_id, .coarse)) :: fineEnds m.next_id (dir.iFace !rev) 0 order)) := by
  by_cases hl : fine.length = Connection.nFine m.nd str
  · right
    refine ⟨hl, ?_⟩
    obtain ⟨order, ho⟩ := order_ok hm.nd dir.toDir rev str hd fine hl
    have hex : ∃ m', addRef m d bucket coarse fine dir rev str = .ok m' := by
      have hne : ∀ o, addRef m d bucket coarse fine dir rev str = o → (∃ m', o = .ok m') := by
        intro o h
        simp only [addRef] at h
        rw [if_neg (by omega), ho] at h
        simp only [dif_pos hlt] at h
        exact ⟨_, h.symm⟩
      exact hne _ rfl
    obtain ⟨m', hm'⟩ := hex
    obtain ⟨pairs, order', h1, h2, h3, h4, h5⟩ := addRef_adds (fun _ => hb hl) hm'
    exact ⟨m', order', order_perm hm.nd hd hl h1 h2, hm', h5⟩
  · left
    refine ⟨hl, ?_⟩
    simp only [addRef]
    rw [if_pos hl]

/-! ## Boundary connections for the rest -/

/-- Add boundary connections for a list of faces. -/
def addBounds (m : Mesh) (d : Bool) (bc : Nat) (L : List (Elem × Nat × Bool)) : Mesh :=
  L.foldl (fun m x => addBound m d x.1 x.2.1 x.2.2 bc) m

theorem foldl_inv {α β : Type} (P : Mesh → Prop) (g : Mesh → α → Mesh) (h : α → List β) (k : Mesh → β → Mesh)
    (hP : ∀ m b, P m → P (k m b)) (hg : ∀ m a, P m → g m a = (h a).foldl k m) :
    ∀ (l : List α) (m : Mesh), P m → l.foldl g m = (l.flatMap h).foldl k m := by
  have hP' : ∀ (l : List β) (m : Mesh), P m → P (l.foldl k m) := by
    intro l
    induction l with
    | nil => intro m hm; exact hm
    | cons b l ih => intro m hm; exact ih _ (hP _ _ hm)
  intro l
  induction l with
  | nil => intro m _; rfl
  | cons a l ih =>
    intro m hm
    rw [List.foldl_cons, List.flatMap_cons, List.foldl_append, hg m a hm, ih _ (hP' _ _ hm)]

/-- The faces of some elements with a zero record. -/
def emptyFaces (nd : Nat) (r : Rec) (els : List Elem) : List (Elem × Nat × Bool) :=
  els.flatMap fun e => (List.range nd).flatMap fun i => [false, true].flatMap fun s =>
    if r e (2 * i + s.toNat) = 0 then [(e, i, s)] else []

theorem connectEmpty_eq (m : Mesh) (d : Bool) (bc : Nat) (r : Rec) :
    connectEmpty m d bc r = addBounds m d bc (emptyFaces m.nd r (m.byType d).elems.elements) := by
  have hnd : ∀ (m : Mesh) (x : Elem × Nat × Bool), (addBound m d x.1 x.2.1 x.2.2 bc).nd = m.nd := by
    intro m x; exact (addBound_adds m d x.1 x.2.1 x.2.2 bc).nd
  refine foldl_inv (fun m' => m'.nd = m.nd) _ _ _ (fun m' x h => (hnd m' x).trans h) ?_ _ m rfl
  intro m1 e h1
  rw [h1]
  refine foldl_inv (fun _ => True) _ _ _ (fun _ _ _ => trivial) ?_ _ m1 trivial
  intro m2 i _
  refine foldl_inv (fun _ => True) _ _ _ (fun _ _ _ => trivial) ?_ _ m2 trivial
  intro m3 s _
  beta_reduce
  split <;> rfl

theorem addBounds_adds (d : Bool) (bc : Nat) : ∀ (L : List (Elem × Nat × Bool)) (m : Mesh),
    ∃ N, Adds m (addBounds m d bc L) N ∧ N.map (·.1) = L.map fun x => (x.1, 2 * x.2.1 + x.2.2.toNat) := by
  intro L
  induction L with
  | nil => intro m; exact ⟨[], Adds.refl m, rfl⟩
  | cons x L ih =>
    intro m
    obtain ⟨N, h1, h2⟩ := ih (addBound m d x.1 x.2.1 x.2.2 bc)
    exact ⟨_, (addBound_adds m d x.1 x.2.1 x.2.2 bc).trans h1, by simp [h2]⟩

/-- Adding boundary connections leaves the others alone. -/
theorem addBounds_others (d : Bool) (bc : Nat) : ∀ (L : List (Elem × Nat × Bool)) (m : Mesh),
    (addBounds m d bc L).car.cons = m.car.cons ∧ (addBounds m d bc L).dfm.cons = m.dfm.cons ∧
    (addBounds m d bc L).car.refs = m.car.refs ∧ (addBounds m d bc L).dfm.refs = m.dfm.refs ∧
    (∃ B, ((addBounds m d bc L).byType d).bounds = (m.byType d).bounds ++ B ∧
      B.map (fun c => (c.el, c.i_dim, c.sign)) = L ∧ ∀ c ∈ B, c.bc = bc) ∧
    ((addBounds m d bc L).byType !d).bounds = (m.byType !d).bounds := by
  intro L
  induction L with
  | nil => intro m; exact ⟨rfl, rfl, rfl, rfl, ⟨[], by simp [addBounds], rfl, by simp⟩, rfl⟩
  | cons x L ih =>
    intro m
    obtain ⟨h1, h2, h3, h4, ⟨B, h5, h6, h7⟩, h8⟩ := ih (addBound m d x.1 x.2.1 x.2.2 bc)
    refine ⟨h1.trans (by cases d <;> rfl), h2.trans (by cases d <;> rfl), h3.trans (by cases d <;> rfl), h4.trans (by cases d <;> rfl),
      ⟨⟨m.next_id, x.1, x.2.1, x.2.2, bc⟩ :: B, ?_, by simp [h6], ?_⟩, h8.trans (by cases d <;> rfl)⟩
    · refine h5.trans ?_
      have : ((addBound m d x.1 x.2.1 x.2.2 bc).byType d).bounds = (m.byType d).bounds ++ [⟨m.next_id, x.1, x.2.1, x.2.2, bc⟩] := by
        cases d <;> rfl
      rw [this]; simp
    · intro c hc
      rcases List.mem_cons.1 hc with rfl | hc
      · rfl
      · exact h7 c hc

theorem range_two (n : Nat) : List.range (2 * n) = (List.range n).flatMap fun i => [2 * i, 2 * i + 1] := by
  induction n with
  | zero => rfl
  | succ n ih =>
    rw [show 2 * (n + 1) = 2 * n + 1 + 1 by omega, List.range_succ, List.range_succ, List.range_succ, List.flatMap_append, ih]
    simp

theorem filter_flat {α β : Type} (p : β → Bool) (h : α → List β) (l : List α) :
    (l.flatMap h).filter p = l.flatMap fun a => (h a).filter p := by
  induction l with
  | nil => rfl
  | cons a l ih => simp [ih]

theorem emptyFaces_faces (nd : Nat) (r : Rec) (els : List Elem) :
    (emptyFaces nd r els).map (fun x => (x.1, 2 * x.2.1 + x.2.2.toNat)) =
      (els.flatMap fun e => (List.range (2 * nd)).map fun f => (e, f)).filter fun x => r x.1 x.2 = 0 := by
  simp only [emptyFaces, range_two, List.map_flatMap, filter_flat]
  congr 1
  funext e
  congr 1
  funext i
  by_cases h0 : r e (2 * i) = 0 <;> by_cases h1 : r e (2 * i + 1) = 0 <;> simp [h0, h1]

theorem faces_nodup {m : Mesh} (hm : m.elements.Nodup) : m.faces.Nodup := by
  rw [Mesh.faces, List.nodup_flatMap]
  refine ⟨fun e _ => List.Nodup.map (fun a b h => by simpa using h) List.nodup_range, ?_⟩
  refine hm.imp ?_
  intro a b hab x hx hy
  simp only [List.mem_map] at hx hy
  obtain ⟨f, -, rfl⟩ := hx
  obtain ⟨g, -, hg⟩ := hy
  simp only [Prod.mk.injEq] at hg
  exact hab hg.1.symm

theorem mem_faces {m : Mesh} {e f : Nat} : (e, f) ∈ m.faces ↔ e ∈ m.elements ∧ f < 2 * m.nd := by
  simp only [Mesh.faces, List.mem_flatMap, List.mem_map, List.mem_range, Prod.mk.injEq]
  constructor
  · rintro ⟨a, ha, b, hb, rfl, rfl⟩; exact ⟨ha, hb⟩
  · rintro ⟨h1, h2⟩; exact ⟨e, h1, f, h2, rfl, rfl⟩

theorem faces_append (m : Mesh) : m.faces = (m.car.elems.elements.flatMap fun e => (List.range (2 * m.nd)).map fun f => (e, f)) ++
    (m.dfm.elems.elements.flatMap fun e => (List.range (2 * m.nd)).map fun f => (e, f)) := by
  simp [Mesh.faces, Mesh.elements]

/-- `connect_rest`: the new ends are the faces without connection, each once. -/
theorem connectRest_ok {m : Mesh} (hm : Inv m) (bc : Nat) (r : Rec) : ∃ m' N, connectRest m bc r = .ok m' ∧ Adds m m' N ∧
    N.map (·.1) = m.faces.filter (fun x => m.degree x.1 x.2 = 0) ∧
    m'.car.cons = m.car.cons ∧ m'.dfm.cons = m.dfm.cons ∧ m'.car.refs = m.car.refs ∧ m'.dfm.refs = m.dfm.refs ∧
    (∃ B, m'.car.bounds = m.car.bounds ++ B ∧ ∀ c ∈ B, c.bc = bc) ∧ (∃ B, m'.dfm.bounds = m.dfm.bounds ++ B ∧ ∀ c ∈ B, c.bc = bc) := by
  obtain ⟨r', hr, hr'⟩ := count_ok m hm.sorted r
  obtain ⟨N0, a0, b0⟩ := addBounds_adds false bc (emptyFaces m.nd r' (m.byType false).elems.elements) m
  obtain ⟨o1, o2, o3, o4, ⟨B, o5, -, o6⟩, o7⟩ := addBounds_others false bc (emptyFaces m.nd r' (m.byType false).elems.elements) m
  rw [← connectEmpty_eq] at a0 o1 o2 o3 o4 o5 o7
  set m1 := connectEmpty m false bc r' with hm1
  obtain ⟨N1, a1, b1⟩ := addBounds_adds true bc (emptyFaces m1.nd r' (m1.byType true).elems.elements) m1
  obtain ⟨p1, p2, p3, p4, ⟨C, p5, -, p6⟩, p7⟩ := addBounds_others true bc (emptyFaces m1.nd r' (m1.byType true).elems.elements) m1
  rw [← connectEmpty_eq] at a1 p1 p2 p3 p4 p5 p7
  refine ⟨connectEmpty m1 true bc r', N0 ++ N1, by simp only [connectRest, hr]; rfl, a0.trans a1, ?_, p1.trans o1, p2.trans o2, p3.trans o3, p4.trans o4,
    ⟨B, ?_, o6⟩, ⟨C, ?_, p6⟩⟩
  · rw [List.map_append, b0, b1, emptyFaces_faces, emptyFaces_faces, a0.nd]
    have hd : (m1.byType true).elems.elements = m.dfm.elems.elements := congrArg Cont.elements a0.dfm
    rw [hd, faces_append, List.filter_append]
    congr 1
    · apply List.filter_congr
      rintro ⟨e, f⟩ hx
      have : (e, f) ∈ m.faces := by rw [faces_append]; exact List.mem_append_left _ hx
      rw [mem_faces] at this
      simp only [hr' e this.1 f this.2]
    · apply List.filter_congr
      rintro ⟨e, f⟩ hx
      have : (e, f) ∈ m.faces := by rw [faces_append]; exact List.mem_append_right _ hx
      rw [mem_faces] at this
      simp only [hr' e this.1 f this.2]
  · have h1 : (connectEmpty m1 true bc r').car.bounds = m1.car.bounds := p7
    have h2 : m1.car.bounds = m.car.bounds ++ B := o5
    rw [h1, h2]
  · have h1 : (connectEmpty m1 true bc r').dfm.bounds = m1.dfm.bounds ++ C := p5
    have h2 : m1.dfm.bounds = m.dfm.bounds := o7
    rw [h1, h2]

end Hexed.MeshConn
