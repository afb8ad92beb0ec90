import Verif.MeshFile.ReadCons

set_option autoImplicit false
set_option linter.unusedVariables false

/-! # Reading hanging-node connections -/

namespace Hexed.MeshFile
open Hexed.MeshConn
open Hexed.Connection (Dir vertexInds refinedVerts)
open Hexed.Container (Cont At Rep)
open Hexed.Polymesh (numbering numbering_eq mapM_some idxOf_get)

variable {K A : Type}

/-- All elements of a hanging-node connection are deformed. -/
def allDeformed (D : Data K A) (r : RefConn) : Bool := (r.coarse :: r.fine).all fun e => decide (e ∈ D.mesh.dfm.elems.elements)

theorem foldl_and (f : Elem → Bool) : ∀ (l : List Elem) (b : Bool), l.foldl (fun d e => d && f e) b = (b && l.all f) := by
  intro l
  induction l with
  | nil => intro b; simp
  | cons a l ih => intro b; rw [List.foldl_cons, ih, List.all_cons, Bool.and_assoc]

theorem ref_table {nd : Nat} (h : 1 ≤ nd ∧ nd ≤ 3) {str : Bool × Bool} (h1 : str.1 = true → 2 ≤ nd) (h2 : str.2 = true → 3 ≤ nd) :
    ¬nd < 1 + str.1.toNat + str.2.toNat ∧ 2 ^ (nd - 1 - str.1.toNat - str.2.toNat) = Connection.nFine nd str ∧
    ∃ hb : nd - 1 - str.1.toNat - str.2.toNat < 3, Connection.nFine nd str = nFine ⟨nd - 1 - str.1.toNat - str.2.toNat, hb⟩ := by
  obtain ⟨a, b⟩ := str
  obtain rfl | rfl | rfl : nd = 1 ∨ nd = 2 ∨ nd = 3 := by omega
  all_goals cases a <;> cases b <;> simp at h1 h2 <;> decide

theorem straight_order {nd : Nat} (h : 1 ≤ nd ∧ nd ≤ 3) {d : Dir} (hd : d.i0.val < nd ∧ d.i1.val < nd) (h1 : d.flipTangential = false) (h2 : d.transpose = false) (rev : Bool) (str : Bool × Bool) :
    Connection.refinedFaces nd d rev str = some ((List.range (Connection.nFine nd str)).map fun i => (i, i)) := by
  have table : ∀ nd ∈ [1, 2, 3], ∀ i0 i1 : Fin 3, ∀ s0 s1 rev a b : Bool, i0.val < nd → i1.val < nd → Dir.flipTangential ⟨i0, i1, s0, s1⟩ = false → Dir.transpose ⟨i0, i1, s0, s1⟩ = false →
      Connection.refinedFaces nd ⟨i0, i1, s0, s1⟩ rev (a, b) = some ((List.range (Connection.nFine nd (a, b))).map fun i => (i, i)) := by
    decide +kernel
  exact table nd (by simp; omega) d.i0 d.i1 d.s0 d.s1 rev str.1 str.2 hd.1 hd.2 h1 h2

theorem verts_some {nd : Nat} (h : 1 ≤ nd ∧ nd ≤ 3) {d : Dir} (hd : d.i0.val < nd ∧ d.i1.val < nd) (rev : Bool) (str : Bool × Bool) :
    ∃ l, refinedVerts nd d rev str = some l ∧ ∀ x ∈ l, x.2.1 < Connection.nFine nd str := by
  have table : ∀ nd ∈ [1, 2, 3], ∀ i0 i1 : Fin 3, ∀ s0 s1 rev a b : Bool, i0.val < nd → i1.val < nd →
      ((refinedVerts nd ⟨i0, i1, s0, s1⟩ rev (a, b)).any fun l => l.all fun x => x.2.1 < Connection.nFine nd (a, b)) = true := by
    decide +kernel
  have := table nd (by simp; omega) d.i0 d.i1 d.s0 d.s1 rev str.1 str.2 hd.1 hd.2
  rw [Option.any_eq_true] at this
  obtain ⟨l, h1, h2⟩ := this
  exact ⟨l, h1, by simpa using h2⟩

theorem range_get_map {α : Type} (l : List α) : ((List.range l.length).map fun i => (i, i)).mapM (fun x : Nat × Nat => l[x.1]?) = some l := by
  rw [List.mapM_map]
  have : (List.range l.length).mapM (fun i => l[i]?) = some l := by
    cases l with
    | nil => rfl
    | cons a l =>
      have h1 : (List.range (a :: l).length).mapM (fun i => (a :: l)[i]?) = some ((List.range (a :: l).length).map fun i => (a :: l).getD i a) := by
        apply mapM_some
        intro i hi
        rw [List.mem_range] at hi
        simp [List.getD, List.getElem?_eq_getElem hi]
      rw [h1]
      congr 1
      apply List.ext_getElem?
      intro i
      by_cases hi : i < (a :: l).length
      · rw [List.getElem?_map, List.getElem?_range hi]; simp [List.getD, List.getElem?_eq_getElem hi]
      · rw [List.getElem?_eq_none (by simpa using hi), List.getElem?_eq_none (by simpa using hi)]
  exact this

/-- What is known about every hanging-node connection of the mesh that was written. -/
structure RefOk (D : Data K A) (r : RefConn) : Prop where
  mem : ∀ e ∈ r.coarse :: r.fine, e ∈ D.mesh.elements
  len : r.fine.length = Connection.nFine D.mesh.nd (D.str r.id)
  str1 : (D.str r.id).1 = true → 2 ≤ D.mesh.nd
  str2 : (D.str r.id).2 = true → 3 ≤ D.mesh.nd
  dims : r.dir.toDir.i0.val < D.mesh.nd ∧ r.dir.toDir.i1.val < D.mesh.nd
  kind : (allDeformed D r = true ∧ r.rev = false ∧ ∃ d, r.dir = .dfm d) ∨ (allDeformed D r = false ∧ D.str r.id = (false, false) ∧ ∃ i, r.dir = .cart i)

theorem not_dfm {D : Data K A} (hi : Inv D.mesh) {e : Elem} (he : e ∈ D.mesh.car.elems.elements) : e ∉ D.mesh.dfm.elems.elements := by
  have := hi.nodup
  rw [Mesh.elements, List.nodup_append] at this
  intro h
  exact this.2.2 e he e h rfl

theorem refOk {D : Data K A} {n_bc : Nat} (hi : Inv D.mesh) (ht : Typed D.mesh) (hg : Good D n_bc) {r : RefConn} (hr : r ∈ allRefs D.mesh.car ++ allRefs D.mesh.dfm) : RefOk D r := by
  have hmem : ∀ e ∈ r.coarse :: r.fine, e ∈ D.mesh.elements := by
    intro e he
    obtain ⟨x, hx, hx'⟩ := ref_ends hr he
    exact hx' ▸ hi.attached x hx
  rcases List.mem_append.1 hr with h | h
  · obtain ⟨b, hb⟩ := mem_allRefs.1 h
    obtain ⟨h1, i, h2, h3⟩ := ht.car_refs b r hb
    have hs := hg.str_car r h
    have hall : allDeformed D r = false := by
      obtain ⟨e, he, he'⟩ := hg.mixed r h
      rw [allDeformed, List.all_eq_false]
      exact ⟨e, he, by simpa using not_dfm hi he'⟩
    have hlen := hi.sorted.1 b r hb
    refine ⟨hmem, ?_, by simp [hs], by simp [hs], by rw [h2]; exact ⟨h3, h3⟩, .inr ⟨hall, hs, i, h2⟩⟩
    rw [hlen, hs]
    have : b = ⟨D.mesh.nd - 1, by have := hi.nd; omega⟩ := Fin.ext h1
    rw [this]
    exact (nFine_bucket hi.nd _).symm
  · obtain ⟨b, hb⟩ := mem_allRefs.1 h
    obtain ⟨⟨d, h1, h2⟩, h3, h4⟩ := ht.dfm_refs b r hb
    obtain ⟨k1, k2, k3⟩ := hg.str_dfm r h
    refine ⟨hmem, k1, k2, k3, by rw [h1]; exact h2, .inl ⟨?_, h3, d, h1⟩⟩
    rw [allDeformed, List.all_eq_true]
    intro e he
    simpa using h4 e he

theorem mapM_bind_map {α β γ : Type} (f : α → Option β) (g : α → Option γ) (k : β → γ) : ∀ (l : List α), (∀ x ∈ l, ∃ y, f x = some y ∧ g x = some (k y)) →
    ∃ m, l.mapM f = some m ∧ l.mapM g = some (m.map k) := by
  intro l
  induction l with
  | nil => intro _; exact ⟨[], rfl, rfl⟩
  | cons a l ih =>
    intro h
    obtain ⟨m, h1, h2⟩ := ih fun x hx => h x (by simp [hx])
    obtain ⟨y, h3, h4⟩ := h a (by simp)
    exact ⟨y :: m, by rw [List.mapM_cons, h1, h3]; rfl, by rw [List.mapM_cons, h2, h4]; rfl⟩

theorem joins_map {D : Data K A} (hi : Inv D.mesh) {r : RefConn} (h : RefOk D r) :
    ((refinedVerts D.mesh.nd r.dir.toDir r.rev (D.str r.id)).bind fun l => l.mapM fun x => ((r.fine.map D.index)[x.2.1]?).map fun e => ((D.index r.coarse, x.1), (e, x.2.2))) =
      some ((refJoins D.mesh.nd (D.str r.id) r).map (mapJoin D.index)) := by
  obtain ⟨l, hl, hlt⟩ := verts_some hi.nd h.dims r.rev (D.str r.id)
  obtain ⟨m, h1, h2⟩ := mapM_bind_map (fun x : Nat × Nat × Nat => (r.fine[x.2.1]?).map fun e => ((r.coarse, x.1), (e, x.2.2)))
    (fun x => ((r.fine.map D.index)[x.2.1]?).map fun e => ((D.index r.coarse, x.1), (e, x.2.2))) (mapJoin D.index) l (by
      intro x hx
      have := hlt x hx
      rw [← h.len] at this
      refine ⟨((r.coarse, x.1), (r.fine[x.2.1], x.2.2)), ?_, ?_⟩
      · rw [List.getElem?_eq_getElem this]; rfl
      · rw [List.getElem?_map, List.getElem?_eq_getElem this]; rfl)
  rw [refJoins, hl, Option.bind_some, Option.bind_some, h1, h2]
  rfl

theorem fine_entries {D : Data K A} {n_bc : Nat} {s : State K A} (he : HasElems D n_bc s) {row : List Int} : ∀ (fine : List Elem), (∀ e ∈ fine, e ∈ D.mesh.elements) → ∀ (i0 : Nat),
    (∀ i e, fine[i]? = some e → row[i0 + i]? = some (D.index e : Int)) →
    (List.range' i0 fine.length).foldr (fun i (r : Res (List Elem)) => (entryElem s row i).bind fun e => r.bind fun l => .ok (e :: l)) (.ok []) = .ok (fine.map D.index) := by
  intro fine
  induction fine with
  | nil => intro _ i0 _; rfl
  | cons a l ih =>
    intro hm i0 h
    have h0 := entryElem_eq he (row := row) (i := i0) (hm a (by simp)) (h 0 a rfl)
    have h1 := ih (fun e he => hm e (by simp [he])) (i0 + 1) (by
      intro i e hie
      have := h (i + 1) e (by simpa using hie)
      rw [← this]; congr 1; omega)
    rw [List.length_cons, List.range'_succ, List.foldr_cons, h0, h1]
    rfl

theorem fine_read {D : Data K A} {n_bc : Nat} {s : State K A} (he : HasElems D n_bc s) {row : List Int} {fine : List Elem} (hm : ∀ e ∈ fine, e ∈ D.mesh.elements)
    (h : ∀ i e, fine[i]? = some e → row[1 + i]? = some (D.index e : Int)) :
    (List.range fine.length).foldr (fun i (r : Res (List Elem)) => (entryElem s row (1 + i)).bind fun e => r.bind fun l => .ok (e :: l)) (.ok []) = .ok (fine.map D.index) := by
  rw [← fine_entries he fine hm 1 h, List.range'_eq_map_range, List.foldr_map]

/-- The entries of a row. -/
structure RowOk (D : Data K A) (r : RefConn) (row : List Int) : Prop where
  coarse : row[0]? = some (D.index r.coarse : Int)
  fine : ∀ i e, r.fine[i]? = some e → row[1 + i]? = some (D.index e : Int)
  str0 : row[5]? = some ((D.str r.id).1.toNat : Int)
  str1 : row[6]? = some ((D.str r.id).2.toNat : Int)
  i0 : row[7]? = some ((r.dir.toDir.iDim r.rev).val : Int)
  i1 : row[8]? = some ((r.dir.toDir.iDim !r.rev).val : Int)
  s0 : row[9]? = some ((r.dir.toDir.faceSign r.rev).toNat : Int)
  s1 : row[10]? = some ((r.dir.toDir.faceSign !r.rev).toNat : Int)

theorem rowOk {D : Data K A} (hi : Inv D.mesh) {r : RefConn} (h : RefOk D r) : RowOk D r (refRow' D r) := by
  have hlen := nFine_pow D.mesh.nd hi.nd (D.str r.id)
  rw [← h.len] at hlen
  obtain ⟨id, coarse, fine, dir, rev⟩ := r
  simp only at hlen ⊢
  rcases hlen with hl | hl | hl
  · obtain ⟨a, rfl⟩ := List.length_eq_one_iff.1 hl
    constructor <;> try (cases rev <;> rfl)
    intro i e he
    rcases i with _ | i
    · simp at he; subst he; rfl
    · simp at he
  · obtain ⟨a, b, rfl⟩ := List.length_eq_two.1 hl
    constructor <;> try (cases rev <;> rfl)
    intro i e he
    rcases i with _ | _ | i
    · simp at he; subst he; rfl
    · simp at he; subst he; rfl
    · simp at he
  · match fine, hl with
    | [a, b, c, d], _ =>
      constructor <;> try (cases rev <;> rfl)
      intro i e he
      rcases i with _ | _ | _ | _ | i
      all_goals first | (simp at he; subst he; rfl) | simp at he

theorem forall₂_mono {α β : Type} {R S : α → β → Prop} {l : List α} {k : List β} (h : List.Forall₂ R l k) : (∀ a b, b ∈ k → R a b → S a b) → List.Forall₂ S l k := by
  induction h with
  | nil => intro _; exact .nil
  | cons h1 _ ih => intro hs; exact .cons (hs _ _ (by simp) h1) (ih fun a b hb => hs a b (by simp [hb]))

theorem ref_id_lt {m : Mesh} (hm : Inv m) {k : Bool} {b : Fin 3} {r : RefConn} (hr : r ∈ (m.byType k).refs b) : r.id < m.next_id := by
  have hx : ((r.coarse, r.dir.iFace r.rev), (r.id, Sub.coarse)) ∈ m.ends := by
    have h1 : ((r.coarse, r.dir.iFace r.rev), (r.id, Sub.coarse)) ∈ (m.byType k).ends := by
      have h0 : ((r.coarse, r.dir.iFace r.rev), (r.id, Sub.coarse)) ∈ r.ends := List.mem_cons_self
      simp only [ByType.ends, List.mem_append, List.mem_flatMap]
      fin_cases b
      · exact .inr (.inr (.inl ⟨r, hr, h0⟩))
      · exact .inr (.inr (.inr (.inl ⟨r, hr, h0⟩)))
      · exact .inr (.inr (.inr (.inr ⟨r, hr, h0⟩)))
    cases k
    · exact List.mem_append_left _ h1
    · exact List.mem_append_right _ h1
  exact hm.ids _ hx

/-- What has been read after some hanging-node connections. -/
structure RefsRead (D : Data K A) (s1 : State K A) (pre : List RefConn) (s : State K A) : Prop where
  frame : Frame s1 s
  adj : s.adj = s1.adj
  refs : ∀ k b, List.Forall₂ (SameFaces D.index D s) (pre.filter fun r => allDeformed D r == k && r.fine.length == nFine b) ((s.mesh.byType k).refs b)
  cons : ∀ k, (s.mesh.byType k).cons = (s1.mesh.byType k).cons ∧ (s.mesh.byType k).bounds = (s1.mesh.byType k).bounds
  merges : s.merges = s1.merges ++ (pre.flatMap fun r => refJoins D.mesh.nd (D.str r.id) r).map (mapJoin D.index)
  extruded : s.extruded = s1.extruded

theorem Res.bind_ok {α β : Type} (a : α) (f : α → Res β) : (Res.ok a).bind f = f a := rfl

theorem nFine_inj {a b : Fin 3} (h : nFine a = nFine b) : a = b := by
  fin_cases a <;> fin_cases b <;> simp [nFine] at h ⊢

theorem readRef_step {D : Data K A} {n_bc : Nat} (hi : Inv D.mesh) (ht : Typed D.mesh) (hg : Good D n_bc) {s1 : State K A} (he : HasElems D n_bc s1) {pre rest : List RefConn}
    {r : RefConn} (hf : pre ++ r :: rest = allRefs D.mesh.car ++ allRefs D.mesh.dfm) {s : State K A} (hP : RefsRead D s1 pre s) :
    ∃ s', readRef s (refRow' D r) = .ok s' ∧ RefsRead D s1 (pre ++ [r]) s' := by
  have hr : RefOk D r := refOk hi ht hg (by rw [← hf]; simp)
  have he' := he.frame hP.frame
  have hrow := rowOk hi hr
  obtain ⟨t1, t2, t3, t4⟩ := ref_table hi.nd hr.str1 hr.str2
  have e0 := entryElem_eq he' (hr.mem r.coarse List.mem_cons_self) hrow.coarse
  have e1 := fine_read he' (fun e he => hr.mem e (List.mem_cons_of_mem _ he)) hrow.fine
  have e5 := entryBool_eq hrow.str0
  have e6 := entryBool_eq hrow.str1
  have e7 := entryDim_eq hrow.i0
  have e8 := entryDim_eq hrow.i1
  have e9 := entryBool_eq hrow.s0
  have e10 := entryBool_eq hrow.s1
  have hd : (r.fine.map D.index).foldl (fun d e => d && s.is_def e) (s.is_def (D.index r.coarse)) = allDeformed D r := by
    rw [foldl_and, he'.is_def _ (hr.mem _ List.mem_cons_self), allDeformed, List.all_cons, List.all_map]
    congr 1
    rw [Bool.eq_iff_iff, List.all_eq_true, List.all_eq_true]
    constructor
    · intro h e hef; have := h e hef; rwa [Function.comp_apply, he'.is_def e (hr.mem e (List.mem_cons_of_mem _ hef))] at this
    · intro h e hef; rw [Function.comp_apply, he'.is_def e (hr.mem e (List.mem_cons_of_mem _ hef))]; exact h e hef
  generalize hb : D.mesh.nd - 1 - (D.str r.id).1.toNat - (D.str r.id).2.toNat = b at t2 t3 t4
  generalize hdd : (if allDeformed D r then ConDir.dfm ⟨r.dir.toDir.iDim r.rev, r.dir.toDir.iDim !r.rev, r.dir.toDir.faceSign r.rev, r.dir.toDir.faceSign !r.rev⟩
    else .cart (r.dir.toDir.iDim r.rev)) = dd
  have hdir : dd.toDir = r.dir.toDir := by
    rcases hr.kind with ⟨k1, k2, d, k3⟩ | ⟨k1, k2, i, k3⟩
    · rw [← hdd, k1, k2, k3]; rfl
    · rw [← hdd, k1, k3]; cases r.rev <;> rfl
  have hrev : (if allDeformed D r then false else !(r.dir.toDir.faceSign r.rev) && r.dir.toDir.faceSign !r.rev) = r.rev := by
    rcases hr.kind with ⟨k1, k2, d, k3⟩ | ⟨k1, k2, i, k3⟩
    · rw [k1, k2]; rfl
    · rw [k1, k3]; cases r.rev <;> rfl
  have hstr : (if allDeformed D r then ((D.str r.id).1, (D.str r.id).2) else (false, false)) = D.str r.id := by
    rcases hr.kind with ⟨k1, k2, d, k3⟩ | ⟨k1, k2, i, k3⟩
    · rw [k1]; rfl
    · rw [k1, k2]; rfl
  have hbk : (if allDeformed D r then b else D.mesh.nd - 1) = b := by
    rcases hr.kind with ⟨k1, k2, d, k3⟩ | ⟨k1, k2, i, k3⟩
    · rw [k1]; rfl
    · rw [k1, ← hb, k2]; rfl
  have hlen' : (r.fine.map D.index).length = Connection.nFine s.mesh.nd (D.str r.id) := by rw [List.length_map, he'.nd]; exact hr.len
  have hdim' : dd.toDir.i0.val < s.mesh.nd ∧ dd.toDir.i1.val < s.mesh.nd := by rw [hdir, he'.nd]; exact hr.dims
  rcases addRef_ok hP.frame.inv (d := allDeformed D r) (bucket := b) (coarse := D.index r.coarse) (fine := r.fine.map D.index) (dir := dd) (rev := r.rev) (str := D.str r.id) hdim' t3
    (fun _ => by rw [he'.nd]; exact t4) with ⟨h, -⟩ | ⟨-, m', order, hperm, hok, hadds⟩
  · exact absurd hlen' h
  obtain ⟨hb3, order', p, ho, -, hshape⟩ := addRef_shape hok
  have hjoin := joins_map hi hr
  refine ⟨{ s with mesh := m', str := Function.update s.str s.mesh.next_id (D.str r.id), merges := s.merges ++ (refJoins D.mesh.nd (D.str r.id) r).map (mapJoin D.index) }, ?_, ?_⟩
  · have he1 : (List.range (2 ^ b)) = List.range r.fine.length := by rw [t2, hr.len]
    simp only [readRef, e5, e6, Res.bind_ok, he'.nd, if_neg t1, e0, hb, he1, e1, e7, e8, e9, e10, hd, hdd, hrev, hstr, hbk, hok, hdir, hjoin, Res.of]
  have horder : order'.Perm (r.fine.map D.index) := by
    obtain ⟨pairs, hp, ho⟩ := Option.bind_eq_some_iff.1 ho
    exact order_perm hP.frame.inv.nd hdim' hlen' hp ho
  have hrefs : ∀ k b', (m'.byType k).refs b' = (s.mesh.byType k).refs b' ++ if allDeformed D r = k ∧ b' = ⟨b, hb3⟩ then [⟨s.mesh.next_id, D.index r.coarse, order', dd, r.rev⟩] else [] := by
    intro k b'
    subst hshape
    by_cases hk : allDeformed D r = k
    · by_cases hbb : b' = ⟨b, hb3⟩
      · rw [if_pos ⟨hk, hbb⟩, hbb, hk]; cases k <;> simp [Mesh.setType, Mesh.byType]
      · rw [if_neg fun h => hbb h.2, hk]; cases k <;> simp [Mesh.setType, Mesh.byType, Function.update_of_ne hbb]
    · rw [if_neg fun h => hk h.1]; cases k <;> cases hq : allDeformed D r <;> simp [hq] at hk <;> simp [Mesh.setType, Mesh.byType]
  have hcons : ∀ k, (m'.byType k).cons = (s.mesh.byType k).cons ∧ (m'.byType k).bounds = (s.mesh.byType k).bounds := by
    intro k
    subst hshape
    cases k <;> cases allDeformed D r <;> simp [Mesh.setType, Mesh.byType]
  refine ⟨hP.frame.trans ⟨⟨_, hadds⟩, hadds.inv hP.frame.inv ?_, rfl, rfl, rfl, rfl, rfl⟩, hP.adj, ?_, ?_, ?_, hP.extruded⟩
  · intro x hx
    rcases List.mem_cons.1 hx with rfl | hx
    · exact he'.mem _ (hr.mem _ List.mem_cons_self)
    · have := hperm.mem_iff.1 (fineEnds_mem _ _ _ _ x hx)
      obtain ⟨e, h1, h2⟩ := List.mem_map.1 this
      rw [← h2]
      exact he'.mem _ (hr.mem _ (List.mem_cons_of_mem _ h1))
  · intro k b'
    have hold : List.Forall₂ (SameFaces D.index D { s with mesh := m', str := Function.update s.str s.mesh.next_id (D.str r.id), merges := s.merges ++ (refJoins D.mesh.nd (D.str r.id) r).map (mapJoin D.index) })
        (pre.filter fun r => allDeformed D r == k && r.fine.length == nFine b') ((s.mesh.byType k).refs b') := by
      refine forall₂_mono (hP.refs k b') ?_
      intro a a' ha' h
      have hne : a'.id ≠ s.mesh.next_id := Nat.ne_of_lt (ref_id_lt hP.frame.inv ha')
      exact ⟨h.coarse, h.fine, h.dir, h.rev, by show Function.update s.str s.mesh.next_id (D.str r.id) a'.id = _; rw [Function.update_of_ne hne]; exact h.str, h.straight⟩
    have hnew : SameFaces D.index D { s with mesh := m', str := Function.update s.str s.mesh.next_id (D.str r.id), merges := s.merges ++ (refJoins D.mesh.nd (D.str r.id) r).map (mapJoin D.index) }
        r ⟨s.mesh.next_id, D.index r.coarse, order', dd, r.rev⟩ := by
      refine ⟨rfl, horder, hdir, rfl, by simp, ?_⟩
      rintro ⟨h1, h2⟩
      rw [hdir, he'.nd, straight_order hi.nd hr.dims h1 h2, Option.bind_some] at ho
      rw [← hr.len, ← List.length_map (f := D.index), range_get_map, Option.some.injEq] at ho
      exact ho.symm
    have hfil : [r].filter (fun r => allDeformed D r == k && r.fine.length == nFine b') = if allDeformed D r = k ∧ b' = ⟨b, hb3⟩ then [r] else [] := by
      have h1 : (r.fine.length == nFine b') = decide (b' = ⟨b, hb3⟩) := by
        rw [hr.len, t4, Bool.eq_iff_iff, beq_iff_eq, decide_eq_true_iff]
        exact ⟨fun h => (nFine_inj h).symm, fun h => by rw [h]⟩
      rw [List.filter_cons, List.filter_nil, h1]
      simp
    show List.Forall₂ _ _ ((m'.byType k).refs b')
    rw [List.filter_append, hfil, hrefs]
    refine List.rel_append hold ?_
    split_ifs
    · exact .cons hnew .nil
    · exact .nil
  · intro k
    exact ⟨(hcons k).1.trans (hP.cons k).1, (hcons k).2.trans (hP.cons k).2⟩
  · show s.merges ++ _ = _
    rw [hP.merges, List.flatMap_append, List.map_append, List.append_assoc]
    simp

theorem readRefs_ok {D : Data K A} {n_bc : Nat} (hi : Inv D.mesh) (ht : Typed D.mesh) (hg : Good D n_bc) {s1 : State K A} (he : HasElems D n_bc s1)
    (h0 : ∀ k b, (s1.mesh.byType k).refs b = []) (hinv : Inv s1.mesh) :
    ∃ s, Res.loop readRef s1 ((allRefs D.mesh.car ++ allRefs D.mesh.dfm).map (refRow' D)) = .ok s ∧ RefsRead D s1 (allRefs D.mesh.car ++ allRefs D.mesh.dfm) s := by
  refine loop_ok (fun pre s => RefsRead D s1 pre s) (fun pre a rest s h hP => readRef_step hi ht hg he h hP) _ [] _ rfl ?_
  refine ⟨Frame.refl hinv, rfl, ?_, fun _ => ⟨rfl, rfl⟩, by simp, rfl⟩
  intro k b
  rw [h0]
  exact .nil

theorem filter_bucket {D : Data K A} {n_bc : Nat} (hi : Inv D.mesh) (ht : Typed D.mesh) (hg : Good D n_bc) (k : Bool) (b : Fin 3) :
    (allRefs D.mesh.car ++ allRefs D.mesh.dfm).filter (fun r => allDeformed D r == k && r.fine.length == nFine b) = (D.mesh.byType k).refs b := by
  have hkind : ∀ k' b', ∀ r ∈ (D.mesh.byType k').refs b', allDeformed D r = k' ∧ r.fine.length = nFine b' := by
    intro k' b' r hr
    cases k'
    · refine ⟨?_, hi.sorted.1 b' r hr⟩
      obtain ⟨e, he, he'⟩ := hg.mixed r (mem_allRefs.2 ⟨b', hr⟩)
      rw [allDeformed, List.all_eq_false]
      exact ⟨e, he, by simpa using not_dfm hi he'⟩
    · refine ⟨?_, hi.sorted.2 b' r hr⟩
      rw [allDeformed, List.all_eq_true]
      intro e he
      simpa using (ht.dfm_refs b' r hr).2.2 e he
  have hone : ∀ k' b', ((D.mesh.byType k').refs b').filter (fun r => allDeformed D r == k && r.fine.length == nFine b) = if k' = k ∧ b' = b then (D.mesh.byType k').refs b' else [] := by
    intro k' b'
    split_ifs with h
    · rw [List.filter_eq_self]
      intro r hr
      obtain ⟨h1, h2⟩ := hkind k' b' r hr
      simp [h1, h2, h.1, h.2]
    · rw [List.filter_eq_nil_iff]
      intro r hr h'
      obtain ⟨h1, h2⟩ := hkind k' b' r hr
      rw [Bool.and_eq_true, beq_iff_eq, beq_iff_eq, h1, h2] at h'
      exact h ⟨h'.1, nFine_inj h'.2⟩
  have hc : ∀ b', (D.mesh.car.refs b').filter (fun r => allDeformed D r == k && r.fine.length == nFine b) = if false = k ∧ b' = b then D.mesh.car.refs b' else [] := hone false
  have hd : ∀ b', (D.mesh.dfm.refs b').filter (fun r => allDeformed D r == k && r.fine.length == nFine b) = if true = k ∧ b' = b then D.mesh.dfm.refs b' else [] := hone true
  simp only [allRefs, List.filter_append, hc, hd]
  cases k <;> fin_cases b <;> simp [Mesh.byType]

end Hexed.MeshFile
