import Verif.MeshFile.Spec
import Verif.MeshFile.Typed
import Verif.Polymesh.Lemmas
import Verif.Polymesh.Sums

set_option autoImplicit false
set_option linter.unusedVariables false

/-! # The rows that are written, and loops over rows -/

namespace Hexed.MeshFile
open Hexed.MeshConn
open Hexed.Connection (Dir vertexInds refinedVerts)
open Hexed.Container (Cont At Rep)
open Hexed.Polymesh (numbering numbering_eq mapM_some)

variable {K A : Type}

theorem loop_ok {α β σ : Type} {f : σ → β → Res σ} {row : α → β} (P : List α → σ → Prop) {full : List α}
    (hstep : ∀ pre a rest s, pre ++ a :: rest = full → P pre s → ∃ s', f s (row a) = .ok s' ∧ P (pre ++ [a]) s') :
    ∀ (l pre : List α) (s : σ), pre ++ l = full → P pre s → ∃ s', Res.loop f s (l.map row) = .ok s' ∧ P full s' := by
  intro l
  induction l with
  | nil => intro pre s h hp; exact ⟨s, rfl, by rw [List.append_nil] at h; rw [← h]; exact hp⟩
  | cons a l ih =>
    intro pre s h hp
    obtain ⟨s1, h1, h2⟩ := hstep pre a l s h hp
    obtain ⟨s2, h3, h4⟩ := ih (pre ++ [a]) s1 (by rw [List.append_assoc]; exact h) h2
    exact ⟨s2, by simp only [List.map_cons, Res.loop, h1]; exact h3, h4⟩

/-- The row of an element. -/
def elemRow' (D : Data K A) (e : Elem) : ElemRow :=
  ⟨decide (e ∈ D.mesh.dfm.elems.elements), D.level e, D.nom e, (List.range (2 ^ D.mesh.nd)).map fun i => D.verts.idxOf (D.vert e i)⟩
/-- The row of a conformal connection. -/
def conRow' (D : Data K A) (c : Conn) : List Int :=
  [(D.index (c.el false) : Int), D.index (c.el true), c.dir.toDir.i0.val, c.dir.toDir.i1.val, c.dir.toDir.s0.toNat, c.dir.toDir.s1.toNat]
/-- The row of a hanging-node connection. -/
def refRow' (D : Data K A) (r : RefConn) : List Int :=
  [(D.index r.coarse : Int)] ++ ((r.fine.map D.index).map Int.ofNat ++ List.replicate (4 - r.fine.length) (-1)) ++ [((D.str r.id).1.toNat : Int), (D.str r.id).2.toNat] ++
    (if r.rev then [(r.dir.toDir.i1.val : Int), r.dir.toDir.i0.val, r.dir.toDir.s1.toNat, r.dir.toDir.s0.toNat]
     else [(r.dir.toDir.i0.val : Int), r.dir.toDir.i1.val, r.dir.toDir.s0.toNat, r.dir.toDir.s1.toNat])
/-- The row of a boundary connection. -/
def boundRow' (D : Data K A) (c : BCon) : List Int := [(D.index c.el : Int), c.bc, c.i_dim, c.sign.toNat]

/-- What `write` writes. -/
def file (D : Data K A) : File K A :=
  ⟨D.verts.map D.pos, D.mesh.elements.map (elemRow' D), (D.mesh.car.cons ++ D.mesh.dfm.cons).map (conRow' D), (allRefs D.mesh.car ++ allRefs D.mesh.dfm).map (refRow' D),
    (D.mesh.car.bounds ++ D.mesh.dfm.bounds).map (boundRow' D), (D.mesh.elements.filter D.tree).map D.index, D.mesh.dfm.elems.elements.map fun e => (D.index e, D.adj e)⟩

theorem conn_ends {m : Mesh} {c : Conn} (hc : c ∈ m.car.cons ++ m.dfm.cons) (s : Bool) : ∃ x ∈ m.ends, x.1.1 = c.el s := by
  refine ⟨((c.el s, c.dir.iFace s), (c.id, .side s)), ?_, rfl⟩
  have : ((c.el s, c.dir.iFace s), (c.id, Sub.side s)) ∈ c.ends := by cases s <;> simp [Conn.ends]
  rcases List.mem_append.1 hc with h | h
  · exact List.mem_append_left _ (List.mem_append_left _ (List.mem_flatMap.2 ⟨c, h, this⟩))
  · exact List.mem_append_right _ (List.mem_append_left _ (List.mem_flatMap.2 ⟨c, h, this⟩))

theorem bound_ends {m : Mesh} {c : BCon} (hc : c ∈ m.car.bounds ++ m.dfm.bounds) : ∃ x ∈ m.ends, x.1.1 = c.el := by
  refine ⟨((c.el, 2 * c.i_dim + c.sign.toNat), (c.id, .side false)), ?_, rfl⟩
  rcases List.mem_append.1 hc with h | h
  · exact List.mem_append_left _ (List.mem_append_right _ (List.mem_append_left _ (List.mem_flatMap.2 ⟨c, h, by simp [BCon.ends]⟩)))
  · exact List.mem_append_right _ (List.mem_append_right _ (List.mem_append_left _ (List.mem_flatMap.2 ⟨c, h, by simp [BCon.ends]⟩)))

theorem mem_allRefs {b : ByType} {r : RefConn} : r ∈ allRefs b ↔ ∃ i, r ∈ b.refs i := by
  simp only [allRefs, List.mem_append]
  constructor
  · rintro ((h | h) | h)
    exacts [⟨0, h⟩, ⟨1, h⟩, ⟨2, h⟩]
  · rintro ⟨i, h⟩
    fin_cases i
    exacts [.inl (.inl h), .inl (.inr h), .inr h]

theorem fineEnds_all (id face : Nat) : ∀ (l : List Elem) (i : Nat), ∀ e ∈ l, ∃ x ∈ fineEnds id face i l, x.1.1 = e := by
  intro l
  induction l with
  | nil => intro i e he; simp at he
  | cons a l ih =>
    intro i e he
    rcases List.mem_cons.1 he with rfl | he
    · exact ⟨_, List.mem_cons_self, rfl⟩
    · obtain ⟨x, hx, hx'⟩ := ih (i + 1) e he
      exact ⟨x, List.mem_cons_of_mem _ hx, hx'⟩

theorem ref_ends {m : Mesh} {r : RefConn} (hr : r ∈ allRefs m.car ++ allRefs m.dfm) {e : Elem} (he : e ∈ r.coarse :: r.fine) : ∃ x ∈ m.ends, x.1.1 = e := by
  have h1 : ∃ x ∈ r.ends, x.1.1 = e := by
    rcases List.mem_cons.1 he with rfl | he
    · exact ⟨_, List.mem_cons_self, rfl⟩
    · obtain ⟨x, hx, hx'⟩ := fineEnds_all r.id (r.dir.iFace !r.rev) r.fine 0 e he
      exact ⟨x, List.mem_cons_of_mem _ hx, hx'⟩
  obtain ⟨x, hx, hx'⟩ := h1
  refine ⟨x, ?_, hx'⟩
  have key : ∀ b : ByType, r ∈ allRefs b → x ∈ b.ends := by
    intro b hb
    simp only [allRefs, List.mem_append] at hb
    simp only [ByType.ends, List.mem_append, List.mem_flatMap]
    rcases hb with (h | h) | h
    · exact .inr (.inr (.inl ⟨r, h, hx⟩))
    · exact .inr (.inr (.inr (.inl ⟨r, h, hx⟩)))
    · exact .inr (.inr (.inr (.inr ⟨r, h, hx⟩)))
  rcases List.mem_append.1 hr with h | h
  · exact List.mem_append_left _ (key _ h)
  · exact List.mem_append_right _ (key _ h)

theorem range_some {β : Type} (g : Elem → Option β) (h : Elem → β) (l : List Elem) (hg : ∀ e ∈ l, g e = some (h e)) :
    ((List.range l.length).mapM fun i => (l[i]?).bind g) = some (l.map h) := by
  have : (List.range l.length).mapM (fun i => (l[i]?).bind g) = some ((List.range l.length).map fun i => h (l.getD i 0)) := by
    apply mapM_some
    intro i hi
    rw [List.mem_range] at hi
    rw [List.getElem?_eq_getElem hi, Option.bind_some, hg _ (List.getElem_mem hi)]
    simp [List.getD, List.getElem?_eq_getElem hi]
  rw [this]
  congr 1
  apply List.ext_getElem?
  intro i
  rw [List.getElem?_map, List.getElem?_map]
  by_cases hi : i < l.length
  · rw [List.getElem?_range hi]; simp [List.getD, List.getElem?_eq_getElem hi]
  · rw [List.getElem?_eq_none (by simpa using hi), List.getElem?_eq_none (by simpa using hi)]; rfl

theorem write_eq {D : Data K A} {n_bc : Nat} (hi : Inv D.mesh) (hg : Good D n_bc) : write D = some (file D) := by
  have hrec : ∀ e ∈ D.mesh.elements, numbering D.mesh.elements e = some (D.index e) := fun e he => numbering_eq hi.nodup he
  have hcon : ∀ c ∈ D.mesh.car.cons ++ D.mesh.dfm.cons, ∀ s, numbering D.mesh.elements (c.el s) = some (D.index (c.el s)) := by
    intro c hc s
    obtain ⟨x, hx, hx'⟩ := conn_ends hc s
    exact hrec _ (hx' ▸ hi.attached x hx)
  have href : ∀ r ∈ allRefs D.mesh.car ++ allRefs D.mesh.dfm, ∀ e ∈ r.coarse :: r.fine, numbering D.mesh.elements e = some (D.index e) := by
    intro r hr e he
    obtain ⟨x, hx, hx'⟩ := ref_ends hr he
    exact hrec _ (hx' ▸ hi.attached x hx)
  have hbnd : ∀ c ∈ D.mesh.car.bounds ++ D.mesh.dfm.bounds, numbering D.mesh.elements c.el = some (D.index c.el) := by
    intro c hc
    obtain ⟨x, hx, hx'⟩ := bound_ends hc
    exact hrec _ (hx' ▸ hi.attached x hx)
  have h1 : D.mesh.elements.mapM (elemRow D) = some (D.mesh.elements.map (elemRow' D)) := by
    apply mapM_some
    intro e he
    rw [elemRow, mapM_some (g := fun i => D.verts.idxOf (D.vert e i)) (fun i hi' => numbering_eq hg.verts.1 (hg.verts.2 e he i (List.mem_range.1 hi')))]
    rfl
  have h2 : (D.mesh.car.cons ++ D.mesh.dfm.cons).mapM (conRow (numbering D.mesh.elements)) = some ((D.mesh.car.cons ++ D.mesh.dfm.cons).map (conRow' D)) := by
    apply mapM_some
    intro c hc
    simp only [conRow, hcon c hc, Option.bind_some, Option.map_some, conRow']
  have h3 : (allRefs D.mesh.car ++ allRefs D.mesh.dfm).mapM (refRow (numbering D.mesh.elements) D.str) = some ((allRefs D.mesh.car ++ allRefs D.mesh.dfm).map (refRow' D)) := by
    apply mapM_some
    intro r hr
    have hf : ((List.range r.fine.length).mapM fun i_fine => (r.element i_fine !r.rev).bind (numbering D.mesh.elements)) = some (r.fine.map D.index) := by
      have e1 : (fun i_fine => (r.element i_fine !r.rev).bind (numbering D.mesh.elements)) = fun i => (r.fine[i]?).bind (numbering D.mesh.elements) := by
        funext i
        congr 1
        simp [RefConn.element]
      rw [e1]
      exact range_some _ _ _ fun e he => href r hr e (List.mem_cons_of_mem _ he)
    simp only [refRow, href r hr r.coarse List.mem_cons_self, hf, Option.bind_some, Option.map_some, refRow']
  have h4 : (D.mesh.car.bounds ++ D.mesh.dfm.bounds).mapM (boundRow (numbering D.mesh.elements)) = some ((D.mesh.car.bounds ++ D.mesh.dfm.bounds).map (boundRow' D)) := by
    apply mapM_some
    intro c hc
    simp only [boundRow, hbnd c hc, Option.map_some, boundRow']
  have h5 : (D.mesh.elements.filter D.tree).mapM (numbering D.mesh.elements) = some ((D.mesh.elements.filter D.tree).map D.index) :=
    mapM_some fun e he => hrec e (List.mem_of_mem_filter he)
  have h6 : (D.mesh.dfm.elems.elements.mapM fun e => (numbering D.mesh.elements e).map fun r => (r, D.adj e)) = some (D.mesh.dfm.elems.elements.map fun e => (D.index e, D.adj e)) := by
    apply mapM_some
    intro e he
    rw [hrec e (List.mem_append_right _ he)]
    rfl
  simp only [write, h1, h2, h3, h4, h5, h6, Option.bind_some, Option.map_some]
  rfl

end Hexed.MeshFile
