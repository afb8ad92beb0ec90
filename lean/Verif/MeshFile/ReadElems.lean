import Verif.MeshFile.Write

set_option autoImplicit false
set_option linter.unusedVariables false

/-! # Reading elements -/

namespace Hexed.MeshFile
open Hexed.MeshConn
open Hexed.Connection (Dir vertexInds refinedVerts)
open Hexed.Container (Cont At Rep)
open Hexed.Polymesh (numbering numbering_eq mapM_some idxOf_get)

variable {K A : Type}

theorem index_at {D : Data K A} (hn : D.mesh.elements.Nodup) {pre rest : List Elem} {a : Elem} (h : pre ++ a :: rest = D.mesh.elements) : D.index a = pre.length := by
  have : a ∉ pre := by
    rw [← h, List.nodup_append] at hn
    intro ha
    exact hn.2.2 a ha a (by simp) rfl
  rw [Data.index, ← h, List.idxOf_append_of_notMem this]
  simp

theorem index_get {D : Data K A} {e : Elem} (he : e ∈ D.mesh.elements) : D.mesh.elements[D.index e]? = some e := idxOf_get he

theorem index_lt {D : Data K A} {e : Elem} (he : e ∈ D.mesh.elements) : D.index e < D.mesh.elements.length := List.idxOf_lt_length_iff.2 he

theorem index_inj {D : Data K A} {e f : Elem} (he : e ∈ D.mesh.elements) (hf : f ∈ D.mesh.elements) (h : D.index e = D.index f) : e = f := by
  have := index_get he
  rw [h, index_get hf] at this
  simpa using this.symm

/-- What has been read after some elements. -/
structure ElemsRead [Zero K] (D : Data K A) (n_bc : Nat) (pre : List Elem) (s : State K A) : Prop where
  nd : s.mesh.nd = D.mesh.nd
  n_bc : s.mesh.n_bc = n_bc
  next_el : s.mesh.next_el = pre.length
  ptrs : s.ptrs = List.range pre.length
  inv : Inv s.mesh
  car_elems : s.mesh.car.elems.elements = (pre.filter fun e => decide (e ∉ D.mesh.dfm.elems.elements)).map D.index
  dfm_elems : s.mesh.dfm.elems.elements = (pre.filter fun e => decide (e ∈ D.mesh.dfm.elems.elements)).map D.index
  car : s.mesh.car.cons = [] ∧ (∀ b, s.mesh.car.refs b = []) ∧ s.mesh.car.bounds = []
  dfm : s.mesh.dfm.cons = [] ∧ (∀ b, s.mesh.dfm.refs b = []) ∧ s.mesh.dfm.bounds = []
  is_def : ∀ e ∈ pre, s.is_def (D.index e) = decide (e ∈ D.mesh.dfm.elems.elements)
  level : ∀ e ∈ pre, s.level (D.index e) = D.level e
  nom : ∀ e ∈ pre, s.nom (D.index e) = D.nom e
  corner : ∀ e ∈ pre, ∀ k < 2 ^ D.mesh.nd, ∀ i, s.corner (D.index e) k i = if i.val < D.mesh.nd then D.pos (D.vert e k) i else 0
  ptr : ∀ e f, s.mesh.ptr e f = none
  extruded : s.extruded = []
  merges : s.merges = []

theorem addElement_inv {m m' : Mesh} (hm : Inv m) {l : Nat} {d : Bool} (h : addElement m l d = .ok m') : Inv m' := by
  have := addElement_ok hm l d
  rw [h] at this
  exact Change.inv this hm

theorem readElem_step [Zero K] {D : Data K A} {n_bc : Nat} (hn : D.mesh.elements.Nodup) (hg : Good D n_bc) {pre rest : List Elem} {a : Elem}
    (hf : pre ++ a :: rest = D.mesh.elements) {s : State K A} (hP : ElemsRead D n_bc pre s) :
    ∃ s', readElem (D.verts.map D.pos) s (elemRow' D a) = .ok s' ∧ ElemsRead D n_bc (pre ++ [a]) s' := by
  have ha : a ∈ D.mesh.elements := by rw [← hf]; simp
  have hsub : ∀ e ∈ pre, e ∈ D.mesh.elements := by intro e he; rw [← hf]; simp [he]
  have hia : D.index a = pre.length := index_at hn hf
  have hne : ∀ e ∈ pre, D.index e ≠ s.mesh.next_el := by
    intro e he h
    rw [hP.next_el, ← hia] at h
    have := index_inj (hsub e he) ha h
    subst this
    rw [← hf, List.nodup_append] at hn
    exact hn.2.2 e he e (by simp) rfl
  have hxs : ((elemRow' D a).vert.mapM fun i => (D.verts.map D.pos)[i]?) = some ((List.range (2 ^ D.mesh.nd)).map fun k => D.pos (D.vert a k)) := by
    rw [elemRow']
    rw [List.mapM_map]
    apply mapM_some
    intro k hk
    rw [Function.comp_apply, List.getElem?_map, idxOf_get (hg.verts.2 a ha k (List.mem_range.1 hk))]
    rfl
  have hnext : s.mesh.next_el = D.index a := by rw [hP.next_el, hia]
  have hel : ∀ (c : Cont Elem) (l x : Nat), (c.emplace l x).1.elements = c.elements ++ [x] := by
    intro c l x; simp [Cont.emplace, Cont.elements]
  refine ⟨_, by simp only [readElem, hxs, Res.of, Res.bind]; rfl, ?_⟩
  refine ⟨?_, ?_, ?_, ?_, ?_, ?_, ?_, ?_, ?_, ?_, ?_, ?_, ?_, ?_, hP.extruded, hP.merges⟩
  · rw [← hP.nd]; dsimp only; cases (elemRow' D a).is_def <;> rfl
  · rw [← hP.n_bc]; dsimp only; cases (elemRow' D a).is_def <;> rfl
  · simp only [List.length_append, List.length_singleton, ← hP.next_el]
  · simp only [hP.ptrs, List.length_append, List.length_singleton, List.range_succ, hP.next_el]
  · exact addElement_inv hP.inv (l := (elemRow' D a).level) (d := (elemRow' D a).is_def) rfl
  · rw [List.filter_append, List.map_append, ← hP.car_elems]
    by_cases h : a ∈ D.mesh.dfm.elems.elements
    · simp [elemRow', h, Mesh.setType, Mesh.byType]
    · simp [elemRow', h, Mesh.setType, Mesh.byType, hel, hnext]
  · rw [List.filter_append, List.map_append, ← hP.dfm_elems]
    by_cases h : a ∈ D.mesh.dfm.elems.elements
    · simp [elemRow', h, Mesh.setType, Mesh.byType, hel, hnext]
    · simp [elemRow', h, Mesh.setType, Mesh.byType]
  · have := hP.car
    by_cases h : a ∈ D.mesh.dfm.elems.elements <;> simpa [elemRow', h, Mesh.setType, Mesh.byType] using this
  · have := hP.dfm
    by_cases h : a ∈ D.mesh.dfm.elems.elements <;> simpa [elemRow', h, Mesh.setType, Mesh.byType] using this
  · intro e he
    rcases List.mem_append.1 he with he | he
    · simp only [Function.update_of_ne (hne e he)]; exact hP.is_def e he
    · rw [List.mem_singleton] at he; subst he; simp [hnext, elemRow']
  · intro e he
    rcases List.mem_append.1 he with he | he
    · simp only [Function.update_of_ne (hne e he)]; exact hP.level e he
    · rw [List.mem_singleton] at he; subst he; simp [hnext, elemRow']
  · intro e he
    rcases List.mem_append.1 he with he | he
    · simp only [Function.update_of_ne (hne e he)]; exact hP.nom e he
    · rw [List.mem_singleton] at he; subst he; simp [hnext, elemRow']
  · intro e he k hk i
    rcases List.mem_append.1 he with he | he
    · simp only [Function.update_of_ne (hne e he)]; exact hP.corner e he k hk i
    · rw [List.mem_singleton] at he; subst he
      simp [hnext, hP.nd, hk]
  · intro e f
    have := hP.ptr e f
    by_cases h : a ∈ D.mesh.dfm.elems.elements <;> simp [elemRow', h, Mesh.setType, Mesh.byType, this]

theorem readElems_ok [Zero K] {D : Data K A} {n_bc : Nat} (hi : Inv D.mesh) (hg : Good D n_bc) :
    ∃ s, Res.loop (readElem (D.verts.map D.pos)) ⟨Mesh.new D.mesh.nd n_bc, [], fun _ => false, fun _ => 0, fun _ => [], fun _ _ => 0, fun _ => none, [], fun _ => (false, false), []⟩
      (D.mesh.elements.map (elemRow' D)) = .ok s ∧ ElemsRead D n_bc D.mesh.elements s := by
  refine loop_ok (fun pre s => ElemsRead D n_bc pre s) (fun pre a rest s h hP => readElem_step hi.nodup hg h hP) _ [] _ rfl ?_
  exact ⟨rfl, rfl, rfl, rfl, new_inv hi.nd n_bc, rfl, rfl, ⟨rfl, fun _ => rfl, rfl⟩, ⟨rfl, fun _ => rfl, rfl⟩, by simp, by simp, by simp, by simp, fun _ _ => rfl, rfl, rfl⟩

end Hexed.MeshFile
