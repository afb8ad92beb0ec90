import Verif.MeshFile.ReadElems

set_option autoImplicit false
set_option linter.unusedVariables false

/-! # Reading conformal connections -/

namespace Hexed.MeshFile
open Hexed.MeshConn
open Hexed.Connection (Dir vertexInds refinedVerts)
open Hexed.Container (Cont At Rep)
open Hexed.Polymesh (numbering numbering_eq mapM_some idxOf_get)

variable {K A : Type}

/-- What reading connections leaves alone. -/
structure Frame (s s' : State K A) : Prop where
  adds : ∃ N, Adds s.mesh s'.mesh N
  inv : Inv s'.mesh
  ptrs : s'.ptrs = s.ptrs
  is_def : s'.is_def = s.is_def
  level : s'.level = s.level
  nom : s'.nom = s.nom
  corner : s'.corner = s.corner

theorem Frame.refl {s : State K A} (h : Inv s.mesh) : Frame s s := ⟨⟨[], Adds.refl _⟩, h, rfl, rfl, rfl, rfl, rfl⟩

theorem Frame.trans {a b c : State K A} (h : Frame a b) (h' : Frame b c) : Frame a c := by
  obtain ⟨⟨N, hN⟩, -, h1, h2, h3, h4, h5⟩ := h
  obtain ⟨⟨N', hN'⟩, hi, k1, k2, k3, k4, k5⟩ := h'
  exact ⟨⟨_, hN.trans hN'⟩, hi, k1.trans h1, k2.trans h2, k3.trans h3, k4.trans h4, k5.trans h5⟩

/-- Elements of a mesh that has been read. -/
structure HasElems (D : Data K A) (n_bc : Nat) (s : State K A) : Prop where
  nd : s.mesh.nd = D.mesh.nd
  n_bc : s.mesh.n_bc = n_bc
  ptrs : s.ptrs = List.range D.mesh.elements.length
  is_def : ∀ e ∈ D.mesh.elements, s.is_def (D.index e) = decide (e ∈ D.mesh.dfm.elems.elements)
  mem : ∀ e ∈ D.mesh.elements, D.index e ∈ s.mesh.elements

theorem HasElems.frame {D : Data K A} {n_bc : Nat} {s s' : State K A} (h : HasElems D n_bc s) (hF : Frame s s') : HasElems D n_bc s' := by
  obtain ⟨⟨N, hN⟩, hi, h1, h2, -, -, -⟩ := hF
  exact ⟨hN.nd.trans h.nd, hN.n_bc.trans h.n_bc, h1.trans h.ptrs, by rw [h2]; exact h.is_def, by rw [hN.elements]; exact h.mem⟩

theorem hasElems [Zero K] {D : Data K A} {n_bc : Nat} {s : State K A} (h : ElemsRead D n_bc D.mesh.elements s) : HasElems D n_bc s := by
  refine ⟨h.nd, h.n_bc, h.ptrs, h.is_def, ?_⟩
  intro e he
  rw [Mesh.elements, h.car_elems, h.dfm_elems, ← List.map_append]
  refine List.mem_map_of_mem ?_
  by_cases hd : e ∈ D.mesh.dfm.elems.elements
  · exact List.mem_append_right _ (List.mem_filter.2 ⟨he, by simpa using hd⟩)
  · exact List.mem_append_left _ (List.mem_filter.2 ⟨he, by simpa using hd⟩)

theorem entryElem_eq {D : Data K A} {n_bc : Nat} {s : State K A} (h : HasElems D n_bc s) {row : List Int} {i : Nat} {e : Elem} (he : e ∈ D.mesh.elements)
    (hr : row[i]? = some (D.index e : Int)) : entryElem s row i = .ok (D.index e) := by
  have : (List.range D.mesh.elements.length)[D.index e]? = some (D.index e) := List.getElem?_range (index_lt he)
  simp only [entryElem, entry, hr, Res.of, Res.bind]
  rw [if_pos (Int.natCast_nonneg _)]
  simp only [Int.toNat_natCast, h.ptrs, this]

theorem entryDim_eq {row : List Int} {i : Nat} {d : Fin 3} (h : row[i]? = some (d.val : Int)) : entryDim row i = .ok d := by
  simp only [entryDim, entry, h, Res.of, Res.bind]
  rw [if_pos (Int.natCast_nonneg _)]
  simp

theorem entryBool_eq {row : List Int} {i : Nat} {b : Bool} (h : row[i]? = some (b.toNat : Int)) : entryBool row i = .ok b := by
  simp only [entryBool, h, Res.of, Res.bind]
  cases b <;> rfl

theorem entry_eq {row : List Int} {i n : Nat} (h : row[i]? = some (n : Int)) : entry row i = .ok n := by
  simp only [entry, h, Res.of, Res.bind]
  rw [if_pos (Int.natCast_nonneg _)]
  simp

theorem vertexInds_some {nd : Nat} (h : 1 ≤ nd ∧ nd ≤ 3) {d : Dir} (hd : d.i0.val < nd ∧ d.i1.val < nd) : ∃ vi, vertexInds nd d = some vi := by
  have table : ∀ nd ∈ [1, 2, 3], ∀ i0 i1 : Fin 3, ∀ s0 s1 : Bool, i0.val < nd → i1.val < nd → (vertexInds nd ⟨i0, i1, s0, s1⟩).isSome = true := by
    decide +kernel
  exact Option.isSome_iff_exists.1 (table nd (by simp; omega) d.i0 d.i1 d.s0 d.s1 hd.1 hd.2)

/-- Corresponding corners. -/
def mapJoin (φ : Elem → Elem) (x : Corner × Corner) : Corner × Corner := ((φ x.1.1, x.1.2), (φ x.2.1, x.2.2))

/-- What has been read after some conformal connections. -/
structure ConsRead (D : Data K A) (s1 : State K A) (tree : Elem → Bool) (pre : List Conn) (s : State K A) : Prop where
  frame : Frame s1 s
  adj : s.adj = s1.adj
  car_cons : List.Forall₂ (SameConn D.index) (pre.filter fun c => !bothDeformed D c) s.mesh.car.cons
  dfm_cons : List.Forall₂ (SameConn D.index) (pre.filter (bothDeformed D)) s.mesh.dfm.cons
  car : s.mesh.car.refs = s1.mesh.car.refs ∧ s.mesh.car.bounds = s1.mesh.car.bounds
  dfm : s.mesh.dfm.refs = s1.mesh.dfm.refs ∧ s.mesh.dfm.bounds = s1.mesh.dfm.bounds
  merges : s.merges = (pre.flatMap (connJoins D.mesh.nd)).map (mapJoin D.index)
  extruded : s.extruded = (s.mesh.dfm.cons.filter fun c => tree (c.el false) != tree (c.el true)).map (·.id)

theorem readConf_step {D : Data K A} {n_bc : Nat} (hi : Inv D.mesh) (ht : Typed D.mesh) (hg : Good D n_bc) {s1 : State K A} (he : HasElems D n_bc s1) {tree : Elem → Bool} {pre rest : List Conn}
    {c : Conn} (hf : pre ++ c :: rest = D.mesh.car.cons ++ D.mesh.dfm.cons) {s : State K A} (hP : ConsRead D s1 tree pre s) :
    ∃ s', readConf tree s (conRow' D c) = .ok s' ∧ ConsRead D s1 tree (pre ++ [c]) s' := by
  have hc : c ∈ D.mesh.car.cons ++ D.mesh.dfm.cons := by rw [← hf]; simp
  have he' := he.frame hP.frame
  have hmem : ∀ k, c.el k ∈ D.mesh.elements := by
    intro k
    obtain ⟨x, hx, hx'⟩ := conn_ends hc k
    exact hx' ▸ hi.attached x hx
  have e0 := entryElem_eq he' (row := conRow' D c) (i := 0) (hmem false) rfl
  have e1 := entryElem_eq he' (row := conRow' D c) (i := 1) (hmem true) rfl
  have e2 := entryDim_eq (row := conRow' D c) (i := 2) (d := c.dir.toDir.i0) rfl
  have e3 := entryDim_eq (row := conRow' D c) (i := 3) (d := c.dir.toDir.i1) rfl
  have e4 := entryBool_eq (row := conRow' D c) (i := 4) (b := c.dir.toDir.s0) rfl
  have e5 := entryBool_eq (row := conRow' D c) (i := 5) (b := c.dir.toDir.s1) rfl
  have hb : (s.is_def (D.index (c.el false)) && s.is_def (D.index (c.el true))) = bothDeformed D c := by
    rw [he'.is_def _ (hmem false), he'.is_def _ (hmem true)]; rfl
  obtain ⟨vi, hvi⟩ := vertexInds_some hi.nd (hg.dims c hc)
  have hcar : bothDeformed D c = false → ∃ i, c.dir = .cart i := by
    intro h
    rcases List.mem_append.1 hc with h' | h'
    · exact ht.car_cons c h'
    · have := (ht.dfm_cons c h').2
      simp [bothDeformed, this] at h
  have hdir : (if bothDeformed D c then ConDir.dfm ⟨c.dir.toDir.i0, c.dir.toDir.i1, c.dir.toDir.s0, c.dir.toDir.s1⟩ else .cart c.dir.toDir.i0).toDir = c.dir.toDir := by
    cases h : bothDeformed D c
    · obtain ⟨i, hi⟩ := hcar h
      rw [hi]; rfl
    · rfl
  generalize hdd : (if bothDeformed D c then ConDir.dfm ⟨c.dir.toDir.i0, c.dir.toDir.i1, c.dir.toDir.s0, c.dir.toDir.s1⟩ else .cart c.dir.toDir.i0) = dd at hdir
  have hadds := addConn_adds s.mesh (bothDeformed D c) (D.index (c.el false)) (D.index (c.el true)) dd
  refine ⟨_, by simp only [readConf, e0, e1, e2, e3, e4, e5, Res.bind, hb, hdd, hdir, he'.nd, hvi, Res.of]; rfl, ?_⟩
  refine ⟨hP.frame.trans ⟨⟨_, hadds⟩, hadds.inv hP.frame.inv ?_, rfl, rfl, rfl, rfl, rfl⟩, hP.adj, ?_, ?_, ?_, ?_, ?_, ?_⟩
  · intro x hx
    simp only [List.mem_cons, List.not_mem_nil, or_false] at hx
    rcases hx with rfl | rfl
    · exact he'.mem _ (hmem false)
    · exact he'.mem _ (hmem true)
  · rw [List.filter_append]
    cases h : bothDeformed D c
    · refine List.rel_append hP.car_cons ?_
      simp only [List.filter_cons, h]
      exact .cons ⟨fun k => by cases k <;> rfl, hdir⟩ .nil
    · simp only [List.filter_cons, h]
      have := hP.car_cons
      simpa [addConn, Mesh.setType, Mesh.byType] using this
  · rw [List.filter_append]
    cases h : bothDeformed D c
    · simp only [List.filter_cons, h]
      have := hP.dfm_cons
      simpa [addConn, Mesh.setType, Mesh.byType] using this
    · refine List.rel_append hP.dfm_cons ?_
      simp only [List.filter_cons, h]
      exact .cons ⟨fun k => by cases k <;> rfl, hdir⟩ .nil
  · cases h : bothDeformed D c <;> exact hP.car
  · cases h : bothDeformed D c <;> exact hP.dfm
  · simp only [List.flatMap_append, List.map_append, ← hP.merges, List.flatMap_cons, List.flatMap_nil, List.append_nil, connJoins, hvi, Option.map_some, Option.getD_some, List.map_map]
    rfl
  · cases h : bothDeformed D c
    · simpa [addConn, Mesh.setType, Mesh.byType] using hP.extruded
    · simp only [addConn, Mesh.setType, Mesh.byType, Bool.true_and, if_true, List.filter_append, List.map_append, ← hP.extruded]
      cases h2 : tree (D.index (c.el false)) != tree (D.index (c.el true)) <;> simp [List.filter_cons, h2]

theorem readCons_ok {D : Data K A} {n_bc : Nat} (hi : Inv D.mesh) (ht : Typed D.mesh) (hg : Good D n_bc) {s1 : State K A} (he : HasElems D n_bc s1) (hi1 : Inv s1.mesh) (tree : Elem → Bool)
    (h0 : s1.mesh.car.cons = [] ∧ s1.mesh.dfm.cons = [] ∧ s1.merges = [] ∧ s1.extruded = []) :
    ∃ s, Res.loop (readConf tree) s1 ((D.mesh.car.cons ++ D.mesh.dfm.cons).map (conRow' D)) = .ok s ∧ ConsRead D s1 tree (D.mesh.car.cons ++ D.mesh.dfm.cons) s := by
  refine loop_ok (fun pre s => ConsRead D s1 tree pre s) (fun pre a rest s h hP => readConf_step hi ht hg he h hP) _ [] _ rfl ?_
  obtain ⟨a, b, c, d⟩ := h0
  refine ⟨Frame.refl hi1, rfl, ?_, ?_, ⟨rfl, rfl⟩, ⟨rfl, rfl⟩, ?_, ?_⟩
  · rw [a]; exact .nil
  · rw [b]; exact .nil
  · rw [c]; rfl
  · rw [b, d]; rfl

end Hexed.MeshFile
